import Verif.Http.Status

/-!
# Tags as profiler labels, tags as text (tag/profile_19.go, tag/map.go)

`tag.Do` hands the tags of a context to `runtime/pprof`. From the documentation of `runtime/pprof`: `Labels` makes a
set of labels of keys and values, a later one replaces an earlier one; `Do` runs a function with a context that has the
labels of the old context and the new ones, which replace those of the same key, sets the labels of the goroutine to
those of the new context and, when the function returns or panics, to those of the old context. (`tag.Do` of
versions before Go 1.9, tag/profile_not19.go, only calls the function.)
-/

namespace Verif.Tag.Profile
open Verif Verif.Tag

/-- Profiler labels. -/
abbrev Labels := GoMap Bytes Bytes

/-- `pprof.Labels(args...)`; it panics on an odd number. -/
def labelsOf (s : Labels) : List Bytes → Option Labels
  | [] => some s
  | [_] => none
  | k :: v :: rest => labelsOf (GoMap.set s k v) rest

/-- `pprof.WithLabels`. -/
def withLabels (old new : Labels) : Labels := new.foldl (fun m kv => GoMap.set m kv.1 kv.2) old

/-- A context: its tag map (`none`: no map, or a nil one) and its profiler labels. -/
structure PCtx where
  tags : Option TMap
  labels : Labels

/-- Code that uses tags and profiler labels, given a context. -/
inductive PProg where
  | done
  | sample                                    -- the profiler samples the goroutine
  | panic
  | seq (a b : PProg)
  | recovering (p : PProg)
  | retag (m : TMap) (p : PProg)              -- with the context that tag.New or tag.NewContext made of this one
  | tagDo (p : PProg)                         -- tag.Do(ctx, p)

/-- The goroutine: its labels, and the labels of the samples so far. -/
structure Gor where
  labels : Labels
  samples : List Labels

/-- `keyvals`, tag/profile_19.go:27-30. `entries` are the entries of the map in iteration order. -/
def keyvals (entries : List (Key × Content)) : List Bytes := entries.flatMap fun e => [e.1.name, e.2.value]

/-- What code does, and whether it panics. `tag.Do` (tag/profile_19.go:25-32) reads `m.m` of a nil `*Map` when
the context has no tags, which panics. `iter` is the iteration order of maps. -/
def PProg.exec (iter : TMap → List (Key × Content)) : PProg → PCtx → Gor → Gor × Bool
  | .done, _, g => (g, false)
  | .sample, _, g => ({ g with samples := g.samples ++ [g.labels] }, false)
  | .panic, _, g => (g, true)
  | .seq a b, c, g =>
    let r := a.exec iter c g
    if r.2 then r else b.exec iter c r.1
  | .recovering p, c, g => ((p.exec iter c g).1, false)
  | .retag m p, c, g => p.exec iter { c with tags := some m } g
  | .tagDo p, c, g =>
    match c.tags with
    | none => (g, true)
    | some m =>
      match labelsOf [] (keyvals (iter m)) with
      | none => (g, true)
      | some l =>
        let c' : PCtx := { c with labels := withLabels c.labels l }
        let r := p.exec iter c' { g with labels := c'.labels }
        ({ r.1 with labels := c.labels }, r.2)                -- defer SetGoroutineLabels(ctx)

/-- `Map.String`, tag/map.go:51-68, of a map whose entries the first loop meets in the order `entries`. `%v` of a
`tagContent` (tag/map.go:31-34, metadata.go:26-28, 40-42) is its fields in braces. `none` is a nil map. -/
def mapString : Option (List (Key × Content)) → Bytes
  | none => str "nil"
  | some entries => str "{ " ++ ((entries.map fun e => e.1.name).mergeSort fun a b => decide (a ≤ b)).flatMap (fun k =>
      str "{" ++ k ++ str " {" ++ ((GoMap.get entries ⟨k⟩).elim [] Content.value) ++ str " {{" ++
        Http.itoa ((GoMap.get entries ⟨k⟩).elim 0 fun v => v.m.ttl) ++ str "}}}}") ++ str " }"

end Verif.Tag.Profile
