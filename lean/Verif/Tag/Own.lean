import Verif.Tag.Map

/-!
# Tag maps with mutators that the program implements, and `Mutate` called by the program

`tag.Mutator` is an interface with an exported method: a program can implement it, and it can call `Mutate` of the package's mutators on any
map, also on one it got from `FromContext`. A `*Map` may be nil, and a `tag.Map` made by the program has no Go map in it.

Simplified: contexts are the pointer they hold; the copying loop of `New` takes the tags in one order (C01 has any order); what an
implemented mutator did is written down as the calls of `Mutate` it made and what it returned; one that panics, does not return or calls
`New` itself is not modelled. Recording and the goroutine of the meter are reduced to the pointer that is queued
(stats/record.go:87-117, 127-161) and read when the request is handled (stats/view/worker_commands.go:157-169, stats/view/collector.go:61-79).
-/

namespace Verif.Tag.Own
open Verif Verif.Tag

/-- A `*Map`: nil or an address. -/
abbrev Ptr := Option Nat

/-- The maps; `none` is a `tag.Map` with a nil Go map, as `&tag.Map{}`. tag/map.go:38-40. -/
abbrev Heap := List (Option TMap)

/-- The check that a mutator makes first, tag/map.go:110-112, 129-131, 149-151. -/
def valid : Mutator → Bool
  | .insert _ v _ => checkValue v
  | .update _ v _ => checkValue v
  | .upsert _ v _ => checkValue v
  | .delete _ => true

/-- What a mutator does to the Go map of a map, tag/map.go:113, 132, 152, 178. -/
def effect (m : TMap) : Mutator → TMap
  | .insert k v mds => Tag.insert m k v (createMetadatas mds)
  | .update k v mds => Tag.update m k v (createMetadatas mds)
  | .upsert k v mds => Tag.upsert m k v (createMetadatas mds)
  | .delete k => Tag.delete m k

/-- Whether a mutator assigns to a nil Go map, tag/map.go:70-89: `insert` and `upsert` do, `update` finds no key, and `delete` of
Go does nothing. -/
def assigns : Mutator → Bool
  | .insert _ _ _ => true
  | .upsert _ _ _ => true
  | _ => false

/-- `(*mutator).Mutate`, tag/map.go:107-182, 227-229: the maps, and whether there was no error. -/
def mutate (h : Heap) (p : Ptr) (mu : Mutator) : Res (Heap × Bool) :=
  if !valid mu then .ok (h, false)
  else match p with
    | none => .panic
    | some a => match h[a]? with
      | none => .panic
      | some none => if assigns mu then .panic else .ok (h, true)
      | some (some m) => .ok (h.set a (some (effect m mu)), true)

/-- The map an implemented mutator uses: the one it was given, or another it knows (tag/map.go:96-98 lets it use any). -/
inductive Ref where
  | given
  | ptr (p : Ptr)
  deriving DecidableEq, Repr

/-- The pointer behind it, `m` of tag/map.go:203 or another. -/
def Ref.of (given : Ptr) : Ref → Ptr
  | .given => given
  | .ptr p => p

/-- What a mutator that the program implements did: calls of `Mutate`, then what it returned, `none` for an error. tag/map.go:96-98. -/
structure Script where
  steps : List (Ref × Mutator)
  result : Option Ref

/-- A mutator passed to `New`, tag/map.go:187. -/
inductive Mu where
  | pkg (mu : Mutator)
  | own (s : Script)

/-- The calls that an implemented mutator makes in tag/map.go:203; their errors are its own business. -/
def runSteps (h : Heap) (given : Ptr) : List (Ref × Mutator) → Res Heap
  | [] => .ok h
  | (r, mu) :: ss => (mutate h (r.of given) mu).bind fun (h, _) => runSteps h given ss

/-- The loop of `New`, tag/map.go:202-207: the maps, and the pointer or (`none`) an error. -/
def apply (h : Heap) (p : Ptr) : List Mu → Res (Heap × Option Ptr)
  | [] => .ok (h, some p)
  | .pkg mu :: mus => (mutate h p mu).bind fun (h, ok) => if ok then apply h p mus else .ok (h, none)
  | .own s :: mus => (runSteps h p s.steps).bind fun h => match s.result with
    | none => .ok (h, none)
    | some r => apply h (r.of p) mus

/-- The copying loop of `New`, tag/map.go:190-200: `none` for an error. -/
def copy (m : TMap) : List (Key × Content) → Option TMap
  | [] => some m
  | (k, v) :: es => if !checkKeyName k.name || !checkValue v.value then none else copy (Tag.insert m k v.value v.m) es

/-- The tags behind a pointer: none behind nil (tag/map.go:43-49). -/
def tagsAt (h : Heap) : Ptr → TMap
  | none => []
  | some a => (h[a]?.join).getD []

/-- The maps, the contexts (tag/context.go:37-39), the recordings that wait (stats/view/worker.go:214-222), and the tags under which
recordings were collected (stats/view/view.go:156-162). -/
structure St where
  heap : Heap
  ctxs : List Ptr
  queue : List Ptr
  log : List TMap

/-- One context without tags, for which `FromContext` gives nil (tag/context.go:25-28). -/
def init : St := ⟨[], [none], [], []⟩

/-- The calls: tag/map.go:187, 38, tag/context.go:37, tag/map.go:97, stats/record.go:115, stats/view/worker_commands.go:157. -/
inductive Op where
  /-- `tag.New` from a context -/
  | new (c : Nat) (mus : List Mu)
  /-- `&tag.Map{}` -/
  | zero
  /-- `tag.NewContext` with any map that there is -/
  | newContext (p : Ptr)
  /-- `Mutate` called by the program -/
  | mutate (p : Ptr) (mu : Mutator)
  /-- `stats.Record` with a context -/
  | record (c : Nat)
  /-- the meter handles the oldest recording -/
  | handle

/-- `New`, tag/map.go:187-209. -/
def new (st : St) (c : Nat) (mus : List Mu) : Res St := match st.ctxs[c]? with
  | none => .ok st
  | some o => match copy [] (tagsAt st.heap o) with
    | none => .ok { st with heap := st.heap ++ [some []] }
    | some m => (apply (st.heap ++ [some m]) (some st.heap.length) mus).bind fun (h, r) => match r with
      | none => .ok { st with heap := h }
      | some p => .ok { st with heap := h, ctxs := st.ctxs ++ [p] }

/-- One call. tag/map.go:187-209, tag/context.go:37-39, tag/map.go:227-229, stats/record.go:87-117, stats/view/worker_commands.go:157-169. -/
def step (st : St) : Op → Res St
  | .new c mus => new st c mus
  | .zero => .ok { st with heap := st.heap ++ [none] }
  | .newContext p => if p.all (· < st.heap.length) then .ok { st with ctxs := st.ctxs ++ [p] } else .ok st
  | .mutate p mu => (mutate st.heap p mu).bind fun (h, _) => .ok { st with heap := h }
  | .record c => match st.ctxs[c]? with
    | none => .ok st
    | some p => .ok { st with queue := st.queue ++ [p] }
  | .handle => match st.queue with
    | [] => .ok st
    | p :: q => .ok { st with queue := q, log := st.log ++ [tagsAt st.heap p] }

/-- A history of calls (no code of its own; tag/map.go and stats/record.go as in `step`); it ends at a panic. -/
def run (st : St) : List Op → Res St
  | [] => .ok st
  | op :: ops => (step st op).bind fun st => run st ops

end Verif.Tag.Own
