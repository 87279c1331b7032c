import Verif.View.Worker

/-!
# Views whose tag keys share memory (stats/view/view.go, worker_commands.go)

`View.TagKeys` is a slice: `canonicalize` sorts it in place, and a registered view reads it again for every
recording and every report. Here the keys are in arrays, and `sl p` is the slice of the view object with
address `p`. The aggregations are still values; their bounds are slices as well, sorted in place in the same way
(`BoundsAlias`).
-/

namespace Verif.View.Alias
open Verif Verif.Tag Verif.Stats Verif.View

/-- The backing arrays. -/
abbrev Arrays := List (List Key)

/-- A slice of one of them. -/
structure Slice where
  arr : Nat
  off : Nat
  len : Nat
  deriving DecidableEq, Repr

/-- The elements of a slice. -/
def Slice.read {α : Type} (h : List (List α)) (s : Slice) : List α := (((h[s.arr]?).getD []).drop s.off).take s.len

/-- Overwrites the elements of a slice. -/
def Slice.write {α : Type} (h : List (List α)) (s : Slice) (xs : List α) : List (List α) :=
  h.modify s.arr fun a => a.take s.off ++ xs ++ a.drop (s.off + xs.length)

/-- The view with the keys its slice has now. -/
def resolve (sl : Nat → Slice) (h : Arrays) (v : ViewDef) : ViewDef := { v with tagKeys := (sl v.ptr).read h }

/-- `canonicalize`, stats/view/view.go:78-107, sorting the tag keys in place (line 94). -/
def canonicalizeA (sl : Nat → Slice) (h : Arrays) (v : ViewDef) : Arrays × ViewDef × Option CanonErr :=
  let r := canonicalize (resolve sl h v)
  ((sl v.ptr).write h r.1.tagKeys, r.1, r.2)

/-- The first loop of `registerViewReq.handleCommand`, stats/view/worker_commands.go:59-64. -/
def canonicalizeAllA (sl : Nat → Slice) (h : Arrays) : List ViewDef → Arrays × Except CanonErr (List ViewDef)
  | [] => (h, .ok [])
  | v :: vs => match canonicalizeA sl h v with
    | (h, _, some e) => (h, .error e)
    | (h, v, none) => match canonicalizeAllA sl h vs with
      | (h, .error e) => (h, .error e)
      | (h, .ok vs) => (h, .ok (v :: vs))

/-- The registered views with the keys their slices have now. -/
def refresh (sl : Nat → Slice) (h : Arrays) (w : Worker) : Worker :=
  { w with vis := w.vis.map fun vi => { vi with view := resolve sl h vi.view } }

/-- `registerViewReq.handleCommand`, stats/view/worker_commands.go:58-80. -/
def registerA (sl : Nat → Slice) (w : Worker) (reg : Measures) (h : Arrays) (now : Int) (views : List ViewDef) :
    Res (Worker × Measures × Arrays × RegReply) :=
  match canonicalizeAllA sl h views with
  | (h, .error e) => .ok (refresh sl h w, reg, h, .invalid e)
  | (h, .ok views) => ((refresh sl h w).registerAll reg now (views.map (resolve sl h))).bind fun (w, reg, errs) =>
      .ok (w, reg, h, if errs.length > 0 then .conflict errs else .ok)

/-- `cmd.handleCommand(w)`, stats/view/worker.go:293-303; only `Register` writes to the arrays. -/
def handleA (sl : Nat → Slice) (w : Worker) (reg : Measures) (h : Arrays) :
    Cmd → Res (Worker × Measures × Arrays × Reply × List Export)
  | .register now vs => (registerA sl w reg h now vs).bind fun (w, reg, h, r) => .ok (w, reg, h, .registered r, [])
  | c => (handle w reg c).bind fun (w, reg, r, es) => .ok (w, reg, h, r, es)

end Verif.View.Alias
