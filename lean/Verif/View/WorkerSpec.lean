import Verif.View.Worker
import Verif.Props.Rows

/-!
# Specification of the collection worker

The abstract state maps the name of each registered view to its definition and to the list of all
recordings the view has collected since it was registered. There are no addresses, no measure
references, no signatures and no aggregated data.
-/

namespace Verif.View.Spec
open Verif Verif.Tag Verif.Stats Verif.View Verif.Props.Rows

/-- A registered view with what it collected. -/
structure SView where
  view : ViewDef
  agg : Aggregation F64
  measure : Measure
  recs : List (Option TMap × Sample F64)

abbrev SState := Bytes → Option SView

/-- No view registered. -/
def empty : SState := fun _ => none

def update (σ : SState) (n : Bytes) (x : Option SView) : SState := fun k => if k = n then x else σ k

/-- The same view definition: the same object, or the same aggregation object on the same measure. -/
def Same (x : SView) (v : ViewDef) : Prop :=
  x.view.ptr = v.ptr ∨ ((∃ a, v.agg = some a ∧ a.id = x.agg.id) ∧ ∃ m, v.measure = some m ∧ m.name = x.measure.name)

instance (x : SView) (v : ViewDef) : Decidable (Same x v) :=
  decidable_of_iff (x.view.ptr = v.ptr ∨ ((v.agg.any fun a => decide (a.id = x.agg.id)) = true ∧
      (v.measure.any fun m => decide (m.name = x.measure.name)) = true)) (by
    unfold Same
    cases v.agg <;> cases v.measure <;> simp)

/-- Register canonicalized views one after the other; conflicting names are collected. -/
def registerAll (σ : SState) : List ViewDef → SState × List Bytes
  | [] => (σ, [])
  | v :: vs => match σ v.name, v.agg, v.measure with
    | some x, _, _ =>
      if Same x v then registerAll σ vs
      else ((registerAll σ vs).1, v.name :: (registerAll σ vs).2)
    | none, some a, some m => registerAll (update σ v.name (some ⟨v, a, m, []⟩)) vs
    | none, _, _ => registerAll σ vs

/-- One measurement: appended to the recordings of every registered view of its measure. -/
def addRec (σ : SState) (measure : Bytes) (r : Option TMap × Sample F64) : SState := fun n =>
  (σ n).map fun x => if x.measure.name = measure then { x with recs := x.recs ++ [r] } else x

def record (σ : SState) (tm : Option TMap) (att : Attachments) (t : Int) :
    List (Option Measurement) → SState
  | [] => σ
  | none :: ms => record σ tm att t ms
  | some m :: ms => record (addRec σ m.m.name (tm, ⟨m.v, att, t⟩)) tm att t ms

def unregister (σ : SState) : List Bytes → SState
  | [] => σ
  | n :: ns => unregister (update σ n none) ns

/-- The state after a command. -/
def step (σ : SState) : Cmd → SState
  | .register _ vs => match canonicalizeAll vs with
    | .error _ => σ
    | .ok vs => (registerAll σ vs).1
  | .unregister _ ns => unregister σ ns
  | .record t r => record σ r.tags r.attachments t r.ms
  | _ => σ

/-- What a reader of view `x` should be given. -/
def RowsFor (x : SView) (rows : List (Row F64)) : Prop := RowsOf x.agg x.view.tagKeys x.recs rows

/-- The reply to a command. -/
def ReplyOK (σ : SState) : Cmd → Reply → Prop
  | .register _ vs, r => match canonicalizeAll vs with
    | .error e => r = .registered (.invalid e)
    | .ok vs => r = .registered (if (registerAll σ vs).2 = [] then .ok else .conflict (registerAll σ vs).2)
  | .retrieve n, r => match σ n with
    | none => r = .rows none
    | some x => ∃ rows, r = .rows (some rows) ∧ RowsFor x rows
  | .find n, r => r = .found ((σ n).map (·.view))
  | _, r => r = .none

/-- A view as the package's constructors let a program build it: the measure comes from
`stats.Int64`/`stats.Float64`, the aggregation from `Count`, `Sum`, `Distribution` or `LastValue`. -/
def GoodView (reg : Measures) (v : ViewDef) : Prop :=
  (∀ m, v.measure = some m → m.kind ≠ .other ∧ ∃ d, GoMap.get reg m.name = some d) ∧
  (∀ a, v.agg = some a → a.newData = some a.type ∧ a.type ≠ .none)

/-- Tag values of a recording have at most 255 bytes, as the tag package guarantees. -/
def TagsFit (m : Option TMap) : Prop := ∀ tm, m = some tm → ∀ p ∈ tm, p.2.value.length ≤ 255

def GoodCmd (reg : Measures) : Cmd → Prop
  | .register _ vs => ∀ v ∈ vs, GoodView reg v
  | .record _ r => TagsFit r.tags
  | _ => True

end Verif.View.Spec
