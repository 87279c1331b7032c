import Verif.View.Alias

/-!
# Distributions whose bounds share memory (stats/view/aggregation.go, aggregation_data.go, view.go)

`Aggregation.Buckets` is the slice the caller handed to `Distribution`. `canonicalize` sorts it in place and cuts
off the zeros, and every row keeps the slice its aggregation had when the row was made. Here the bounds are in
arrays. Only what has to do with the bounds is modelled: the counts per bucket, not mean, minimum and so on
(`View/Agg`), nor which recordings reach which row (`View/Worker`).
-/

namespace Verif.View.BoundsAlias
open Verif Verif.View Verif.View.Alias

/-- The bounds and the counts of a `DistributionData`, stats/view/aggregation_data.go:131-143. `agg` is the address of
the aggregation it was made by. -/
structure Row where
  agg : Nat
  bounds : Slice
  cpb : List Int
  deriving DecidableEq, Repr

/-- The arrays; the field `Buckets` of the aggregation objects; whether a view with the aggregation has been
registered (only then rows are made); the rows. -/
structure Mem where
  arrays : List (List F64)
  buckets : Nat → Slice
  live : Nat → Bool
  rows : List Row

inductive Op where
  /-- a view with this aggregation is registered -/
  | register (a : Nat)
  /-- a row is made for it: a recording has tag values that are new -/
  | newRow (a : Nat)
  /-- a sample for a row -/
  | sample (i : Nat) (v : F64)
  /-- the caller, or an exporter that was handed the bounds, writes to an array -/
  | poke (arr i : Nat) (v : F64)

/-- `dropZeroBounds`, stats/view/view.go:109-116, as a slice. The empty result is a new slice in the code; no element of
it can be reached. -/
def dropZeros (h : List (List F64)) (s : Slice) : Slice :=
  let n := (dropZeroBounds (s.read h)).length
  ⟨s.arr, s.off + (s.len - n), n⟩

/-- The part of `canonicalize` on the bounds, stats/view/view.go:97-104. A view with a negative bound is refused, after
the bounds have been sorted. -/
def register (m : Mem) (a : Nat) : Mem :=
  let s := m.buckets a
  let h := s.write m.arrays ((s.read m.arrays).mergeSort sortLe)
  if (s.read h).any (fun b => F64.lt b (.fin 0)) then { m with arrays := h }
  else { m with arrays := h, buckets := fun b => if b = a then dropZeros h s else m.buckets b,
                live := fun b => if b = a then true else m.live b }

/-- `newDistributionData`, stats/view/aggregation_data.go:145-155. `.err`: not made before the view is registered. -/
def newRow (m : Mem) (a : Nat) : Res Mem :=
  if m.live a then .ok { m with rows := m.rows ++ [⟨a, m.buckets a, List.replicate ((m.buckets a).len + 1) 0⟩] } else .err

/-- `addToBucket`, stats/view/aggregation_data.go:190-205. `.err`: there is no such row. -/
def sample (m : Mem) (i : Nat) (v : F64) : Res Mem :=
  match m.rows[i]? with
  | none => .err
  | some r => (modifyAt r.cpb (bucketIndex v (r.bounds.read m.arrays)) (fun c => wrap64 (c + 1))).bind fun cpb =>
      .ok { m with rows := m.rows.set i { r with cpb := cpb } }

def step (m : Mem) : Op → Res Mem
  | .register a => .ok (register m a)
  | .newRow a => newRow m a
  | .sample i v => sample m i v
  | .poke arr i v => .ok { m with arrays := m.arrays.modify arr fun l => l.set i v }

def run (m : Mem) : List Op → Res Mem
  | [] => .ok m
  | o :: os => (step m o).bind fun m => run m os

/-- Before any view is registered: aggregation `a` has the slice `sl a`. -/
def init (h : List (List F64)) (sl : Nat → Slice) : Mem := ⟨h, sl, fun _ => false, []⟩

end Verif.View.BoundsAlias
