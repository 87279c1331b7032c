import Verif.View.Collector

/-!
# Aggregation data as objects in memory (stats/view/aggregation_data.go, collector.go)

`Verif.View.Agg` and `Verif.View.Collector` treat aggregation data as values. Here the same code works
on a heap of cells, so that one can ask whether what a reader was handed shares memory with what the
collector goes on modifying. The cells are the structs the pointers of type `AggregationData` point to,
the two arrays behind the slices of a `DistributionData`, and exemplars.

The bounds of a distribution are the aggregation's slice, which the code never writes to after
registration; attachments are the caller's map. Both are values here: a program that modifies them
itself after the call is out of scope.
-/

namespace Verif.View.Snap
open Verif Verif.View

variable {F : Type} [Arith F]

/-- `DistributionData` with pointers to the arrays of its slices,
stats/view/aggregation_data.go:131-143. -/
structure DHead (F : Type) where
  count : Int
  min : F
  max : F
  mean : F
  ssd : F
  cpb : Nat
  epb : Nat
  bounds : List F
  start : Int

inductive Cell (F : Type) where
  | count (start value : Int)
  | sum (start : Int) (value : F)
  | last (value : F)
  | dist (d : DHead F)
  | ints (l : List Int)               -- array behind CountPerBucket
  | exs (l : List (Option Nat))       -- array behind ExemplarsPerBucket: pointers
  | ex (e : Exemplar F)

abbrev Heap (F : Type) := List (Cell F)

/-- `a.newData(t)` allocating, stats/view/aggregation.go:53-66, 97-117,
stats/view/aggregation_data.go:145-155. -/
def newData (h : Heap F) (a : Aggregation F) (t : Int) : Res (Heap F × Nat) :=
  match a.newData with
  | some .count => .ok (h ++ [.count t 0], h.length)
  | some .sum => .ok (h ++ [.sum t (Arith.ofInt 0)], h.length)
  | some .distribution =>
    let n := a.buckets.length + 1
    .ok (h ++ [.ints (List.replicate n 0), .exs (List.replicate n none),
      .dist ⟨0, Arith.maxFloat, Arith.smallestNonzero, Arith.ofInt 0, Arith.ofInt 0,
        h.length, h.length + 1, a.buckets, t⟩], h.length + 2)
  | some .lastValue => .ok (h ++ [.last (Arith.ofInt 0)], h.length)
  | some .none => .panic
  | none => .panic

/-- `addToBucket` in memory, stats/view/aggregation_data.go:190-208: increments one element of the
counts and, if there are attachments, stores a pointer to a new exemplar. -/
def addToBucket (h : Heap F) (d : DHead F) (s : Sample F) : Res (Heap F) :=
  let i := bucketIndex s.v d.bounds
  match h[d.cpb]?, h[d.epb]? with
  | some (.ints l), some (.exs es) =>
    (modifyAt l i (fun c => wrap64 (c + 1))).bind fun l =>
      match getExemplar s.v s.att s.t with
      | none => .ok (h.set d.cpb (.ints l))
      | some e => (modifyAt es i (fun _ => some h.length)).bind fun es =>
          .ok (((h.set d.cpb (.ints l)).set d.epb (.exs es)) ++ [.ex e])
  | _, _ => .panic

/-- The scalar fields written by `(*DistributionData).addSample`,
stats/view/aggregation_data.go:170-188. -/
def DHead.scalars (d : DHead F) (v : F) : DHead F :=
  let d := if Arith.lt v d.min then { d with min := v } else d
  let d := if Arith.lt d.max v then { d with max := v } else d
  let d := { d with count := wrap64 (d.count + 1) }
  if d.count = 1 then { d with mean := v }
  else
    let oldMean := d.mean
    let mean := Arith.add d.mean (Arith.div (Arith.sub v d.mean) (Arith.ofInt d.count))
    { d with mean := mean,
             ssd := Arith.add d.ssd (Arith.mul (Arith.sub v oldMean) (Arith.sub v mean)) }

/-- `addSample` in memory, stats/view/aggregation_data.go:50-52, 92-94, 170-188, 292-294. -/
def addSample (h : Heap F) (a : Nat) (s : Sample F) : Res (Heap F) :=
  match h[a]? with
  | some (.count st n) => .ok (h.set a (.count st (wrap64 (n + 1))))
  | some (.sum st x) => .ok (h.set a (.sum st (Arith.add x s.v)))
  | some (.last _) => .ok (h.set a (.last s.v))
  | some (.dist d) => (addToBucket h d s).bind fun h => .ok (h.set a (.dist (d.scalars s.v)))
  | _ => .panic

/-- `clone` in memory, stats/view/aggregation_data.go:54-56, 96-98, 221-226, 296-298: a new object,
and for a distribution new arrays with the same elements. -/
def clone (h : Heap F) (a : Nat) : Res (Heap F × Nat) :=
  match h[a]? with
  | some (.count st n) => .ok (h ++ [.count st n], h.length)
  | some (.sum st x) => .ok (h ++ [.sum st x], h.length)
  | some (.last x) => .ok (h ++ [.last x], h.length)
  | some (.dist d) => match h[d.cpb]?, h[d.epb]? with
    | some (.ints l), some (.exs es) =>
      .ok (h ++ [.ints l, .exs es, .dist { d with cpb := h.length, epb := h.length + 1 }], h.length + 2)
    | _, _ => .panic
  | _ => .panic

/-- The meter's memory: the collectors of all views, `signatures` of view `v` being the entries with
key `(v, _)` (stats/view/collector.go:26-33), and the objects handed to readers so far. -/
structure Mem (F : Type) where
  heap : Heap F
  rows : GoMap (Nat × Bytes) Nat
  given : List Nat

/-- `(*collector).addSample`, stats/view/collector.go:35-42. -/
def Mem.add (m : Mem F) (v : Nat) (a : Aggregation F) (sig : Bytes) (s : Sample F) : Res (Mem F) :=
  match GoMap.get m.rows (v, sig) with
  | some p => (addSample m.heap p s).bind fun h => .ok { m with heap := h }
  | none => (newData m.heap a s.t).bind fun (h, p) => (addSample h p s).bind fun h =>
      .ok { m with heap := h, rows := GoMap.set m.rows (v, sig) p }

/-- The loop of `collectedRows`, stats/view/collector.go:46-51: clones of the data. Row tags are Go
strings, which are immutable, and left out. -/
def cloneAll (h : Heap F) : List (Bytes × Nat) → Res (Heap F × List (Bytes × Nat))
  | [] => .ok (h, [])
  | (sig, p) :: l => (clone h p).bind fun (h, q) => (cloneAll h l).bind fun (h, qs) =>
      .ok (h, (sig, q) :: qs)

/-- The rows of view `v`. -/
def Mem.rowsOf (m : Mem F) (v : Nat) : List (Bytes × Nat) :=
  (m.rows.filter (fun e => decide (e.1.1 = v))).map fun e => (e.1.2, e.2)

/-- `collectedRows`, stats/view/collector.go:45-53. -/
def Mem.collect (m : Mem F) (v : Nat) : Res (Mem F × List (Bytes × Nat)) :=
  (cloneAll m.heap (m.rowsOf v)).bind fun (h, qs) =>
    .ok ({ m with heap := h, given := m.given ++ qs.map Prod.snd }, qs)

/-- `clearRows`, stats/view/collector.go:55-57. -/
def Mem.clear (m : Mem F) (v : Nat) : Mem F :=
  { m with rows := m.rows.filter (fun e => decide (e.1.1 ≠ v)) }

/-- The exemplar a pointer leads to. -/
def exAt (h : Heap F) : Option Nat → Option (Exemplar F)
  | none => none
  | some p => match h[p]? with
    | some (.ex e) => some e
    | _ => none

/-- What an object looks like to somebody holding a pointer to it. -/
def deref (h : Heap F) (a : Nat) : Option (AggData F) :=
  match h[a]? with
  | some (.count st n) => some (.count st n)
  | some (.sum st x) => some (.sum st x)
  | some (.last x) => some (.last x)
  | some (.dist d) => match h[d.cpb]?, h[d.epb]? with
    | some (.ints l), some (.exs es) =>
      some (.dist ⟨d.count, d.min, d.max, d.mean, d.ssd, l,
        es.map (exAt h), d.bounds, d.start⟩)
    | _, _ => none
  | _ => none

/-- The cells that make up an object. -/
def footprint (h : Heap F) (a : Nat) : List Nat :=
  match h[a]? with
  | some (.dist d) => [a, d.cpb, d.epb]
  | _ => [a]

/-- A reader modifying what it was handed: a field, or an element of one of the arrays. The two slices
keep their lengths and arrays, and exemplars are left alone. -/
inductive Scribble : Cell F → Cell F → Prop where
  | count (st n st' n' : Int) : Scribble (.count st n) (.count st' n')
  | sum (st : Int) (x : F) (st' : Int) (x' : F) : Scribble (.sum st x) (.sum st' x')
  | last (x x' : F) : Scribble (.last x) (.last x')
  | dist (d : DHead F) (count : Int) (min max mean ssd : F) (start : Int) :
      Scribble (.dist d) (.dist { d with count := count, min := min, max := max, mean := mean, ssd := ssd, start := start })
  | ints (l l' : List Int) : Scribble (.ints l) (.ints l')
  | exs (l : List (Option Nat)) : Scribble (.exs l) (.exs (l.map fun _ => none))

/-- What can happen: a sample is added to a row of view `v`, the rows of `v` are handed out (to a caller
of `RetrieveData` or to exporters), the rows of `v` are cleared (`Unregister`), or a reader modifies the
object `q` it was handed. -/
inductive Ev (F : Type) where
  | add (v : Nat) (a : Aggregation F) (sig : Bytes) (s : Sample F)
  | collect (v : Nat) (qs : List (Bytes × Nat))
  | clear (v : Nat)
  | scribble (q : Nat)

inductive Step : Mem F → Ev F → Mem F → Prop where
  | add {m m' : Mem F} (v : Nat) (a : Aggregation F) (sig : Bytes) (s : Sample F)
      (h : m.add v a sig s = .ok m') : Step m (.add v a sig s) m'
  | collect {m m' : Mem F} (v : Nat) (qs : List (Bytes × Nat)) (h : m.collect v = .ok (m', qs)) :
      Step m (.collect v qs) m'
  | clear (m : Mem F) (v : Nat) : Step m (.clear v) (m.clear v)
  | scribble (m : Mem F) (q : Nat) (hq : q ∈ m.given) (p : Nat) (hp : p ∈ footprint m.heap q)
      (c c' : Cell F) (hc : m.heap[p]? = some c) (hs : Scribble c c') :
      Step m (.scribble q) { m with heap := m.heap.set p c' }

/-- A history. -/
inductive Steps : Mem F → List (Ev F) → Mem F → Prop where
  | nil (m : Mem F) : Steps m [] m
  | cons {m m' m'' : Mem F} {e : Ev F} {es : List (Ev F)} (h : Step m e m') (t : Steps m' es m'') :
      Steps m (e :: es) m''

/-- The memory at program start. -/
def Mem.init : Mem F := ⟨[], [], []⟩

end Verif.View.Snap
