import Verif.Basic
import Verif.Float

/-!
# Aggregations (stats/view/aggregation.go, stats/view/aggregation_data.go)

Everything is written over an `Arith F`, so that the same code can be read with IEEE arithmetic
(`F64`) and with exact arithmetic (`Rat`). Times are nanosecond counts. `int64` counters wrap.
-/

namespace Verif.View
open Verif

/-- `AggType`, stats/view/aggregation.go:21-30. -/
inductive AggType where
  | none | count | sum | distribution | lastValue
  deriving DecidableEq, Repr

/-- An exemplar's attachments: the Go `map[string]interface{}`; the values are opaque bytes. -/
abbrev Attachments := GoMap Bytes Bytes

/-- `metricdata.Exemplar` as built by `getExemplar`, stats/view/aggregation_data.go:210-219. -/
structure Exemplar (F : Type) where
  value : F
  timestamp : Int
  attachments : Attachments
  deriving DecidableEq, Repr

/-- `DistributionData`, stats/view/aggregation_data.go:131-143. -/
structure Dist (F : Type) where
  count : Int
  min : F
  max : F
  mean : F
  ssd : F
  cpb : List Int
  epb : List (Option (Exemplar F))
  bounds : List F
  start : Int
  deriving DecidableEq, Repr

/-- The four implementations of `AggregationData`, stats/view/aggregation_data.go:43-46, 85-88,
131-143, 284-286. -/
inductive AggData (F : Type) where
  | count (start : Int) (value : Int)
  | sum (start : Int) (value : F)
  | dist (d : Dist F)
  | last (value : F)
  deriving DecidableEq, Repr

/-- `Aggregation`, stats/view/aggregation.go:46-51. `id` is the address of the object (pointer
equality matters in `View.same`). `newData` says which of the closures of lines 53-117 the field
holds, `none` being nil (an `Aggregation` literal written by the user). The closure of
`Distribution` reads the buckets of the object itself. -/
structure Aggregation (F : Type) where
  id : Nat
  type : AggType
  buckets : List F
  newData : Option AggType
  deriving DecidableEq, Repr

variable {F : Type} [Arith F]

/-- `newDistributionData`, stats/view/aggregation_data.go:145-155. -/
def newDistributionData (buckets : List F) (t : Int) : Dist F :=
  let bucketCount := buckets.length + 1
  { count := 0, min := Arith.maxFloat, max := Arith.smallestNonzero,
    mean := Arith.ofInt 0, ssd := Arith.ofInt 0,
    cpb := List.replicate bucketCount 0, epb := List.replicate bucketCount none,
    bounds := buckets, start := t }

/-- `agg.newData(t)`, stats/view/aggregation.go:53-66, 97-106, 110-117. Calling the nil function
panics; no constructor of the package makes one for `AggTypeNone`. -/
def Aggregation.mkData (a : Aggregation F) (t : Int) : Res (AggData F) :=
  match a.newData with
  | some .count => .ok (.count t 0)
  | some .sum => .ok (.sum t (Arith.ofInt 0))
  | some .distribution => .ok (.dist (newDistributionData a.buckets t))
  | some .lastValue => .ok (.last (Arith.ofInt 0))
  | some .none => .panic
  | none => .panic

/-- `getExemplar`, stats/view/aggregation_data.go:210-219. -/
def getExemplar (v : F) (att : Attachments) (t : Int) : Option (Exemplar F) :=
  if att.length = 0 then none else some ⟨v, t, att⟩

/-- The loop of `addToBucket`, stats/view/aggregation_data.go:194-199: the index of the first bound
above `v`, or the number of bounds. -/
def bucketIndex (v : F) : List F → Nat
  | [] => 0
  | b :: bs => if Arith.lt v b then 0 else bucketIndex v bs + 1

/-- `l[i] = f(l[i])`, panicking out of range. -/
def modifyAt {α : Type} (l : List α) (i : Nat) (f : α → α) : Res (List α) :=
  if i < l.length then .ok (l.modify i f) else .panic

/-- `addToBucket`, stats/view/aggregation_data.go:190-208. -/
def Dist.addToBucket (a : Dist F) (v : F) (att : Attachments) (t : Int) : Res (Dist F) :=
  let i := bucketIndex v a.bounds
  (modifyAt a.cpb i (fun c => wrap64 (c + 1))).bind fun cpb =>
    match getExemplar v att t with
    | none => .ok { a with cpb := cpb }
    | some e => (modifyAt a.epb i (fun _ => some e)).bind fun epb =>
        .ok { a with cpb := cpb, epb := epb }

/-- `(*DistributionData).addSample`, stats/view/aggregation_data.go:170-188. -/
def Dist.addSample (a : Dist F) (v : F) (att : Attachments) (t : Int) : Res (Dist F) :=
  let a := if Arith.lt v a.min then { a with min := v } else a
  let a := if Arith.lt a.max v then { a with max := v } else a
  let a := { a with count := wrap64 (a.count + 1) }
  (a.addToBucket v att t).bind fun a =>
    if a.count = 1 then .ok { a with mean := v }
    else
      let oldMean := a.mean
      let mean := Arith.add a.mean (Arith.div (Arith.sub v a.mean) (Arith.ofInt a.count))
      .ok { a with mean := mean,
                   ssd := Arith.add a.ssd (Arith.mul (Arith.sub v oldMean) (Arith.sub v mean)) }

/-- `addSample` of the four data types, stats/view/aggregation_data.go:50-52, 92-94, 170-188,
292-294. -/
def AggData.addSample (d : AggData F) (v : F) (att : Attachments) (t : Int) : Res (AggData F) :=
  match d with
  | .count s n => .ok (.count s (wrap64 (n + 1)))
  | .sum s x => .ok (.sum s (Arith.add x v))
  | .dist d => (d.addSample v att t).bind fun d => .ok (.dist d)
  | .last _ => .ok (.last v)

/-- `Sum`, stats/view/aggregation_data.go:158. -/
def Dist.sum (a : Dist F) : F := Arith.mul a.mean (Arith.ofInt a.count)

/-- `variance`, stats/view/aggregation_data.go:160-165. -/
def Dist.variance (a : Dist F) : F :=
  if a.count ≤ 1 then Arith.ofInt 0 else Arith.div a.ssd (Arith.ofInt (wrap64 (a.count - 1)))

/-! ## Lemmas -/

/-- A sample as handed to `addSample`. -/
structure Sample (F : Type) where
  v : F
  att : Attachments
  t : Int
  deriving DecidableEq, Repr

/-- Feeding samples to an aggregation datum, in order. -/
def AggData.addAll (d : AggData F) : List (Sample F) → Res (AggData F)
  | [] => .ok d
  | s :: ss => (d.addSample s.v s.att s.t).bind fun d => d.addAll ss

def Dist.addAll (d : Dist F) : List (Sample F) → Res (Dist F)
  | [] => .ok d
  | s :: ss => (d.addSample s.v s.att s.t).bind fun d => d.addAll ss

omit [Arith F] in
theorem bucketIndex_le [Arith F] (v : F) (bs : List F) : bucketIndex v bs ≤ bs.length := by
  induction bs with
  | nil => simp [bucketIndex]
  | cons b bs ih =>
    simp only [bucketIndex]
    split
    · simp
    · simp only [List.length_cons]; omega

/-- The slices of a distribution have one entry more than there are bounds. -/
def Dist.Shape (d : Dist F) : Prop :=
  d.cpb.length = d.bounds.length + 1 ∧ d.epb.length = d.bounds.length + 1

def AggData.Shape : AggData F → Prop
  | .dist d => d.Shape
  | _ => True

/-- The panic-free body of `addSample` on distributions. -/
def Dist.next (d : Dist F) (s : Sample F) : Dist F :=
  let i := bucketIndex s.v d.bounds
  let count := wrap64 (d.count + 1)
  let mean := if count = 1 then s.v
    else Arith.add d.mean (Arith.div (Arith.sub s.v d.mean) (Arith.ofInt count))
  { count := count
    min := if Arith.lt s.v d.min then s.v else d.min
    max := if Arith.lt d.max s.v then s.v else d.max
    mean := mean
    ssd := if count = 1 then d.ssd
      else Arith.add d.ssd (Arith.mul (Arith.sub s.v d.mean) (Arith.sub s.v mean))
    cpb := d.cpb.modify i (fun c => wrap64 (c + 1))
    epb := if s.att.length = 0 then d.epb else d.epb.modify i (fun _ => some ⟨s.v, s.t, s.att⟩)
    bounds := d.bounds
    start := d.start }

theorem Dist.addSample_eq (d : Dist F) (h : d.Shape) (s : Sample F) :
    d.addSample s.v s.att s.t = .ok (d.next s) := by
  obtain ⟨h1, h2⟩ := h
  have hi := bucketIndex_le s.v d.bounds
  have e1 : bucketIndex s.v d.bounds < d.cpb.length := by omega
  have e2 : bucketIndex s.v d.bounds < d.epb.length := by omega
  unfold Dist.addSample Dist.addToBucket Dist.next getExemplar modifyAt
  by_cases hm : Arith.lt s.v d.min <;> by_cases hx : Arith.lt d.max s.v <;>
    by_cases ha : s.att.length = 0 <;> by_cases hc : wrap64 (d.count + 1) = 1 <;>
      simp [hm, hx, ha, hc, e1, e2, Res.bind]

theorem Dist.next_shape {d : Dist F} (h : d.Shape) (s : Sample F) : (d.next s).Shape := by
  obtain ⟨h1, h2⟩ := h
  unfold Dist.Shape Dist.next
  simp only [List.length_modify]
  refine ⟨h1, ?_⟩
  split <;> simp [h2]

theorem Dist.addAll_eq (d : Dist F) (h : d.Shape) (ss : List (Sample F)) :
    d.addAll ss = .ok (ss.foldl Dist.next d) := by
  induction ss generalizing d with
  | nil => rfl
  | cons s ss ih =>
    simp only [Dist.addAll, Dist.addSample_eq d h, Res.bind, List.foldl_cons]
    exact ih _ (Dist.next_shape h s)

omit [Arith F] in
theorem newDistributionData_shape [Arith F] (bs : List F) (t : Int) :
    (newDistributionData bs t).Shape := by
  simp [Dist.Shape, newDistributionData]

/-- The panic-free body of `addSample`. -/
def AggData.next (d : AggData F) (s : Sample F) : AggData F :=
  match d with
  | .count st n => .count st (wrap64 (n + 1))
  | .sum st x => .sum st (Arith.add x s.v)
  | .dist d => .dist (d.next s)
  | .last _ => .last s.v

theorem AggData.addSample_eq (d : AggData F) (h : d.Shape) (s : Sample F) :
    d.addSample s.v s.att s.t = .ok (d.next s) := by
  cases d with
  | dist d => simp [AggData.addSample, Dist.addSample_eq d h, Res.bind, AggData.next]
  | _ => rfl

theorem AggData.next_shape {d : AggData F} (h : d.Shape) (s : Sample F) : (d.next s).Shape := by
  cases d with
  | dist d => exact Dist.next_shape h s
  | _ => trivial

theorem AggData.addAll_eq (d : AggData F) (h : d.Shape) (ss : List (Sample F)) :
    d.addAll ss = .ok (ss.foldl AggData.next d) := by
  induction ss generalizing d with
  | nil => rfl
  | cons s ss ih =>
    simp only [AggData.addAll, AggData.addSample_eq d h, Res.bind, List.foldl_cons]
    exact ih _ (AggData.next_shape h s)

theorem mkData_shape {a : Aggregation F} {t : Int} {d : AggData F} (h : a.mkData t = .ok d) :
    d.Shape := by
  unfold Aggregation.mkData at h
  split at h <;> simp at h <;> subst h <;> simp [AggData.Shape, newDistributionData_shape]

end Verif.View
