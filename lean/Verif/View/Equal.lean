import Verif.View.Collector

/-!
# Comparing rows (stats/view/view.go:191-199, stats/view/aggregation_data.go)

What `(*Row).Equal` and `ClearStart` do, with the nil pointers, nil interfaces and nil slices that a
caller can hand to them.
-/

namespace Verif.View.Equal
open Verif Verif.View Verif.Tag

/-- An `AggregationData` as a caller can hold it: the nil interface, a nil pointer of one of the four
types (named by its `AggType`), or a pointer to data. -/
inductive Data where
  | nil
  | nilPtr (t : AggType)
  | ptr (d : AggData F64)
  deriving DecidableEq, Repr

/-- `Row`, stats/view/view.go:173-176. `none` is the nil slice, which `reflect.DeepEqual` tells from an
empty one. -/
structure ORow where
  tags : Option (List (Key × Bytes))
  data : Data
  deriving DecidableEq, Repr

/-- The untyped constant `1e-9` as a `float64`, stats/view/aggregation_data.go:37. -/
def epsilon : F64 := F64.rnd (1 / 10 ^ 9)

/-- `math.Pow(x-y, 2) < epsilon`, stats/view/aggregation_data.go:105, 248. `math.Pow` with exponent 2
squares the fraction of its argument; where the square is normal this is the rounded square. (Squares that
are subnormal can differ in the last bit; all of them are below `epsilon`.) -/
def near (x y : F64) : Bool := F64.lt (F64.mul (F64.sub x y) (F64.sub x y)) epsilon

/-- `x == y` on `float64`. -/
def feq (x y : F64) : Bool := decide (x = y) && decide (x ≠ .nan)

/-- The loop of `(*DistributionData).equal`, stats/view/aggregation_data.go:239-243, after the lengths were
compared. -/
def sameCounts : List Int → List Int → Bool
  | [], _ => true
  | a :: as, b :: bs => if a ≠ b then false else sameCounts as bs
  | _ :: _, [] => false

/-- `(*DistributionData).equal`, stats/view/aggregation_data.go:228-249, on two non-nil pointers. -/
def distEqual (a b : Dist F64) : Bool :=
  if a.cpb.length ≠ b.cpb.length then false
  else if !sameCounts a.cpb b.cpb then false
  else decide (a.start = b.start) && decide (a.count = b.count) && feq a.min b.min && feq a.max b.max &&
    near a.mean b.mean && near a.variance b.variance

/-- `equal` of the four types on non-nil pointers, stats/view/aggregation_data.go:58-65, 100-106, 228-249,
300-306. `Start.Equal` compares instants. (It looks at the monotonic clock when both times have a reading of
it; the model has one clock.) -/
def dataEqual : AggData F64 → AggData F64 → Bool
  | .count s n, .count s' n' => decide (s = s') && decide (n = n')
  | .sum s x, .sum s' x' => decide (s = s') && near x x'
  | .dist a, .dist b => distEqual a b
  | .last x, .last x' => feq x x'
  | _, _ => false

/-- The type behind a datum. -/
def kind : AggData F64 → AggType
  | .count _ _ => .count
  | .sum _ _ => .sum
  | .dist _ => .distribution
  | .last _ => .lastValue

/-- `r.Data.equal(other.Data)`, stats/view/aggregation_data.go:58-65, 100-106, 228-249, 300-306: a type
assertion first, which gives false for another type and for the nil interface, then the fields. Only
`(*DistributionData).equal` looks whether its argument is nil; a nil receiver is not expected by any. -/
def equal : Data → Data → Res Bool
  | .nil, _ => .panic
  | .nilPtr t, .nilPtr t' =>
    if t ≠ t' then .ok false else if t = .distribution then .ok false else .panic
  | .nilPtr t, .ptr d => if t ≠ kind d then .ok false else .panic
  | .nilPtr _, .nil => .ok false
  | .ptr _, .nil => .ok false
  | .ptr d, .nilPtr t => if t ≠ kind d then .ok false else if t = .distribution then .ok false else .panic
  | .ptr d, .ptr d' => .ok (dataEqual d d')

/-- `(*Row).Equal`, stats/view/view.go:194-199. `same` says whether the two pointers are equal; `none` is the nil
pointer. `reflect.DeepEqual` on tags compares keys and values, and tells nil from empty. -/
def rowEqual (same : Bool) (r other : Option ORow) : Res Bool :=
  if same then .ok true
  else match r, other with
    | some r, some o => if r.tags ≠ o.tags then .ok false else equal r.data o.data
    | _, _ => .panic

/-- `time.Time{}`: the first of January of year one, in nanoseconds from 1970. -/
def zeroTime : Int := -62135596800 * 10 ^ 9

/-- `ClearStart`, stats/view/aggregation_data.go:327-336. Nil pointers are dereferenced, except those to
`LastValueData`; the nil interface matches no case. -/
def clearStart : Data → Res Data
  | .nil => .ok .nil
  | .nilPtr t => if t = .lastValue then .ok (.nilPtr t) else .panic
  | .ptr (.count _ n) => .ok (.ptr (.count zeroTime n))
  | .ptr (.sum _ x) => .ok (.ptr (.sum zeroTime x))
  | .ptr (.dist d) => .ok (.ptr (.dist { d with start := zeroTime }))
  | .ptr (.last x) => .ok (.ptr (.last x))

/-- A row as `collectedRows` makes it, stats/view/collector.go:45-53: `decodeTags` starts from a nil slice
(line 82) and appends, so a row without tags has nil tags. -/
def collected (r : Row F64) : ORow := ⟨if r.tags = [] then none else some r.tags, .ptr r.data⟩

end Verif.View.Equal
