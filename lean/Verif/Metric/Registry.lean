import Verif.Metric.Labels

/-!
# The metric registry (metric/registry.go, metric/common.go)

The registry and its metrics are read and changed here one call at a time. (The documentation of
`Registry` asks for external synchronization of the `Add` methods; what concurrent `GetEntry` and
`UpsertEntry` calls do is in `Verif.Metric.Race`.) A handle (`*Int64Gauge` and so on) is the index of its
`baseMetric` on the heap, an entry is a number; what an entry reads as is a parameter of `read`.
-/

namespace Verif.Metric
open Verif

/-- `metricdata.LabelKey`, metric/metricdata/label.go:18-21. -/
structure LabelKey where
  key : Bytes
  description : Bytes
  deriving DecidableEq, Repr

/-- `baseMetricType`, metric/common.go:42-53. -/
inductive BMType where
  | gaugeInt64 | gaugeFloat64 | derivedGaugeInt64 | derivedGaugeFloat64
  | cumulativeInt64 | cumulativeFloat64 | derivedCumulativeInt64 | derivedCumulativeFloat64
  deriving DecidableEq, Repr

/-- The types of `metricdata.Type` a registry uses, metric/metricdata/metric.go:33-45. -/
inductive MType where
  | gaugeInt64 | gaugeFloat64 | cumulativeInt64 | cumulativeFloat64
  deriving DecidableEq, Repr

/-- `bmTypeToMetricType`, metric/registry.go:146-167. The panic of line 165 is for a type that does not
exist. -/
def bmTypeToMetricType : BMType → MType
  | .derivedGaugeFloat64 => .gaugeFloat64
  | .derivedGaugeInt64 => .gaugeInt64
  | .gaugeFloat64 => .gaugeFloat64
  | .gaugeInt64 => .gaugeInt64
  | .derivedCumulativeFloat64 => .cumulativeFloat64
  | .derivedCumulativeInt64 => .cumulativeInt64
  | .cumulativeFloat64 => .cumulativeFloat64
  | .cumulativeInt64 => .cumulativeInt64

/-- `metricOptions`, metric/registry.go:32-37. -/
structure Options where
  unit : Bytes
  labelKeys : List LabelKey
  constLabels : GoMap LabelKey LabelValue
  desc : Bytes

/-- The values of type `Options`, metric/registry.go:43-79. `WithLabelKeys` gives keys without
description. -/
inductive Option' where
  | description (d : Bytes)
  | unit (u : Bytes)
  | labelKeys (ks : List Bytes)
  | labelKeysAndDescription (ks : List LabelKey)
  | constLabel (m : GoMap LabelKey LabelValue)

/-- What an option does to the options, metric/registry.go:44-46, 51-53, 58-64, 69-71, 76-78. -/
def Option'.apply (o : Options) : Option' → Options
  | .description d => { o with desc := d }
  | .unit u => { o with unit := u }
  | .labelKeys ks => { o with labelKeys := ks.map fun k => ⟨k, []⟩ }
  | .labelKeysAndDescription ks => { o with labelKeys := ks }
  | .constLabel m => { o with constLabels := m }

/-- `createMetricOption`, metric/registry.go:229-235. -/
def createMetricOption (mos : List Option') : Options := mos.foldl Option'.apply ⟨[], [], [], []⟩

/-- `metricdata.Descriptor`, metric/metricdata/metric.go:24-30. -/
structure Descriptor where
  name : Bytes
  description : Bytes
  unit : Bytes
  type : MType
  labelKeys : List LabelKey
  deriving DecidableEq, Repr

/-- `baseMetric`, metric/common.go:33-40. `vals` takes the encoded label values to the entry. -/
structure BaseMetric where
  vals : GoMap Bytes Nat
  desc : Descriptor
  start : Int
  keys : List LabelKey
  constLabelValues : List LabelValue
  bmType : BMType

/-- The registry (metric/registry.go:28-30), with the base metrics ever made and the number of entries
ever made. -/
structure Reg where
  baseMetrics : GoMap Bytes Nat
  heap : List BaseMetric
  entries : Nat

def Reg.empty : Reg := ⟨[], [], 0⟩

/-- The base metric that `initBaseMetric` makes, metric/registry.go:245-270. `constLabelKeys` is what
`sort.Slice` made of the keys of the map of constant labels: the theorems assume that it is a permutation
of them, in order. A key of the map has a value. -/
def newBaseMetric (ty : BMType) (name : Bytes) (o : Options) (constLabelKeys : List LabelKey) (now : Int) : BaseMetric :=
  { vals := []
    bmType := ty
    start := now
    keys := constLabelKeys ++ o.labelKeys
    constLabelValues := constLabelKeys.map fun k => (GoMap.get o.constLabels k).getD ⟨[], false⟩
    desc := ⟨name, o.desc, o.unit, bmTypeToMetricType ty, constLabelKeys ++ o.labelKeys⟩ }

/-- The `Add` methods of `Registry` (metric/registry.go:87-144, 170-227) with `initBaseMetric`
(metric/registry.go:237-273): the handle, or `none` for the error. The index of the base metric that
`val.(*baseMetric)` points to is always on the heap. -/
def Reg.add (r : Reg) (ty : BMType) (name : Bytes) (o : Options) (constLabelKeys : List LabelKey) (now : Int) :
    Reg × Option Nat :=
  let stored : Reg :=
    { r with heap := r.heap ++ [newBaseMetric ty name o constLabelKeys now]
             baseMetrics := GoMap.set r.baseMetrics name r.heap.length }
  match (GoMap.get r.baseMetrics name).bind fun h => r.heap[h]? with
  | some existing => if existing.bmType ≠ ty then (r, none) else (stored, some r.heap.length)
  | none => (stored, some r.heap.length)

/-- The base metric `h` with other entries. -/
def Reg.setVals (r : Reg) (h : Nat) (bm : BaseMetric) (vals : GoMap Bytes Nat) : Reg :=
  { r with heap := r.heap.set h { bm with vals := vals } }

/-- `entryForValues`, metric/common.go:122-133, as called by the `GetEntry` methods: the entry, or an
error. `append` gets a slice of its own here: that it need not is in `Verif.Metric.Race`. -/
def Reg.getEntry (r : Reg) (h : Nat) (labelVals : List LabelValue) : Reg × Res Nat :=
  match r.heap[h]? with
  | none => (r, .panic)
  | some bm =>
    let labelVals := bm.constLabelValues ++ labelVals
    if labelVals.length ≠ bm.keys.length then (r, .err)
    else match encodeLabelVals labelVals with
      | .ok mapKey =>
        match GoMap.get bm.vals mapKey with
        | some e => (r, .ok e)
        | none => ({ r.setVals h bm (GoMap.set bm.vals mapKey r.entries) with entries := r.entries + 1 }, .ok r.entries)
      | .err => (r, .err)
      | .panic => (r, .panic)

/-- `upsertEntry`, metric/common.go:135-144, as called by the `UpsertEntry` methods with a function that
is not nil: the new entry, or an error. -/
def Reg.upsertEntry (r : Reg) (h : Nat) (labelVals : List LabelValue) : Reg × Res Nat :=
  match r.heap[h]? with
  | none => (r, .panic)
  | some bm =>
    let labelVals := bm.constLabelValues ++ labelVals
    if labelVals.length ≠ bm.keys.length then (r, .err)
    else match encodeLabelVals labelVals with
      | .ok mapKey =>
        ({ r.setVals h bm (GoMap.set (GoMap.del bm.vals mapKey) mapKey r.entries) with entries := r.entries + 1 },
          .ok r.entries)
      | .err => (r, .err)
      | .panic => (r, .panic)

/-- `metricdata.TimeSeries`, metric/metricdata/metric.go:48-52: a registry gives each one point, at the
time of the reading. -/
structure TimeSeries (V : Type) where
  startTime : Int
  labelValues : List LabelValue
  point : V
  deriving DecidableEq, Repr

/-- `metricdata.Metric`, metric/metricdata/metric.go:55-58. -/
structure Metric' (V : Type) where
  descriptor : Descriptor
  timeSeries : List (TimeSeries V)
  deriving DecidableEq, Repr

/-- `startTime`, metric/common.go:59-67, with lines 72-75: the start of a cumulative, and the time of the
reading for a gauge. -/
def BaseMetric.startTime (bm : BaseMetric) (now : Int) : Int :=
  match bm.bmType with
  | .cumulativeInt64 | .cumulativeFloat64 | .derivedCumulativeInt64 | .derivedCumulativeFloat64 => bm.start
  | _ => now

/-- The loop of `read` over the entries in the order `Range` takes, metric/common.go:79-91. `look` is what
the entries read as. -/
def readSeries {V : Type} (look : Nat → V) (keys : Nat) (start : Int) : List (Bytes × Nat) → Res (List (TimeSeries V))
  | [] => .ok []
  | (k, e) :: rest => (decodeLabelVals k keys).bind fun labelVals =>
      (readSeries look keys start rest).bind fun ts => .ok (⟨start, labelVals, look e⟩ :: ts)

/-- `read`, metric/common.go:70-93, `Range` taking the entries in the order `order`. -/
def BaseMetric.read {V : Type} (look : Nat → V) (bm : BaseMetric) (now : Int) (order : List (Bytes × Nat)) : Res (Metric' V) :=
  (readSeries look bm.keys.length (bm.startTime now) order).bind fun ts => .ok ⟨bm.desc, ts⟩

/-- `Read`, metric/registry.go:276-284: `Range` takes the names in the order `order`, and the entries of the
base metric `h` in the order `orders h`; `now h` is the time at which it is read. -/
def Reg.read {V : Type} (look : Nat → V) (r : Reg) (now : Nat → Int) (orders : Nat → List (Bytes × Nat)) :
    List (Bytes × Nat) → Res (List (Metric' V))
  | [] => .ok []
  | (_, h) :: rest =>
    match r.heap[h]? with
    | none => .panic
    | some bm => (bm.read look (now h) (orders h)).bind fun m => (Reg.read look r now orders rest).bind fun ms => .ok (m :: ms)

/-- A call. -/
inductive Call where
  | add (ty : BMType) (name : Bytes) (o : Options) (constLabelKeys : List LabelKey) (now : Int)
  | getEntry (h : Nat) (labelVals : List LabelValue)
  | upsertEntry (h : Nat) (labelVals : List LabelValue)

/-- The registry after a call. -/
def Reg.call (r : Reg) : Call → Reg
  | .add ty name o ks now => (r.add ty name o ks now).1
  | .getEntry h vs => (r.getEntry h vs).1
  | .upsertEntry h vs => (r.upsertEntry h vs).1

/-- The registry after some calls. -/
def Reg.calls (r : Reg) (cs : List Call) : Reg := cs.foldl Reg.call r

end Verif.Metric
