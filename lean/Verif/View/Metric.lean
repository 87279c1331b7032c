import Verif.View.Worker
import Verif.Metric.Labels

/-!
# Views as metrics (stats/view/view_to_metric.go, `toPoint` in aggregation_data.go, `Read` in worker.go)
-/

namespace Verif.View
open Verif Verif.Tag Verif.Stats Verif.Metric

/-- `metricdata.Bucket`, metric/metricdata/point.go. -/
structure MBucket where
  count : Int
  exemplar : Option (Exemplar F64)
  deriving DecidableEq, Repr

/-- The value of a `metricdata.Point`, metric/metricdata/point.go:21-37, 83-118. An `int64` obtained
by converting a `float64` outside the range of `int64` is implementation-dependent: `none`. -/
inductive PointValue where
  | int64 (v : Option Int)
  | float64 (v : F64)
  | distribution (count : Int) (sum ssd : F64) (bounds : List F64) (buckets : List MBucket)
  deriving DecidableEq, Repr

/-- The Go conversion `int64(x)`: truncation towards zero when the result fits. -/
def toInt64 : F64 → Option Int
  | .fin q =>
    let n := if q < 0 then -((-q).floor) else q.floor
    if -2 ^ 63 ≤ n ∧ n < 2 ^ 63 then some n else none
  | _ => none

/-- The loop of `toPoint`, stats/view/aggregation_data.go:254-260: `epb[i]` panics out of range. -/
def zipBuckets : List Int → List (Option (Exemplar F64)) → Res (List MBucket)
  | [], _ => .ok []
  | _ :: _, [] => .panic
  | c :: cs, e :: es => (zipBuckets cs es).bind fun bs => .ok (⟨c, e⟩ :: bs)

/-- `toPoint` of the four data types, stats/view/aggregation_data.go:67-74, 108-117, 251-276,
308-317. The time of the point is `now`. -/
def AggData.toPoint (d : AggData F64) (t : MType) : Res PointValue :=
  match d with
  | .count _ n => match t with
    | .cumulativeInt64 => .ok (.int64 (some n))
    | _ => .panic
  | .sum _ x => match t with
    | .cumulativeInt64 => .ok (.int64 (toInt64 x))
    | .cumulativeFloat64 => .ok (.float64 x)
    | _ => .panic
  | .dist d => match t with
    | .cumulativeDistribution => (zipBuckets d.cpb d.epb).bind fun bs =>
        .ok (.distribution d.count d.sum d.ssd d.bounds bs)
    | _ => .panic
  | .last x => match t with
    | .gaugeInt64 => .ok (.int64 (toInt64 x))
    | .gaugeFloat64 => .ok (.float64 x)
    | _ => .panic

/-- `StartTime`, stats/view/aggregation_data.go:77-79, 120-122, 279-281, 321-323; `none` is the zero
time. -/
def AggData.startTime : AggData F64 → Option Int
  | .count s _ => some s
  | .sum s _ => some s
  | .dist d => some d.start
  | .last _ => none

/-- `tagMap` of `toLabelValues`, stats/view/view_to_metric.go:107-110. -/
def tagMap (tags : List (Key × Bytes)) : GoMap Bytes Bytes :=
  tags.foldl (fun m t => GoMap.set m t.1.name t.2) []

/-- `toLabelValues`, stats/view/view_to_metric.go:105-120. -/
def toLabelValues (tags : List (Key × Bytes)) (keys : List Bytes) : List LabelValue :=
  keys.map fun k => match GoMap.get (tagMap tags) k with
    | some v => ⟨v, true⟩
    | none => ⟨[], false⟩

/-- `metricdata.TimeSeries` with its single point. -/
structure TimeSeries where
  point : PointValue
  time : Int
  labelValues : List LabelValue
  startTime : Option Int

/-- `rowToTimeseries`, stats/view/view_to_metric.go:122-128. -/
def rowToTimeseries (vi : VI) (row : Row F64) (now : Int) : Res TimeSeries :=
  (row.data.toPoint vi.descriptor.type).bind fun p =>
    .ok ⟨p, now, toLabelValues row.tags vi.descriptor.labelKeys, row.data.startTime⟩

def rowsToTimeseries (vi : VI) (now : Int) : List (Row F64) → Res (List TimeSeries)
  | [] => .ok []
  | r :: rs => (rowToTimeseries vi r now).bind fun t => (rowsToTimeseries vi now rs).bind fun ts =>
      .ok (t :: ts)

/-- `metricdata.Metric`; the meter's resource is left out. -/
structure MetricOut where
  descriptor : Descriptor
  series : List TimeSeries

/-- `viewToMetric`, stats/view/view_to_metric.go:130-147; `none` is nil. -/
def viewToMetric (vi : VI) (now : Int) : Res (Option MetricOut) :=
  (vi.collector.collectedRows vi.view.tagKeys).bind fun rows =>
    if rows.length = 0 then .ok none
    else (rowsToTimeseries vi now rows).bind fun ts => .ok (some ⟨vi.descriptor, ts⟩)

/-- `toMetric`, stats/view/worker.go:388-394. -/
def toMetric (vi : VI) (now : Int) : Res (Option MetricOut) :=
  if !vi.subscribed then .ok none else viewToMetric vi now

/-- The loop of `Read`, stats/view/worker.go:402-408. -/
def Worker.readLoop (w : Worker) (now : Int) : List (Bytes × Nat) → Res (List MetricOut)
  | [] => .ok []
  | (_, a) :: l => match w.vis[a]? with
    | none => .panic
    | some vi => (toMetric vi now).bind fun m => (w.readLoop now l).bind fun ms =>
        .ok (match m with | some m => m :: ms | none => ms)

/-- `Read`, stats/view/worker.go:398-410, holding the worker's lock. The order of the metrics is the
map's iteration order. -/
def Worker.read (w : Worker) (now : Int) : Res (List MetricOut) := w.readLoop now w.views

end Verif.View
