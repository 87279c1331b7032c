import Verif.Metric.Reader
import Verif.Metric.Labels

/-!
# The exporter for tests (metric/test/exporter.go)

`ReadAndExport` reads all producers (`Verif.Metric.Reader`, after a call that waits for the view worker) and gives
the metrics to `ExportMetrics`. Points are opaque: `P`. `sort.Slice` is a merge sort here; label keys of one metric
are distinct, so every sort gives the same. `String` is not modelled.
-/

namespace Verif.Metric.Test
open Verif Verif.Metric

/-- `metricdata.TimeSeries`, metric/metricdata/metric.go:62-66: what the exporter looks at. -/
structure Series (P : Type) where
  labelValues : List LabelValue
  points : List P

/-- `metricdata.Metric`: what the exporter looks at. -/
structure Exported (P : Type) where
  name : Bytes
  labelKeys : List Bytes
  timeSeries : List (Series P)

/-- `keyValue`, metric/test/exporter.go:62-65. -/
abbrev KeyValue := Bytes × Bytes

/-- `sortKeyValue`, metric/test/exporter.go:67-69. -/
def sortKeyValue (kv : List KeyValue) : List KeyValue := kv.mergeSort fun a b => decide (a.1 ≤ b.1)

/-- `labelMapToKeyValue`, metric/test/exporter.go:71-78. `order` are the entries of the map in the order the
loop takes them. -/
def labelMapToKeyValue (order : List KeyValue) : List KeyValue := sortKeyValue order

/-- The loop of `labelObjectsToKeyValue`, metric/test/exporter.go:85-89. -/
def presentLoop : List Bytes → List LabelValue → List KeyValue
  | k :: ks, v :: vs => if v.present then (k, v.value) :: presentLoop ks vs else presentLoop ks vs
  | _, _ => []

/-- `labelObjectsToKeyValue`, metric/test/exporter.go:80-92. -/
def labelObjectsToKeyValue (keys : List Bytes) (values : List LabelValue) : Res (List KeyValue) :=
  if keys.length ≠ values.length then .panic else .ok (sortKeyValue (presentLoop keys values))

/-- `labelSignature`, metric/test/exporter.go:95-102. -/
def labelSignature (name : Bytes) (kv : List KeyValue) : Bytes :=
  name ++ str "{" ++ kv.flatMap (fun x => x.1 ++ x.2) ++ str "}"

/-- The exporter's map. -/
abbrev Points (P : Type) := GoMap Bytes P

/-- One time series, metric/test/exporter.go:34-35. Without points the index is -1. -/
def exportSeries {P : Type} (m : Exported P) (e : Points P) (ts : Series P) : Res (Points P) :=
  (labelObjectsToKeyValue m.labelKeys ts.labelValues).bind fun kv =>
    match ts.points.getLast? with
    | none => .panic
    | some p => .ok (GoMap.set e (labelSignature m.name kv) p)

/-- A loop that stops at a panic. -/
def loop {A B : Type} (f : A → B → Res A) : A → List B → Res A
  | a, [] => .ok a
  | a, b :: bs => (f a b).bind fun a => loop f a bs

/-- `ExportMetrics`, metric/test/exporter.go:31-39. -/
def exportMetrics {P : Type} (e : Points P) (data : List (Exported P)) : Res (Points P) :=
  loop (fun e m => loop (exportSeries m) e m.timeSeries) e data

/-- `GetPoint`, metric/test/exporter.go:42-45. -/
def getPoint {P : Type} (e : Points P) (name : Bytes) (order : List KeyValue) : Option P :=
  GoMap.get e (labelSignature name (labelMapToKeyValue order))

/-- Any number of exports, from `NewExporter` (metric/test/exporter.go:26-28) on. -/
def exports {P : Type} (batches : List (List (Exported P))) : Res (Points P) := loop exportMetrics [] batches

end Verif.Metric.Test
