import Verif.Trace.Span

/-!
# The trace pages (zpages/tracez.go)

The pages are modelled up to their data: `traceSpans` gives the spans of a detail page and
`getSummaryPageData` the numbers of the summary page. The rows of a single span (`traceRows`) are in
`TraceRows`. Templates and text output are not modelled.
-/

namespace Verif.Zpages
open Verif Verif.Trace

/-- `defaultLatencies`, zpages/tracez.go:47-56, in nanoseconds. Not the table of package trace: the last
bound differs. -/
def zLatencies : List Int :=
  [10000, 100000, 1000000, 10000000, 100000000, 1000000000, 10000000000, 100000000000]

/-- `latencies[i]`, which panics out of range. -/
def zLatency (i : Int) : Res Int :=
  if i < 0 then .panic else match zLatencies[i.toNat]? with
    | some l => .ok l
    | none => .panic

/-- The bounds of a latency page, zpages/tracez.go:345-354. Both are zero for an unknown column. -/
def pageBounds (subtype : Int) : Res (Int × Int) :=
  let n : Int := zLatencies.length
  if subtype = 0 then (zLatency 0).bind fun max => .ok (0, max)
  else if subtype = n then (zLatency (subtype - 1)).bind fun min => .ok (min, 2 ^ 63 - 1)
  else if 0 < subtype ∧ subtype < n then
    (zLatency (subtype - 1)).bind fun min => (zLatency subtype).bind fun max => .ok (min, max)
  else .ok (0, 0)

/-- `traceSpans`, zpages/tracez.go:334-360. The state is returned because a report of active spans reads
the attributes of the spans (see `reportActive`); `orders` are the iteration orders it uses. The
iteration order of the error codes is that of the model's map, and unspecified in the code. -/
def traceSpans (st : State) (orders : List (List Bytes)) (name : Bytes) (spanType subtype : Int) :
    Res (State × List SpanData) :=
  if spanType = 0 then reportActive st name orders
  else if spanType = 1 then
    (pageBounds subtype).bind fun (min, max) => (reportByLatency st name min max).bind fun out => .ok (st, out)
  else if spanType = 2 then .ok (st, reportByError st name 0)
  else .ok (st, [])

/-- `LatencyBucketSummary`, internal/traceinternals.go:44-47. -/
structure LatencySummary where
  min : Int
  max : Int
  size : Nat

/-- `PerMethodSummary`, internal/traceinternals.go:37-41, with `ErrorBucketSummary` as a pair. -/
structure Summary where
  active : Nat
  latency : List LatencySummary
  errors : List (Int × Nat)

/-- The loop over `s.latency` from index `i` on, trace/spanstore.go:130-137. -/
def latencySummaries (i : Nat) : List (Bucket SpanData) → Res (List LatencySummary)
  | [] => .ok []
  | b :: bs => (latencyBucketBounds i).bind fun (min, max) =>
      (latencySummaries (i + 1) bs).bind fun rest => .ok (⟨min, max, b.size⟩ :: rest)

/-- One iteration of `ReportSpansPerMethod`, trace/spanstore.go:119-140. -/
def summaryOf (s : Store) : Res Summary :=
  (latencySummaries 0 s.latency).bind fun ls =>
    .ok ⟨s.active.length, ls, s.errors.map fun e => (e.1, e.2.size)⟩

/-- `ReportSpansPerMethod`, trace/spanstore.go:115-142. `stores` are the span stores in the order in
which the map is iterated; the map built from them has the same keys. -/
def reportSpansPerMethod (stores : GoMap Bytes Store) : Res (List (Bytes × Summary)) :=
  mapRes (fun e => (summaryOf e.2).bind fun p => .ok (e.1, p)) stores

/-- `summaryPageRow`, zpages/tracez.go:400-405. -/
structure Row where
  name : Bytes
  active : Nat
  latency : List Nat
  errors : Nat

/-- The row of a method, zpages/tracez.go:429-436. -/
def rowOf (e : Bytes × Summary) : Row :=
  ⟨e.1, e.2.active, e.2.latency.map LatencySummary.size, (e.2.errors.map Prod.snd).sum⟩

/-- `data.Rows[i].Name < data.Rows[j].Name` as an order, zpages/tracez.go:438-440. -/
def rowLe (a b : Row) : Bool := decide (a.name ≤ b.name)

/-- `getSummaryPageData`, zpages/tracez.go:407-442: the lower bounds the column headers are made of,
and the rows. `sort.Slice` is not stable and the model's sort is; names are distinct, so they agree. -/
def getSummaryPageData (stores : GoMap Bytes Store) : Res (List Int × List Row) :=
  (reportSpansPerMethod stores).bind fun l =>
    .ok (match l with
      | [] => []
      | e :: _ => e.2.latency.map LatencySummary.min, (l.map rowOf).mergeSort rowLe)

/-- `canonicalCodes`, zpages/tracez.go:57-75. -/
def canonicalCodes : List Bytes :=
  [str "OK", str "CANCELLED", str "UNKNOWN", str "INVALID_ARGUMENT", str "DEADLINE_EXCEEDED", str "NOT_FOUND",
   str "ALREADY_EXISTS", str "PERMISSION_DENIED", str "RESOURCE_EXHAUSTED", str "FAILED_PRECONDITION",
   str "ABORTED", str "OUT_OF_RANGE", str "UNIMPLEMENTED", str "INTERNAL", str "UNAVAILABLE", str "DATA_LOSS",
   str "UNAUTHENTICATED"]

end Verif.Zpages
