import Verif.View.Collector
import Verif.Stats.Measure

/-!
# Views and the collection worker (stats/view/view.go, worker.go, worker_commands.go,
view_to_metric.go)

A `viewInternal` is an object with an address (an index into `Worker.vis`), since the measure
references and the start times are keyed by pointer. A `View` is a value with an identity `ptr`;
writes the user makes to a `View` after registering it are not modelled, and two views are assumed
not to share the backing array of their tag keys (see `Verif.View.Alias` for what happens if they
do). Exported data and replies are outputs of the handlers.
-/

namespace Verif.View
open Verif Verif.Tag Verif.Stats

/-- `View`, stats/view/view.go:34-48; `ptr` is its address. -/
structure ViewDef where
  ptr : Nat
  name : Bytes
  description : Bytes
  tagKeys : List Key
  measure : Option Measure
  agg : Option (Aggregation F64)
  deriving DecidableEq, Repr

/-- `maxNameLength`, stats/view/view.go:201. -/
def maxNameLength : Nat := 255

/-- `isPrintable`, stats/view/view.go:204-211; bytes above 0x7f decode to runes above '~'. -/
def isPrintable (s : Bytes) : Bool := s.all (fun c => decide (32 ≤ c.toNat) && decide (c.toNat ≤ 126))

/-- `checkViewName`, stats/view/view.go:213-221: true when no error is returned. -/
def checkViewName (name : Bytes) : Bool :=
  if name.length > maxNameLength then false
  else if !isPrintable name then false
  else true

/-- `dropZeroBounds`, stats/view/view.go:109-116. -/
def dropZeroBounds : List F64 → List F64
  | [] => []
  | b :: bs => if F64.lt (.fin 0) b then b :: bs else dropZeroBounds bs

/-- The order of `sort.Float64s`: NaN before everything else. -/
def sortLe (a b : F64) : Bool :=
  !(F64.lt b a || (decide (b = .nan) && !decide (a = .nan)))

/-- The error `canonicalize` returns. -/
inductive CanonErr where
  | noMeasure | noAggregation | badName | negativeBounds
  deriving DecidableEq, Repr

/-- The defaults for an empty name and description, stats/view/view.go:85-90. -/
def withDefaults (v : ViewDef) (m : Measure) : ViewDef :=
  { v with name := if v.name = [] then m.name else v.name
           description := if v.description = [] then m.description else v.description }

/-- `canonicalize`, stats/view/view.go:78-107. It writes to the view it is given; the modified view
is returned in both cases. The sorts are modelled as stable sorts; elements that compare equal are
equal. -/
def canonicalize (v : ViewDef) : ViewDef × Option CanonErr :=
  match v.measure with
  | none => (v, some .noMeasure)
  | some m =>
    match v.agg with
    | none => (v, some .noAggregation)
    | some a =>
      let v := withDefaults v m
      if !checkViewName v.name then (v, some .badName)
      else
        let v := { v with tagKeys := v.tagKeys.mergeSort (fun a b => decide (a.name ≤ b.name)) }
        let bs := a.buckets.mergeSort sortLe
        if bs.any (fun b => F64.lt b (.fin 0)) then
          ({ v with agg := some { a with buckets := bs } }, some .negativeBounds)
        else
          ({ v with agg := some { a with buckets := dropZeroBounds bs } }, none)

/-- `reflect.DeepEqual` on two aggregation pointers, stats/view/view.go:67: equal pointers are equal;
otherwise the structs are compared and function fields are equal only if both are nil. Buckets are
compared with `==` on floats (NaN is not equal to itself); a nil and an empty slice differ, but the
buckets of a canonicalized view are never nil. -/
def aggDeepEqual (a b : Aggregation F64) : Bool :=
  decide (a.id = b.id) ||
    (decide (a.type = b.type) && decide (a.buckets = b.buckets) && a.buckets.all (· ≠ .nan)
      && decide (a.newData = none) && decide (b.newData = none))

/-- `same`, stats/view/view.go:60-69, on views whose measure and aggregation are set. -/
def same (v other : ViewDef) : Bool :=
  if v.ptr = other.ptr then true
  else match v.agg, other.agg, v.measure, other.measure with
    | some a, some b, some m, some n => aggDeepEqual a b && decide (m.name = n.name)
    | _, _, _, _ => false

/-- `metricdata.Type`, metric/metricdata/point.go:183-193 (the constants used here). -/
inductive MType where
  | gaugeInt64 | gaugeFloat64 | gaugeDistribution
  | cumulativeInt64 | cumulativeFloat64 | cumulativeDistribution | summary
  deriving DecidableEq, Repr

/-- `metricdata.Unit`, metric/metricdata/unit.go:23-28. -/
inductive Unit' where
  | dimensionless | bytes | milliseconds
  deriving DecidableEq, Repr

/-- `getType`, stats/view/view_to_metric.go:39-76. -/
def getType (m : Measure) (a : Aggregation F64) : Res MType :=
  match a.type with
  | .sum => match m.kind with
    | .int64 => .ok .cumulativeInt64
    | .float64 => .ok .cumulativeFloat64
    | .other => .panic
  | .distribution => .ok .cumulativeDistribution
  | .lastValue => match m.kind with
    | .int64 => .ok .gaugeInt64
    | .float64 => .ok .gaugeFloat64
    | .other => .panic
  | .count => match m.kind with
    | .int64 => .ok .cumulativeInt64
    | .float64 => .ok .cumulativeInt64
    | .other => .panic
  | .none => .panic

/-- `getUnit`, stats/view/view_to_metric.go:26-37. -/
def getUnit (u : Bytes) : Unit' :=
  if u = str "1" then .dimensionless
  else if u = str "ms" then .milliseconds
  else if u = str "By" then .bytes
  else .dimensionless

/-- `convertUnit`, stats/view/view_to_metric.go:96-103. -/
def convertUnit (m : Measure) (a : Aggregation F64) : Unit' :=
  match a.type with
  | .count => .dimensionless
  | _ => getUnit m.unit

/-- `metricdata.Descriptor`, metric/metricdata/metric.go; label keys as their names. -/
structure Descriptor where
  name : Bytes
  description : Bytes
  unit : Unit'
  type : MType
  labelKeys : List Bytes
  deriving DecidableEq, Repr

/-- `viewToMetricDescriptor` and `getLabelKeys`, stats/view/view_to_metric.go:78-94. Only called on
canonicalized views; a missing measure or aggregation would be a nil dereference. -/
def viewToMetricDescriptor (v : ViewDef) : Res Descriptor :=
  match v.measure, v.agg with
  | some m, some a => (getType m a).bind fun t =>
      .ok ⟨v.name, v.description, convertUnit m a, t, v.tagKeys.map Key.name⟩
  | _, _ => .panic

/-- `viewInternal`, stats/view/view.go:119-124. -/
structure VI where
  view : ViewDef
  subscribed : Bool
  collector : Collector F64
  descriptor : Descriptor

/-- `newViewInternal`, stats/view/view.go:126-132. -/
def newViewInternal (v : ViewDef) : Res VI :=
  match v.agg with
  | none => .panic
  | some a => (viewToMetricDescriptor v).bind fun d => .ok ⟨v, false, ⟨[], a⟩, d⟩

/-- `(*viewInternal).addSample`, stats/view/view.go:156-162. -/
def VI.addSample (vi : VI) (m : Option TMap) (s : Sample F64) : Res VI :=
  if !vi.subscribed then .ok vi
  else (encodeWithKeys m vi.view.tagKeys).bind fun sig =>
    (vi.collector.addSample sig s).bind fun c => .ok { vi with collector := c }

/-- `worker`, stats/view/worker.go:43-57, without channels, ticker and resource. The measure
references (`measureRef`, lines 38-41) are the sets of view addresses. -/
structure Worker where
  measures : GoMap Bytes (List Nat)
  views : GoMap Bytes Nat
  viewStartTimes : GoMap Nat Int
  exporters : List Nat
  vis : List VI

/-- `NewMeter`, stats/view/worker.go:266-278. -/
def newWorker : Worker := ⟨[], [], [], [], []⟩

/-- `getMeasureRef`, stats/view/worker.go:317-327: the views of the reference, creating it. -/
def Worker.getMeasureRef (w : Worker) (name : Bytes) : Worker × List Nat :=
  match GoMap.get w.measures name with
  | some vs => (w, vs)
  | none => ({ w with measures := GoMap.set w.measures name [] }, [])

/-- `tryRegisterView`, stats/view/worker.go:329-350, on a canonicalized view: the address of the
registered view, or `none` for the error. `now` is `time.Now()`. -/
def Worker.tryRegisterView (w : Worker) (v : ViewDef) (now : Int) : Res (Worker × Option Nat) :=
  (newViewInternal v).bind fun vi =>
    match GoMap.get w.views v.name with
    | some a => match w.vis[a]? with
      | none => .panic
      | some x => if !same x.view v then .ok (w, none) else .ok (w, some a)
    | none => match v.measure with
      | none => .panic
      | some m =>
        let a := w.vis.length
        let w := { w with vis := w.vis ++ [vi]
                          views := GoMap.set w.views v.name a
                          viewStartTimes := GoMap.set w.viewStartTimes a now }
        let (w, ref) := w.getMeasureRef m.name
        .ok ({ w with measures := GoMap.set w.measures m.name (ref ++ [a]) }, some a)

/-- `vi.subscribe()` / `unsubscribe()`, stats/view/view.go:134-140. -/
def Worker.setSubscribed (w : Worker) (a : Nat) (b : Bool) : Worker :=
  { w with vis := w.vis.modify a (fun vi => { vi with subscribed := b }) }

/-- `vi.clearRows()`, stats/view/view.go:148-150. -/
def Worker.clearRows (w : Worker) (a : Nat) : Worker :=
  { w with vis := w.vis.modify a (fun vi => { vi with collector := vi.collector.clearRows }) }

/-- `unregisterView`, stats/view/worker.go:352-360. -/
def Worker.unregisterView (w : Worker) (a : Nat) : Worker :=
  match w.vis[a]? with
  | none => w
  | some vi =>
    let w := { w with views := GoMap.del w.views vi.view.name
                      viewStartTimes := GoMap.del w.viewStartTimes a }
    match vi.view.measure with
    | none => w
    | some m => match GoMap.get w.measures m.name with
      | none => w
      | some ref => { w with measures := GoMap.set w.measures m.name (ref.filter (· ≠ a)) }

/-- `Data` handed to an exporter, stats/view/view.go:166-170. -/
structure Export where
  exporter : Nat
  view : ViewDef
  start : Int
  stop : Int
  rows : List (Row F64)

/-- `reportView`, stats/view/worker.go:362-378: what the exporters receive. The clock is read once per
command or tick, where the code reads it for every view. -/
def Worker.reportView (w : Worker) (a : Nat) (now : Int) : Res (List Export) :=
  match w.vis[a]? with
  | none => .panic
  | some vi =>
    if !vi.subscribed then .ok []
    else (vi.collector.collectedRows vi.view.tagKeys).bind fun rows =>
      .ok (w.exporters.map fun e =>
        ⟨e, vi.view, (GoMap.get w.viewStartTimes a).getD 0, now, rows⟩)

/-- `reportUsage`, stats/view/worker.go:380-386, on a tick of the timer. The order of the views is
the map's iteration order. -/
def Worker.reportAll (w : Worker) (now : Int) : List (Bytes × Nat) → Res (List Export)
  | [] => .ok []
  | (_, a) :: l => (w.reportView a now).bind fun es => (w.reportAll now l).bind fun es' =>
      .ok (es ++ es')

def Worker.reportUsage (w : Worker) (now : Int) : Res (List Export) := w.reportAll now w.views

/-- First loop of `registerViewReq.handleCommand`, stats/view/worker_commands.go:59-64: canonicalize
the views in order, stopping at the first error. -/
def canonicalizeAll : List ViewDef → Except CanonErr (List ViewDef)
  | [] => .ok []
  | v :: vs => match canonicalize v with
    | (_, some e) => .error e
    | (v, none) => match canonicalizeAll vs with
      | .error e => .error e
      | .ok vs => .ok (v :: vs)

/-- Second loop, stats/view/worker_commands.go:65-74: register each view; the names of the views in
conflict are collected and do not stop the loop. The measures of package stats are threaded through
because a registered view subscribes its measure. -/
def Worker.registerAll (w : Worker) (reg : Measures) (now : Int) :
    List ViewDef → Res (Worker × Measures × List Bytes)
  | [] => .ok (w, reg, [])
  | v :: vs => (w.tryRegisterView v now).bind fun (w, r) =>
      match r with
      | none => (w.registerAll reg now vs).bind fun (w, reg, errs) => .ok (w, reg, v.name :: errs)
      | some a => match v.measure with
        | none => .panic
        | some m => (subscribe reg m.name).bind fun reg =>
          (w.setSubscribed a true).registerAll reg now vs

/-- What `Register` returns. -/
inductive RegReply where
  | ok
  | invalid (e : CanonErr)
  | conflict (names : List Bytes)
  deriving DecidableEq, Repr

/-- `registerViewReq.handleCommand`, stats/view/worker_commands.go:58-80. -/
def Worker.register (w : Worker) (reg : Measures) (now : Int) (views : List ViewDef) :
    Res (Worker × Measures × RegReply) :=
  match canonicalizeAll views with
  | .error e => .ok (w, reg, .invalid e)
  | .ok views => (w.registerAll reg now views).bind fun (w, reg, errs) =>
      .ok (w, reg, if errs.length > 0 then .conflict errs else .ok)

/-- `unregisterFromViewReq.handleCommand`, stats/view/worker_commands.go:90-109. -/
def Worker.unregister (w : Worker) (now : Int) : List Bytes → Res (Worker × List Export)
  | [] => .ok (w, [])
  | name :: names => match GoMap.get w.views name with
    | none => w.unregister now names
    | some a => (w.reportView a now).bind fun es =>
        let w := ((w.setSubscribed a false).clearRows a).unregisterView a
        (w.unregister now names).bind fun (w, es') => .ok (w, es ++ es')

/-- `retrieveDataReq.handleCommand`, stats/view/worker_commands.go:123-146: `none` is the error. -/
def Worker.retrieveData (w : Worker) (name : Bytes) : Res (Option (List (Row F64))) :=
  match GoMap.get w.views name with
  | none => .ok none
  | some a => match w.vis[a]? with
    | none => .panic
    | some vi => if !vi.subscribed then .ok none
      else (vi.collector.collectedRows vi.view.tagKeys).bind fun rows => .ok (some rows)

/-- The inner loop `for v := range ref.views`, stats/view/worker_commands.go:165-167. The iteration
order is unspecified; the views are distinct objects, so it does not matter. -/
def Worker.addToViews (w : Worker) (tm : Option TMap) (s : Sample F64) : List Nat → Res Worker
  | [] => .ok w
  | a :: as => match w.vis[a]? with
    | none => .panic
    | some vi => (vi.addSample tm s).bind fun vi =>
        { w with vis := w.vis.set a vi }.addToViews tm s as

/-- The outer loop, stats/view/worker_commands.go:160-168; `t` is the time of the request. A zero
measurement is skipped. -/
def Worker.recordLoop (w : Worker) (tm : Option TMap) (att : Attachments) (t : Int) :
    List (Option Measurement) → Res Worker
  | [] => .ok w
  | none :: ms => w.recordLoop tm att t ms
  | some m :: ms =>
    let (w, ref) := w.getMeasureRef m.m.name
    (w.addToViews tm ⟨m.v, att, t⟩ ref).bind fun w => w.recordLoop tm att t ms

/-- `recordReq.handleCommand`, stats/view/worker_commands.go:157-169. -/
def Worker.record (w : Worker) (r : RecordReq) (t : Int) : Res Worker :=
  w.recordLoop r.tags r.attachments t r.ms

/-- `getViewByNameReq.handleCommand`, stats/view/worker_commands.go:42-49. -/
def Worker.find (w : Worker) (name : Bytes) : Res (Option ViewDef) :=
  match GoMap.get w.views name with
  | none => .ok none
  | some a => match w.vis[a]? with
    | none => .panic
    | some vi => .ok (some vi.view)

/-- The commands of the worker. `setReportingPeriod` (lines 178-186) only replaces the ticker. -/
inductive Cmd where
  | register (now : Int) (views : List ViewDef)
  | unregister (now : Int) (names : List Bytes)
  | retrieve (name : Bytes)
  | record (t : Int) (r : RecordReq)
  | find (name : Bytes)
  | setPeriod (d : Int)
  | tick (now : Int)
  | addExporter (e : Nat)
  | delExporter (e : Nat)

/-- Replies and exports. -/
inductive Reply where
  | none
  | registered (r : RegReply)
  | rows (r : Option (List (Row F64)))
  | found (v : Option ViewDef)

/-- `cmd.handleCommand(w)` and the other entry points that change or read the state,
stats/view/worker.go:293-303, 412-423. -/
def handle (w : Worker) (reg : Measures) : Cmd → Res (Worker × Measures × Reply × List Export)
  | .register now vs => (w.register reg now vs).bind fun (w, reg, r) => .ok (w, reg, .registered r, [])
  | .unregister now ns => (w.unregister now ns).bind fun (w, es) => .ok (w, reg, .none, es)
  | .retrieve n => (w.retrieveData n).bind fun r => .ok (w, reg, .rows r, [])
  | .record t r => (w.record r t).bind fun w => .ok (w, reg, .none, [])
  | .find n => (w.find n).bind fun v => .ok (w, reg, .found v, [])
  | .setPeriod _ => .ok (w, reg, .none, [])
  | .tick now => (w.reportUsage now).bind fun es => .ok (w, reg, .none, es)
  | .addExporter e => .ok ({ w with exporters := if e ∈ w.exporters then w.exporters else w.exporters ++ [e] },
      reg, .none, [])
  | .delExporter e => .ok ({ w with exporters := w.exporters.filter (· ≠ e) }, reg, .none, [])

end Verif.View
