import Verif.Trace.Base
import Verif.Trace.Queue
import Verif.Trace.Bucket

/-!
# Spans, exporters and the local span store as one state machine
(trace/trace.go, trace/trace_api.go, trace/export.go, trace/config.go, trace/spanstore.go)

Each public call is one atomic step here; `Verif.Trace.EndConc` splits `End` into the steps other
goroutines can observe. The clock is the monotonic one: it never goes back. The runtime/trace tasks of
trace/trace_go11.go are in `Verif.Trace.Api`. Iteration orders of Go maps are given by the caller of the model.
-/

namespace Verif.Trace
open Verif

/-- An attribute value (`interface{}`): opaque. -/
abbrev AttrVal := Bytes

/-- `Attribute`, trace/basetypes.go:47-50. -/
structure Attribute where
  key : Bytes
  value : AttrVal
  deriving DecidableEq, Repr

/-- `Annotation`, trace/basetypes.go:39-43. A nil attribute map is `none`. -/
structure Annotation where
  time : Int
  message : Bytes
  attributes : Option (GoMap Bytes AttrVal)
  deriving DecidableEq, Repr

inductive EventType where
  | unspecified | sent | recv
  deriving DecidableEq, Repr

/-- `MessageEvent`, trace/basetypes.go:113-119. -/
structure MessageEvent where
  time : Int
  type : EventType
  messageID : Int
  uncompressed : Int
  compressed : Int
  deriving DecidableEq, Repr

/-- `Link`, trace/basetypes.go:94-100. -/
structure Link where
  traceID : Bytes
  spanID : Bytes
  type : Int
  attributes : Option (GoMap Bytes AttrVal)
  deriving DecidableEq, Repr

/-- `Status`, trace/basetypes.go:122-129. -/
structure Status where
  code : Int
  message : Bytes
  deriving DecidableEq, Repr

/-- `SpanData`, trace/export.go:74-99. -/
structure SpanData where
  ctx : SpanContext
  parentSpanID : Bytes
  kind : Int
  name : Bytes
  startTime : Int
  endTime : Int
  attributes : GoMap Bytes AttrVal
  annotations : List Annotation
  messageEvents : List MessageEvent
  status : Status
  links : List Link
  hasRemoteParent : Bool
  droppedAttributes : Int
  droppedAnnotations : Int
  droppedMessageEvents : Int
  droppedLinks : Int
  childSpanCount : Int
  deriving DecidableEq, Repr

/-- What a recording span holds: `*data` and the bounded containers, trace/trace.go:46-62. -/
structure Rec where
  data : SpanData
  attrs : LruMap AttrVal
  annotations : EvictedQueue Annotation
  messageEvents : EvictedQueue MessageEvent
  links : EvictedQueue Link

/-- `span`, trace/trace.go:40-68. `rec` is `none` when `data` is nil. `store` is the name under which
its span store is registered (stores are never removed). -/
structure Span where
  ctx : SpanContext
  data : Option Rec
  store : Option Bytes
  ended : Bool

/-- `Config`, trace/config.go:24-43. The ID generator is only an identity here: what it returns is an
input of the steps that call it. -/
structure Config where
  sampler : Option Sampler
  idGenerator : Option Nat
  maxAnnotations : Int
  maxMessageEvents : Int
  maxAttributes : Int
  maxLinks : Int

/-- The configuration of trace/trace.go:526-535. `1e-4` as the nearest float64. -/
def Config.initial : Config :=
  ⟨some (probabilitySampler (F64.rnd (1 / 10000))), some 0, 32, 128, 32, 32⟩

/-- `ApplyConfig`, trace/config.go:63-86. -/
def Config.apply (c cfg : Config) : Config where
  sampler := if cfg.sampler.isSome then cfg.sampler else c.sampler
  idGenerator := if cfg.idGenerator.isSome then cfg.idGenerator else c.idGenerator
  maxAnnotations := if cfg.maxAnnotations > 0 then cfg.maxAnnotations else c.maxAnnotations
  maxMessageEvents := if cfg.maxMessageEvents > 0 then cfg.maxMessageEvents else c.maxMessageEvents
  maxAttributes := if cfg.maxAttributes > 0 then cfg.maxAttributes else c.maxAttributes
  maxLinks := if cfg.maxLinks > 0 then cfg.maxLinks else c.maxLinks

/-- `spanStore`, trace/spanstore.go:188-194. `active` holds span identities. -/
structure Store where
  active : List Nat
  errors : GoMap Int (Bucket SpanData)
  latency : List (Bucket SpanData)
  maxErr : Nat

/-- `newSpanStore`, trace/spanstore.go:197-209. -/
def Store.new (latencySize errorSize : Nat) : Store :=
  ⟨[], [], List.replicate (defaultLatencies.length + 1) (makeBucket latencySize), errorSize⟩

/-- A registered exporter. -/
abbrev Exporter := Nat

structure State where
  cfg : Config
  exporters : List Exporter           -- the current `exportersMap`
  spans : List Span
  stores : GoMap Bytes Store
  localStore : Bool                   -- internal.LocalSpanStoreEnabled
  now : Int
  exported : List (Exporter × Nat × SpanData)   -- calls of ExportSpan: exporter, span, data

/-- Program start. The clock shows a time after the zero time. -/
def State.init (now : Int) : State := ⟨Config.initial, [], [], [], false, now, []⟩

/-! ## Starting -/

/-- `SpanData` before anything was recorded, trace/trace.go:249-255, 261-263. -/
def newSpanData (sc : SpanContext) (now kind : Int) (name : Bytes) (remote : Bool) (hasParent : Bool)
    (parent : SpanContext) : SpanData where
  ctx := sc
  parentSpanID := if hasParent then parent.spanID else List.replicate 8 0
  kind := kind
  name := name
  startTime := now
  endTime := zeroTime
  attributes := []
  annotations := []
  messageEvents := []
  status := ⟨0, []⟩
  links := []
  hasRemoteParent := remote
  droppedAttributes := 0
  droppedAnnotations := 0
  droppedMessageEvents := 0
  droppedLinks := 0
  childSpanCount := 0

/-- `spanStoreForNameCreateIfNew`, trace/spanstore.go:223-241, with `defaultBucketSize` = 10. -/
def storeFor (stores : GoMap Bytes Store) (name : Bytes) : Store :=
  match GoMap.get stores name with
  | some s => s
  | none => Store.new 10 10

/-- `startSpanInternal`, trace/trace.go:212-274. A nil ID generator or a nil sampler that is consulted
panics. -/
def startSpanInternal (st : State) (name : Bytes) (hasParent : Bool) (parent : SpanContext)
    (remote : Bool) (o : StartOptions) (tid sid : Bytes) : Res State :=
  if st.cfg.idGenerator.isNone then .panic
  else if (!hasParent || remote) && o.sampler.isNone && st.cfg.sampler.isNone then .panic
  else
    let sc := (startContext name hasParent parent remote o (st.cfg.sampler.getD neverSample) tid sid).1
    if !st.localStore && !sc.isSampled then
      .ok { st with spans := st.spans ++ [⟨sc, none, none, false⟩] }
    else
      let r : Rec := ⟨newSpanData sc st.now o.spanKind name remote hasParent parent,
        LruMap.new st.cfg.maxAttributes, EvictedQueue.new st.cfg.maxAnnotations,
        EvictedQueue.new st.cfg.maxMessageEvents, EvictedQueue.new st.cfg.maxLinks⟩
      if st.localStore then
        let s := storeFor st.stores name
        .ok { st with
          spans := st.spans ++ [⟨sc, some r, some name, false⟩]
          stores := GoMap.set st.stores name { s with active := s.active ++ [st.spans.length] } }
      else .ok { st with spans := st.spans ++ [⟨sc, some r, none, false⟩] }

/-- Applies `f` to span `i` if it is recording, trace/trace.go: the pattern
`if !s.IsRecordingEvents() { return }; s.mu.Lock(); ...; s.mu.Unlock()` of every mutator. A program can
only use spans it was given: `.err` for others means there is no such execution. -/
def modifyRec (st : State) (i : Nat) (f : Rec → Res Rec) : Res State :=
  match st.spans[i]? with
  | none => .err
  | some s => match s.data with
    | none => .ok st
    | some r => (f r).bind fun r => .ok { st with spans := st.spans.set i { s with data := some r } }

/-- `addChild`, trace/trace.go:401-408. -/
def Rec.addChild (r : Rec) : Res Rec :=
  .ok { r with data := { r.data with childSpanCount := wrap64 (r.data.childSpanCount + 1) } }

/-- `StartSpan`, trace/trace.go:173-191, with the context's span. -/
def startSpan (st : State) (parent : Option Nat) (name : Bytes) (opts : List StartOption)
    (tid sid : Bytes) : Res State :=
  match parent with
  | none => startSpanInternal st name false .zero false (applyOptions opts) tid sid
  | some p => match st.spans[p]? with
    | none => .err
    | some ps => (modifyRec st p Rec.addChild).bind fun st =>
        startSpanInternal st name (decide (ps.ctx ≠ .zero)) ps.ctx false (applyOptions opts) tid sid

/-- `StartSpanWithRemoteParent`, trace/trace.go:200-210. -/
def startSpanRemote (st : State) (parent : SpanContext) (name : Bytes) (opts : List StartOption)
    (tid sid : Bytes) : Res State :=
  startSpanInternal st name (decide (parent ≠ .zero)) parent true (applyOptions opts) tid sid

/-! ## Mutators -/

/-- `SetName`, trace/trace.go:340-347. -/
def Rec.setName (name : Bytes) (r : Rec) : Res Rec := .ok { r with data := { r.data with name := name } }

/-- `SetStatus`, trace/trace.go:350-357. -/
def Rec.setStatus (s : Status) (r : Rec) : Res Rec := .ok { r with data := { r.data with status := s } }

/-- `AddAttributes`, trace/trace.go:395-399, 413-420. -/
def Rec.addAttributes (l : List Attribute) (r : Rec) : Res Rec :=
  .ok { r with attrs := l.foldl (fun m a => m.add a.key a.value) r.attrs }

/-- The attribute map of an annotation, trace/trace.go:424-430. -/
def attrMap (l : List Attribute) : Option (GoMap Bytes AttrVal) :=
  if l.length ≠ 0 then some (l.foldl (fun m a => GoMap.set m a.key a.value) []) else none

/-- `Annotate` and `Annotatef` (with the formatted string), trace/trace.go:422-455. -/
def Rec.annotate (now : Int) (l : List Attribute) (msg : Bytes) (r : Rec) : Res Rec :=
  (r.annotations.add ⟨now, msg, attrMap l⟩).bind fun q => .ok { r with annotations := q }

/-- `AddMessageSendEvent` and `AddMessageReceiveEvent`, trace/trace.go:463-499. -/
def Rec.addMessageEvent (now : Int) (t : EventType) (id un co : Int) (r : Rec) : Res Rec :=
  (r.messageEvents.add ⟨now, t, id, un, co⟩).bind fun q => .ok { r with messageEvents := q }

/-- `AddLink`, trace/trace.go:502-509. -/
def Rec.addLink (l : Link) (r : Rec) : Res Rec :=
  (r.links.add l).bind fun q => .ok { r with links := q }

/-! ## Ending -/

/-- `makeSpanData`, trace/trace.go:307-329. `order` is the iteration order of the attribute keys;
`.err` if it is not one. Reading the attributes moves them in the LRU list. -/
def Rec.makeSpanData (r : Rec) (order : List Bytes) : Res (Rec × SpanData) :=
  if !(order.isPerm (GoMap.keys r.attrs.cacheKeys)) then .err
  else
    let sd := r.data
    let (r, sd) :=
      if r.attrs.len > 0 then
        let (m, a) := r.attrs.toAttributeMap order
        ({ r with attrs := m }, { sd with attributes := a, droppedAttributes := m.droppedCount })
      else (r, sd)
    let sd := if r.annotations.queue.length > 0 then
      { sd with annotations := r.annotations.queue, droppedAnnotations := r.annotations.droppedCount } else sd
    let sd := if r.messageEvents.queue.length > 0 then
      { sd with messageEvents := r.messageEvents.queue, droppedMessageEvents := r.messageEvents.droppedCount } else sd
    let sd := if r.links.queue.length > 0 then
      { sd with links := r.links.queue, droppedLinks := r.links.droppedCount } else sd
    .ok (r, sd)

/-- The error bucket of a code, a new one if there is none, trace/spanstore.go:300-305. -/
def Store.errorBucket (s : Store) (code : Int) : Bucket SpanData :=
  match GoMap.get s.errors code with
  | some b => b
  | none => makeBucket s.maxErr

/-- `finished`, trace/spanstore.go:284-308. -/
def Store.finished (s : Store) (i : Nat) (sd : SpanData) : Res Store :=
  let latency := sd.endTime - sd.startTime
  let latency := if latency < 0 then 0 else latency
  let s := { s with active := s.active.filter (fun j => decide (j ≠ i)) }
  if sd.status.code = 0 then
    match s.latency[latencyBucket latency]? with
    | none => .panic
    | some b => (b.add SpanData.endTime sd).bind fun b =>
        .ok { s with latency := s.latency.set (latencyBucket latency) b }
  else
    ((s.errorBucket sd.status.code).add SpanData.endTime sd).bind fun b => .ok { s with errors := GoMap.set s.errors sd.status.code b }

/-- `MonotonicEndTime`, internal/internal.go:33-35. -/
def monotonicEndTime (start now : Int) : Int := start + (now - start)

/-- The body given to `endOnce.Do`, trace/trace.go:287-302. -/
def endBody (st : State) (i : Nat) (s : Span) (r : Rec) (order : List Bytes) : Res State :=
  let exp := st.exporters
  let mustExport := s.ctx.isSampled && decide (exp.length > 0)
  if s.store.isSome || mustExport then
    (r.makeSpanData order).bind fun (r, sd) =>
      let sd := { sd with endTime := monotonicEndTime sd.startTime st.now }
      let st := { st with spans := st.spans.set i { s with data := some r, ended := true } }
      let done := fun st : State => Res.ok (if mustExport then
        { st with exported := st.exported ++ exp.map fun e => (e, i, sd) } else st)
      match s.store with
      | none => done st
      | some name => match GoMap.get st.stores name with
        | none => .panic
        | some store => (store.finished i sd).bind fun store =>
            done { st with stores := GoMap.set st.stores name store }
  else .ok { st with spans := st.spans.set i { s with ended := true } }

/-- `End`, trace/trace.go:277-303. -/
def endSpan (st : State) (i : Nat) (order : List Bytes) : Res State :=
  match st.spans[i]? with
  | none => .err
  | some s => match s.data with
    | none => .ok st
    | some r => if s.ended then .ok st else endBody st i s r order

/-! ## Reports and configuration of the span store -/

/-- The loop of `ReportActiveSpans`, trace/spanstore.go:51-55. -/
def reportActiveLoop (st : State) : List Nat → List (List Bytes) → Res (State × List SpanData)
  | [], _ => .ok (st, [])
  | _ :: _, [] => .err
  | i :: is, order :: orders => match st.spans[i]? with
    | none => .panic
    | some s => match s.data with
      | none => .panic
      | some r => (r.makeSpanData order).bind fun (r, sd) =>
          (reportActiveLoop { st with spans := st.spans.set i { s with data := some r } } is orders).bind
            fun (st, out) => .ok (st, sd :: out)

/-- `ReportActiveSpans`, trace/spanstore.go:43-57. -/
def reportActive (st : State) (name : Bytes) (orders : List (List Bytes)) : Res (State × List SpanData) :=
  match GoMap.get st.stores name with
  | none => .ok (st, [])
  | some s => reportActiveLoop st s.active orders

/-- `ReportSpansByError`, trace/spanstore.go:62-90. The order of the codes is unspecified when `code`
is 0. -/
def reportByError (st : State) (name : Bytes) (code : Int) : List SpanData :=
  match GoMap.get st.stores name with
  | none => []
  | some s =>
    if code ≠ 0 then match GoMap.get s.errors code with
      | some b => scan b.buffer
      | none => []
    else s.errors.flatMap fun e => scan e.2.buffer

/-- The filter of `ReportSpansByLatency`, trace/spanstore.go:169-177. -/
def latencyMatches (minLatency maxLatency : Int) (sd : SpanData) : Bool :=
  if minLatency ≠ 0 ∨ maxLatency ≠ 0 then
    let d := sd.endTime - sd.startTime
    if d < minLatency then false
    else if maxLatency ≠ 0 ∧ d > maxLatency then false
    else true
  else true

/-- The loop of `ReportSpansByLatency` over the buckets from index `i` on, `n` being their number,
trace/spanstore.go:157-179. -/
def reportLatencyLoop (minLatency maxLatency : Int) (n : Nat) (i : Nat) :
    List (Bucket SpanData) → Res (List SpanData)
  | [] => .ok []
  | b :: bs => (latencyBucketBounds i).bind fun (min, max) =>
      (reportLatencyLoop minLatency maxLatency n (i + 1) bs).bind fun rest =>
        if i + 1 ≠ n ∧ max ≤ minLatency then .ok rest
        else if maxLatency ≠ 0 ∧ maxLatency < min then .ok rest
        else .ok ((scan b.buffer).filter (latencyMatches minLatency maxLatency) ++ rest)

/-- `ReportSpansByLatency`, trace/spanstore.go:148-181. -/
def reportByLatency (st : State) (name : Bytes) (minLatency maxLatency : Int) : Res (List SpanData) :=
  match GoMap.get st.stores name with
  | none => .ok []
  | some s => reportLatencyLoop minLatency maxLatency s.latency.length 0 s.latency

def mapRes {α β : Type} (f : α → Res β) : List α → Res (List β)
  | [] => .ok []
  | a :: l => (f a).bind fun b => (mapRes f l).bind fun bs => .ok (b :: bs)

/-- `resize`, trace/spanstore.go:263-273. -/
def Store.resize (s : Store) (latencySize errorSize : Nat) : Res Store :=
  (mapRes (fun b : Bucket SpanData => b.resize latencySize) s.latency).bind fun latency =>
    (mapRes (fun e : Int × Bucket SpanData => (e.2.resize errorSize).bind fun b => .ok (e.1, b)) s.errors).bind
      fun errors => .ok { s with latency := latency, errors := errors, maxErr := errorSize }

/-- Clamping to `[0, maxBucketSize]`, trace/spanstore.go:96-109. -/
def clampSize (n : Int) : Nat :=
  let n := if n < 0 then 0 else n
  (if n > 100000 then 100000 else n).toNat

/-- `BucketConfiguration`, internal/traceinternals.go:30-34. -/
structure BucketConfiguration where
  name : Bytes
  succeeded : Int
  errors : Int

/-- `spanStoreSetSize`, trace/spanstore.go:244-261. -/
def setSize (stores : GoMap Bytes Store) (name : Bytes) (latencySize errorSize : Nat) :
    Res (GoMap Bytes Store) :=
  match GoMap.get stores name with
  | some s => (s.resize latencySize errorSize).bind fun s => .ok (GoMap.set stores name s)
  | none => .ok (GoMap.set stores name (Store.new latencySize errorSize))

/-- `ConfigureBucketSizes`, trace/spanstore.go:94-112. -/
def configureBucketSizes (stores : GoMap Bytes Store) : List BucketConfiguration → Res (GoMap Bytes Store)
  | [] => .ok stores
  | bc :: bcs => (setSize stores bc.name (clampSize bc.succeeded) (clampSize bc.errors)).bind
      fun stores => configureBucketSizes stores bcs

/-! ## The machine -/

/-- Everything a program can do. Spans are `none` for a nil `*Span`. -/
inductive Op where
  | start (parent : Option Nat) (name : Bytes) (opts : List StartOption) (tid sid : Bytes)
  | startRemote (parent : SpanContext) (name : Bytes) (opts : List StartOption) (tid sid : Bytes)
  | setName (s : Option Nat) (name : Bytes)
  | setStatus (s : Option Nat) (status : Status)
  | addAttributes (s : Option Nat) (l : List Attribute)
  | annotate (s : Option Nat) (l : List Attribute) (msg : Bytes)
  | addMessageEvent (s : Option Nat) (t : EventType) (id un co : Int)
  | addLink (s : Option Nat) (l : Link)
  | endSpan (s : Option Nat) (order : List Bytes)
  | registerExporter (e : Exporter)
  | unregisterExporter (e : Exporter)
  | applyConfig (c : Config)
  | configure (bcs : List BucketConfiguration)
  | reportActive (name : Bytes) (orders : List (List Bytes))
  | enableStore                       -- zpages/zpages.go:67
  | tick (d : Nat)                    -- time passes

/-- A method on a possibly nil `*Span`, trace/trace_api.go:155-265. -/
def onSpan (st : State) (s : Option Nat) (f : Nat → Res State) : Res State :=
  match s with
  | none => .ok st
  | some i => f i

def step (st : State) : Op → Res State
  | .start p name opts tid sid => startSpan st p name opts tid sid
  | .startRemote p name opts tid sid => startSpanRemote st p name opts tid sid
  | .setName s name => onSpan st s fun i => modifyRec st i (Rec.setName name)
  | .setStatus s status => onSpan st s fun i => modifyRec st i (Rec.setStatus status)
  | .addAttributes s l => onSpan st s fun i => modifyRec st i (Rec.addAttributes l)
  | .annotate s l msg => onSpan st s fun i => modifyRec st i (Rec.annotate st.now l msg)
  | .addMessageEvent s t id un co => onSpan st s fun i => modifyRec st i (Rec.addMessageEvent st.now t id un co)
  | .addLink s l => onSpan st s fun i => modifyRec st i (Rec.addLink l)
  | .endSpan s order => onSpan st s fun i => endSpan st i order
  | .registerExporter e => .ok { st with exporters := if e ∈ st.exporters then st.exporters else st.exporters ++ [e] }
  | .unregisterExporter e => .ok { st with exporters := st.exporters.filter (fun x => decide (x ≠ e)) }
  | .applyConfig c => .ok { st with cfg := st.cfg.apply c }
  | .configure bcs => (configureBucketSizes st.stores bcs).bind fun stores => .ok { st with stores := stores }
  | .reportActive name orders => (reportActive st name orders).bind fun (st, _) => .ok st
  | .enableStore => .ok { st with localStore := true }
  | .tick d => .ok { st with now := st.now + d }

def run (st : State) : List Op → Res State
  | [] => .ok st
  | op :: ops => (step st op).bind fun st => run st ops

end Verif.Trace
