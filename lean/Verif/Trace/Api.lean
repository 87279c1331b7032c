import Verif.Trace.Span
import Verif.Wire.Hex

/-!
# `*Span`, spans in contexts, spans of other implementations, and the tasks of the execution tracer
(trace/trace_api.go, trace/trace.go:105-120, 170-210, 276-286, 511-523, trace/trace_go11.go)

The layer above `Verif.Trace.Span`: what a program holds is a `*Span`, a pointer to a struct with an
interface inside, and what it passes on is a context. Each call is one atomic step.

Not modelled: a `DefaultTracer` replaced by the program (nothing of the package then runs), a `*Span`
used as the `SpanInterface` of another one, and panics inside other implementations.
-/

namespace Verif.Trace.Api
open Verif Verif.Trace

/-- The `SpanInterface` inside a `*Span`: a `*span` of this package, by its index in `State.spans`, or
an object of another implementation. trace/trace_api.go:93-138. -/
inductive Obj where
  | own (i : Nat)
  | foreign (k : Nat)
  deriving DecidableEq, Repr

/-- A `*Span`: nil, a pointer to a `Span` whose interface is nil (`&Span{}`, `NewSpan(nil)`), or one
made by `NewSpan` from a span. trace/trace_api.go:140-149. -/
inductive Ptr where
  | nil
  | empty
  | of (o : Obj)
  deriving DecidableEq, Repr

/-- A `context.Context`: the chain of `context.WithValue` calls that made it. The keys are `contextKey`
of trace/trace.go:105, the key of runtime/trace, and those of others. -/
inductive Ctx where
  | background
  | span (parent : Ctx) (s : Ptr)
  | task (parent : Ctx) (t : Nat)
  | other (parent : Ctx) (key : Nat)
  deriving DecidableEq, Repr

/-- `FromContext`, trace/trace.go:108-111, trace/trace_api.go:71-73: `Value` walks up to the first
entry with the key. A failed type assertion gives nil. -/
def Ctx.fromContext : Ctx → Ptr
  | .background => .nil
  | .span _ s => s
  | .task p _ => p.fromContext
  | .other p _ => p.fromContext

/-- `NewContext`, trace/trace.go:114-116, trace/trace_api.go:76-78. -/
def newContext (parent : Ctx) (s : Ptr) : Ctx := .span parent s

/-- The task of the context, as `runtime/trace.fromContext` finds it: `none` is the background task. -/
def Ctx.taskOf : Ctx → Option Nat
  | .background => none
  | .span p _ => p.taskOf
  | .task _ t => some t
  | .other p _ => p.taskOf

/-- The methods of `SpanInterface` with their arguments, trace/trace_api.go:85-138. The arguments of
`Annotatef` are opaque. -/
inductive Method where
  | isRecordingEvents
  | finish                                              -- End
  | spanContext
  | setName (name : Bytes)
  | setStatus (s : Status)
  | addAttributes (l : List Attribute)
  | annotate (l : List Attribute) (msg : Bytes)
  | annotatef (l : List Attribute) (format : Bytes) (args : List Bytes)
  | addMessageSendEvent (id un co : Int)
  | addMessageReceiveEvent (id un co : Int)
  | addLink (l : Link)
  | string
  deriving DecidableEq

/-- What a method returned. -/
inductive Reply where
  | unit
  | bool (b : Bool)
  | ctx (sc : SpanContext)
  | text (s : Bytes)
  deriving DecidableEq

/-- What the world around the package does: the other implementation of spans answers any way it likes,
depending on all the calls it has had (the present one last), and `fmt` formats. -/
structure Env where
  recording : List (Nat × Method) → Nat → Bool
  context : List (Nat × Method) → Nat → SpanContext
  text : List (Nat × Method) → Nat → Bytes
  sprintf : Bytes → List Bytes → Bytes
  quote : Bytes → Bytes

/-- Events in the execution trace: `trace.NewTask` and `Task.End` of runtime/trace. -/
inductive TaskEv where
  | start (t : Nat) (parent : Option Nat) (name : Bytes)
  | finish (t : Nat)
  deriving DecidableEq, Repr

structure World where
  st : State
  calls : List (Nat × Method)       -- the calls other implementations have had
  tracing : Bool                    -- runtime/trace.IsEnabled()
  nextTask : Nat
  events : List TaskEv              -- the execution trace
  taskEnd : List (Option Nat)       -- `executionTracerTaskEnd` of span i; `none` is `func() {}`

/-- Program start. -/
def World.init (now : Int) : World := ⟨.init now, [], false, 0, [], []⟩

/-! ## Methods of the objects -/

/-- A call to an object of another implementation. -/
def callForeign (E : Env) (w : World) (k : Nat) (m : Method) : World × Reply :=
  let w := { w with calls := w.calls ++ [(k, m)] }
  (w, match m with
    | .isRecordingEvents => .bool (E.recording w.calls k)
    | .spanContext => .ctx (E.context w.calls k)
    | .string => .text (E.text w.calls k)
    | _ => .unit)

/-- `(*span).String`, trace/trace.go:511-523. -/
def ownString (E : Env) (s : Span) : Bytes :=
  str "span " ++ Wire.hexEncode s.ctx.spanID ++
    match s.data with
    | none => []
    | some r => str " " ++ E.quote r.data.name

/-- The end of the task of span `i`, trace/trace.go:281-283. -/
def endTask (w : World) (i : Nat) : World :=
  match w.taskEnd[i]? with
  | some (some t) => { w with events := w.events ++ [.finish t] }
  | _ => w

/-- A method of `*span`, trace/trace.go:73-78, 277-286, 332-523. `order` is the iteration order of the
attribute keys at the end of the span. -/
def callOwn (E : Env) (w : World) (i : Nat) (order : List Bytes) (m : Method) : Res (World × Reply) :=
  let op := fun op : Trace.Op => (Trace.step w.st op).bind fun st => .ok ({ w with st := st }, Reply.unit)
  match m with
  | .isRecordingEvents => match w.st.spans[i]? with
    | none => .err
    | some s => .ok (w, .bool s.data.isSome)
  | .finish =>
    let w := endTask w i
    (Trace.step w.st (.endSpan (some i) order)).bind fun st => .ok ({ w with st := st }, .unit)
  | .spanContext => match w.st.spans[i]? with
    | none => .err
    | some s => .ok (w, .ctx s.ctx)
  | .setName name => op (.setName (some i) name)
  | .setStatus s => op (.setStatus (some i) s)
  | .addAttributes l => op (.addAttributes (some i) l)
  | .annotate l msg => op (.annotate (some i) l msg)
  | .annotatef l format args => op (.annotate (some i) l (E.sprintf format args))
  | .addMessageSendEvent id un co => op (.addMessageEvent (some i) .sent id un co)
  | .addMessageReceiveEvent id un co => op (.addMessageEvent (some i) .recv id un co)
  | .addLink l => op (.addLink (some i) l)
  | .string => match w.st.spans[i]? with
    | none => .err
    | some s => .ok (w, .text (ownString E s))

/-- Dynamic dispatch on `SpanInterface`. -/
def callObj (E : Env) (w : World) (order : List Bytes) (m : Method) : Obj → Res (World × Reply)
  | .own i => callOwn E w i order m
  | .foreign k => .ok (callForeign E w k m)

/-! ## Methods of `*Span` -/

/-- What the methods return for a nil `*Span`, trace/trace_api.go:159-161, 167-169, 175-177, 261-263 and
`!s.IsRecordingEvents()` in the others. -/
def nilReply : Method → Reply
  | .isRecordingEvents => .bool false
  | .spanContext => .ctx .zero
  | .string => .text (str "<nil>")
  | _ => .unit

/-- A method that first asks `s.IsRecordingEvents()`, trace/trace_api.go:181-256. -/
def guarded (E : Env) (w : World) (order : List Bytes) (m : Method) (o : Obj) : Res (World × Reply) :=
  (callObj E w order .isRecordingEvents o).bind fun (w, r) =>
    if r = .bool true then callObj E w order m o else .ok (w, .unit)

/-- A method of `*Span`, trace/trace_api.go:155-265. A call on a nil interface panics. -/
def method (E : Env) (w : World) (order : List Bytes) (m : Method) : Ptr → Res (World × Reply)
  | .nil => .ok (w, nilReply m)
  | .empty => .panic
  | .of o => match m with
    | .isRecordingEvents => callObj E w order m o
    | .finish => callObj E w order m o
    | .spanContext => callObj E w order m o
    | .string => callObj E w order m o
    | m => guarded E w order m o

/-- `Internal`, trace/trace_api.go:152-154. -/
def internal : Ptr → Res (Option Obj)
  | .nil => .panic
  | .empty => .ok none
  | .of o => .ok (some o)

/-! ## Starting spans -/

/-- `startExecutionTracerTask`, trace/trace_go11.go:25-33, and the rest of `StartSpan`,
trace/trace.go:187-190, 206-209, for the new span `i`. -/
def finishStart (w : World) (c : Ctx) (name : Bytes) (i : Nat) : World × Ctx × Ptr :=
  if w.tracing then
    ({ w with nextTask := w.nextTask + 1
              events := w.events ++ [.start w.nextTask c.taskOf name]
              taskEnd := w.taskEnd ++ [some w.nextTask] },
      newContext (.task c w.nextTask) (.of (.own i)), .of (.own i))
  else ({ w with taskEnd := w.taskEnd ++ [none] }, newContext c (.of (.own i)), .of (.own i))

/-- `StartSpan`, trace/trace.go:173-191, trace/trace_api.go:54-56. `tid` and `sid` are what the ID
generator would return. -/
def startSpan (E : Env) (w : World) (c : Ctx) (name : Bytes) (opts : List StartOption)
    (tid sid : Bytes) : Res (World × Ctx × Ptr) :=
  let i := w.st.spans.length
  let go := fun (w : World) (r : Res State) =>
    r.bind fun st => Res.ok (finishStart { w with st := st } c name i)
  match c.fromContext with
  | .nil => go w (Trace.startSpan w.st none name opts tid sid)
  | .empty => .panic
  | .of (.own p) => go w (Trace.startSpan w.st (some p) name opts tid sid)
  | .of (.foreign k) =>
    let w := { w with calls := w.calls ++ [(k, .spanContext)] }
    let parent := E.context w.calls k
    go w (startSpanInternal w.st name (decide (parent ≠ .zero)) parent false (applyOptions opts) tid sid)

/-- `StartSpanWithRemoteParent`, trace/trace.go:200-210, trace/trace_api.go:65-67. -/
def startSpanWithRemoteParent (w : World) (c : Ctx) (name : Bytes) (parent : SpanContext)
    (opts : List StartOption) (tid sid : Bytes) : Res (World × Ctx × Ptr) :=
  (Trace.startSpanRemote w.st parent name opts tid sid).bind fun st =>
    .ok (finishStart { w with st := st } c name w.st.spans.length)

/-! ## Programs -/

/-- What a program can do. `env` is a call that is not about one span: exporters, configuration, the
span store, time. -/
inductive Op where
  | start (c : Ctx) (name : Bytes) (opts : List StartOption) (tid sid : Bytes)
  | startRemote (c : Ctx) (name : Bytes) (parent : SpanContext) (opts : List StartOption) (tid sid : Bytes)
  | call (p : Ptr) (m : Method) (order : List Bytes)
  | env (op : Trace.Op)
  | setTracing (on : Bool)            -- runtime/trace.Start and Stop

/-- The calls of `Verif.Trace.Op` that are not about one span. -/
def isEnv : Trace.Op → Bool
  | .registerExporter _ => true
  | .unregisterExporter _ => true
  | .applyConfig _ => true
  | .configure _ => true
  | .reportActive _ _ => true
  | .enableStore => true
  | .tick _ => true
  | _ => false

def step (E : Env) (w : World) : Op → Res World
  | .start c name opts tid sid => (startSpan E w c name opts tid sid).bind fun r => .ok r.1
  | .startRemote c name parent opts tid sid =>
    (startSpanWithRemoteParent w c name parent opts tid sid).bind fun r => .ok r.1
  | .call p m order => (method E w order m p).bind fun r => .ok r.1
  | .env op => if isEnv op then (Trace.step w.st op).bind fun st => .ok { w with st := st } else .err
  | .setTracing on => .ok { w with tracing := on }

def run (E : Env) (w : World) : List Op → Res World
  | [] => .ok w
  | op :: ops => (step E w op).bind fun w => run E w ops

end Verif.Trace.Api
