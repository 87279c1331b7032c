import Verif.Http.Propagate
import Verif.Grpc.Stats

/-!
# Many processes that call each other (trace/, plugin/ochttp, plugin/ocgrpc)

Each process is one program that uses the trace package: its own configuration, spans, exporters and span
store (`Verif.Trace.Span`), and its own memory for headers and tracestates (`Verif.Http.Propagate`). Processes
only share what they send each other. A call is one step here: the client starts its span and sends the
request, the server receives it and starts its span. What either of them does later, and what others do in
between, are further steps (`Act.own`). Requests that are lost, and servers that do not use this library, only
make fewer steps.
-/

namespace Verif.Net
open Verif Verif.Trace

/-- A process. `log` is what it has asked the trace package to do so far. -/
structure Proc where
  st : State
  mem : Http.Mem
  log : List Op

/-- A process at its start. -/
def Proc.init (now : Int) : Proc := ⟨.init now, ⟨[], []⟩, []⟩

/-- A process makes calls of the trace package. -/
def Proc.does (pr : Proc) (ops : List Op) : Res Proc :=
  (Trace.run pr.st ops).bind fun st => .ok { pr with st := st, log := pr.log ++ ops }

/-- All processes. -/
abbrev World := List Proc

/-- Something happens in process `p`; `.err` if there is no such process. -/
def World.at (w : World) (p : Nat) (f : Proc → Res Proc) : Res World :=
  match w[p]? with
  | none => .err
  | some pr => (f pr).bind fun pr => .ok (w.set p pr)

/-- The context of span `i` of process `p`; the zero context if there is none. -/
def World.ctx (w : World) (p i : Nat) : SpanContext :=
  match w[p]? with
  | none => .zero
  | some pr => match pr.st.spans[i]? with
    | none => .zero
    | some s => s.ctx

/-- Starting a span in process `p` gives it the index `i`; `.err` otherwise: a call that expects another
index is no execution. -/
def World.next (w : World) (p i : Nat) : Bool :=
  match w[p]? with
  | none => false
  | some pr => decide (pr.st.spans.length = i)

/-! ## gRPC -/

/-- A call through `ClientHandler` and `ServerHandler`. -/
structure Rpc where
  method : Bytes
  client : Grpc.Env
  server : Grpc.Env
  isPublic : Bool

/-- The call, plugin/ocgrpc/trace_common.go:36-82: the client starts its span and puts its context into the
metadata (nothing else has put one there), the server starts its span with what it finds in it. gRPC carries
binary metadata unchanged. -/
def World.rpc (w : World) (p q : Nat) (c : Rpc) : Res World :=
  if !w.next p c.client.span then .err else
  (w.at p fun pr => pr.does (Grpc.clientStart c.client c.method)).bind fun w =>
  if !w.next q c.server.span then .err else
  (Grpc.serverStart c.isPublic c.server (Grpc.clientMetadata [] (w.ctx p c.client.span)) c.method).bind fun ops =>
  w.at q fun pr => pr.does ops

/-! ## HTTP -/

/-- A request through `Transport` and `Handler`. `hdr` is the header of the caller's request, `order` its
entries in the order the transport's loop takes them; `received` is the header the server's request has. -/
structure Call where
  clientFormat : Option Http.Format
  client : Http.Env
  req : Http.Request
  hdr : Option Nat
  order : List (Bytes × List Bytes)
  received : Wire.Header
  serverFormat : Option Http.Format
  server : Http.Env
  handler : Http.HandlerConfig
  serverReq : Http.Request

/-- What the transport does with spans before it sends the request, plugin/ochttp/client.go:68-72 and
trace.go:58-72, 88: nothing for a health check. -/
def transportOps (env : Http.Env) (req : Http.Request) : List Op :=
  if Http.isHealthEndpoint req.path then []
  else [.start env.ctxSpan env.name [.sampler env.sampler, .kind 2] env.tid env.sid,
    .addAttributes (some env.span) (Http.requestAttrs req)]

/-- The names of the headers that carry traces, in their canonical form: plugin/ochttp/propagation/b3/b3.go:28-32,
plugin/ochttp/propagation/tracecontext/propagation.go:30-37, exporter/stackdriver/propagation/http.go:32. -/
def traceHeaders : List Bytes :=
  [str "X-B3-Traceid", str "X-B3-Spanid", str "X-B3-Sampled", str "Traceparent", str "Tracestate",
   str "X-Cloud-Trace-Context"]

/-- The network brings the headers that carry traces as they were sent; it may do with the others what it
likes. Other deliveries are left out. -/
def delivered (sent received : Wire.Header) : Bool :=
  traceHeaders.all fun n => decide (GoMap.get received n = GoMap.get sent n)

/-- `Transport.RoundTrip` until the request is sent, plugin/ochttp/client.go:68-100, trace.go:55-88: the
spans, and the header that is sent. -/
def Proc.send (pr : Proc) (c : Call) : Res (Proc × Wire.Header) :=
  (pr.does (transportOps c.client c.req)).bind fun pr =>
  let sc := match pr.st.spans[c.client.span]? with
    | none => SpanContext.zero
    | some s => s.ctx
  let r := Http.transportHeader c.clientFormat pr.mem c.req c.hdr c.order sc
  .ok ({ pr with mem := r.1 }, r.1.header r.2)

/-- `Handler.ServeHTTP` until the user's handler is called, plugin/ochttp/server.go:81-140. (The code looks for
a context only when the request is no health check; looking has no effect on spans.) -/
def Proc.receive (pr : Proc) (c : Call) : Res Proc :=
  (Http.extractSpanContext c.serverFormat pr.mem c.received).bind fun r =>
  ({ pr with mem := r.1 }).does (Http.startTrace c.handler c.server c.serverReq r.2).1

/-- The request. -/
def World.http (w : World) (p q : Nat) (c : Call) : Res World :=
  if !w.next p c.client.span then .err else
  match w[p]? with
  | none => .err
  | some pr => (pr.send c).bind fun r =>
    if !delivered r.2 c.received then .err else
    if !World.next (w.set p r.1) q c.server.span then .err else
    World.at (w.set p r.1) q fun pr => pr.receive c

/-! ## Executions -/

/-- One thing that happens. -/
inductive Act where
  | own (p : Nat) (op : Op)           -- process `p` uses the trace package directly
  | rpc (p q : Nat) (c : Rpc)         -- process `p` calls process `q` over gRPC
  | http (p q : Nat) (c : Call)       -- process `p` sends process `q` an HTTP request

def World.step (w : World) : Act → Res World
  | .own p op => w.at p fun pr => pr.does [op]
  | .rpc p q c => w.rpc p q c
  | .http p q c => w.http p q c

def World.run (w : World) : List Act → Res World
  | [] => .ok w
  | a :: as => (w.step a).bind fun w => World.run w as

/-- All processes at their start; `ts` are their clocks. -/
def World.init (ts : List Int) : World := ts.map Proc.init

end Verif.Net
