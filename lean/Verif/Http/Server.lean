import Verif.Http.Client

/-!
# The HTTP server handler (plugin/ochttp/server.go, route.go)

`Handler.ServeHTTP` around a user handler. The user handler is the list of the calls it makes on the
response writer and of its `SetRoute` calls, with what the writer below answers, and whether it returns or
panics in the end; the deferred functions run in both cases. What the propagation format extracts from the
request is an input (`Verif.Props.Headers`, `Verif.Props.TraceContext`). Calls of `Flush`, `Push`,
`Hijack` and `CloseNotify` go to the original writer (`wrappedResponseWriter`) and are not repeated here.
Handlers that write from several goroutines are not modelled (`http.ResponseWriter` does not allow it).
Not modelled: latency values, `http.DefaultServeMux`, panics in the user's hooks.
-/

namespace Verif.Http
open Verif Verif.Trace

/-- `Handler`, plugin/ochttp/server.go:36-79: the fields that matter here. The sampler and the span name
are in `Env`. -/
structure HandlerConfig where
  isPublic : Bool
  isHealth : Option (Request → Bool)

/-- A call the user handler makes. -/
inductive HOp where
  | write (n : Int) (e : IoErr)     -- w.Write(...), the writer below returns n, e
  | writeHeader (c : Int)
  | readFrom (n : Int) (e : IoErr)  -- w.(io.ReaderFrom).ReadFrom(...), when the writer below has it
  | setRoute (route : Bytes)
  deriving DecidableEq, Repr

/-- What the user handler gets back. -/
inductive HRet where
  | none
  | io (n : Int) (e : IoErr)
  deriving DecidableEq, Repr

/-- `Handler.startTrace`, plugin/ochttp/server.go:95-140: the span operations, and the span in the new
request's context, which is also the span the returned function ends. -/
def startTrace (cfg : HandlerConfig) (env : Env) (req : Request) (extracted : Option SpanContext) :
    List Op × Option Nat :=
  if (match cfg.isHealth with | some f => f req | none => false) || isHealthEndpoint req.path then ([], none)
  else
    let start := match extracted, cfg.isPublic with
      | some sc, false => [Op.startRemote sc env.name [.sampler env.sampler, .kind 1] env.tid env.sid]
      | some sc, true => [.start env.ctxSpan env.name [.sampler env.sampler, .kind 1] env.tid env.sid,
          .addLink (some env.span) ⟨sc.traceID, sc.spanID, 2, none⟩]
      | none, _ => [.start env.ctxSpan env.name [.sampler env.sampler, .kind 1] env.tid env.sid]
    (start ++ [.addAttributes (some env.span) (requestAttrs req)] ++
      if req.bodyNil then []
      else if req.contentLength > 0 then [.addMessageEvent (some env.span) .recv 0 req.contentLength (-1)]
      else [], some env.span)

/-- `trackingResponseWriter`, plugin/ochttp/server.go:169-178, and the tags added to the request's
context (route.go:59-61). `span` is the span of `t.ctx`. -/
structure Writer where
  tags : Tags
  reqSize : Int
  respSize : Int
  statusCode : Int
  ended : Bool
  span : Option Nat
  added : List (Bytes × Bytes)
  log : List Ev

/-- Appends to the log. -/
def Writer.emit (w : Writer) (l : List Ev) : Writer := { w with log := w.log ++ l }

/-- `Handler.startStats`, plugin/ochttp/server.go:149-167. `span` is the span in the request's context. -/
def startStats (env : Env) (req : Request) (span : Option Nat) (log : List Ev) : Writer :=
  let tags := (tagNew env.tags [(str "http.host", req.host), (str "http.path", req.path),
    (str "http.method", req.method)]).getD env.tags
  let reqSize := if req.bodyNil then -1 else if req.contentLength > 0 then req.contentLength else 0
  (⟨tags, reqSize, 0, 0, false, span, [], log⟩ : Writer).emit (record tags [⟨.serverRequestCount, some 1⟩])

/-- The calls of the user handler: `Write` (server.go:211-218), `WriteHeader` (220-224), `ReadFrom` on the
embedded original writer (232-455), `SetRoute` (route.go:27-31). -/
def Writer.step (w : Writer) : HOp → Writer × HRet
  | .write n e =>
    ({ w.emit [.write n, .trace (.addMessageEvent w.span .sent 0 n (-1))] with
        respSize := wrap64 (w.respSize + n) }, .io n e)
  | .writeHeader c => ({ w.emit [.writeHeader c] with statusCode := c }, .none)
  | .readFrom n e => (w.emit [.readFrom n], .io n e)
  | .setRoute route => ({ w with added := w.added ++ [(str "http_server_route", route)] }, .none)

/-- The handler's calls, and what they return. -/
def Writer.steps (w : Writer) : List HOp → Writer × List HRet
  | [] => (w, [])
  | op :: ops =>
    let (w, r) := w.step op
    let (w, rs) := w.steps ops
    (w, r :: rs)

/-- The measurements of `trackingResponseWriter.end`, plugin/ochttp/server.go:193-199. -/
def Writer.measurements (w : Writer) : List Meas :=
  [⟨.serverLatency, none⟩, ⟨.serverResponseBytes, some w.respSize⟩] ++
    if w.reqSize ≥ 0 then [⟨.serverRequestBytes, some w.reqSize⟩] else []

/-- `trackingResponseWriter.end`, plugin/ochttp/server.go:183-205. -/
def Writer.finish (w : Writer) : Writer :=
  if w.ended then w
  else
    let w := if w.statusCode = 0 then { w with statusCode := 200 } else w
    let w := w.emit [.trace (.setStatus w.span (traceStatus w.statusCode)),
      .trace (.addAttributes w.span (statusAttr w.statusCode))]
    { w.emit (recordWithTags w.tags ((str "http.status", itoa w.statusCode) :: w.added) w.measurements)
      with ended := true }

/-- `Handler.ServeHTTP`, plugin/ochttp/server.go:81-93. The deferred functions run in the reverse order,
when the user handler returns and when it panics; `panics` is what the handler does, and the second
component whether `ServeHTTP` panics. -/
def serveHTTP (cfg : HandlerConfig) (env : Env) (req : Request) (extracted : Option SpanContext)
    (ops : List HOp) (panics : Bool) : Writer × List HRet × Bool :=
  let (traceOps, span) := startTrace cfg env req extracted
  let ctxSpan := if span.isSome then span else env.ctxSpan
  let w := startStats env req ctxSpan (traceOps.map .trace)
  let (w, rets) := w.steps ops
  let w := w.finish                                            -- defer statsEnd(&tags)
  let w := match span with                                     -- defer traceEnd()
    | some i => w.emit [.trace (.endSpan (some i) env.order)]
    | none => w
  (w, rets, panics)

end Verif.Http
