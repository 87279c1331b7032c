import Verif.Http.Status
import Verif.Http.Writer

/-!
# The HTTP client transport (plugin/ochttp/client.go, client_stats.go, trace.go)

`Transport.RoundTrip` wraps the base transport in a `traceTransport` and that in a `statsTransport`, so a
response body is a `tracker` around a `bodyTracker` around the base's body. The two wrappers are one
record `Body`. What the base returns is an input. Each method is split in the steps other goroutines can
interleave with: a call on the base, a span operation, the addition to the byte counter, and `endOnce.Do`
(whose body runs once and completely before any other `Do` returns, sync.Once). The addition
`t.respSize += n` is not atomic in Go; it is one step here, so concurrent `Read` calls, which race on it,
are idealised. Not modelled: the latency values, the propagation headers (`Verif.Props.Headers`),
`NewClientTrace`, `CancelRequest`, a panicking base.
-/

namespace Verif.Http
open Verif Verif.Trace

/-- The parts of `*http.Request` the transport looks at. -/
structure Request where
  host : Bytes
  path : Bytes
  url : Bytes
  method : Bytes
  userAgent : Bytes
  bodyNil : Bool                -- Body == nil (for a server: or Body == http.NoBody)
  contentLength : Int

/-- The parts of `*http.Response` the transport looks at. -/
structure Response where
  statusCode : Int
  contentLength : Int
  bodyNil : Bool

/-- What the base transport returns. -/
inductive BaseResult where
  | err (msg : Bytes)
  | resp (r : Response)

/-- `requestAttrs`, plugin/ochttp/trace.go:153-169. -/
def requestAttrs (r : Request) : List Attribute :=
  [⟨str "http.path", r.path⟩, ⟨str "http.url", r.url⟩, ⟨str "http.host", r.host⟩, ⟨str "http.method", r.method⟩] ++
    if r.userAgent ≠ [] then [⟨str "http.user_agent", r.userAgent⟩] else []

/-- `Int64Attribute(StatusCodeAttribute, code)`, plugin/ochttp/trace.go:171-175, server.go:191. Attribute
values are opaque in the model: this one is represented by its decimal digits. -/
def statusAttr (c : Int) : List Attribute := [⟨str "http.status_code", itoa c⟩]

/-- The configuration of one request: the tags and the span of the request's context, the sampler option,
the span's name, what the ID generator returns, the index the new span gets, and the iteration order of
the attribute map at its end. -/
structure Env where
  tags : Tags
  ctxSpan : Option Nat
  sampler : Option Sampler
  name : Bytes
  tid : Bytes
  sid : Bytes
  span : Nat
  order : List Bytes

/-- `tracker` (plugin/ochttp/client_stats.go:87-96) around `bodyTracker` (trace.go:105-108), and what has
been done so far. -/
structure Body where
  tags : Tags
  reqSize : Int
  respSize : Int
  respContentLength : Int
  statusCode : Int
  ended : Bool                  -- endOnce
  span : Nat
  order : List Bytes
  bodyNil : Bool                -- bt.rc is nil
  log : List Ev

/-- Appends to the log. -/
def Body.emit (b : Body) (l : List Ev) : Body := { b with log := b.log ++ l }

/-- The measurements of `tracker.end`, plugin/ochttp/client_stats.go:103-116. -/
def Body.measurements (b : Body) : List Meas :=
  let respSize := if b.respSize = 0 ∧ b.respContentLength > 0 then b.respContentLength else b.respSize
  [⟨.clientSentBytes, some b.reqSize⟩, ⟨.clientReceivedBytes, some respSize⟩, ⟨.clientRoundtripLatency, none⟩,
   ⟨.clientLatency, none⟩, ⟨.clientResponseBytes, some b.respSize⟩] ++
    if b.reqSize ≥ 0 then [⟨.clientRequestBytes, some b.reqSize⟩] else []

/-- `tracker.end`, plugin/ochttp/client_stats.go:100-123. -/
def Body.finish (b : Body) : Body :=
  if b.ended then b
  else { b.emit (recordWithTags b.tags
    [(str "http.status", itoa b.statusCode), (str "http_client_status", itoa b.statusCode)] b.measurements)
    with ended := true }

/-- `span.End()`. -/
def Body.endSpan (b : Body) : Body := b.emit [.trace (.endSpan (some b.span) b.order)]

/-- The error a body returns: nil, io.EOF or another one with its message. -/
inductive IoErr where
  | nil
  | eof
  | other (msg : Bytes)
  deriving DecidableEq, Repr

/-- What `bodyTracker.Read` does after the base's `Read` returned, plugin/ochttp/trace.go:115-127. -/
def Body.traceRead (b : Body) : IoErr → Body
  | .nil => b
  | .eof => b.endSpan
  | .other msg => b.emit [.trace (.setStatus (some b.span) ⟨2, msg⟩)]

/-- `t.respSize += int64(n)`, plugin/ochttp/client_stats.go:127. -/
def Body.count (b : Body) (n : Int) : Body := { b with respSize := wrap64 (b.respSize + n) }

/-- The switch of `tracker.Read`, plugin/ochttp/client_stats.go:128-134. -/
def Body.statsRead (b : Body) (e : IoErr) : Body := if e = .eof then b.finish else b

/-- `tracker.Read`, plugin/ochttp/client_stats.go:125-135, with `bodyTracker.Read`, trace.go:112-129,
inside. `n` and `e` are what the base's body returns. -/
def Body.read (b : Body) (n : Int) (e : IoErr) : Res (Body × Int × IoErr) :=
  if b.bodyNil then .panic                                    -- bt.rc.Read on a nil interface
  else .ok ((((b.emit [.read]).traceRead e).count n).statsRead e, n, e)

/-- `tracker.Close`, plugin/ochttp/client_stats.go:137-143, with `bodyTracker.Close`, trace.go:131-137,
inside. -/
def Body.close (b : Body) (e : IoErr) : Res (Body × IoErr) :=
  if b.bodyNil then .panic                                    -- bt.rc.Close on a nil interface
  else .ok ((b.finish.endSpan).emit [.close], e)

/-- `statsTransport.RoundTrip` around `traceTransport.RoundTrip`, plugin/ochttp/client_stats.go:35-75 and
trace.go:55-100: the body returned to the caller, if there is a response, and the log.
`traceTransport` returns a non-nil body for every response, so the branch client_stats.go:67-68 is not
taken. -/
def roundTrip (env : Env) (req : Request) (res : BaseResult) : Body × Bool :=
  let tags := (tagNew env.tags [(str "http_client_host", req.host), (str "http.host", req.host),
    (str "http_client_path", req.path), (str "http.path", req.path),
    (str "http_client_method", req.method), (str "http.method", req.method)]).getD env.tags
  let reqSize := if req.bodyNil then -1 else if req.contentLength > 0 then req.contentLength else 0
  let b : Body := ⟨tags, reqSize, 0, 0, 0, false, env.span, env.order, false, []⟩
  let b := b.emit (record tags [⟨.clientRequestCount, some 1⟩])
  let b := b.emit [.trace (.start env.ctxSpan env.name [.sampler env.sampler, .kind 2] env.tid env.sid),
    .trace (.addAttributes (some env.span) (requestAttrs req)), .roundTrip]
  match res with
  | .err msg =>
    let b := (b.emit [.trace (.setStatus (some env.span) ⟨2, msg⟩)]).endSpan
    ({ b with statusCode := 500 }.finish, false)
  | .resp r =>
    let b := b.emit [.trace (.addAttributes (some env.span) (statusAttr r.statusCode)),
      .trace (.setStatus (some env.span) (traceStatus r.statusCode))]
    ({ b with
        statusCode := r.statusCode
        respContentLength := if req.method ≠ str "HEAD" then r.contentLength else 0
        bodyNil := r.bodyNil }, true)

/-- `Transport.RoundTrip`, plugin/ochttp/client.go:68-100: `none` when the request goes to the base
directly and the response is returned as it is. -/
def transport (env : Env) (req : Request) (res : BaseResult) : Option (Body × Bool) :=
  if isHealthEndpoint req.path then none else some (roundTrip env req res)

/-! ## Using the body from one goroutine -/

/-- A call by the user, with what the base's body answers. -/
inductive Call where
  | read (n : Int) (e : IoErr)
  | close (e : IoErr)
  deriving DecidableEq, Repr

/-- What the user gets back. -/
inductive Ret where
  | read (n : Int) (e : IoErr)
  | close (e : IoErr)
  deriving DecidableEq, Repr

def Body.call (b : Body) : Call → Res (Body × Ret)
  | .read n e => (b.read n e).bind fun r => .ok (r.1, .read r.2.1 r.2.2)
  | .close e => (b.close e).bind fun r => .ok (r.1, .close r.2)

/-- A sequence of calls, and what they return. -/
def Body.calls (b : Body) : List Call → Res (Body × List Ret)
  | [] => .ok (b, [])
  | c :: cs => (b.call c).bind fun r => (r.1.calls cs).bind fun r' => .ok (r'.1, r.2 :: r'.2)

/-! ## Using the body from several goroutines -/

/-- Where a call is. -/
inductive PC where
  | reading                         -- in the base's Read
  | gotRead (n : Int) (e : IoErr)   -- the base's Read returned
  | traced (n : Int) (e : IoErr)    -- bodyTracker.Read returned
  | counted (n : Int) (e : IoErr)   -- respSize updated
  | closing                         -- tracker.Close called
  | finished                        -- t.end() returned
  | spanEnded                       -- bt.span.End() returned
  | done (r : Ret)
  deriving DecidableEq, Repr

/-- The body and all the calls made so far. -/
structure Conc where
  body : Body
  calls : List PC

/-- A step of the world: a new call, or call `i` takes its next step; `n` and `e` are used where the base
answers. -/
inductive Act where
  | newRead
  | newClose
  | step (i : Nat) (n : Int) (e : IoErr)

/-- The next step of a call. -/
def PC.next (b : Body) (n : Int) (e : IoErr) : PC → Option (Body × PC)
  | .reading => some (b.emit [.read], .gotRead n e)
  | .gotRead n e => some (b.traceRead e, .traced n e)
  | .traced n e => some (b.count n, .counted n e)
  | .counted n e => some (b.statsRead e, .done (.read n e))
  | .closing => some (b.finish, .finished)
  | .finished => some (b.endSpan, .spanEnded)
  | .spanEnded => some (b.emit [.close], .done (.close e))
  | .done _ => none

def Conc.step (s : Conc) : Act → Option Conc
  | .newRead => some { s with calls := s.calls ++ [.reading] }
  | .newClose => some { s with calls := s.calls ++ [.closing] }
  | .step i n e => match s.calls[i]? with
    | none => none
    | some pc => (pc.next s.body n e).map fun r => { body := r.1, calls := s.calls.set i r.2 }

/-- A schedule; actions that are not enabled do nothing. -/
def Conc.run (s : Conc) : List Act → Conc
  | [] => s
  | a :: as => ((s.step a).getD s).run as

end Verif.Http
