import Verif.Basic

/-!
# Panics in what the program gives to the HTTP plugin (plugin/ochttp)

`Transport` and `Handler` call functions and interfaces of the program: span names, start options, samplers, propagation formats, client
traces, the base transport, the response's body, the handler; and exporters of spans are called by `End`. Any of them may panic, and the
program (or `net/http`, for a server) may recover. The model is what has been recorded by then.

Simplified: a request is for one host and a sampled span; what is recorded is reduced to that it was recorded. `Verif.Http.Client` and
`Verif.Http.Server` have the contents. A response without a body is in `Verif.Http.Client`.
-/

namespace Verif.Http.Panics
open Verif

/-- What can be seen: the request was counted (client_stats.go:54, server.go:165), its span started (trace.go:59, server.go:113-121), the
span was given to the exporters (`End`), the request's latency and sizes were recorded (client_stats.go:118-121, server.go:203), the body that
the base transport returned was closed (trace.go:136). -/
inductive Ev where
  | count
  | start
  | finish
  | stats
  | closed
  deriving DecidableEq, Repr

/-- `span.endOnce` (trace/trace.go:287) and `track.endOnce` (client_stats.go:101, server.go:184). -/
structure S where
  evs : List Ev
  spanDone : Bool
  statsDone : Bool
  deriving DecidableEq, Repr

/-- Nothing yet. client.go:68, server.go:81. -/
def S.init : S := ⟨[], false, false⟩

/-- Something is recorded, at the lines in `Ev`. -/
def S.say (s : S) (e : Ev) : S := { s with evs := s.evs ++ [e] }

/-- `span.End`: the exporters are called once, also if one panics (`sync.Once`); true for a panic. trace/trace.go:277-309. -/
def endSpan (exp : Bool) (s : S) : S × Bool := if s.spanDone then (s, false) else ({ s.say .finish with spanDone := true }, exp)

/-- `track.end`, client_stats.go:100-123 and server.go:183-205. -/
def endStats (s : S) : S := if s.statsDone then s else { s.say .stats with statsDone := true }

/-- What the base transport does: panic, return an error, return neither a response nor an error, return a response. trace.go:84. -/
inductive Base where
  | panics
  | err
  | nothing
  | resp
  deriving DecidableEq, Repr

/-- A `Transport` and a request: who panics, and whether the path is that of a health check. client.go:31-66. -/
structure Client where
  health : Bool
  getStartOptions : Bool
  formatSpanName : Bool
  sampler : Bool
  newClientTrace : Bool
  propagation : Bool
  base : Base
  exporter : Bool
  deriving DecidableEq, Repr

/-- How `RoundTrip` ends; `plain` is what the base returned without the plugin's trackers. -/
inductive Ret where
  | panic
  | err
  | body
  | plain
  deriving DecidableEq, Repr

/-- `RoundTrip` of `traceTransport`, trace.go:55-100, within that of `statsTransport`, client_stats.go:57-74. `base` is called with the span
started; a nil response is dereferenced at trace.go:91 (`responseAttrs`). -/
def traceRoundTrip (c : Client) (s : S) : S × Ret :=
  if c.formatSpanName || c.sampler then (s, .panic)
  else
    let s := s.say .start
    if c.newClientTrace || c.propagation then (s, .panic)
    else match c.base with
      | .panics => (s, .panic)
      | .nothing => (s, .panic)
      | .err => let (s, p) := endSpan c.exporter s; if p then (s, .panic) else (endStats s, .err)
      | .resp => (s, .body)

/-- `Transport.RoundTrip`, client.go:68-100, and the beginning of `statsTransport.RoundTrip`, client_stats.go:35-54. -/
def roundTrip (c : Client) : S × Ret :=
  if c.health then (S.init, if c.base = .panics then .panic else .plain)
  else if c.getStartOptions then (S.init, .panic)
  else traceRoundTrip c (S.init.say .count)

/-- A call on the body of the response, with what the body of the base transport does. -/
inductive Use where
  /-- `Read` gives data -/
  | data
  /-- `Read` gives `io.EOF` -/
  | eof
  /-- `Read` gives another error -/
  | fail
  /-- `Read` panics, or the error's `Error` does (trace.go:125) -/
  | readPanics
  /-- `Close`, which may panic -/
  | close (panics : Bool)
  deriving DecidableEq, Repr

/-- `tracker.Read` and `tracker.Close`, client_stats.go:125-143, around `bodyTracker.Read` and `bodyTracker.Close`, trace.go:112-137; true for a
panic. -/
def use (exp : Bool) (s : S) : Use → S × Bool
  | .data => (s, false)
  | .fail => (s, false)
  | .readPanics => (s, true)
  | .eof => let (s, p) := endSpan exp s; if p then (s, true) else (endStats s, false)
  | .close panics => let (s, p) := endSpan exp (endStats s); if p then (s, true) else (s.say .closed, panics)

/-- The body is used, panics being recovered from. client_stats.go and trace.go as in `use`. -/
def useAll (exp : Bool) (s : S) : List Use → S
  | [] => s
  | u :: us => useAll exp (use exp s u).1 us

/-- A request, and what is done with the body if there is one. client.go:68-100. -/
def client (c : Client) (us : List Use) : S := match roundTrip c with
  | (s, .body) => useAll c.exporter s us
  | (s, _) => s

/-- A `Handler` and a request: who panics; `health`: the path is that of a health check, or `IsHealthEndpoint` says so. server.go:44-79. -/
structure Server where
  isHealthEndpoint : Bool
  health : Bool
  formatSpanName : Bool
  getStartOptions : Bool
  propagation : Bool
  sampler : Bool
  handler : Bool
  exporter : Bool
  deriving DecidableEq, Repr

/-- `ServeHTTP`, server.go:81-93, with `startTrace` (95-140) and `startStats` (149-167); the deferred functions run last in, first out, also
in a panic; true for a panic. -/
def serve (c : Server) : S × Bool :=
  if c.isHealthEndpoint then (S.init, true)
  else if c.health then (endStats (S.init.say .count), c.handler)
  else if c.formatSpanName || c.getStartOptions || c.propagation || c.sampler then (S.init, true)
  else
    let s := (S.init.say .start).say .count
    let (s, p) := endSpan c.exporter (endStats s)
    (s, c.handler || p)

end Verif.Http.Panics
