import Verif.Http.Status

/-!
# Giving up requests (`CancelRequest` and contexts, plugin/ochttp/client.go, client_stats.go, trace.go)

A request is an object: `CancelRequest` is given a pointer. The pointer is the index in the list of all requests, and
`WithContext` makes a new one. A context is the chain from it to the root; only those made by `WithCancel` and the like can be
cancelled, the others carry a value.

What is below the transports of the package is not in the repository. It is modelled as net/http documents it: a base transport
gives up a request that it is handling when the context of the request it was given is cancelled, when its `Cancel` channel is closed,
and, if it has the method, when `CancelRequest` is called with the pointer it was given.
-/

namespace Verif.Http.Cancel
open Verif Verif.Http

/-- A node in the chain of a context. -/
inductive Node where
  | value
  | cancel (c : Nat)
  deriving DecidableEq

/-- The parts of an `http.Request` that matter here. -/
structure Req where
  path : Bytes
  ctx : List Node
  chan : Option Nat
  deriving DecidableEq

/-- A `http.RoundTripper`: one that is not of this package, which may have the method `CancelRequest`, or a `Transport` of this package
on another one. `traces` is whether `NewClientTrace` is set. -/
inductive RT where
  | base (b : Nat) (canceler : Bool)
  | transport (traces : Bool) (inner : RT)
  deriving DecidableEq

/-- `req.WithContext(ctx)` of net/http: a shallow copy, here with `n` values added to the context. -/
def withValues (n : Nat) (r : Req) : Req := { r with ctx := List.replicate n .value ++ r.ctx }

/-- `(statsTransport).RoundTrip` up to line 54, plugin/ochttp/client_stats.go:35-54: the request handed on. `tag.New` adds one value. -/
def stats (reqs : List Req) (r : Req) : List Req × Req :=
  let r' := withValues 1 r
  (reqs ++ [r'], r')

/-- `(*traceTransport).RoundTrip` up to line 85, plugin/ochttp/trace.go:55-85. `StartSpan` adds the span, `WithClientTrace` the hooks. The
execution tracer's task (trace/trace_go11.go) is another value, when it is on; left out. Headers are in `Http/Propagate`. -/
def trace (traces : Bool) (reqs : List Req) (r : Req) : List Req × Req :=
  let r' := withValues (if traces then 2 else 1) r
  (reqs ++ [r'], r')

/-- `(*Transport).RoundTrip`, plugin/ochttp/client.go:68-100, down to the base transport: the base, and the request it is given. -/
def send (reqs : List Req) (i : Nat) (r : Req) : RT → List Req × Nat × Req × Nat
  | .base b _ => (reqs, i, r, b)
  | .transport traces inner =>
    if isHealthEndpoint r.path then send reqs i r inner
    else
      let (reqs, r) := stats reqs r
      let (reqs, r) := trace traces reqs r
      send reqs (reqs.length - 1) r inner

/-- `CancelRequest` of a `RoundTripper` that has it: the base that is asked. plugin/ochttp/client.go:110-117; `traceTransport`'s
(trace.go:134-141) is never called. -/
def cancels : RT → Option Nat
  | .base b canceler => if canceler then some b else none
  | .transport _ inner => cancels inner

/-- How a request goes that a base was given. -/
inductive Status where
  | running
  | givenUp
  | finished
  deriving DecidableEq

/-- A request that base `base` was given. `req` is the pointer. -/
structure Flight where
  base : Nat
  req : Nat
  ctx : List Node
  chan : Option Nat
  status : Status
  deriving DecidableEq

structure St where
  /-- all requests, made by the caller or by `WithContext` -/
  reqs : List Req
  /-- the caller's, as pointers -/
  own : List Nat
  flights : List Flight
  cancelled : List Nat
  closed : List Nat

def init : St := ⟨[], [], [], [], []⟩

/-- What callers do, in whatever goroutine, and how requests finish. -/
inductive Op where
  /-- a caller makes a request -/
  | make (r : Req)
  /-- `RoundTrip` of `t` with the caller's `h`-th request -/
  | roundTrip (t : RT) (h : Nat)
  /-- `CancelRequest` of `t` with the caller's `h`-th request -/
  | cancelRequest (t : RT) (h : Nat)
  /-- `CancelRequest` of `t` with `resp.Request` of the response to the `n`-th call of `RoundTrip` -/
  | cancelResponse (t : RT) (n : Nat)
  /-- a context is cancelled, or its deadline passes -/
  | cancel (c : Nat)
  /-- the channel is closed -/
  | close (k : Nat)
  /-- the base has done with the `n`-th -/
  | finish (n : Nat)
  deriving DecidableEq

def Flight.giveUp (f : Flight) : Flight := if f.status = .running then { f with status := .givenUp } else f

/-- Base `b` is asked to cancel the request at this pointer. -/
def St.cancelAt (s : St) (b p : Nat) : St :=
  { s with flights := s.flights.map fun f => if f.base = b ∧ f.req = p then f.giveUp else f }

/-- Whether a request is over before it begins (net/http: `Transport.roundTrip` looks at the context and the channel first). -/
def St.gone (s : St) (r : Req) : Bool := (r.ctx.any fun x => match x with | .cancel c => decide (c ∈ s.cancelled) | .value => false) ||
  (match r.chan with | some k => decide (k ∈ s.closed) | none => false)

/-- The world of the callers and the bases (no Go code: what `net/http` does with what plugin/ochttp hands it). -/
def step (s : St) : Op → St
  | .make r => { s with reqs := s.reqs ++ [r], own := s.own ++ [s.reqs.length] }
  | .roundTrip t h => match s.own[h]? with
    | none => s
    | some i => match s.reqs[i]? with
      | none => s
      | some r =>
        let (reqs, j, r, b) := send s.reqs i r t
        { s with reqs := reqs, flights := s.flights ++ [⟨b, j, r.ctx, r.chan, if s.gone r then .givenUp else .running⟩] }
  | .cancelRequest t h => match s.own[h]?, cancels t with
    | some i, some b => s.cancelAt b i
    | _, _ => s
  | .cancelResponse t n => match s.flights[n]?, cancels t with
    | some f, some b => s.cancelAt b f.req
    | _, _ => s
  | .cancel c => { s with
      cancelled := c :: s.cancelled
      flights := s.flights.map fun f => if .cancel c ∈ f.ctx then f.giveUp else f }
  | .close k => { s with
      closed := k :: s.closed
      flights := s.flights.map fun f => if f.chan = some k then f.giveUp else f }
  | .finish n => { s with flights := s.flights.modify n fun f => if f.status = .running then { f with status := .finished } else f }

def run (s : St) : List Op → St
  | [] => s
  | o :: os => run (step s o) os

end Verif.Http.Cancel
