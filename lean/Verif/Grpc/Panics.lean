import Verif.Basic

/-!
# Panics around the handlers of the gRPC plugin (plugin/ocgrpc)

`TagRPC` calls the sampler of the program and `HandleRPC` with an `End` event calls the program's exporters of spans. Both may panic, and the
caller (an interceptor, or a server that recovers) may go on. Programs can also call the handlers themselves, with a context that `TagRPC`
did not return, with a nil `RPCTagInfo`, or with several `End` events. The model is what has been recorded after any history of such calls.

Simplified: calls are one after the other (`Verif.Grpc.Stats` has their interleavings); method names and tags are valid; the counters do not
overflow; which of several exporters were called before the one that panics is not kept; whether a span is sampled and whether a
sampler or an exporter panics are inputs.
-/

namespace Verif.Grpc.Panics
open Verif

/-- The events of an RPC that have an effect: plugin/ocgrpc/stats_common.go:83-98, trace_common.go:84-107. Headers and trailers have
none. -/
inductive Event where
  | begin
  | out (bytes : Nat)
  | inp (bytes : Nat)
  | fin
  deriving DecidableEq, Repr

/-- What can be seen, with the context of the RPC: it was counted as started (stats_common.go:108-116), its span was given to the exporters
(trace_common.go:105), its counts were recorded (stats_common.go:168-192). -/
inductive Ev where
  | started (c : Nat)
  | exported (c : Nat)
  | completed (c : Nat) (sentBytes sentCount recvBytes recvCount : Nat)
  deriving DecidableEq, Repr

/-- `rpcData` (stats_common.go:41-51) and the span of a context that `TagRPC` returned; `ended` is the span's `endOnce` (trace/trace.go:287). -/
structure Rpc where
  sampled : Bool
  ended : Bool
  sentBytes : Nat
  sentCount : Nat
  recvBytes : Nat
  recvCount : Nat
  deriving DecidableEq, Repr

/-- The contexts that were made, by number, and what was recorded. -/
structure State where
  rpcs : List Rpc
  log : List Ev
  deriving DecidableEq, Repr

/-- Nothing yet. client.go:26-32, server.go:32-55. -/
def State.init : State := ⟨[], []⟩

/-- The calls: `TagRPC` (does it have an info, does the sampler panic, does it sample), client.go:52-56 and server.go:77-81; `HandleRPC` with a
context and an event (would an exporter panic), client.go:46-49 and server.go:71-74. A context that was not made is one without a span and without
`rpcData`. -/
inductive Op where
  | tag (info samplerPanics sampled : Bool)
  | handle (c : Nat) (e : Event) (exporterPanics : Bool)
  deriving DecidableEq, Repr

/-- `TagRPC`; true for a panic. `traceTagRPC` reads `rti.FullMethodName` (trace_common.go:37, 54) before `statsTagRPC` looks whether there is an
info (client_stats_handler.go:31, server_stats_handler.go:32); then the span is started (trace_common.go:39-41, 68-77). -/
def tagRPC (s : State) (info samplerPanics sampled : Bool) : State × Bool :=
  if !info then (s, true)
  else if samplerPanics then (s, true)
  else ({ s with rpcs := s.rpcs ++ [⟨sampled, false, 0, 0, 0, 0⟩] }, false)

/-- `span.End`: the exporters are called once, also if one panics (`sync.Once`); true for a panic. trace/trace.go:277-303. -/
def endSpan (s : State) (c : Nat) (r : Rpc) (boom : Bool) : State × Bool :=
  if r.sampled && !r.ended then (⟨s.rpcs.set c { r with ended := true }, s.log ++ [.exported c]⟩, boom) else (s, false)

/-- `handleRPCEnd`, stats_common.go:145-193. -/
def endStats (s : State) (c : Nat) (r : Rpc) : State :=
  { s with log := s.log ++ [.completed c r.sentBytes r.sentCount r.recvBytes r.recvCount] }

/-- `HandleRPC`: first `traceHandleRPC` (trace_common.go:84-107), then `statsHandleRPC` (stats_common.go:83-98); true for a panic. Without
`rpcData`, `handleRPCBegin` goes on after logging and reads through the nil pointer (stats_common.go:101-110), the others return. -/
def handleRPC (s : State) (c : Nat) (e : Event) (boom : Bool) : State × Bool :=
  match s.rpcs[c]? with
  | none => match e with
    | .begin => (s, true)
    | _ => (s, false)
  | some r => match e with
    | .begin => ({ s with log := s.log ++ [.started c] }, false)
    | .out n => ({ s with rpcs := s.rpcs.set c { r with sentBytes := r.sentBytes + n, sentCount := r.sentCount + 1 } }, false)
    | .inp n => ({ s with rpcs := s.rpcs.set c { r with recvBytes := r.recvBytes + n, recvCount := r.recvCount + 1 } }, false)
    | .fin =>
      let a := endSpan s c r boom
      if a.2 then a else (endStats a.1 c r, false)

/-- One call. client.go:46-56, server.go:71-81. -/
def step (s : State) : Op → State × Bool
  | .tag i p b => tagRPC s i p b
  | .handle c e p => handleRPC s c e p

/-- A history of calls; the second part has for each call whether it panicked. -/
def run (s : State) : List Op → State × List Bool
  | [] => (s, [])
  | o :: os =>
    let a := step s o
    let r := run a.1 os
    (r.1, a.2 :: r.2)

end Verif.Grpc.Panics
