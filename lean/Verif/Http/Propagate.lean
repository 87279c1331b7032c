import Verif.Http.Server
import Verif.Wire.Stackdriver
import Verif.Wire.TraceContext

/-!
# The trace headers of a request (plugin/ochttp/client.go, trace.go, server.go)

`Verif.Http.Client` leaves the headers out. Here the transport puts the context of its span into them and
the handler takes it out. A header is a map in memory: the caller of `RoundTrip` keeps a pointer to it.
Values of a header are slices; the code modelled here never writes to an element of one (`Header.Set`
stores a new slice), so they are values. A tracestate is a pointer, too; its entries do not change
once it is made (`Verif.Wire.Tracestate`).
-/

namespace Verif.Http
open Verif Verif.Trace

/-- The formats of this repository: plugin/ochttp/propagation/b3/b3.go,
plugin/ochttp/propagation/tracecontext/propagation.go, exporter/stackdriver/propagation/http.go. -/
inductive Format where
  | b3
  | tracecontext
  | stackdriver
  deriving DecidableEq, Repr

/-- `SpanContextToRequest` of the interface `HTTPFormat`, trace/propagation/propagation.go:103-106. -/
def Format.inject : Format → Wire.Ctx → Wire.Header → Wire.Header
  | .b3 => Wire.b3ToRequest
  | .tracecontext => Wire.tcToRequest
  | .stackdriver => Wire.sdToRequest

/-- `SpanContextFromRequest`; `.err` is `ok == false`. -/
def Format.extract : Format → Wire.Header → Res Wire.Ctx
  | .b3, h => Wire.b3FromRequest h
  | .tracecontext, h => Wire.tcFromRequest h
  | .stackdriver, h => match Wire.sdFromRequest h with
    | some sc => .ok sc
    | none => .err

/-- `defaultFormat`, plugin/ochttp/trace.go:29, and its use when `Propagation` is nil, client.go:74-77,
server.go:142-147. -/
def Format.orDefault : Option Format → Format
  | none => .b3
  | some f => f

/-- The maps behind the headers, and the tracestates. -/
structure Mem where
  headers : List Wire.Header
  states : List (List Wire.Entry)

/-- The contents of a header, which may be nil. -/
def Mem.header (m : Mem) : Option Nat → Wire.Header
  | none => []
  | some a => (m.headers[a]?).getD []

/-- A span context with the tracestate its pointer leads to. -/
def Mem.toWire (m : Mem) (sc : SpanContext) : Wire.Ctx :=
  ⟨sc.traceID, sc.spanID, sc.opts, sc.tracestate.bind fun p => m.states[p]?⟩

/-- A decoded span context: a tracestate it has is a new one. -/
def Mem.ofWire (m : Mem) (sc : Wire.Ctx) : Mem × SpanContext :=
  match sc.tracestate with
  | none => (m, ⟨sc.traceID, sc.spanID, sc.opts, none⟩)
  | some l => ({ m with states := m.states ++ [l] }, ⟨sc.traceID, sc.spanID, sc.opts, some m.states.length⟩)

/-- The copy of a header, plugin/ochttp/trace.go:79-82, the loop taking the entries in the order `order`. -/
def copyHeader (order : List (Bytes × List Bytes)) : Wire.Header :=
  order.foldl (fun (h : Wire.Header) kv => GoMap.set h kv.1 kv.2) []

/-- plugin/ochttp/trace.go:73-86: a copy of the header,
and the span's context written to it. `hdr` is the header of the caller's request; the result is the header
of the request that goes to the base. (`t.format` is never nil: `Format.orDefault`.) -/
def sendHeader (f : Format) (m : Mem) (order : List (Bytes × List Bytes)) (sc : SpanContext) : Mem × Option Nat :=
  let a := m.headers.length
  let m := { m with headers := m.headers ++ [copyHeader order] }
  ({ m with headers := m.headers.modify a (f.inject (m.toWire sc)) }, some a)

/-- The header of the request `Transport.RoundTrip` gives to its base, plugin/ochttp/client.go:68-100. `sc` is
the context of the span it starts. -/
def transportHeader (propagation : Option Format) (m : Mem) (req : Request) (hdr : Option Nat)
    (order : List (Bytes × List Bytes)) (sc : SpanContext) : Mem × Option Nat :=
  if isHealthEndpoint req.path then (m, hdr) else sendHeader (.orDefault propagation) m order sc

/-- `Handler.extractSpanContext`, plugin/ochttp/server.go:142-147. -/
def extractSpanContext (propagation : Option Format) (m : Mem) (h : Wire.Header) : Res (Mem × Option SpanContext) :=
  match (Format.orDefault propagation).extract h with
  | .ok sc => .ok ((m.ofWire sc).1, some (m.ofWire sc).2)
  | .err => .ok (m, none)
  | .panic => .panic

end Verif.Http
