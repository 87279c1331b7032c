import Verif.Plugins.GrpcReport

/-!
# The exemplar attachments of the gRPC plugin
-/

namespace Verif.Plugins.Grpc
open Verif Verif.View

/-- A `SpanContext` as the value of an attachment. Attachment values are bytes in the model: the trace ID, the span ID and the
options; the tracestate is left out. -/
def attachedContext (sc : Trace.SpanContext) : Bytes :=
  sc.traceID ++ sc.spanID ++ [sc.opts.toNat.toUInt8, (sc.opts.toNat / 256).toUInt8, (sc.opts.toNat / 65536).toUInt8,
    (sc.opts.toNat / 16777216).toUInt8]

/-- `getSpanCtxAttachment`, plugin/ocgrpc/stats_common.go:237-248; `span` is the context of the span in `ctx`, if there is
one. -/
def getSpanCtxAttachment (span : Option Trace.SpanContext) : Attachments :=
  match span with
  | none => []
  | some sc => if sc.isSampled then [(str "SpanContext", attachedContext sc)] else []

/-- The command the worker gets for a record of an RPC: only `handleRPCEnd` (plugin/ocgrpc/stats_common.go:166-192), which has a
latency among the measurements, gives attachments; `handleRPCBegin` (108-116) gives none. -/
def rpcCommand (now : Int) (span : Option Trace.SpanContext) (latency : Verif.Grpc.Measure → F64)
    (x : Tag.TMap × List Verif.Grpc.Meas) : Cmd :=
  command now (if x.2.any fun m => m.value.isNone then getSpanCtxAttachment span else []) latency x

end Verif.Plugins.Grpc
