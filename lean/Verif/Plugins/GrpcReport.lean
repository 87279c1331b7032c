import Verif.Plugins.Views

/-!
# From a record of the gRPC plugin to the command the view worker gets
-/

namespace Verif.Plugins.Grpc
open Verif Verif.Tag Verif.Stats Verif.View

/-- The measure objects, plugin/ocgrpc/client_metrics.go:25-33, server_metrics.go:25-32. -/
def measureOf : Verif.Grpc.Measure → Measure
  | .clientSentMessages => clientSentMessagesPerRPC
  | .clientSentBytes => clientSentBytesPerRPC
  | .clientReceivedMessages => clientReceivedMessagesPerRPC
  | .clientReceivedBytes => clientReceivedBytesPerRPC
  | .clientRoundtripLatency => clientRoundtripLatency
  | .clientStarted => clientStartedRPCs
  | .serverSentMessages => serverSentMessagesPerRPC
  | .serverSentBytes => serverSentBytesPerRPC
  | .serverReceivedMessages => serverReceivedMessagesPerRPC
  | .serverReceivedBytes => serverReceivedBytesPerRPC
  | .serverLatency => serverLatency
  | .serverStarted => serverStartedRPCs

/-- `measure.M(value)`, stats/measure_int64.go:24-30, stats/measure_float64.go:24-30. The latencies are whatever
`latency` says. -/
def measurement (latency : Verif.Grpc.Measure → F64) (x : Verif.Grpc.Meas) : Measurement :=
  match x.value with
  | some v => int64M (measureOf x.measure) v
  | none => ⟨latency x.measure, measureOf x.measure⟩

/-- `stats.RecordWithOptions`, stats/record.go:128-161, as the worker gets it (`recordReq`, stats/view/worker.go:226-246,
worker_commands.go:144-159) at time `now`. The call sends nothing when no view uses any of its measures; the command
would then have no effect (`Verif.Props.Recording`). The attachments (`getSpanCtxAttachment`,
plugin/ocgrpc/stats_common.go:237-248) are whatever `att` says. -/
def command (now : Int) (att : Attachments) (latency : Verif.Grpc.Measure → F64)
    (x : TMap × List Verif.Grpc.Meas) : Cmd :=
  .record now ⟨some x.1, x.2.map fun m => some (measurement latency m), att⟩

end Verif.Plugins.Grpc
