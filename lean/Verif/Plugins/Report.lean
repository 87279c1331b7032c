import Verif.Plugins.Views
import Verif.Http.Client

/-!
# From a `stats.Record` call of the HTTP plugin to the command the view worker gets
-/

namespace Verif.Plugins.Http
open Verif Verif.Tag Verif.Stats Verif.View

/-- The measure objects, plugin/ochttp/stats.go:25-84. -/
def measureOf : Verif.Http.Measure → Measure
  | .clientRequestCount => clientRequestCount
  | .clientRequestBytes => clientRequestBytes
  | .clientResponseBytes => clientResponseBytes
  | .clientLatency => clientLatency
  | .clientSentBytes => clientSentBytes
  | .clientReceivedBytes => clientReceivedBytes
  | .clientRoundtripLatency => clientRoundtripLatency
  | .serverRequestCount => serverRequestCount
  | .serverRequestBytes => serverRequestBytes
  | .serverResponseBytes => serverResponseBytes
  | .serverLatency => serverLatency

/-- `measure.M(value)`, stats/measure_int64.go:24-30, stats/measure_float64.go:24-30. The latencies are whatever
`latency` says. -/
def measurement (latency : Verif.Http.Measure → F64) (x : Verif.Http.Meas) : Measurement :=
  match x.value with
  | some v => int64M (measureOf x.measure) v
  | none => ⟨latency x.measure, measureOf x.measure⟩

/-- The tag map of a context, from the values by key name; the metadata is whatever `md` says. -/
def tagMap (md : Bytes → Metadatas) (t : Verif.Http.Tags) : TMap := t.map fun e => (⟨e.1⟩, ⟨e.2, md e.1⟩)

/-- `stats.Record(ctx, ms...)`, stats/record.go:93-117, as the worker gets it (`recordReq`,
stats/view/worker.go:226-246, worker_commands.go:144-159) at time `now`. The call sends nothing when no view uses any
of its measures; the command would then have no effect (`Verif.Props.Recording`). The plugin gives no attachments. -/
def command (now : Int) (md : Bytes → Metadatas) (latency : Verif.Http.Measure → F64)
    (x : Verif.Http.Tags × List Verif.Http.Meas) : Cmd :=
  .record now ⟨some (tagMap md x.1), x.2.map fun m => some (measurement latency m), []⟩

end Verif.Plugins.Http
