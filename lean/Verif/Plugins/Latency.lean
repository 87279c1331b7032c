import Verif.Plugins.Views

/-!
# The latency the plugins record
-/

namespace Verif.Plugins
open Verif

/-- `float64(time.Since(start)) / float64(time.Millisecond)`, plugin/ochttp/client_stats.go:102, server.go:194,
plugin/ocgrpc/stats_common.go:154, 166: the elapsed time is an `int64` of nanoseconds, both conversions round. -/
def latencyMs (elapsed : Int) : F64 := F64.div (F64.rnd elapsed) (F64.rnd ((1000000 : Int) : Rat))

end Verif.Plugins
