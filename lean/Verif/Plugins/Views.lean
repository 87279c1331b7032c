import Verif.View.Worker
import Verif.Http.Status
import Verif.Grpc.Stats

/-!
# The measures and views the plugins come with (plugin/ochttp/stats.go, plugin/ocgrpc/client_metrics.go,
server_metrics.go, stats_common.go)

The address of a view or aggregation object is its number here. A bound is the float64 nearest to the decimal
numeral in the code.
-/

namespace Verif.Plugins
open Verif Verif.Tag Verif.Stats Verif.View

/-- `view.Distribution(bounds...)`, stats/view/aggregation.go:103-112. -/
def distribution (id : Nat) (bounds : List Rat) : Aggregation F64 :=
  ⟨id, .distribution, bounds.map F64.rnd, some .distribution⟩

/-- `view.Count()`, stats/view/aggregation.go:54-59, 72-74; it returns the same object every time. -/
def count : Aggregation F64 := ⟨0, .count, [], some .count⟩

/-- `stats.Int64(name, description, unit)`, for a name nobody has used before. -/
def int64 (name description unit : String) : Measure := ⟨.int64, str name, str description, str unit⟩

/-- `stats.Float64(name, description, unit)`, for a name nobody has used before. -/
def float64 (name description unit : String) : Measure := ⟨.float64, str name, str description, str unit⟩

namespace Http

/-- `DefaultSizeDistribution`, plugin/ochttp/stats.go:131. -/
def sizeDistribution : Aggregation F64 := distribution 1
  [1024, 2048, 4096, 16384, 65536, 262144, 1048576, 4194304, 16777216, 67108864, 268435456, 1073741824, 4294967296]

/-- `DefaultLatencyDistribution`, plugin/ochttp/stats.go:132. -/
def latencyDistribution : Aggregation F64 := distribution 2
  [1, 2, 3, 4, 5, 6, 8, 10, 13, 16, 20, 25, 30, 40, 50, 65, 80, 100, 130, 160, 200, 250, 300, 400, 500, 650, 800, 1000,
   2000, 5000, 10000, 20000, 50000, 100000]

/-- `Method`, plugin/ochttp/stats.go:109. -/
def keyMethod : Key := ⟨str "http.method"⟩

/-- `StatusCode`, plugin/ochttp/stats.go:99. -/
def keyStatus : Key := ⟨str "http.status"⟩

/-- `KeyClientMethod`, plugin/ochttp/stats.go:120. -/
def keyClientMethod : Key := ⟨str "http_client_method"⟩

/-- `KeyClientStatus`, plugin/ochttp/stats.go:124. -/
def keyClientStatus : Key := ⟨str "http_client_status"⟩

/-- `ClientRequestCount`, plugin/ochttp/stats.go:26-29. -/
def clientRequestCount : Measure := int64 "opencensus.io/http/client/request_count" "Number of HTTP requests started" "1"

/-- `ClientRequestBytes`, plugin/ochttp/stats.go:31-34. -/
def clientRequestBytes : Measure := int64 "opencensus.io/http/client/request_bytes" "HTTP request body size if set as ContentLength (uncompressed)" "By"

/-- `ClientResponseBytes`, plugin/ochttp/stats.go:36-39. -/
def clientResponseBytes : Measure := int64 "opencensus.io/http/client/response_bytes" "HTTP response body size (uncompressed)" "By"

/-- `ClientLatency`, plugin/ochttp/stats.go:41-44. -/
def clientLatency : Measure := float64 "opencensus.io/http/client/latency" "End-to-end latency" "ms"

/-- `ClientSentBytes`, plugin/ochttp/stats.go:49-53. -/
def clientSentBytes : Measure := int64 "opencensus.io/http/client/sent_bytes" "Total bytes sent in request body (not including headers)" "By"

/-- `ClientReceivedBytes`, plugin/ochttp/stats.go:54-58. -/
def clientReceivedBytes : Measure := int64 "opencensus.io/http/client/received_bytes" "Total bytes received in response bodies (not including headers but including error responses with bodies)" "By"

/-- `ClientRoundtripLatency`, plugin/ochttp/stats.go:59-63. -/
def clientRoundtripLatency : Measure := float64 "opencensus.io/http/client/roundtrip_latency" "Time between first byte of request headers sent to last byte of response received, or terminal error" "ms"

/-- `ServerRequestCount`, plugin/ochttp/stats.go:68-71. -/
def serverRequestCount : Measure := int64 "opencensus.io/http/server/request_count" "Number of HTTP requests started" "1"

/-- `ServerRequestBytes`, plugin/ochttp/stats.go:72-75. -/
def serverRequestBytes : Measure := int64 "opencensus.io/http/server/request_bytes" "HTTP request body size if set as ContentLength (uncompressed)" "By"

/-- `ServerResponseBytes`, plugin/ochttp/stats.go:76-79. -/
def serverResponseBytes : Measure := int64 "opencensus.io/http/server/response_bytes" "HTTP response body size (uncompressed)" "By"

/-- `ServerLatency`, plugin/ochttp/stats.go:80-83. -/
def serverLatency : Measure := float64 "opencensus.io/http/server/latency" "End-to-end latency" "ms"

/-- `ClientSentBytesDistribution`, plugin/ochttp/stats.go:138-144. -/
def clientSentBytesDistributionView : ViewDef :=
  ⟨1, str "opencensus.io/http/client/sent_bytes",
   str "Total bytes sent in request body (not including headers), by HTTP method and response status",
   [keyClientMethod, keyClientStatus], some clientSentBytes, some sizeDistribution⟩

/-- `ClientReceivedBytesDistribution`, plugin/ochttp/stats.go:146-152. -/
def clientReceivedBytesDistributionView : ViewDef :=
  ⟨2, str "opencensus.io/http/client/received_bytes",
   str "Total bytes received in response bodies (not including headers but including error responses with bodies), by HTTP method and response status",
   [keyClientMethod, keyClientStatus], some clientReceivedBytes, some sizeDistribution⟩

/-- `ClientRoundtripLatencyDistribution`, plugin/ochttp/stats.go:154-160. -/
def clientRoundtripLatencyDistributionView : ViewDef :=
  ⟨3, str "opencensus.io/http/client/roundtrip_latency",
   str "End-to-end latency, by HTTP method and response status",
   [keyClientMethod, keyClientStatus], some clientRoundtripLatency, some latencyDistribution⟩

/-- `ClientCompletedCount`, plugin/ochttp/stats.go:162-168. -/
def clientCompletedCountView : ViewDef :=
  ⟨4, str "opencensus.io/http/client/completed_count",
   str "Count of completed requests, by HTTP method and response status",
   [keyClientMethod, keyClientStatus], some clientRoundtripLatency, some count⟩

/-- `ClientRequestCountView`, plugin/ochttp/stats.go:174-179. -/
def clientRequestCountView : ViewDef :=
  ⟨5, str "opencensus.io/http/client/request_count",
   str "Count of HTTP requests started",
   [], some clientRequestCount, some count⟩

/-- `ClientRequestBytesView`, plugin/ochttp/stats.go:182-187. -/
def clientRequestBytesView : ViewDef :=
  ⟨6, str "opencensus.io/http/client/request_bytes",
   str "Size distribution of HTTP request body",
   [], some clientSentBytes, some sizeDistribution⟩

/-- `ClientResponseBytesView`, plugin/ochttp/stats.go:190-195. -/
def clientResponseBytesView : ViewDef :=
  ⟨7, str "opencensus.io/http/client/response_bytes",
   str "Size distribution of HTTP response body",
   [], some clientReceivedBytes, some sizeDistribution⟩

/-- `ClientLatencyView`, plugin/ochttp/stats.go:198-203. -/
def clientLatencyView : ViewDef :=
  ⟨8, str "opencensus.io/http/client/latency",
   str "Latency distribution of HTTP requests",
   [], some clientRoundtripLatency, some latencyDistribution⟩

/-- `ClientRequestCountByMethod`, plugin/ochttp/stats.go:206-212. -/
def clientRequestCountByMethodView : ViewDef :=
  ⟨9, str "opencensus.io/http/client/request_count_by_method",
   str "Client request count by HTTP method",
   [keyMethod], some clientSentBytes, some count⟩

/-- `ClientResponseCountByStatusCode`, plugin/ochttp/stats.go:215-221. -/
def clientResponseCountByStatusCodeView : ViewDef :=
  ⟨10, str "opencensus.io/http/client/response_count_by_status_code",
   str "Client response count by status code",
   [keyStatus], some clientRoundtripLatency, some count⟩

/-- `ServerRequestCountView`, plugin/ochttp/stats.go:227-232. -/
def serverRequestCountView : ViewDef :=
  ⟨11, str "opencensus.io/http/server/request_count",
   str "Count of HTTP requests started",
   [], some serverRequestCount, some count⟩

/-- `ServerRequestBytesView`, plugin/ochttp/stats.go:234-239. -/
def serverRequestBytesView : ViewDef :=
  ⟨12, str "opencensus.io/http/server/request_bytes",
   str "Size distribution of HTTP request body",
   [], some serverRequestBytes, some sizeDistribution⟩

/-- `ServerResponseBytesView`, plugin/ochttp/stats.go:241-246. -/
def serverResponseBytesView : ViewDef :=
  ⟨13, str "opencensus.io/http/server/response_bytes",
   str "Size distribution of HTTP response body",
   [], some serverResponseBytes, some sizeDistribution⟩

/-- `ServerLatencyView`, plugin/ochttp/stats.go:248-253. -/
def serverLatencyView : ViewDef :=
  ⟨14, str "opencensus.io/http/server/latency",
   str "Latency distribution of HTTP requests",
   [], some serverLatency, some latencyDistribution⟩

/-- `ServerRequestCountByMethod`, plugin/ochttp/stats.go:255-261. -/
def serverRequestCountByMethodView : ViewDef :=
  ⟨15, str "opencensus.io/http/server/request_count_by_method",
   str "Server request count by HTTP method",
   [keyMethod], some serverRequestCount, some count⟩

/-- `ServerResponseCountByStatusCode`, plugin/ochttp/stats.go:263-269. -/
def serverResponseCountByStatusCodeView : ViewDef :=
  ⟨16, str "opencensus.io/http/server/response_count_by_status_code",
   str "Server response count by status code",
   [keyStatus], some serverLatency, some count⟩

/-- All of the above. -/
def measures : List Measure :=
  [clientRequestCount, clientRequestBytes, clientResponseBytes, clientLatency,
   clientSentBytes, clientReceivedBytes, clientRoundtripLatency, serverRequestCount,
   serverRequestBytes, serverResponseBytes, serverLatency]

def views : List ViewDef :=
  [clientSentBytesDistributionView, clientReceivedBytesDistributionView, clientRoundtripLatencyDistributionView,
   clientCompletedCountView, clientRequestCountView, clientRequestBytesView,
   clientResponseBytesView, clientLatencyView, clientRequestCountByMethodView,
   clientResponseCountByStatusCodeView, serverRequestCountView, serverRequestBytesView,
   serverResponseBytesView, serverLatencyView, serverRequestCountByMethodView,
   serverResponseCountByStatusCodeView]

end Http

namespace Grpc

/-- `DefaultBytesDistribution`, plugin/ocgrpc/stats_common.go:56. -/
def bytesDistribution : Aggregation F64 := distribution 3
  [1024, 2048, 4096, 16384, 65536, 262144, 1048576, 4194304, 16777216, 67108864, 268435456, 1073741824, 4294967296]

/-- `DefaultMillisecondsDistribution`, plugin/ocgrpc/stats_common.go:57. -/
def millisecondsDistribution : Aggregation F64 := distribution 4
  [1 / 100, 5 / 100, 1 / 10, 3 / 10, 6 / 10, 8 / 10, 1, 2, 3, 4, 5, 6, 8, 10, 13, 16, 20, 25, 30, 40, 50, 65, 80, 100, 130,
   160, 200, 250, 300, 400, 500, 650, 800, 1000, 2000, 5000, 10000, 20000, 50000, 100000]

/-- `DefaultMessageCountDistribution`, plugin/ocgrpc/stats_common.go:58. -/
def messageCountDistribution : Aggregation F64 := distribution 5
  [1, 2, 4, 8, 16, 32, 64, 128, 256, 512, 1024, 2048, 4096, 8192, 16384, 32768, 65536]

/-- `ClientSentMessagesPerRPC`, plugin/ocgrpc/client_metrics.go:26. -/
def clientSentMessagesPerRPC : Measure := int64 "grpc.io/client/sent_messages_per_rpc" "Number of messages sent in the RPC (always 1 for non-streaming RPCs)." "1"

/-- `ClientSentBytesPerRPC`, plugin/ocgrpc/client_metrics.go:27. -/
def clientSentBytesPerRPC : Measure := int64 "grpc.io/client/sent_bytes_per_rpc" "Total bytes sent across all request messages per RPC." "By"

/-- `ClientReceivedMessagesPerRPC`, plugin/ocgrpc/client_metrics.go:28. -/
def clientReceivedMessagesPerRPC : Measure := int64 "grpc.io/client/received_messages_per_rpc" "Number of response messages received per RPC (always 1 for non-streaming RPCs)." "1"

/-- `ClientReceivedBytesPerRPC`, plugin/ocgrpc/client_metrics.go:29. -/
def clientReceivedBytesPerRPC : Measure := int64 "grpc.io/client/received_bytes_per_rpc" "Total bytes received across all response messages per RPC." "By"

/-- `ClientRoundtripLatency`, plugin/ocgrpc/client_metrics.go:30. -/
def clientRoundtripLatency : Measure := float64 "grpc.io/client/roundtrip_latency" "Time between first byte of request sent to last byte of response received, or terminal error." "ms"

/-- `ClientStartedRPCs`, plugin/ocgrpc/client_metrics.go:31. -/
def clientStartedRPCs : Measure := int64 "grpc.io/client/started_rpcs" "Number of started client RPCs." "1"

/-- `ClientServerLatency`, plugin/ocgrpc/client_metrics.go:32. -/
def clientServerLatency : Measure := float64 "grpc.io/client/server_latency" "Propagated from the server and should have the same value as \"grpc.io/server/latency\"." "ms"

/-- `ClientSentBytesPerRPCView`, plugin/ocgrpc/client_metrics.go:40-46. -/
def clientSentBytesPerRPCView : ViewDef :=
  ⟨17, str "grpc.io/client/sent_bytes_per_rpc",
   str "Distribution of bytes sent per RPC, by method.",
   [Verif.Grpc.keyClientMethod], some clientSentBytesPerRPC, some bytesDistribution⟩

/-- `ClientReceivedBytesPerRPCView`, plugin/ocgrpc/client_metrics.go:48-54. -/
def clientReceivedBytesPerRPCView : ViewDef :=
  ⟨18, str "grpc.io/client/received_bytes_per_rpc",
   str "Distribution of bytes received per RPC, by method.",
   [Verif.Grpc.keyClientMethod], some clientReceivedBytesPerRPC, some bytesDistribution⟩

/-- `ClientRoundtripLatencyView`, plugin/ocgrpc/client_metrics.go:56-62. -/
def clientRoundtripLatencyView : ViewDef :=
  ⟨19, str "grpc.io/client/roundtrip_latency",
   str "Distribution of round-trip latency, by method.",
   [Verif.Grpc.keyClientMethod], some clientRoundtripLatency, some millisecondsDistribution⟩

/-- `ClientCompletedRPCsView`, plugin/ocgrpc/client_metrics.go:66-72. -/
def clientCompletedRPCsView : ViewDef :=
  ⟨20, str "grpc.io/client/completed_rpcs",
   str "Count of RPCs by method and status.",
   [Verif.Grpc.keyClientMethod, Verif.Grpc.keyClientStatus], some clientRoundtripLatency, some count⟩

/-- `ClientStartedRPCsView`, plugin/ocgrpc/client_metrics.go:74-80. -/
def clientStartedRPCsView : ViewDef :=
  ⟨21, str "grpc.io/client/started_rpcs",
   str "Number of started client RPCs.",
   [Verif.Grpc.keyClientMethod], some clientStartedRPCs, some count⟩

/-- `ClientSentMessagesPerRPCView`, plugin/ocgrpc/client_metrics.go:82-88. -/
def clientSentMessagesPerRPCView : ViewDef :=
  ⟨22, str "grpc.io/client/sent_messages_per_rpc",
   str "Distribution of sent messages count per RPC, by method.",
   [Verif.Grpc.keyClientMethod], some clientSentMessagesPerRPC, some messageCountDistribution⟩

/-- `ClientReceivedMessagesPerRPCView`, plugin/ocgrpc/client_metrics.go:90-96. -/
def clientReceivedMessagesPerRPCView : ViewDef :=
  ⟨23, str "grpc.io/client/received_messages_per_rpc",
   str "Distribution of received messages count per RPC, by method.",
   [Verif.Grpc.keyClientMethod], some clientReceivedMessagesPerRPC, some messageCountDistribution⟩

/-- `ClientServerLatencyView`, plugin/ocgrpc/client_metrics.go:98-104. -/
def clientServerLatencyView : ViewDef :=
  ⟨24, str "grpc.io/client/server_latency",
   str "Distribution of server latency as viewed by client, by method.",
   [Verif.Grpc.keyClientMethod], some clientServerLatency, some millisecondsDistribution⟩

/-- `ServerReceivedMessagesPerRPC`, plugin/ocgrpc/server_metrics.go:26. -/
def serverReceivedMessagesPerRPC : Measure := int64 "grpc.io/server/received_messages_per_rpc" "Number of messages received in each RPC. Has value 1 for non-streaming RPCs." "1"

/-- `ServerReceivedBytesPerRPC`, plugin/ocgrpc/server_metrics.go:27. -/
def serverReceivedBytesPerRPC : Measure := int64 "grpc.io/server/received_bytes_per_rpc" "Total bytes received across all messages per RPC." "By"

/-- `ServerSentMessagesPerRPC`, plugin/ocgrpc/server_metrics.go:28. -/
def serverSentMessagesPerRPC : Measure := int64 "grpc.io/server/sent_messages_per_rpc" "Number of messages sent in each RPC. Has value 1 for non-streaming RPCs." "1"

/-- `ServerSentBytesPerRPC`, plugin/ocgrpc/server_metrics.go:29. -/
def serverSentBytesPerRPC : Measure := int64 "grpc.io/server/sent_bytes_per_rpc" "Total bytes sent in across all response messages per RPC." "By"

/-- `ServerStartedRPCs`, plugin/ocgrpc/server_metrics.go:30. -/
def serverStartedRPCs : Measure := int64 "grpc.io/server/started_rpcs" "Number of started server RPCs." "1"

/-- `ServerLatency`, plugin/ocgrpc/server_metrics.go:31. -/
def serverLatency : Measure := float64 "grpc.io/server/server_latency" "Time between first byte of request received to last byte of response sent, or terminal error." "ms"

/-- `ServerReceivedBytesPerRPCView`, plugin/ocgrpc/server_metrics.go:43-49. -/
def serverReceivedBytesPerRPCView : ViewDef :=
  ⟨25, str "grpc.io/server/received_bytes_per_rpc",
   str "Distribution of received bytes per RPC, by method.",
   [Verif.Grpc.keyServerMethod], some serverReceivedBytesPerRPC, some bytesDistribution⟩

/-- `ServerSentBytesPerRPCView`, plugin/ocgrpc/server_metrics.go:51-57. -/
def serverSentBytesPerRPCView : ViewDef :=
  ⟨26, str "grpc.io/server/sent_bytes_per_rpc",
   str "Distribution of total sent bytes per RPC, by method.",
   [Verif.Grpc.keyServerMethod], some serverSentBytesPerRPC, some bytesDistribution⟩

/-- `ServerLatencyView`, plugin/ocgrpc/server_metrics.go:59-65. -/
def serverLatencyView : ViewDef :=
  ⟨27, str "grpc.io/server/server_latency",
   str "Distribution of server latency in milliseconds, by method.",
   [Verif.Grpc.keyServerMethod], some serverLatency, some millisecondsDistribution⟩

/-- `ServerCompletedRPCsView`, plugin/ocgrpc/server_metrics.go:69-75. -/
def serverCompletedRPCsView : ViewDef :=
  ⟨28, str "grpc.io/server/completed_rpcs",
   str "Count of RPCs by method and status.",
   [Verif.Grpc.keyServerMethod, Verif.Grpc.keyServerStatus], some serverLatency, some count⟩

/-- `ServerStartedRPCsView`, plugin/ocgrpc/server_metrics.go:77-83. -/
def serverStartedRPCsView : ViewDef :=
  ⟨29, str "grpc.io/server/started_rpcs",
   str "Number of started server RPCs.",
   [Verif.Grpc.keyServerMethod], some serverStartedRPCs, some count⟩

/-- `ServerReceivedMessagesPerRPCView`, plugin/ocgrpc/server_metrics.go:85-91. -/
def serverReceivedMessagesPerRPCView : ViewDef :=
  ⟨30, str "grpc.io/server/received_messages_per_rpc",
   str "Distribution of messages received count per RPC, by method.",
   [Verif.Grpc.keyServerMethod], some serverReceivedMessagesPerRPC, some messageCountDistribution⟩

/-- `ServerSentMessagesPerRPCView`, plugin/ocgrpc/server_metrics.go:93-99. -/
def serverSentMessagesPerRPCView : ViewDef :=
  ⟨31, str "grpc.io/server/sent_messages_per_rpc",
   str "Distribution of messages sent count per RPC, by method.",
   [Verif.Grpc.keyServerMethod], some serverSentMessagesPerRPC, some messageCountDistribution⟩

/-- All of the above. -/
def measures : List Measure :=
  [clientSentMessagesPerRPC, clientSentBytesPerRPC, clientReceivedMessagesPerRPC, clientReceivedBytesPerRPC,
   clientRoundtripLatency, clientStartedRPCs, clientServerLatency, serverReceivedMessagesPerRPC,
   serverReceivedBytesPerRPC, serverSentMessagesPerRPC, serverSentBytesPerRPC, serverStartedRPCs,
   serverLatency]

def views : List ViewDef :=
  [clientSentBytesPerRPCView, clientReceivedBytesPerRPCView, clientRoundtripLatencyView,
   clientCompletedRPCsView, clientStartedRPCsView, clientSentMessagesPerRPCView,
   clientReceivedMessagesPerRPCView, clientServerLatencyView, serverReceivedBytesPerRPCView,
   serverSentBytesPerRPCView, serverLatencyView, serverCompletedRPCsView,
   serverStartedRPCsView, serverReceivedMessagesPerRPCView, serverSentMessagesPerRPCView]

end Grpc

/-- All predefined views of the two plugins. -/
def views : List ViewDef := Http.views ++ Grpc.views

/-- All measures of the two plugins. -/
def measures : List Measure := Http.measures ++ Grpc.measures

end Verif.Plugins
