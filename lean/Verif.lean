import Verif.Basic
import Verif.Props.Tag
import Verif.Props.Agg
import Verif.Props.Rows
import Verif.Props.Worker
import Verif.Props.Canon
import Verif.Props.Recording
import Verif.Props.ViewMetric
import Verif.Props.Conc
import Verif.Props.Snapshot
import Verif.Props.Ids
import Verif.Props.Start
import Verif.Props.Bucket
import Verif.Props.Spans
import Verif.Props.Store
import Verif.Props.EndConc
import Verif.Props.EndOrder
import Verif.View.ReadConc
import Verif.Props.ReadConc
import Verif.Http.Trace
import Verif.Props.HttpTrace
import Verif.Conc.Object
import Verif.Conc.Lin
import Verif.Conc.Shared
import Verif.Props.Shared
import Verif.Metric.RegConc
import Verif.Props.RegConc
import Verif.Trace.Heap
import Verif.Props.SpanHeap
import Verif.Trace.StoreConc
import Verif.Props.StoreConc
import Verif.Zpages.TraceRows
import Verif.Props.TraceRows
import Verif.Trace.SpanConc
import Verif.Props.SpanConc
import Verif.Props.Binary
import Verif.Props.Headers
import Verif.Props.Tracestate
import Verif.Props.TraceContext
import Verif.Props.Entry
import Verif.Props.Registry
import Verif.Props.MetricRace
import Verif.Props.Reader
import Verif.Props.Resource
import Verif.Props.Sanitize
import Verif.Props.HttpClient
import Verif.Props.HttpClientConc
import Verif.Props.HttpServer
import Verif.Props.Tracez
import Verif.Props.TracezSummary
import Verif.Props.Grpc
import Verif.Props.GrpcSpan
import Verif.Props.GrpcWire
import Verif.Props.Runmetrics
import Verif.Props.Rpcz
import Verif.Props.Exports
import Verif.Props.ReportConc
import Verif.Http.Propagate
import Verif.Props.HttpWire
import Verif.RoundErr
import Verif.Props.AggFloat
import Verif.Props.SsdFloat
import Verif.Props.Truncate
import Verif.Props.HttpAttrs
import Verif.View.Alias
import Verif.Props.Alias
import Verif.Plugins.Views
import Verif.Plugins.Report
import Verif.Props.PluginViews
import Verif.Props.ViewCounts
import Verif.Props.HttpViews
import Verif.Props.HttpServerViews
import Verif.Plugins.GrpcReport
import Verif.Props.GrpcViews
import Verif.View.BoundsAlias
import Verif.Props.BoundsAlias
import Verif.View.Program
import Verif.Props.Program
import Verif.Net
import Verif.Props.Net
import Verif.Metric.TestExporter
import Verif.Props.TestExporter
import Verif.Http.Routes
import Verif.Props.Routes
import Verif.Tag.Profile
import Verif.Props.Profile
import Verif.Plugins.Latency
import Verif.Props.Latency
import Verif.Plugins.Exemplar
import Verif.Props.Exemplars
import Verif.Props.StoreHistory
import Verif.View.Period
import Verif.Props.Period
import Verif.Zpages.Page
import Verif.Props.TracePage
import Verif.Props.TraceLinks
import Verif.Zpages.RpcPage
import Verif.Props.RpcFigures
import Verif.Props.RpcPage
import Verif.Zpages.Enable
import Verif.Props.RpcCounts
import Verif.Trace.Api
import Verif.Props.Api
import Verif.Metric.Pipeline
import Verif.Props.Pipeline
import Verif.Metric.ReaderTime
import Verif.Props.ReaderTime
import Verif.View.Equal
import Verif.Props.Equal
import Verif.Zpages.Text
import Verif.Props.TextPages
import Verif.Zpages.RpcText
import Verif.Props.RpcText
import Verif.Zpages.Mux
import Verif.Props.Mux
import Verif.View.Export
import Verif.Props.ViewExport
import Verif.Runmetrics.Conc
import Verif.Props.RunConc
import Verif.Props.StartTimes
import Verif.Props.HttpCancel
import Verif.Props.ExportCalls
import Verif.Props.Meters
import Verif.Props.ViewResource
import Verif.Props.CheckVersion
import Verif.Props.Crash
import Verif.Props.Bounded
import Verif.Props.BoundedMeter
import Verif.Metric.ReaderCalls
import Verif.Props.ReaderCalls
import Verif.Tag.Own
import Verif.Props.Own
import Verif.View.Loops
import Verif.Props.Loops
import Verif.View.Rename
import Verif.Props.Rename
import Verif.Http.Panics
import Verif.Props.HttpPanics
import Verif.Http.BodyConc
import Verif.Props.BodyConc
import Verif.Examples.Log
import Verif.Props.ExampleLog
import Verif.Grpc.Panics
import Verif.Props.GrpcPanics
import Verif.Examples.Print
import Verif.Props.ExamplePrint
