import Verif.Trace.Span
import Verif.Grpc.Stats

/-!
# Annotating a span with the events of a connection (plugin/ochttp/span_annotating_client_trace.go)

`net/http` calls the hooks of an `httptrace.ClientTrace` as a request proceeds, from several goroutines, and some
of them after the response was returned. Errors are given by what `Error()` returns, addresses and durations by what
`String()` returns.
-/

namespace Verif.Http
open Verif Verif.Trace

/-- A call of a hook of `httptrace.ClientTrace`, with the arguments the annotator uses. -/
inductive Hook where
  | getConn (hostPort : Bytes)
  | gotConn (reused wasIdle : Bool) (idleTime : Bytes)
  | putIdleConn (err : Option Bytes)
  | gotFirstResponseByte
  | got100Continue
  | dnsStart (host : Bytes)
  | dnsDone (addrs : List Bytes) (err : Option Bytes)
  | connectStart (network addr : Bytes)
  | connectDone (network addr : Bytes) (err : Option Bytes)
  | tlsHandshakeStart
  | tlsHandshakeDone (err : Option Bytes)
  | wroteHeaders
  | wait100Continue
  | wroteRequest (err : Option Bytes)

/-- `strings.Join`. -/
def join (sep : Bytes) : List Bytes → Bytes
  | [] => []
  | [x] => x
  | x :: y :: l => x ++ sep ++ join sep (y :: l)

/-- The attribute of an error, if there is one: `if err != nil { attrs = append(attrs, ...) }`. -/
def errAttr (key : Bytes) : Option Bytes → List Attribute
  | none => []
  | some e => [⟨key, e⟩]

/-- What the hook passes to `Annotate`: attributes and message; span_annotating_client_trace.go:62-169. -/
def Hook.annotation : Hook → List Attribute × Bytes
  | .getConn hostPort => ([⟨str "httptrace.get_connection.host_port", hostPort⟩], str "GetConn")        -- 62-67
  | .gotConn reused wasIdle idleTime =>                                                                 -- 69-79
    ([Grpc.boolAttr (str "httptrace.got_connection.reused") reused,
      Grpc.boolAttr (str "httptrace.got_connection.was_idle") wasIdle] ++
      (if wasIdle then [⟨str "httptrace.got_connection.idle_time", idleTime⟩] else []), str "GotConn")
  | .putIdleConn err => (errAttr (str "httptrace.put_idle_connection.error") err, str "PutIdleConn")    -- 82-89
  | .gotFirstResponseByte => ([], str "GotFirstResponseByte")                                           -- 91-93
  | .got100Continue => ([], str "Got100Continue")                                                       -- 95-97
  | .dnsStart host => ([⟨str "httptrace.dns_start.host", host⟩], str "DNSStart")                        -- 99-104
  | .dnsDone addrs err =>                                                                               -- 106-119
    (⟨str "httptrace.dns_done.addrs", join (str " , ") addrs⟩ :: errAttr (str "httptrace.dns_done.error") err,
      str "DNSDone")
  | .connectStart network addr =>                                                                       -- 121-127
    ([⟨str "httptrace.connect_start.network", network⟩, ⟨str "httptrace.connect_start.addr", addr⟩],
      str "ConnectStart")
  | .connectDone network addr err =>                                                                    -- 129-139
    ([⟨str "httptrace.connect_done.network", network⟩, ⟨str "httptrace.connect_done.addr", addr⟩] ++
      errAttr (str "httptrace.connect_done.error") err, str "ConnectDone")
  | .tlsHandshakeStart => ([], str "TLSHandshakeStart")                                                 -- 141-143
  | .tlsHandshakeDone err => (errAttr (str "httptrace.tls_handshake_done.error") err, str "TLSHandshakeDone")  -- 145-152
  | .wroteHeaders => ([], str "WroteHeaders")                                                           -- 154-156
  | .wait100Continue => ([], str "Wait100Continue")                                                     -- 158-160
  | .wroteRequest err => (errAttr (str "httptrace.wrote_request.error") err, str "WroteRequest")        -- 162-169

/-- The call of the hook of `NewSpanAnnotatingClientTrace(_, span)`, span_annotating_client_trace.go:41-60. -/
def Hook.op (span : Nat) (h : Hook) : Op := .annotate (some span) h.annotation.1 h.annotation.2

end Verif.Http
