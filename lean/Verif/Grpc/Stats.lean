import Verif.Http.Status
import Verif.Tag.MapLemmas
import Verif.Tag.Codec
import Verif.Wire.Binary

/-!
# The gRPC plugin (plugin/ocgrpc)

gRPC calls `TagRPC` once per RPC and then `HandleRPC` for every event, from several goroutines. The
events of an RPC are threads of atomic steps: an operation on the span (its methods hold the span's
mutex), an atomic addition or load of a counter, a call of the recorder.

Simplified: tag maps are values here (`Verif.Tag.new_eq` relates `tag.New` on the heap to `mutateAllP`
and `copyAllP`) and are copied in the order of the model's list. The latency is a measurement without a
value (`Verif.Plugins.latencyMs` is the value); the exemplar attachments are in `Verif.Plugins.Exemplar`; log
output is not modelled. gRPC itself is
not modelled: the metadata and tags a server sees are inputs, `status.FromError` is applied by the
caller of the model (`GErr`).
-/

namespace Verif.Grpc
open Verif Verif.Trace

/-- The measures of plugin/ocgrpc/client_metrics.go:25-33 and server_metrics.go:25-32. -/
inductive Measure where
  | clientSentMessages | clientSentBytes | clientReceivedMessages | clientReceivedBytes
  | clientRoundtripLatency | clientStarted
  | serverSentMessages | serverSentBytes | serverReceivedMessages | serverReceivedBytes
  | serverLatency | serverStarted
  deriving DecidableEq, Repr

structure Meas where
  measure : Measure
  value : Option Int
  deriving DecidableEq, Repr

/-- The keys of plugin/ocgrpc/stats_common.go:63-72. -/
def keyServerMethod : Tag.Key := ⟨str "grpc_server_method"⟩
def keyServerStatus : Tag.Key := ⟨str "grpc_server_status"⟩
def keyClientMethod : Tag.Key := ⟨str "grpc_client_method"⟩
def keyClientStatus : Tag.Key := ⟨str "grpc_client_status"⟩

/-- `methodName`, plugin/ocgrpc/stats_common.go:78-80: `strings.TrimLeft(fullname, "/")`. -/
def methodName (full : Bytes) : Bytes := full.dropWhile fun c => c == 47

/-- The error of an RPC, as `status.FromError` sees it: nil, one that carries a status, or another. -/
inductive GErr where
  | nil
  | status (code : Nat) (msg : Bytes)
  | other (msg : Bytes)
  deriving DecidableEq, Repr

/-- `statusCodeToString`, plugin/ocgrpc/stats_common.go:195-235. Codes are `uint32`. -/
def statusCodeToString (c : Nat) : Bytes :=
  if c = 0 then str "OK"
  else if c = 1 then str "CANCELLED"
  else if c = 2 then str "UNKNOWN"
  else if c = 3 then str "INVALID_ARGUMENT"
  else if c = 4 then str "DEADLINE_EXCEEDED"
  else if c = 5 then str "NOT_FOUND"
  else if c = 6 then str "ALREADY_EXISTS"
  else if c = 7 then str "PERMISSION_DENIED"
  else if c = 8 then str "RESOURCE_EXHAUSTED"
  else if c = 9 then str "FAILED_PRECONDITION"
  else if c = 10 then str "ABORTED"
  else if c = 11 then str "OUT_OF_RANGE"
  else if c = 12 then str "UNIMPLEMENTED"
  else if c = 13 then str "INTERNAL"
  else if c = 14 then str "UNAVAILABLE"
  else if c = 15 then str "DATA_LOSS"
  else if c = 16 then str "UNAUTHENTICATED"
  else str "CODE_" ++ Http.itoa c

/-- The value of the status tag, plugin/ocgrpc/stats_common.go:156-164. -/
def statusTag : GErr → Bytes
  | .nil => str "OK"
  | .status c _ => statusCodeToString c
  | .other _ => []

/-- `stats.RPCStats`, the events of an RPC. `header` stands for `InHeader`, `OutHeader`, `InTrailer` and
`OutTrailer`. -/
inductive Event where
  | begin (client failFast : Bool)
  | outPayload (length wireLength : Int)
  | inPayload (length wireLength : Int)
  | header
  | «end» (client : Bool) (err : GErr)
  deriving DecidableEq, Repr

/-- The fields of `rpcData`, plugin/ocgrpc/stats_common.go:44. -/
inductive Field where
  | sentBytes | sentCount | recvBytes | recvCount
  deriving DecidableEq, Repr

/-- The context `TagRPC` returned: the tag map, the span, and the method in the `rpcData` (`none` when
the context has no `rpcData`). -/
structure Ctx where
  tags : Option Tag.TMap
  span : Option Nat
  method : Option Bytes

/-- One atomic step of an event's handler. -/
inductive Micro where
  | trace (op : Op)
  | add (f : Field) (n : Int)
  | load (f : Field)
  | recordStarted (client : Bool)
  | recordEnd (client : Bool) (st : Bytes)
  | panic

/-- `BoolAttribute`; attribute values are opaque in the model. -/
def boolAttr (key : Bytes) (b : Bool) : Attribute := ⟨key, if b then [1] else [0]⟩

/-- `int32(c)`. -/
def int32 (c : Nat) : Int := ((c : Int) + 2 ^ 31) % 2 ^ 32 - 2 ^ 31

/-- `traceHandleRPC`, plugin/ocgrpc/trace_common.go:84-107. `order` is the iteration order of the
attributes when the span ends. -/
def traceHandleRPC (c : Ctx) (order : List Bytes) : Event → List Micro
  | .begin client failFast =>
    [.trace (.addAttributes c.span [boolAttr (str "Client") client, boolAttr (str "FailFast") failFast])]
  | .inPayload n wire => [.trace (.addMessageEvent c.span .recv 0 n wire)]
  | .outPayload n wire => [.trace (.addMessageEvent c.span .sent 0 n wire)]
  | .end _ err =>
    (match err with
      | .nil => []
      | .status code msg => [.trace (.setStatus c.span ⟨int32 code, msg⟩)]
      | .other msg => [.trace (.setStatus c.span ⟨13, msg⟩)]) ++ [.trace (.endSpan c.span order)]
  | .header => []

/-- `statsHandleRPC` and what it calls, plugin/ocgrpc/stats_common.go:83-193. Without `rpcData` the
handler of `Begin` goes on and dereferences the nil pointer; the others return. The arguments of the
recorder are evaluated from left to right. -/
def statsHandleRPC (c : Ctx) : Event → List Micro
  | .begin client _ => if c.method.isNone then [.panic] else [.recordStarted client]
  | .outPayload n _ => if c.method.isNone then [] else [.add .sentBytes n, .add .sentCount 1]
  | .inPayload n _ => if c.method.isNone then [] else [.add .recvBytes n, .add .recvCount 1]
  | .end client err =>
    if c.method.isNone then []
    else [.load .sentBytes, .load .sentCount, .load .recvCount, .load .recvBytes, .recordEnd client (statusTag err)]
  | .header => []

/-- `HandleRPC`, plugin/ocgrpc/client.go:46-49, server.go:72-75. -/
def handleRPC (c : Ctx) (order : List Bytes) (e : Event) : List Micro :=
  traceHandleRPC c order e ++ statsHandleRPC c e

/-- What the plugin does to the outside. -/
inductive Out where
  | trace (op : Op)
  | record (tags : Tag.TMap) (ms : List Meas)

/-- `tag.New` with `Upsert` mutators on a context's map, tag/map.go:187-209; `none` is an error. -/
def tagNew (m : Option Tag.TMap) (kvs : List (Tag.Key × Bytes)) : Option Tag.TMap :=
  match Tag.copyAllP [] (m.getD []) with
  | (_, some _) => none
  | (m, none) => match Tag.mutateAllP m (kvs.map fun kv => .upsert kv.1 kv.2 []) with
    | (_, some _) => none
    | (m, none) => some m

/-- `ocstats.RecordWithOptions` with tags and measurements, stats/record.go:128-161: nothing is recorded
when a mutator fails. (Also not when none of the measures is subscribed to; see `Verif.Props.Recording`.) -/
def record (m : Option Tag.TMap) (kvs : List (Tag.Key × Bytes)) (ms : List Meas) : List Out :=
  match tagNew m kvs with
  | some m => [.record m ms]
  | none => []

/-- The records of `handleRPCBegin`, plugin/ocgrpc/stats_common.go:108-116. Both use the key of the
client's method. -/
def startedRecord (c : Ctx) (client : Bool) : List Out :=
  record c.tags [(keyClientMethod, methodName (c.method.getD []))]
    [⟨if client then .clientStarted else .serverStarted, some 1⟩]

/-- The records of `handleRPCEnd`, plugin/ocgrpc/stats_common.go:168-192; `vs` are the loaded values in
the order of the arguments. -/
def endRecord (c : Ctx) (client : Bool) (st : Bytes) (vs : List Int) : List Out :=
  if client then
    record c.tags [(keyClientMethod, methodName (c.method.getD [])), (keyClientStatus, st)]
      [⟨.clientSentBytes, vs[0]?⟩, ⟨.clientSentMessages, vs[1]?⟩, ⟨.clientReceivedMessages, vs[2]?⟩,
       ⟨.clientReceivedBytes, vs[3]?⟩, ⟨.clientRoundtripLatency, none⟩]
  else
    record c.tags [(keyServerStatus, st)]
      [⟨.serverSentBytes, vs[0]?⟩, ⟨.serverSentMessages, vs[1]?⟩, ⟨.serverReceivedMessages, vs[2]?⟩,
       ⟨.serverReceivedBytes, vs[3]?⟩, ⟨.serverLatency, none⟩]

/-- A goroutine in `HandleRPC`: what is left to do, and the values loaded so far. -/
structure Thread where
  todo : List Micro
  loaded : List Int

/-- The state of an RPC: the counters, the goroutines, what came out (with the goroutine it came from)
and whether a goroutine has panicked. -/
structure State where
  ctx : Ctx
  count : Field → Int
  threads : List Thread
  out : List (Nat × Out)
  panicked : Bool

/-- An RPC whose events are given, before any of them is handled. `order` is as in `handleRPC`. -/
def State.init (c : Ctx) (order : List Bytes) (evs : List Event) : State :=
  ⟨c, fun _ => 0, evs.map fun e => ⟨handleRPC c order e, []⟩, [], false⟩

/-- Goroutine `t` makes one step; it is not possible if it has finished, or after a panic (which ends
the program). -/
def State.step (s : State) (t : Nat) : Option State :=
  if s.panicked then none
  else match s.threads[t]? with
    | none => none
    | some th => match th.todo with
      | [] => none
      | m :: rest =>
        let next := fun (loaded : List Int) => s.threads.set t ⟨rest, loaded⟩
        match m with
        | .trace op => some { s with threads := next th.loaded, out := s.out ++ [(t, .trace op)] }
        | .add f n => some { s with
            threads := next th.loaded
            count := fun g => if g = f then wrap64 (s.count g + n) else s.count g }
        | .load f => some { s with threads := next (th.loaded ++ [s.count f]) }
        | .recordStarted client => some { s with
            threads := next th.loaded
            out := s.out ++ (startedRecord s.ctx client).map fun o => (t, o) }
        | .recordEnd client st => some { s with
            threads := next th.loaded
            out := s.out ++ (endRecord s.ctx client st th.loaded).map fun o => (t, o) }
        | .panic => some { s with panicked := true }

/-- A schedule: which goroutine steps next. `none` if it is not possible. -/
def State.run (s : State) : List Nat → Option State
  | [] => some s
  | t :: ts => (s.step t).bind fun s => s.run ts

/-! ## TagRPC -/

/-- `name` of the span, plugin/ocgrpc/trace_common.go:37-38, 54-55. -/
def spanName (full : Bytes) : Bytes :=
  let name := match full with
    | 47 :: rest => rest
    | _ => full
  name.map fun c => if c = 47 then 46 else c

/-- What `TagRPC` is given: the context's tags and span, the sampler option, and what the ID generator
will return. `span` is the index the new span gets. -/
structure Env where
  tags : Option Tag.TMap
  ctxSpan : Option Nat
  sampler : Option Sampler
  tid : Bytes
  sid : Bytes
  span : Nat

/-- `(*ClientHandler).statsTagRPC`, plugin/ocgrpc/client_stats_handler.go:29-49: the tags put on the
wire (`none`: none are set). `info` is never nil when gRPC calls it; the model requires it. -/
def clientTags (tags : Option Tag.TMap) : Res (Option Bytes) :=
  match tags with
  | none => .ok none
  | some m => (Tag.encode m).bind fun b => .ok (some b)

/-- `(*ClientHandler).traceTagRPC`, plugin/ocgrpc/trace_common.go:36-44: the span operation. -/
def clientStart (env : Env) (full : Bytes) : List Op :=
  [.start env.ctxSpan (spanName full) [.sampler env.sampler, .kind 2] env.tid env.sid]

/-- A span context as the binary format gets it. Of the tracestate it only sees whether it is nil. -/
def toWire (sc : SpanContext) : Wire.Ctx := ⟨sc.traceID, sc.spanID, sc.opts, sc.tracestate.map fun _ => []⟩

/-- The metadata under `grpc-trace-bin` the client sends, plugin/ocgrpc/trace_common.go:42-43: appended to
what the context already has. `sc` is the context of the new span. -/
def clientMetadata (already : List Bytes) (sc : SpanContext) : List Bytes :=
  already ++ [(Wire.toBinary (toWire sc)).getD []]

/-- The context a client's events get, plugin/ocgrpc/client.go:52-56. -/
def clientCtx (env : Env) (full : Bytes) : Ctx := ⟨env.tags, some env.span, some full⟩

/-- The parent found in the incoming metadata, plugin/ocgrpc/trace_common.go:56-66. -/
def serverParent (md : List Bytes) : Res (Option Wire.Ctx) :=
  match md with
  | [] => .ok none
  | b :: _ => match Wire.fromBinary b with
    | .ok sc => .ok (some sc)
    | .err => .ok none
    | .panic => .panic

/-- A decoded span context as the trace package gets it. -/
def ofWire (sc : Wire.Ctx) : SpanContext := ⟨sc.traceID, sc.spanID, sc.opts, none⟩

/-- `(*ServerHandler).traceTagRPC`, plugin/ocgrpc/trace_common.go:52-82. -/
def serverStart (isPublic : Bool) (env : Env) (md : List Bytes) (full : Bytes) : Res (List Op) :=
  (serverParent md).bind fun parent => .ok (match parent, isPublic with
    | some sc, false => [.startRemote (ofWire sc) (spanName full) [.kind 1, .sampler env.sampler] env.tid env.sid]
    | some sc, true => [.start env.ctxSpan (spanName full) [.kind 1, .sampler env.sampler] env.tid env.sid,
        .addLink (some env.span) ⟨sc.traceID, sc.spanID, 1, none⟩]
    | none, _ => [.start env.ctxSpan (spanName full) [.kind 1, .sampler env.sampler] env.tid env.sid])

/-- `extractPropagatedTags`, plugin/ocgrpc/server_stats_handler.go:50-63; `none` is a nil map. -/
def extractTags (wire : Option Bytes) : Res (Option Tag.TMap) :=
  match wire with
  | none => .ok none
  | some b => match Tag.decode b with
    | .ok m => .ok (some m)
    | .err => .ok none
    | .panic => .panic

/-- `(*ServerHandler).statsTagRPC`, plugin/ocgrpc/server_stats_handler.go:30-46: the map of the new
context. The tags of the incoming context are replaced also when none were sent. -/
def serverTags (wire : Option Bytes) (full : Bytes) : Res (Option Tag.TMap) :=
  (extractTags wire).bind fun propagated =>
    .ok (match tagNew propagated [(keyServerMethod, methodName full)] with
      | some m => some m
      | none => propagated)

/-- The context a server's events get, plugin/ocgrpc/server.go:78-82. -/
def serverCtx (env : Env) (wire : Option Bytes) (full : Bytes) : Res Ctx :=
  (serverTags wire full).bind fun tags => .ok ⟨tags, some env.span, some full⟩

end Verif.Grpc
