import Verif.Trace.Span
import Verif.Tag.Map

/-!
# Status codes, tags and measurements of the HTTP plugin (plugin/ochttp)
-/

namespace Verif.Http
open Verif

/-- `codeToStr`, plugin/ochttp/trace.go:214-232, with the constants of trace/status_codes.go:20-36. A
code that is not in the map has the empty message. -/
def codeToStr : GoMap Int Bytes :=
  [(0, str "OK"), (1, str "CANCELLED"), (2, str "UNKNOWN"), (3, str "INVALID_ARGUMENT"),
   (4, str "DEADLINE_EXCEEDED"), (5, str "NOT_FOUND"), (6, str "ALREADY_EXISTS"),
   (7, str "PERMISSION_DENIED"), (8, str "RESOURCE_EXHAUSTED"), (9, str "FAILED_PRECONDITION"),
   (10, str "ABORTED"), (11, str "OUT_OF_RANGE"), (12, str "UNIMPLEMENTED"), (13, str "INTERNAL"),
   (14, str "UNAVAILABLE"), (15, str "DATA_LOSS"), (16, str "UNAUTHENTICATED")]

/-- The code chosen by `TraceStatus`, plugin/ochttp/trace.go:180-209. -/
def traceCode (c : Int) : Int :=
  let code : Int := if c < 200 ∨ c ≥ 400 then 2 else 0
  if c = 499 then 1                 -- StatusCodeCancelled
  else if c = 400 then 3            -- http.StatusBadRequest: InvalidArgument
  else if c = 422 then 3            -- http.StatusUnprocessableEntity: InvalidArgument
  else if c = 504 then 4            -- http.StatusGatewayTimeout: DeadlineExceeded
  else if c = 404 then 5            -- http.StatusNotFound: NotFound
  else if c = 403 then 7            -- http.StatusForbidden: PermissionDenied
  else if c = 401 then 16           -- http.StatusUnauthorized: Unauthenticated
  else if c = 429 then 8            -- http.StatusTooManyRequests: ResourceExhausted
  else if c = 501 then 12           -- http.StatusNotImplemented: Unimplemented
  else if c = 503 then 14           -- http.StatusServiceUnavailable: Unavailable
  else if c = 200 then 0            -- http.StatusOK: OK
  else if c = 409 then 6            -- http.StatusConflict: AlreadyExists
  else code

/-- `TraceStatus`, plugin/ochttp/trace.go:179-212. The status line argument is not used. -/
def traceStatus (c : Int) : Trace.Status :=
  ⟨traceCode c, (GoMap.get codeToStr (traceCode c)).getD []⟩

/-- `isHealthEndpoint`, plugin/ochttp/trace.go:234-244. -/
def isHealthEndpoint (path : Bytes) : Bool :=
  if path = str "/healthz" ∨ path = str "/_ah/health" then true else false

/-! ## strconv.Itoa -/

/-- Decimal digits, most significant first; `fuel` bounds the number of divisions. -/
def digits : Nat → Nat → Bytes
  | 0, n => [UInt8.ofNat (48 + n % 10)]
  | fuel + 1, n => if n < 10 then [UInt8.ofNat (48 + n)] else digits fuel (n / 10) ++ [UInt8.ofNat (48 + n % 10)]

/-- `strconv.Itoa`, from its documentation, on the integers a Go `int` holds (at most 19 digits). -/
def itoa (n : Int) : Bytes :=
  if n < 0 then 45 :: digits 19 n.natAbs else digits 19 n.natAbs

/-! ## Tags -/

/-- Tags of a context, by key name. The metadata is not needed here. -/
abbrev Tags := GoMap Bytes Bytes

/-- `tag.New(ctx, tag.Upsert(k, v), ...)`, tag/map.go:107-126, 187-209: `none` is the error, which the
callers in this package ignore, keeping the old context. Modelled on a flat map; `Verif.Tag.new` is the
model with the heap, and `Verif.Props.Tag` proves what it does. Contexts whose map holds invalid entries
are not considered here. -/
def tagNew (m : Tags) : List (Bytes × Bytes) → Option Tags
  | [] => some m
  | (k, v) :: kvs => if Tag.checkValue v then tagNew (GoMap.set m k v) kvs else none

/-! ## Measurements -/

/-- The measures of plugin/ochttp/stats.go:23-90. -/
inductive Measure where
  | clientRequestCount | clientRequestBytes | clientResponseBytes | clientLatency
  | clientSentBytes | clientReceivedBytes | clientRoundtripLatency
  | serverRequestCount | serverRequestBytes | serverResponseBytes | serverLatency
  deriving DecidableEq, Repr

/-- A measurement. The latencies are wall-clock durations in float64 milliseconds; they have no value
here. -/
structure Meas where
  measure : Measure
  value : Option Int
  deriving DecidableEq, Repr

/-- What the plugin does, in order: operations on spans, calls of `stats.Record` and
`stats.RecordWithTags` that reach the recorder, and calls of the transport, body or writer below. -/
inductive Ev where
  | trace (op : Trace.Op)
  | record (tags : Tags) (ms : List Meas)
  | roundTrip
  | read
  | close
  | write (n : Int)
  | writeHeader (c : Int)
  | readFrom (n : Int)

/-- `stats.Record(ctx, ms...)`. -/
def record (tags : Tags) (ms : List Meas) : List Ev := [.record tags ms]

/-- `stats.RecordWithTags(ctx, mutators, ms...)`, stats/record.go: when a mutator fails nothing is
recorded (`Verif.Props.Recording`). -/
def recordWithTags (tags : Tags) (kvs : List (Bytes × Bytes)) (ms : List Meas) : List Ev :=
  match tagNew tags kvs with
  | some t => record t ms
  | none => []

end Verif.Http
