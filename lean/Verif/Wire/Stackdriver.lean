import Verif.Wire.Binary

/-!
# The X-Cloud-Trace-Context header (exporter/stackdriver/propagation/http.go) and
B3 headers (plugin/ochttp/propagation/b3/b3.go)
-/

namespace Verif.Wire
open Verif

/-- `binary.BigEndian.Uint64`. -/
def beVal (b : Bytes) : Nat := b.foldl (fun n x => n * 256 + x.toNat) 0

/-- `binary.BigEndian.PutUint64`: the `n` low bytes, most significant first. -/
def beBytes : Nat → Nat → Bytes
  | 0, _ => []
  | n + 1, x => beBytes n (x / 256) ++ [UInt8.ofNat (x % 256)]

/-! ## Stackdriver -/

/-- `httpHeaderMaxSize`, exporter/stackdriver/propagation/http.go:32. -/
def httpHeaderMaxSize : Nat := 200

/-- `httpHeader`, exporter/stackdriver/propagation/http.go:33. -/
def cloudHeader : Bytes := str "X-Cloud-Trace-Context"

/-- The options field, exporter/stackdriver/propagation/http.go:77-86. -/
def sdOptions (sc : Ctx) (h : Bytes) : Option Ctx :=
  if (str "o=").isPrefixOf h then
    match parseUint (h.drop 2) with
    | none => none
    | some o => some { sc with opts := BitVec.ofNat 32 o }
  else some sc

/-- From the span ID on, exporter/stackdriver/propagation/http.go:65-86. -/
def sdSpan (sc : Ctx) (h : Bytes) : Option Ctx :=
  let (spanstr, h) := match cut 59 h with
    | some (a, b) => (a, b)
    | none => (h, h)
  match parseUint spanstr with
  | none => none
  | some sid => sdOptions { sc with spanID := beBytes 8 sid } h

/-- The parsing in `SpanContextFromRequest`, exporter/stackdriver/propagation/http.go:43-87, of the
header's value. `none` is `ok == false`. `copy` into the trace ID keeps at most 16 bytes. No expression
of this function can panic: slices are taken at indices found by `strings.Index` or after
`strings.HasPrefix`. -/
def sdParse (h : Bytes) : Option Ctx :=
  if h = [] ∨ h.length > httpHeaderMaxSize then none
  else match cut 47 h with
    | none => none
    | some (tid, h) => match hexDecode tid with
      | none => none
      | some buf => sdSpan { Ctx.zero with traceID := copyAt Ctx.zero.traceID 0 buf } h

/-- `SpanContextFromRequest`. -/
def sdFromRequest (req : Header) : Option Ctx := sdParse (req.first cloudHeader)

/-- `SpanContextToRequest`, exporter/stackdriver/propagation/http.go:90-94. -/
def sdToRequest (sc : Ctx) (req : Header) : Header :=
  req.put cloudHeader
    (hexEncode sc.traceID ++ str "/" ++ dec (beVal sc.spanID) ++ str ";o=" ++ dec sc.opts.toNat)

/-! ## B3 -/

/-- The header names, plugin/ochttp/propagation/b3/b3.go:29-33. -/
def b3TraceID : Bytes := str "X-B3-TraceId"
def b3SpanID : Bytes := str "X-B3-SpanId"
def b3Sampled : Bytes := str "X-B3-Sampled"

/-- `copy(id[start:], b)`: slicing an array beyond its length panics. -/
def copyFrom (dst : Bytes) (start : Int) (src : Bytes) : Res Bytes :=
  if 0 ≤ start ∧ start ≤ dst.length then .ok (copyAt dst start.toNat src) else .panic

/-- `ParseTraceID`, plugin/ochttp/propagation/b3/b3.go:66-85. `.err` is false. -/
def parseTraceID (tid : Bytes) : Res Bytes :=
  if tid = [] then .err
  else match hexDecode tid with
    | none => .err
    | some b =>
      if b.length > 16 then .err
      else if b.length ≤ 8 then copyFrom (List.replicate 16 0) (8 + (8 - b.length)) b
      else copyFrom (List.replicate 16 0) (16 - b.length) b

/-- `ParseSpanID`, plugin/ochttp/propagation/b3/b3.go:88-99. -/
def parseSpanID (sid : Bytes) : Res Bytes :=
  if sid = [] then .err
  else match hexDecode sid with
    | none => .err
    | some b => if b.length > 8 then .err else copyFrom (List.replicate 8 0) (8 - b.length) b

/-- `ParseSampled`, plugin/ochttp/propagation/b3/b3.go:102-109. -/
def parseSampled (s : Bytes) : BitVec 32 × Bool :=
  if s = str "true" ∨ s = str "1" then (1, true) else (0, false)

/-- `SpanContextFromRequest`, plugin/ochttp/propagation/b3/b3.go:48-63. -/
def b3FromRequest (req : Header) : Res Ctx :=
  (parseTraceID (req.first b3TraceID)).bind fun tid => (parseSpanID (req.first b3SpanID)).bind fun sid =>
    .ok ⟨tid, sid, (parseSampled (req.first b3Sampled)).1, none⟩

/-- `SpanContextToRequest`, plugin/ochttp/propagation/b3/b3.go:112-123. -/
def b3ToRequest (sc : Ctx) (req : Header) : Header :=
  let req := req.put b3TraceID (hexEncode sc.traceID)
  let req := req.put b3SpanID (hexEncode sc.spanID)
  req.put b3Sampled (if sc.isSampled then str "1" else str "0")

end Verif.Wire
