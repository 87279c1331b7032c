import Verif.Wire.Tracestate

/-!
# The W3C trace context format (plugin/ochttp/propagation/tracecontext/propagation.go)
-/

namespace Verif.Wire
open Verif

/-- `maxVersion`, tracecontext/propagation.go:34. -/
def maxVersion : Nat := 254
/-- `maxTracestateLen`, tracecontext/propagation.go:35. -/
def maxTracestateLen : Nat := 512
/-- `traceparentHeader`, `tracestateHeader`, tracecontext/propagation.go:36-37. -/
def traceparentHeader : Bytes := str "traceparent"
def tracestateHeader : Bytes := str "tracestate"

/-- `[\x09\x20]`. -/
def isOWS (c : UInt8) : Bool := c == 9 || c == 32

/-- `trimOWSRegExp.FindStringSubmatch(s)`, tracecontext/propagation.go:38-41: `^[\x09\x20]*(.*[^\x20\x09])[\x09\x20]*$`.
The group is what is left without blanks at both ends. There is no match if that is nothing, or if it has
a newline (which `.` does not match) anywhere but at its end. Go matches characters rather than bytes;
blanks and newline are single bytes, and `.` matches any other byte, also where it is not valid UTF-8. -/
def trimOWS (s : Bytes) : Option Bytes :=
  let t := ((s.dropWhile isOWS).reverse.dropWhile isOWS).reverse
  if t = [] ∨ 10 ∈ t.dropLast then none else some t

/-- `tracestate.New(nil, entries...)` on a slice nobody else has; `none` is nil, also with an error. -/
def newFromEntries (entries : List Entry) : Option (List Entry) :=
  let r := Arrays.newTracestate [entries] none ⟨0, 0, entries.length, entries.length⟩ 0 0
  match r.2 with
  | .ok s => some (r.1.vals s)
  | _ => none

/-- The loop of `tracestateFromHeader`, tracecontext/propagation.go:145-161, with the length so far. -/
def tracestateLoop (n : Nat) (entries : List Entry) : List Bytes → Option (List Entry)
  | [] => some entries
  | pair :: pairs => match trimOWS pair with
    | none => none
    | some pair =>
      if n + pair.length > maxTracestateLen then none
      else match split 61 pair with
        | [k, v] => tracestateLoop (n + pair.length) (entries ++ [⟨k, v⟩]) pairs
        | _ => none

/-- `tracestateFromHeader`, tracecontext/propagation.go:137-167; `none` is nil. -/
def tracestateFromHeader (ts : Bytes) : Option (List Entry) :=
  if ts = [] then none
  else
    let pairs := split 44 ts
    match tracestateLoop (pairs.length - 1) [] pairs with
    | none => none
    | some entries => newFromEntries entries

/-- `a[i]` of a slice of strings. -/
def sectionAt (l : List Bytes) (i : Nat) : Res Bytes := match l[i]? with
  | some s => .ok s
  | none => .panic

/-- `hex.DecodeString` with the error returned as `ok == false`. -/
def hexOr (s : Bytes) : Res Bytes := match hexDecode s with
  | some b => .ok b
  | none => .err

/-- The ID sections, tracecontext/propagation.go:81-97. -/
def readIDs (sections : List Bytes) : Res Ctx :=
  (sectionAt sections 1).bind fun s1 =>
  if s1.length ≠ 32 then .err else (hexOr s1).bind fun tid =>
  (sectionAt sections 2).bind fun s2 =>
  if s2.length ≠ 16 then .err else (hexOr s2).bind fun sid =>
  .ok { Ctx.zero with traceID := copyAt Ctx.zero.traceID 0 tid, spanID := copyAt Ctx.zero.spanID 0 sid }

/-- The options section and the test of the IDs, tracecontext/propagation.go:99-111. `err != nil || len(opts) < 1`
comes before `opts[0]`. -/
def readOpts (sections : List Bytes) (sc : Ctx) (ts : Bytes) : Res Ctx :=
  (sectionAt sections 3).bind fun s3 => (hexOr s3).bind fun opts =>
  if opts.length < 1 then .err else (index opts 0).bind fun o =>
  if sc.traceID = List.replicate 16 0 ∨ sc.spanID = List.replicate 8 0 then .err
  else .ok { sc with opts := BitVec.ofNat 32 o.toNat, tracestate := tracestateFromHeader ts }

/-- `SpanContextFromHeaders`, tracecontext/propagation.go:56-112. `.err` is `ok == false`. -/
def fromHeaders (tp ts : Bytes) : Res Ctx :=
  if tp = [] then .err
  else
    let sections := split 45 tp
    if sections.length < 4 then .err
    else (sectionAt sections 0).bind fun s0 =>
      if s0.length ≠ 2 then .err else (hexOr s0).bind fun ver => (index ver 0).bind fun v =>
      if v.toNat > maxVersion then .err
      else if v.toNat = 0 ∧ sections.length ≠ 4 then .err
      else (readIDs sections).bind fun sc => readOpts sections sc ts

/-- `getRequestHeader`, tracecontext/propagation.go:120-130, without the second result, which no caller looks at. -/
def getRequestHeader (req : Header) (name : Bytes) : Bytes := match req.values name with
  | [] => []
  | [v] => v
  | vs => join 44 vs

/-- `SpanContextFromRequest`, tracecontext/propagation.go:49-53. -/
def tcFromRequest (req : Header) : Res Ctx :=
  fromHeaders (getRequestHeader req traceparentHeader) (getRequestHeader req tracestateHeader)

/-- `strings.Join([]string{entry.Key, entry.Value}, "=")`. -/
def pairText (e : Entry) : Bytes := join 61 [e.key, e.value]

/-- `tracestateToHeader`, tracecontext/propagation.go:169-182. -/
def tracestateToHeader (ts : Option (List Entry)) : Bytes := match ts with
  | none => []
  | some entries =>
    let h := join 44 (entries.map pairText)
    if h ≠ [] ∧ h.length ≤ maxTracestateLen then h else []

/-- `SpanContextToHeaders`, tracecontext/propagation.go:185-193. -/
def toHeaders (sc : Ctx) : Bytes × Bytes :=
  (hexEncode [0] ++ [45] ++ hexEncode sc.traceID ++ [45] ++ hexEncode sc.spanID ++ [45] ++ hexEncode [lowByte sc.opts],
    tracestateToHeader sc.tracestate)

/-- `SpanContextToRequest`, tracecontext/propagation.go:196-202. -/
def tcToRequest (sc : Ctx) (req : Header) : Header :=
  let (tp, ts) := toHeaders sc
  let req := req.put traceparentHeader tp
  if ts ≠ [] then req.put tracestateHeader ts else req

end Verif.Wire
