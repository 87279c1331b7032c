import Verif.Wire.Hex

/-!
# The binary format (trace/propagation/propagation.go)
-/

namespace Verif.Wire
open Verif

/-- `tracestate.Entry`, trace/tracestate/tracestate.go:47-56. -/
structure Entry where
  key : Bytes
  value : Bytes
  deriving DecidableEq, Repr

/-- `trace.SpanContext` as the formats see it, trace/trace.go:107-112: arrays of 16 and 8 bytes, a
`uint32`, and the entries of the tracestate (`none` is a nil pointer). -/
structure Ctx where
  traceID : Bytes
  spanID : Bytes
  opts : BitVec 32
  tracestate : Option (List Entry)
  deriving DecidableEq, Repr

/-- `SpanContext{}`. -/
def Ctx.zero : Ctx := ⟨List.replicate 16 0, List.replicate 8 0, 0, none⟩

/-- The array lengths the Go types guarantee. -/
def Ctx.WF (sc : Ctx) : Prop := sc.traceID.length = 16 ∧ sc.spanID.length = 8

/-- `IsSampled`, trace/trace.go:84-86. -/
def Ctx.isSampled (sc : Ctx) : Bool := sc.opts &&& 1#32 == 1#32

/-- `uint8(x)` of trace options. -/
def lowByte (o : BitVec 32) : UInt8 := UInt8.ofNat (o.toNat % 256)

/-- `copy(dst[at:], src)` into an array: as much as fits; `at` is at most the length. -/
def copyAt (dst : Bytes) (at_ : Nat) (src : Bytes) : Bytes :=
  dst.take at_ ++ src.take (dst.length - at_) ++ dst.drop (at_ + (src.take (dst.length - at_)).length)

/-- `Binary`, trace/propagation/propagation.go:57-68; `none` is nil. -/
def toBinary (sc : Ctx) : Option Bytes :=
  if sc = .zero then none
  else
    let b := List.replicate 29 (0 : UInt8)
    let b := b.take 2 ++ copyAt ((b.drop 2).take 16) 0 sc.traceID ++ b.drop 18     -- copy(b[2:18], ..)
    let b := b.set 18 1
    let b := b.take 19 ++ copyAt ((b.drop 19).take 8) 0 sc.spanID ++ b.drop 27     -- copy(b[19:27], ..)
    let b := b.set 27 2
    let b := b.set 28 (lowByte sc.opts)
    some b

/-- `b[lo:hi]` or `b[lo:]` (with `hi` the length): panics out of range. -/
def slice (b : Bytes) (lo hi : Nat) : Res Bytes :=
  if lo ≤ hi ∧ hi ≤ b.length then .ok ((b.take hi).drop lo) else .panic

/-- `b[i]`. -/
def index (b : Bytes) (i : Nat) : Res UInt8 := match b[i]? with
  | some x => .ok x
  | none => .panic

/-- `len(b) >= n && b[0] == id`, with the index evaluated only if the first test holds. -/
def hasField (b : Bytes) (n : Nat) (id : UInt8) : Res Bool :=
  if b.length ≥ n then (index b 0).bind fun x => .ok (decide (x = id)) else .ok false

/-- The options field, trace/propagation/propagation.go:89-91. -/
def readOptions (sc : Ctx) (b : Bytes) : Res Ctx :=
  (hasField b 2 2).bind fun f =>
    if f then (index b 1).bind fun x => .ok { sc with opts := BitVec.ofNat 32 x.toNat } else .ok sc

/-- The span ID field and what follows, trace/propagation/propagation.go:85-91. -/
def readSpanID (sc : Ctx) (b : Bytes) : Res Ctx :=
  (hasField b 9 1).bind fun f =>
    if f then (slice b 1 9).bind fun id => (slice b 9 b.length).bind fun b =>
      readOptions { sc with spanID := copyAt sc.spanID 0 id } b
    else readOptions sc b

/-- `FromBinary`, trace/propagation/propagation.go:74-93. `.err` is `ok == false`. -/
def fromBinary (b : Bytes) : Res Ctx :=
  if b.length = 0 then .err
  else (index b 0).bind fun v =>
    if v ≠ 0 then .err
    else (slice b 1 b.length).bind fun b => (hasField b 17 0).bind fun f =>
      if f then (slice b 1 17).bind fun id => (slice b 17 b.length).bind fun b =>
        readSpanID { Ctx.zero with traceID := copyAt Ctx.zero.traceID 0 id } b
      else .err

end Verif.Wire
