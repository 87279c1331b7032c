import Verif.Tag.Map
import Verif.Varint

/-!
# Tag wire format (`tag/map_codec.go`)

The encoder is modelled with its buffer and write index, the decoder with its absolute read index and
64-bit integer arithmetic, because both can go out of bounds.
-/

namespace Verif.Tag
open Verif

/-! ## Encoder -/

/-- Fields `buf` and `writeIdx` of `encoderGRPC`, tag/map_codec.go:36-39. -/
structure Enc where
  buf : Bytes
  writeIdx : Nat
  deriving Repr

/-- `growIfRequired`, tag/map_codec.go:146-152. The new buffer is zero-filled after the copied part. -/
def Enc.grow (e : Enc) (expected : Nat) : Enc :=
  if (e.buf.length : Int) - e.writeIdx < expected then
    { e with buf := e.buf ++ List.replicate (2 * (e.buf.length + 1) + expected - e.buf.length) 0 }
  else e

/-- Stores of `bs` into consecutive elements starting at `i`; panics if an element is out of range
(`buf[i] = v`, or `binary.PutUvarint(buf[i:], x)`). -/
def putAt (buf : Bytes) (i : Nat) (bs : Bytes) : Res Bytes :=
  if i + bs.length ≤ buf.length then .ok (buf.take i ++ bs ++ buf.drop (i + bs.length)) else .panic

/-- `copy(buf[i:], bs)`: panics if `i` is past the end, otherwise copies what fits. -/
def copyAt (buf : Bytes) (i : Nat) (bs : Bytes) : Res Bytes :=
  if i ≤ buf.length then
    .ok (buf.take i ++ bs.take (buf.length - i) ++ buf.drop (i + (bs.take (buf.length - i)).length))
  else .panic

/-- `writeByte`, tag/map_codec.go:83-87. -/
def Enc.writeByte (e : Enc) (v : UInt8) : Res Enc :=
  let e := e.grow 1
  (putAt e.buf e.writeIdx [v]).bind fun b => .ok ⟨b, e.writeIdx + 1⟩

/-- `binary.MaxVarintLen64`. -/
def maxVarintLen64 : Nat := 10

/-- `writeBytesWithVarintLen` and `writeStringWithVarintLen`, tag/map_codec.go:65-81 (the same code
for `[]byte` and `string`). -/
def Enc.writeBytes (e : Enc) (bs : Bytes) : Res Enc :=
  let length := bs.length
  let e := e.grow (maxVarintLen64 + length)
  (putAt e.buf e.writeIdx (putUvarint length)).bind fun b =>
    let wi := e.writeIdx + (putUvarint length).length
    (copyAt b wi bs).bind fun b' => .ok ⟨b', wi + length⟩

/-- `bytes`, tag/map_codec.go:158-160: `buf[:writeIdx]`. -/
def Enc.bytes (e : Enc) : Res Bytes :=
  if e.writeIdx ≤ e.buf.length then .ok (e.buf.take e.writeIdx) else .panic

/-- Body of the loop of `Encode`, tag/map_codec.go:172-178. -/
def encodeLoop (e : Enc) : List (Key × Content) → Res Enc
  | [] => .ok e
  | (k, v) :: es =>
    if v.m.ttl = ttlUnlimited then
      (e.writeByte 0).bind fun e => (e.writeBytes k.name).bind fun e =>
        (e.writeBytes v.value).bind fun e => encodeLoop e es
    else encodeLoop e es

/-- `Encode`, tag/map_codec.go:164-180, of a non-nil map whose entries the runtime iterates in the
order given. (`Encode(nil)` is nil.) `tagsVersionID` is 0 and `keyTypeString` is 0. -/
def encode (entries : List (Key × Content)) : Res Bytes :=
  let eg : Enc := ⟨List.replicate entries.length 0, 0⟩
  (eg.writeByte 0).bind fun eg => (encodeLoop eg entries).bind fun eg => eg.bytes

/-! ## Decoder -/

/-- `buf[lo:hi]` with Go's bounds check. -/
def slice (buf : Bytes) (lo hi : Int) : Res Bytes :=
  if 0 ≤ lo ∧ lo ≤ hi ∧ hi ≤ buf.length then .ok ((buf.take hi.toNat).drop lo.toNat) else .panic

/-- `readBytesWithVarintLen`, tag/map_codec.go:119-136: the slice read and the new read index.
`int(length)` reinterprets a `uint64`, and the addition wraps. -/
def readBytesWithVarintLen (buf : Bytes) (readIdx : Nat) : Res (Bytes × Int) :=
  if readIdx ≥ buf.length then .err                                    -- readEnded
  else match uvarint (buf.drop readIdx) with
    | none => .err
    | some (length, n) =>
      let valueStart : Int := n + readIdx
      let valueEnd : Int := wrap64 (valueStart + wrap64 length)
      if valueEnd > buf.length then .err
      else (slice buf valueStart valueEnd).bind fun bs => .ok (bs, valueEnd)

/-- How `DecodeEach` ends. -/
inductive Outcome where
  | ok
  | err
  | panic
  deriving DecidableEq, Repr

theorem readBytes_ok {buf : Bytes} {i : Nat} {bs : Bytes} {j : Int}
    (h : readBytesWithVarintLen buf i = .ok (bs, j)) : (i : Int) < j ∧ j ≤ buf.length := by
  unfold readBytesWithVarintLen at h
  split at h
  · simp at h
  · split at h
    · simp at h
    · next length n hu =>
      have hb := uvarint_bounds hu
      simp only at h
      split at h
      · simp at h
      · unfold slice at h
        split at h
        · next hs =>
          simp only [Res.bind, Res.ok.injEq, Prod.mk.injEq] at h
          omega
        · simp [Res.bind] at h

/-- The loop of `DecodeEach`, tag/map_codec.go:208-237, from `readIdx` on. The list holds the
(key, value) pairs for which the handler is called, in order; the handler is given unlimited TTL. -/
def decodeLoop (buf : Bytes) (readIdx : Nat) : List (Key × Bytes) × Outcome :=
  if hend : readIdx ≥ buf.length then ([], .ok)
  else
    let typ := buf[readIdx]'(by omega)                                 -- readByte
    if typ ≠ 0 then ([], .err)
    else match hk : readBytesWithVarintLen buf (readIdx + 1) with
      | .err => ([], .err)
      | .panic => ([], .panic)
      | .ok (k, i2) => match hv : readBytesWithVarintLen buf i2.toNat with
        | .err => ([], .err)
        | .panic => ([], .panic)
        | .ok (v, i3) => match newKey k with
          | none => ([], .err)
          | some key =>
            if !checkValue v then ([], .err)
            else
              let r := decodeLoop buf i3.toNat
              ((key, v) :: r.1, r.2)
termination_by buf.length - readIdx
decreasing_by
  have h1 := readBytes_ok hk
  have h2 := readBytes_ok hv
  omega

/-- `DecodeEach`, tag/map_codec.go:195-239: handler calls made, and how it ends. -/
def decodeEach (bytes : Bytes) : List (Key × Bytes) × Outcome :=
  match bytes with
  | [] => ([], .ok)
  | version :: _ =>
    if version > 0 then ([], .err) else decodeLoop bytes 1

/-- `Decode`, tag/map_codec.go:183-191. -/
def decode (bytes : Bytes) : Res TMap :=
  match decodeEach bytes with
  | (calls, .ok) =>
    .ok (calls.foldl (fun ts c => upsert ts c.1 c.2 (createMetadatas [.withTTL ttlUnlimited])) [])
  | (_, .err) => .err
  | (_, .panic) => .panic

end Verif.Tag
