import Verif.Wire.Binary

/-!
# C35: the binary span context format
-/

namespace Verif.Props.Binary
open Verif Verif.Wire

theorem copyAt_all (dst src : Bytes) (h : src.length = dst.length) : copyAt dst 0 src = src := by
  simp [copyAt, ← h, List.take_of_length_le]

/-- `Binary` writes version 0, then the fields 0, 1 and 2 with the trace ID, the span ID and the low
byte of the options: 29 bytes. The zero context has no encoding. -/
theorem binary_layout (sc : Ctx) (hw : sc.WF) : toBinary sc =
    if sc = .zero then none else some ([0, 0] ++ sc.traceID ++ [1] ++ sc.spanID ++ [2, lowByte sc.opts]) := by
  obtain ⟨h1, h2⟩ := hw
  obtain ⟨tid, sid, opts, ts⟩ := sc
  unfold toBinary
  split
  · rfl
  · simp only at h1 h2 ⊢
    rw [copyAt_all _ tid (by simp [h1])]
    match tid, h1 with
    | [a0, a1, a2, a3, a4, a5, a6, a7, a8, a9, a10, a11, a12, a13, a14, a15], _ =>
    match sid, h2 with
    | [b0, b1, b2, b3, b4, b5, b6, b7], _ => rfl

/-! ## What the decoder reads -/

/-- Trace options in what follows the span ID: field 2 with one byte, 0 if it is not there. -/
def optionsIn : Bytes → Nat
  | id :: o :: _ => if id = 2 then o.toNat else 0
  | _ => 0

/-- The span ID in what follows the trace ID: field 1 with 8 bytes, zero if it is not there. -/
def spanIDIn (rest : Bytes) : Bytes :=
  if rest.length ≥ 9 ∧ rest.head? = some 1 then (rest.drop 1).take 8 else List.replicate 8 0

/-- What follows the span ID, if there is one. -/
def afterSpanID (rest : Bytes) : Bytes :=
  if rest.length ≥ 9 ∧ rest.head? = some 1 then rest.drop 9 else rest

theorem readOptions_spec (sc : Ctx) (b : Bytes) (hz : sc.opts = 0) :
    readOptions sc b = .ok { sc with opts := BitVec.ofNat 32 (optionsIn b) } := by
  have h0 : ({ sc with opts := BitVec.ofNat 32 0 } : Ctx) = sc := by obtain ⟨_, _, _, _⟩ := sc; simp_all
  match b with
  | [] => simp [readOptions, hasField, Res.bind, optionsIn, h0]
  | [x] => simp [readOptions, hasField, Res.bind, optionsIn, h0]
  | x :: y :: r =>
    by_cases hx : x = 2
    · subst hx; simp [readOptions, hasField, index, Res.bind, optionsIn]
    · simp [readOptions, hasField, index, Res.bind, hx, optionsIn, h0]

theorem readSpanID_spec (sc : Ctx) (b : Bytes) (hz : sc.opts = 0) (hs : sc.spanID = List.replicate 8 0) :
    readSpanID sc b = .ok { sc with spanID := spanIDIn b, opts := BitVec.ofNat 32 (optionsIn (afterSpanID b)) } := by
  by_cases hl : b.length ≥ 9
  · match b with
    | [] => simp at hl
    | x :: b =>
      have hl' : b.length ≥ 8 := by simpa using hl
      by_cases hx : x = 1
      · subst hx
        have hslice : slice (1 :: b) 1 9 = .ok (b.take 8) := by
          simp [slice]; omega
        have hslice2 : slice (1 :: b) 9 (b.length + 1) = .ok (b.drop 8) := by
          simp [slice]; omega
        simp only [readSpanID, hasField, index, List.getElem?_cons_zero, Res.bind, decide_true,
          hslice, List.length_cons, hslice2]
        rw [readOptions_spec _ _ (by exact hz)]
        have hc : copyAt sc.spanID 0 (b.take 8) = b.take 8 := copyAt_all _ _ (by rw [hs]; simp; omega)
        simp [hc, spanIDIn, afterSpanID, hl']
      · have : ¬ (x = 1) := hx
        simp only [readSpanID, hasField, hl, if_true, index, List.getElem?_cons_zero, Res.bind, hx, decide_false,
          Bool.false_eq_true, if_false]
        rw [readOptions_spec _ _ hz]
        simp [spanIDIn, afterSpanID, hx, hs]
  · simp only [readSpanID, hasField, hl, if_false, Res.bind, Bool.false_eq_true]
    rw [readOptions_spec _ _ hz]
    simp only [spanIDIn, afterSpanID, hl, false_and, if_false]
    rw [← hs]

/-- What `FromBinary` makes of any byte string: it is rejected unless it starts with version 0 and field 0
with 16 bytes; the other two fields are read if they are there. In particular it never panics. -/
theorem fromBinary_spec (b : Bytes) : fromBinary b =
    if 18 ≤ b.length ∧ b.head? = some 0 ∧ (b.drop 1).head? = some 0 then
      .ok ⟨(b.drop 2).take 16, spanIDIn (b.drop 18), BitVec.ofNat 32 (optionsIn (afterSpanID (b.drop 18))), none⟩
    else .err := by
  match b with
  | [] => rfl
  | v :: b =>
    by_cases hv : v = 0
    · subst hv
      have hs1 : slice (0 :: b) 1 (b.length + 1) = .ok b := by simp [slice]
      simp only [fromBinary, List.length_cons, Nat.add_eq_zero_iff, Nat.one_ne_zero, and_false, if_false, index,
        List.getElem?_cons_zero, Res.bind, ne_eq, not_true_eq_false, hs1]
      by_cases hl : b.length ≥ 17
      · match b with
        | [] => simp at hl
        | y :: b =>
          have hl' : b.length ≥ 16 := by simpa using hl
          by_cases hy : y = 0
          · subst hy
            have hs2 : slice (0 :: b) 1 17 = .ok (b.take 16) := by simp [slice]; omega
            have hs3 : slice (0 :: b) 17 (b.length + 1) = .ok (b.drop 16) := by simp [slice]; omega
            have hc : copyAt Ctx.zero.traceID 0 (b.take 16) = b.take 16 := copyAt_all _ _ (by simp [Ctx.zero]; omega)
            simp only [hasField, hl, if_true, index, List.getElem?_cons_zero, decide_true, hs2, Res.bind,
              List.length_cons, hs3]
            rw [readSpanID_spec _ _ rfl rfl, hc]
            simp [Ctx.zero, hl']
          · simp [hasField, hl', index, Res.bind, hy]
      · have hl' : ¬ 17 ≤ b.length := hl
        simp [hasField, Res.bind, hl']
    · simp [fromBinary, index, Res.bind, hv]

/-- Every non-zero span context is read back from its encoding, whatever follows it: both IDs, and the
options modulo 256. -/
theorem binary_roundtrip (sc : Ctx) (hw : sc.WF) (hz : sc ≠ .zero) (trailing : Bytes) :
    ∃ b, toBinary sc = some b ∧ b.length = 29 ∧
      fromBinary (b ++ trailing) = .ok ⟨sc.traceID, sc.spanID, BitVec.ofNat 32 (sc.opts.toNat % 256), none⟩ := by
  refine ⟨[0, 0] ++ sc.traceID ++ [1] ++ sc.spanID ++ [2, lowByte sc.opts], ?_, ?_, ?_⟩
  · rw [binary_layout sc hw, if_neg hz]
  · simp [hw.1, hw.2]
  · obtain ⟨h1, h2⟩ := hw
    have hlow : (lowByte sc.opts).toNat = sc.opts.toNat % 256 := by
      simp [lowByte]
    have hd : (0 :: 0 :: (sc.traceID ++ (1 :: (sc.spanID ++ 2 :: lowByte sc.opts :: trailing)))).drop 18 =
        1 :: (sc.spanID ++ 2 :: lowByte sc.opts :: trailing) := by
      simp only [List.drop_succ_cons]
      rw [List.drop_append_of_le_length (by omega), List.drop_of_length_le (by omega)]; rfl
    have hd2 : (sc.spanID ++ 2 :: lowByte sc.opts :: trailing).drop 8 = 2 :: lowByte sc.opts :: trailing := by
      rw [List.drop_append_of_le_length (by omega), List.drop_of_length_le (by omega)]; rfl
    have ht : (sc.spanID ++ 2 :: lowByte sc.opts :: trailing).take 8 = sc.spanID := by
      rw [List.take_append_of_le_length (by omega), List.take_of_length_le (by omega)]
    have ht2 : (sc.traceID ++ (1 :: (sc.spanID ++ 2 :: lowByte sc.opts :: trailing))).take 16 = sc.traceID := by
      rw [List.take_append_of_le_length (by omega), List.take_of_length_le (by omega)]
    have heq : ([0, 0] ++ sc.traceID ++ [1] ++ sc.spanID ++ [2, lowByte sc.opts]) ++ trailing =
        0 :: 0 :: (sc.traceID ++ (1 :: (sc.spanID ++ 2 :: lowByte sc.opts :: trailing))) := by simp
    rw [heq, fromBinary_spec, if_pos (by simp [h1]), hd]
    simp only [List.drop_succ_cons, List.drop_zero, ht2]
    have hc : (1 :: (sc.spanID ++ 2 :: lowByte sc.opts :: trailing)).length ≥ 9 := by simp [h2]
    simp only [spanIDIn, afterSpanID, hc, List.head?_cons, true_and, if_true, List.drop_succ_cons, List.drop_zero, ht,
      hd2, optionsIn, hlow]

/-- A zero context, and only it, encodes to nothing. -/
theorem binary_zero (sc : Ctx) : toBinary sc = none ↔ sc = .zero := by
  unfold toBinary; split <;> simp_all

/-- The format has one byte for the options: more are lost. -/
theorem binary_truncates : ∃ sc b sc', sc.WF ∧ toBinary sc = some b ∧ fromBinary b = .ok sc' ∧ sc'.opts ≠ sc.opts :=
  ⟨⟨List.replicate 16 1, List.replicate 8 1, 256#32, none⟩, _, _, ⟨rfl, rfl⟩, rfl, rfl, by decide⟩

/-! Hypotheses met: the example of the package documentation. -/

def docCtx : Ctx := ⟨[64, 65, 66, 67, 68, 69, 70, 71, 72, 73, 74, 75, 76, 77, 78, 79],
  [97, 98, 99, 100, 101, 102, 103, 104], 1, none⟩

example : docCtx.WF ∧ docCtx ≠ .zero ∧ toBinary docCtx = some [0, 0, 64, 65, 66, 67, 68, 69, 70, 71, 72, 73, 74, 75,
    76, 77, 78, 79, 1, 97, 98, 99, 100, 101, 102, 103, 104, 2, 1] ∧
    fromBinary [0, 0, 64, 65, 66, 67, 68, 69, 70, 71, 72, 73, 74, 75, 76, 77, 78, 79, 1, 97, 98, 99, 100, 101, 102,
      103, 104, 2, 1] = .ok docCtx := ⟨⟨rfl, rfl⟩, by decide, rfl, rfl⟩

/-- The options after a missing span ID are still read. -/
example : fromBinary ([0, 0] ++ List.replicate 16 5 ++ [2, 1]) =
    .ok ⟨List.replicate 16 5, List.replicate 8 0, 1, none⟩ := rfl

end Verif.Props.Binary
