import Verif.Tag.Codec

/-! Helper lemmas about the tag wire format. -/

namespace Verif
open Verif

/-- Little-endian base-128 numerals, independently of any reader: all bytes but the last have the high
bit set. -/
inductive Leb : Bytes → Nat → Prop where
  | last (b : UInt8) (h : b.toNat < 128) : Leb [b] b.toNat
  | more (b : UInt8) (bs : Bytes) (n : Nat) (h : 128 ≤ b.toNat) (t : Leb bs n) :
      Leb (b :: bs) (b.toNat - 128 + 128 * n)

theorem leb_ne_nil {bs : Bytes} {n : Nat} (h : Leb bs n) : bs ≠ [] := by
  cases h <;> simp

theorem putUvarint_leb (x : Nat) : Leb (putUvarint x) x := by
  fun_induction putUvarint x with
  | case1 x h =>
    have h1 : (UInt8.ofNat x).toNat = x := by rw [UInt8.toNat_ofNat']; omega
    have := Leb.last (UInt8.ofNat x) (by omega)
    rwa [h1] at this
  | case2 x h ih =>
    have h1 : (UInt8.ofNat (x % 128 + 128)).toNat = x % 128 + 128 := by
      rw [UInt8.toNat_ofNat']; omega
    have := Leb.more (UInt8.ofNat (x % 128 + 128)) _ _ (by omega) ih
    have e : x % 128 + 128 - 128 + 128 * (x / 128) = x := by omega
    rwa [h1, e] at this

theorem putUvarint_length (x k : Nat) (h : x < 128 ^ (k + 1)) : (putUvarint x).length ≤ k + 1 := by
  induction k generalizing x with
  | zero =>
    have : x < 128 := by simpa using h
    unfold putUvarint; simp [this]
  | succ k ih =>
    unfold putUvarint
    split
    · simp
    · have : x / 128 < 128 ^ (k + 1) := by
        apply Nat.div_lt_of_lt_mul
        rw [Nat.pow_succ] at h; omega
      have := ih _ this
      simp; omega

theorem putUvarint_length_le (x : Nat) (h : x < 2 ^ 64) : (putUvarint x).length ≤ 10 :=
  putUvarint_length x 9 (by calc x < 2 ^ 64 := h
    _ ≤ _ := by decide)

/-- Reading accepts exactly numerals of at most ten bytes with a value below 2^64. -/
theorem uvarintAux_of_leb {vb : Bytes} {v : Nat} (hl : Leb vb v) (i x s : Nat) (rest : Bytes)
    (hs : s = 7 * i) (hn : i + vb.length ≤ 10) (hv : v * 2 ^ s < 2 ^ 64) :
    uvarintAux i x s (vb ++ rest) = some (x + v * 2 ^ s, i + vb.length) := by
  induction hl generalizing i x s with
  | last b h =>
    simp at hn
    have h10 : i ≠ 10 := by omega
    simp only [List.cons_append, List.nil_append, uvarintAux, h10, if_false, h, if_true,
      List.length_cons, List.length_nil]
    split
    · next hc =>
      obtain ⟨rfl, hb⟩ := hc
      have : b.toNat * 2 ^ s ≥ 2 * 2 ^ s := Nat.mul_le_mul_right _ hb
      subst hs
      simp at hv; omega
    · rfl
  | more b bs n h t ih =>
    simp only [List.length_cons] at hn
    have h10 : i ≠ 10 := by omega
    have hnb : ¬ b.toNat < 128 := by omega
    simp only [List.cons_append, uvarintAux, h10, if_false, hnb, List.length_cons]
    have hb : b.toNat < 256 := b.toNat_lt
    have e1 : b.toNat % 128 = b.toNat - 128 := by omega
    have e2 : (b.toNat - 128 + 128 * n) * 2 ^ s = (b.toNat - 128) * 2 ^ s + n * 2 ^ (s + 7) := by
      rw [Nat.add_mul, Nat.pow_add]
      congr 1
      rw [Nat.mul_comm 128 n, Nat.mul_assoc, Nat.mul_comm 128]
    rw [ih (i + 1) _ (s + 7) (by omega) (by omega) (by omega), e1, e2]
    congr 1
    refine Prod.ext ?_ ?_
    · simp only []; omega
    · simp only []; omega

theorem leb_of_uvarintAux (i x s : Nat) (buf : Bytes) (w n : Nat)
    (h : uvarintAux i x s buf = some (w, n)) :
    ∃ vb rest v, buf = vb ++ rest ∧ i + vb.length = n ∧ Leb vb v ∧ w = x + v * 2 ^ s := by
  induction buf generalizing i x s with
  | nil => simp [uvarintAux] at h
  | cons b bs ih =>
    simp only [uvarintAux] at h
    split at h
    · simp at h
    · split at h
      · next hb =>
        split at h
        · simp at h
        · simp only [Option.some.injEq, Prod.mk.injEq] at h
          exact ⟨[b], bs, b.toNat, by simp, by simp [h.2], Leb.last b hb, h.1.symm⟩
      · next hb =>
        obtain ⟨vb, rest, v, h1, h2, h3, h4⟩ := ih _ _ _ h
        refine ⟨b :: vb, rest, b.toNat - 128 + 128 * v, by simp [h1], by simp; omega,
          Leb.more b vb v (by omega) h3, ?_⟩
        have hb : b.toNat < 256 := b.toNat_lt
        have e1 : b.toNat % 128 = b.toNat - 128 := by omega
        have e2 : (b.toNat - 128 + 128 * v) * 2 ^ s = (b.toNat - 128) * 2 ^ s + v * 2 ^ (s + 7) := by
          rw [Nat.add_mul, Nat.pow_add]
          congr 1
          rw [Nat.mul_comm 128 v, Nat.mul_assoc, Nat.mul_comm 128]
        rw [h4, e1, e2]; omega

theorem uvarint_iff (buf : Bytes) (v n : Nat) :
    uvarint buf = some (v, n) ↔
      ∃ vb rest, buf = vb ++ rest ∧ vb.length = n ∧ n ≤ 10 ∧ Leb vb v ∧ v < 2 ^ 64 := by
  constructor
  · intro h
    have hb := uvarint_bounds h
    have hl := uvarintAux_lt 0 0 0 buf v n rfl (by omega) (by simp) h
    obtain ⟨vb, rest, w, h1, h2, h3, h4⟩ := leb_of_uvarintAux 0 0 0 buf v n h
    have : v = w := by simpa using h4
    subst this
    exact ⟨vb, rest, h1, by omega, hb.2.2, h3, hl.1⟩
  · rintro ⟨vb, rest, rfl, rfl, h3, h4, h5⟩
    have := uvarintAux_of_leb h4 0 0 0 rest rfl (by omega) (by simpa using h5)
    simpa [uvarint] using this

theorem wrap64_id {x : Int} (h1 : -2 ^ 63 ≤ x) (h2 : x < 2 ^ 63) : wrap64 x = x := by
  unfold wrap64; omega

namespace Tag

/-! ### Encoder -/

/-- The encoder has written exactly `w`. -/
def EncRep (e : Enc) (w : Bytes) : Prop :=
  e.writeIdx = w.length ∧ w.length ≤ e.buf.length ∧ e.buf.take w.length = w

theorem EncRep_grow {e : Enc} {w : Bytes} (h : EncRep e w) (n : Nat) :
    EncRep (e.grow n) w ∧ w.length + n ≤ (e.grow n).buf.length := by
  obtain ⟨h1, h2, h3⟩ := h
  unfold Enc.grow
  split
  · refine ⟨⟨h1, by simp; omega, ?_⟩, by simp; omega⟩
    simp only
    rw [List.take_append_of_le_length h2, h3]
  · exact ⟨⟨h1, h2, h3⟩, by omega⟩

theorem take_put (buf w bs rest : Bytes) (h : buf.take w.length = w) :
    (buf.take w.length ++ bs ++ rest).take (w ++ bs).length = w ++ bs := by
  rw [h]; exact List.take_left

theorem putAt_rep {buf w bs : Bytes} (h : buf.take w.length = w) (hl : w.length + bs.length ≤ buf.length) :
    ∃ b, putAt buf w.length bs = .ok b ∧ b.length = buf.length ∧ b.take (w ++ bs).length = w ++ bs := by
  refine ⟨_, by unfold putAt; rw [if_pos hl], ?_, take_put buf w bs _ h⟩
  simp; omega

theorem copyAt_rep {buf w bs : Bytes} (h : buf.take w.length = w) (hl : w.length + bs.length ≤ buf.length) :
    ∃ b, copyAt buf w.length bs = .ok b ∧ b.length = buf.length ∧ b.take (w ++ bs).length = w ++ bs := by
  have e : bs.take (buf.length - w.length) = bs := List.take_of_length_le (by omega)
  refine ⟨_, by unfold copyAt; rw [if_pos (by omega), e], ?_, take_put buf w bs _ h⟩
  simp; omega

theorem writeByte_rep {e : Enc} {w : Bytes} (h : EncRep e w) (v : UInt8) :
    ∃ e', e.writeByte v = .ok e' ∧ EncRep e' (w ++ [v]) := by
  obtain ⟨⟨h1, h2, h3⟩, h4⟩ := EncRep_grow h 1
  obtain ⟨b, hb1, hb2, hb3⟩ := putAt_rep (bs := [v]) h3 (by simpa using h4)
  refine ⟨⟨b, (e.grow 1).writeIdx + 1⟩, ?_, ?_⟩
  · simp only [Enc.writeByte, h1, hb1, Res.bind]
  · exact ⟨by simp [h1], by simp only [List.length_append, List.length_cons, List.length_nil]; omega, hb3⟩

theorem writeBytes_rep {e : Enc} {w : Bytes} (h : EncRep e w) (bs : Bytes) (hbs : bs.length < 2 ^ 64) :
    ∃ e', e.writeBytes bs = .ok e' ∧ EncRep e' (w ++ (putUvarint bs.length ++ bs)) := by
  obtain ⟨⟨h1, h2, h3⟩, h4⟩ := EncRep_grow h (maxVarintLen64 + bs.length)
  have hp := putUvarint_length_le _ hbs
  simp only [maxVarintLen64] at *
  obtain ⟨b, hb1, hb2, hb3⟩ := putAt_rep (bs := putUvarint bs.length) h3 (by omega)
  have hl : (w ++ putUvarint bs.length).length = w.length + (putUvarint bs.length).length := by simp
  obtain ⟨c, hc1, hc2, hc3⟩ := copyAt_rep (bs := bs) hb3 (by omega)
  rw [hl] at hc1
  refine ⟨⟨c, w.length + (putUvarint bs.length).length + bs.length⟩, ?_, ?_, ?_, ?_⟩
  · simp only [Enc.writeBytes, maxVarintLen64, h1, hb1, Res.bind, hc1]
  · simp; omega
  · simp; omega
  · simpa [List.append_assoc] using hc3

/-- The wire form of a list of key/value pairs. -/
def wire : List (Bytes × Bytes) → Bytes
  | [] => []
  | (k, v) :: es =>
    (0 :: (putUvarint k.length ++ k)) ++ ((putUvarint v.length ++ v) ++ wire es)

/-- The propagated pairs of a list of entries. -/
def propagated (es : List (Key × Content)) : List (Bytes × Bytes) :=
  (es.filter (fun e => e.2.m.ttl == -1)).map (fun e => (e.1.name, e.2.value))

theorem encodeLoop_rep {e : Enc} {w : Bytes} (h : EncRep e w) (es : List (Key × Content))
    (hl : ∀ x ∈ es, x.1.name.length < 2 ^ 64 ∧ x.2.value.length < 2 ^ 64) :
    ∃ e', encodeLoop e es = .ok e' ∧ EncRep e' (w ++ wire (propagated es)) := by
  induction es generalizing e w with
  | nil => exact ⟨e, rfl, by simpa [propagated, wire] using h⟩
  | cons x es ih =>
    obtain ⟨k, v⟩ := x
    obtain ⟨hk, hv⟩ := hl (k, v) (by simp)
    have hl' : ∀ x ∈ es, x.1.name.length < 2 ^ 64 ∧ x.2.value.length < 2 ^ 64 :=
      fun x hx => hl x (by simp [hx])
    by_cases ht : v.m.ttl = ttlUnlimited
    · obtain ⟨e1, h1, r1⟩ := writeByte_rep h 0
      obtain ⟨e2, h2, r2⟩ := writeBytes_rep r1 k.name hk
      obtain ⟨e3, h3, r3⟩ := writeBytes_rep r2 v.value hv
      obtain ⟨e4, h4, r4⟩ := ih r3 hl'
      refine ⟨e4, by simp [encodeLoop, ht, h1, h2, h3, h4, Res.bind], ?_⟩
      have ht' : v.m.ttl = -1 := ht
      have hp : propagated ((k, v) :: es) = (k.name, v.value) :: propagated es := by
        simp [propagated, ht']
      rw [hp]
      simpa [wire, List.append_assoc] using r4
    · obtain ⟨e4, h4, r4⟩ := ih h hl'
      refine ⟨e4, by simp [encodeLoop, ht, h4], ?_⟩
      have ht' : ¬ v.m.ttl = -1 := ht
      have hp : propagated ((k, v) :: es) = propagated es := by simp [propagated, ht']
      rw [hp]; exact r4

theorem encode_eq (es : List (Key × Content))
    (hl : ∀ x ∈ es, x.1.name.length < 2 ^ 64 ∧ x.2.value.length < 2 ^ 64) :
    encode es = .ok (0 :: wire (propagated es)) := by
  have h0 : EncRep ⟨List.replicate es.length 0, 0⟩ [] := ⟨rfl, by simp, by simp⟩
  obtain ⟨e1, h1, r1⟩ := writeByte_rep h0 0
  obtain ⟨e2, h2, r2⟩ := encodeLoop_rep r1 es hl
  simp only [encode, h1, h2, Res.bind]
  obtain ⟨a, b, c⟩ := r2
  unfold Enc.bytes
  rw [a, if_pos b, c]
  simp

/-! ### Decoder -/

theorem readBytes_wire (pre bs vb post : Bytes) (hvb : Leb vb bs.length) (h10 : vb.length ≤ 10)
    (hlen : (pre ++ (vb ++ (bs ++ post))).length < 2 ^ 63) :
    readBytesWithVarintLen (pre ++ (vb ++ (bs ++ post))) pre.length =
      .ok (bs, ((pre ++ (vb ++ bs)).length : Int)) := by
  have hne : vb ≠ [] := leb_ne_nil hvb
  have hpos : 0 < vb.length := List.length_pos_iff.2 hne
  have hlen' := hlen
  simp only [List.length_append] at hlen'
  unfold readBytesWithVarintLen
  have hd : (pre ++ (vb ++ (bs ++ post))).drop pre.length = vb ++ (bs ++ post) := by simp
  have hu : uvarint (vb ++ (bs ++ post)) = some (bs.length, vb.length) :=
    (uvarint_iff _ _ _).2 ⟨vb, _, rfl, rfl, h10, hvb, by omega⟩
  rw [if_neg (by simp only [List.length_append]; omega), hd, hu]
  simp only
  have w1 : wrap64 (bs.length : Int) = bs.length := wrap64_id (by omega) (by omega)
  have w2 : wrap64 ((vb.length : Int) + pre.length + bs.length) = vb.length + pre.length + bs.length :=
    wrap64_id (by omega) (by omega)
  rw [w1, w2, if_neg (by simp only [List.length_append]; omega)]
  unfold slice
  rw [if_pos (by simp only [List.length_append]; omega)]
  simp only [Res.bind, Res.ok.injEq, Prod.mk.injEq]
  constructor
  · have e1 : ((vb.length : Int) + pre.length + bs.length).toNat = (pre ++ (vb ++ bs)).length := by
      simp; omega
    have e2 : ((vb.length : Int) + pre.length).toNat = (pre ++ vb).length := by simp; omega
    rw [e1, e2]
    have e3 : pre ++ (vb ++ (bs ++ post)) = (pre ++ (vb ++ bs)) ++ post := by simp
    rw [e3, List.take_left]
    have e4 : pre ++ (vb ++ bs) = (pre ++ vb) ++ bs := by simp
    rw [e4, List.drop_left]
  · simp; omega

/-- The wire grammar, with any (also overlong) length numerals of at most ten bytes. -/
inductive Entries : Bytes → List (Bytes × Bytes) → Prop where
  | nil : Entries [] []
  | cons (kl k vl v rest : Bytes) (es : List (Bytes × Bytes)) (hk : Leb kl k.length) (hk10 : kl.length ≤ 10)
      (hv : Leb vl v.length) (hv10 : vl.length ≤ 10) (t : Entries rest es) :
      Entries (0 :: (kl ++ (k ++ (vl ++ (v ++ rest))))) ((k, v) :: es)

theorem wire_entries (es : List (Bytes × Bytes))
    (hl : ∀ x ∈ es, x.1.length < 2 ^ 64 ∧ x.2.length < 2 ^ 64) : Entries (wire es) es := by
  induction es with
  | nil => exact .nil
  | cons x es ih =>
    obtain ⟨k, v⟩ := x
    obtain ⟨hk, hv⟩ := hl (k, v) (by simp)
    have := Entries.cons _ k _ v _ es (putUvarint_leb k.length) (putUvarint_length_le _ hk)
      (putUvarint_leb v.length) (putUvarint_length_le _ hv) (ih fun x hx => hl x (by simp [hx]))
    simpa [wire] using this

/-- Both parts of a pair pass the checks of the decoder. -/
def PairOK (p : Bytes × Bytes) : Prop := checkKeyName p.1 = true ∧ checkValue p.2 = true

def toCalls (es : List (Bytes × Bytes)) : List (Key × Bytes) := es.map (fun p => (⟨p.1⟩, p.2))

theorem decodeLoop_of_entries {rest : Bytes} {es : List (Bytes × Bytes)} (he : Entries rest es)
    (hok : ∀ p ∈ es, PairOK p) (pre : Bytes) (hlen : (pre ++ rest).length < 2 ^ 63) :
    decodeLoop (pre ++ rest) pre.length = (toCalls es, .ok) := by
  induction he generalizing pre with
  | nil => unfold decodeLoop; simp [toCalls]
  | cons kl k vl v rest es hk hk10 hv hv10 t ih =>
    have hp := hok (k, v) (by simp)
    have hne : ¬ pre.length ≥ (pre ++ 0 :: (kl ++ (k ++ (vl ++ (v ++ rest))))).length := by simp
    have r1 := readBytes_wire (pre ++ [0]) k kl (vl ++ (v ++ rest)) hk hk10 (by simpa using hlen)
    have r2 := readBytes_wire (pre ++ [0] ++ (kl ++ k)) v vl rest hv hv10 (by simpa using hlen)
    have ih' := ih (fun p hp => hok p (by simp [hp])) (pre ++ [0] ++ (kl ++ k) ++ (vl ++ v))
      (by simpa using hlen)
    simp only [List.append_assoc, List.cons_append, List.nil_append, List.length_append, List.length_cons,
      List.length_nil, Nat.zero_add] at r1 r2 ih'
    unfold decodeLoop
    rw [dif_neg hne]
    simp only [List.getElem_append_right (Nat.le_refl _), Nat.sub_self, List.getElem_cons_zero,
      ne_eq, not_true_eq_false, if_false]
    split
    · next h => rw [r1] at h; simp at h
    · next h => rw [r1] at h; simp at h
    · next k' i2 h =>
      rw [r1] at h
      simp only [Res.ok.injEq, Prod.mk.injEq] at h
      obtain ⟨rfl, rfl⟩ := h
      split
      · next h => rw [Int.toNat_natCast, r2] at h; simp at h
      · next h => rw [Int.toNat_natCast, r2] at h; simp at h
      · next v' i3 h =>
        rw [Int.toNat_natCast, r2] at h
        simp only [Res.ok.injEq, Prod.mk.injEq] at h
        obtain ⟨rfl, rfl⟩ := h
        have hkk : newKey k = some ⟨k⟩ := by simp [newKey, hp.1]
        rw [hkk]
        simp only [hp.2, Bool.not_true, Bool.false_eq_true, if_false, Int.toNat_natCast, ih']
        simp [toCalls]

end Tag
end Verif
