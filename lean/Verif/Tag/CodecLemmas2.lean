import Verif.Tag.CodecLemmas

/-! What the decoder accepts, and exactly when it panics. -/

namespace Verif.Tag
open Verif

theorem readBytes_ok_shape {buf : Bytes} {i : Nat} {bs : Bytes} {j : Int} (hlen : buf.length < 2 ^ 63)
    (h : readBytesWithVarintLen buf i = .ok (bs, j)) :
    ∃ vb, buf.drop i = vb ++ (bs ++ buf.drop j.toNat) ∧ Leb vb bs.length ∧ vb.length ≤ 10 ∧
      j = (i + vb.length + bs.length : Nat) := by
  unfold readBytesWithVarintLen at h
  split at h
  · simp at h
  · next hi =>
    split at h
    · simp at h
    · next length n hu =>
      obtain ⟨vb, rest, h1, h2, h3, h4, h5⟩ := (uvarint_iff _ _ _).1 hu
      simp only at h
      split at h
      · simp at h
      · next hge =>
        unfold slice at h
        split at h
        · next hs =>
          simp only [Res.bind, Res.ok.injEq, Prod.mk.injEq] at h
          obtain ⟨hbs, hj⟩ := h
          have hdl := congrArg List.length h1
          simp only [List.length_drop, List.length_append] at hdl
          have hve : wrap64 (↑n + ↑i + wrap64 ↑length) = (n + i + length : Nat) := by
            unfold wrap64 at hs hge ⊢; omega
          rw [hve] at hs hge hbs hj
          have hvl : vb ++ rest = buf.drop i := h1.symm
          have e1 : buf = buf.take i ++ (vb ++ rest) := by rw [hvl, List.take_append_drop]
          have hti : (buf.take i).length = i := by simp; omega
          have hbs2 : bs = rest.take length := by
            rw [← hbs]
            have a1 : ((n : Int) + i).toNat = i + n := by omega
            have a2 : ((n + i + length : Nat) : Int).toNat = i + n + length := by omega
            rw [a1, a2]
            have hd : buf.drop (i + n) = rest := by
              rw [← List.drop_drop, ← hvl, ← h2]; simp
            have : ∀ (l : Bytes) (p q : Nat), (l.take (p + q)).drop p = (l.drop p).take q := by
              intro l p q; rw [List.drop_take, Nat.add_sub_cancel_left]
            rw [this, hd]
          have hlr : length ≤ rest.length := by omega
          have hlb : bs.length = length := by rw [hbs2]; simp; omega
          refine ⟨vb, ?_, by rw [hlb]; exact h4, by omega, by rw [← hj]; omega⟩
          have a3 : j.toNat = i + (n + length) := by omega
          rw [a3, ← List.drop_drop, ← hvl]
          have : List.drop (n + length) (vb ++ rest) = rest.drop length := by
            rw [← List.drop_drop, ← h2]; simp
          rw [this, hbs2, List.take_append_drop]
        · simp [Res.bind] at h

theorem readBytes_panic_iff {buf : Bytes} {i : Nat} (hlen : buf.length < 2 ^ 63) :
    readBytesWithVarintLen buf i = .panic ↔
      ∃ vb rest n, buf.drop i = vb ++ rest ∧ Leb vb n ∧ vb.length ≤ 10 ∧ n < 2 ^ 64 ∧
        2 ^ 63 ≤ i + vb.length + n := by
  constructor
  · intro h
    unfold readBytesWithVarintLen at h
    split at h
    · simp at h
    · next hi =>
      split at h
      · simp at h
      · next length n hu =>
        obtain ⟨vb, rest, h1, h2, h3, h4, h5⟩ := (uvarint_iff _ _ _).1 hu
        have hdl := congrArg List.length h1
        simp only [List.length_drop, List.length_append] at hdl
        refine ⟨vb, rest, length, h1, h4, by omega, h5, ?_⟩
        simp only at h
        split at h
        · simp at h
        · next hge =>
          unfold slice at h
          split at h
          · simp [Res.bind] at h
          · next hs =>
            unfold wrap64 at hs hge; omega
  · rintro ⟨vb, rest, n, h1, h2, h3, h4, h5⟩
    have hne := leb_ne_nil h2
    have hpos : 0 < vb.length := List.length_pos_iff.2 hne
    have hdl := congrArg List.length h1
    simp only [List.length_drop, List.length_append] at hdl
    have hu : uvarint (buf.drop i) = some (n, vb.length) :=
      (uvarint_iff _ _ _).2 ⟨vb, rest, h1, rfl, h3, h2, h4⟩
    unfold readBytesWithVarintLen
    rw [if_neg (by omega), hu]
    simp only
    have hw : wrap64 (↑vb.length + ↑i + wrap64 ↑n) < vb.length + i := by unfold wrap64; omega
    rw [if_neg (by omega)]
    unfold slice
    rw [if_neg (by omega)]
    rfl

theorem decodeLoop_ok_shape (buf : Bytes) (i : Nat) (hlen : buf.length < 2 ^ 63)
    (hok : (decodeLoop buf i).2 = .ok) :
    ∃ es, Entries (buf.drop i) es ∧ (∀ p ∈ es, PairOK p) ∧ (decodeLoop buf i).1 = toCalls es := by
  fun_induction decodeLoop buf i with
  | case1 i h => exact ⟨[], by rw [List.drop_of_length_le h]; exact .nil, by simp, rfl⟩
  | case2 => simp at hok
  | case3 => simp at hok
  | case4 => simp at hok
  | case5 => simp at hok
  | case6 => simp at hok
  | case7 => simp at hok
  | case8 => simp at hok
  | case9 i hi typ htyp k i2 hk v i3 hv key hkey hval r ih =>
    obtain ⟨es, h1, h2, h3⟩ := ih hok
    obtain ⟨kl, a1, a2, a3, a4⟩ := readBytes_ok_shape hlen hk
    obtain ⟨vl, b1, b2, b3, b4⟩ := readBytes_ok_shape hlen hv
    have hck : checkKeyName k = true ∧ key = ⟨k⟩ := by
      unfold newKey at hkey
      cases hc : checkKeyName k <;> simp [hc] at hkey
      exact ⟨rfl, hkey.symm⟩
    have hcv : checkValue v = true := by simpa using hval
    refine ⟨(k, v) :: es, ?_, ?_, ?_⟩
    · have ht : typ = 0 := by simpa using htyp
      have e0 : buf.drop i = typ :: buf.drop (i + 1) := List.drop_eq_getElem_cons (by omega)
      rw [e0, a1, b1, ht]
      exact .cons kl k vl v _ es a2 a3 b2 b3 h1
    · intro p hp
      rcases List.mem_cons.1 hp with rfl | hp
      · exact ⟨hck.1, hcv⟩
      · exact h2 p hp
    · simp only [r, h3, toCalls, List.map_cons, hck.2]

/-- At absolute position `i`, `bytes` begins with a length numeral that, added to the position after
it, reaches 2^63. -/
def HugeLen (i : Nat) (bytes : Bytes) : Prop :=
  ∃ vb rest n, bytes = vb ++ rest ∧ Leb vb n ∧ vb.length ≤ 10 ∧ n < 2 ^ 64 ∧ 2 ^ 63 ≤ i + vb.length + n

/-- A prefix of valid entries followed by an entry whose key length or value length is huge. -/
inductive PanicAt : Nat → Bytes → Prop where
  | key (i : Nat) (rest : Bytes) (h : HugeLen (i + 1) rest) : PanicAt i (0 :: rest)
  | val (i : Nat) (kl k rest : Bytes) (hk : Leb kl k.length) (h10 : kl.length ≤ 10)
      (h : HugeLen (i + 1 + kl.length + k.length) rest) : PanicAt i (0 :: (kl ++ (k ++ rest)))
  | later (i : Nat) (kl k vl v rest : Bytes) (hk : Leb kl k.length) (hk10 : kl.length ≤ 10)
      (hv : Leb vl v.length) (hv10 : vl.length ≤ 10) (hp : PairOK (k, v))
      (t : PanicAt (i + 1 + kl.length + k.length + vl.length + v.length) rest) :
      PanicAt i (0 :: (kl ++ (k ++ (vl ++ (v ++ rest)))))

theorem decodeLoop_panic_shape (buf : Bytes) (i : Nat) (hlen : buf.length < 2 ^ 63)
    (hok : (decodeLoop buf i).2 = .panic) : PanicAt i (buf.drop i) := by
  fun_induction decodeLoop buf i with
  | case1 => simp at hok
  | case2 => simp at hok
  | case3 => simp at hok
  | case4 i hi typ htyp hk =>
    have ht : typ = 0 := by simpa using htyp
    have e0 : buf.drop i = typ :: buf.drop (i + 1) := List.drop_eq_getElem_cons (by omega)
    rw [e0, ht]
    exact .key i _ ((readBytes_panic_iff hlen).1 hk)
  | case5 => simp at hok
  | case6 i hi typ htyp k i2 hk hv =>
    obtain ⟨kl, a1, a2, a3, a4⟩ := readBytes_ok_shape hlen hk
    have ht : typ = 0 := by simpa using htyp
    have e0 : buf.drop i = typ :: buf.drop (i + 1) := List.drop_eq_getElem_cons (by omega)
    rw [e0, ht, a1]
    have hp := (readBytes_panic_iff hlen).1 hv
    refine .val i kl k _ a2 a3 ?_
    have : i2.toNat = i + 1 + kl.length + k.length := by omega
    rw [← this]; exact hp
  | case7 => simp at hok
  | case8 => simp at hok
  | case9 i hi typ htyp k i2 hk v i3 hv key hkey hval r ih =>
    have ih := ih hok
    obtain ⟨kl, a1, a2, a3, a4⟩ := readBytes_ok_shape hlen hk
    obtain ⟨vl, b1, b2, b3, b4⟩ := readBytes_ok_shape hlen hv
    have ht : typ = 0 := by simpa using htyp
    have e0 : buf.drop i = typ :: buf.drop (i + 1) := List.drop_eq_getElem_cons (by omega)
    have hck : checkKeyName k = true := by
      unfold newKey at hkey
      cases hc : checkKeyName k <;> simp [hc] at hkey; rfl
    have hcv : checkValue v = true := by simpa using hval
    rw [e0, a1, b1, ht]
    refine .later i kl k vl v _ a2 a3 b2 b3 ⟨hck, hcv⟩ ?_
    have : i3.toNat = i + 1 + kl.length + k.length + vl.length + v.length := by omega
    rw [← this]; exact ih

theorem decodeLoop_of_panicAt (buf : Bytes) (i : Nat) (rest : Bytes) (hlen : buf.length < 2 ^ 63)
    (hr : buf.drop i = rest) (h : PanicAt i rest) : (decodeLoop buf i).2 = .panic := by
  have hsplit : ∀ (i : Nat) (r : Bytes), buf.drop i = 0 :: r →
      ∃ hi : i < buf.length, buf[i] = 0 ∧ buf.drop (i + 1) = r := by
    intro i r hr
    have hi : i < buf.length := by
      rcases Nat.lt_or_ge i buf.length with h | h
      · exact h
      · rw [List.drop_of_length_le h] at hr; simp at hr
    have e0 : buf.drop i = buf[i] :: buf.drop (i + 1) := List.drop_eq_getElem_cons hi
    rw [hr] at e0
    simp only [List.cons.injEq] at e0
    exact ⟨hi, e0.1.symm, e0.2.symm⟩
  have hread : ∀ (i : Nat) (vb bs post : Bytes), i ≤ buf.length → buf.drop i = vb ++ (bs ++ post) →
      Leb vb bs.length → vb.length ≤ 10 →
      readBytesWithVarintLen buf i = .ok (bs, ((i + vb.length + bs.length : Nat) : Int)) := by
    intro i vb bs post hi hd hl h10
    have e1 : buf = buf.take i ++ (vb ++ (bs ++ post)) := by rw [← hd, List.take_append_drop]
    have hti : (buf.take i).length = i := by simp; omega
    have := readBytes_wire (buf.take i) bs vb post hl h10 (by rw [← e1]; exact hlen)
    rw [← e1, hti] at this
    rw [this]; simp only [List.length_append, hti, Nat.add_assoc]
  induction h with
  | key i rest h =>
    obtain ⟨hi, h0, h1⟩ := hsplit _ _ hr
    have hp : readBytesWithVarintLen buf (i + 1) = .panic :=
      (readBytes_panic_iff hlen).2 (by rw [h1]; exact h)
    unfold decodeLoop
    rw [dif_neg (by omega)]
    simp only [h0, ne_eq, not_true_eq_false, if_false]
    split
    · next h => rw [hp] at h; simp at h
    · rfl
    · next h => rw [hp] at h; simp at h
  | val i kl k rest hk h10 h =>
    obtain ⟨hi, h0, h1⟩ := hsplit _ _ hr
    have hk1 := hread (i + 1) kl k rest (by omega) h1 hk h10
    have hd : buf.drop (i + 1 + kl.length + k.length) = rest := by
      rw [← List.drop_drop, ← List.drop_drop, h1]; simp
    have hp : readBytesWithVarintLen buf (i + 1 + kl.length + k.length) = .panic :=
      (readBytes_panic_iff hlen).2 (by rw [hd]; exact h)
    unfold decodeLoop
    rw [dif_neg (by omega)]
    simp only [h0, ne_eq, not_true_eq_false, if_false]
    split
    · next h => rw [hk1] at h; simp at h
    · rfl
    · next k' i2 h =>
      rw [hk1] at h
      simp only [Res.ok.injEq, Prod.mk.injEq] at h
      obtain ⟨rfl, rfl⟩ := h
      split
      · next h => rw [Int.toNat_natCast, hp] at h; simp at h
      · rfl
      · next h => rw [Int.toNat_natCast, hp] at h; simp at h
  | later i kl k vl v rest hk hk10 hv hv10 hp t ih =>
    obtain ⟨hi, h0, h1⟩ := hsplit _ _ hr
    have hk1 := hread (i + 1) kl k _ (by omega) h1 hk hk10
    have hd : buf.drop (i + 1 + kl.length + k.length) = vl ++ (v ++ rest) := by
      rw [← List.drop_drop, ← List.drop_drop, h1]; simp
    have hle : i + 1 + kl.length + k.length ≤ buf.length := by
      have := congrArg List.length h1
      simp at this; omega
    have hv1 := hread _ vl v rest hle hd hv hv10
    have hd2 : buf.drop (i + 1 + kl.length + k.length + vl.length + v.length) = rest := by
      rw [← List.drop_drop, ← List.drop_drop, hd]; simp
    have ih := ih hd2
    unfold decodeLoop
    rw [dif_neg (by omega)]
    simp only [h0, ne_eq, not_true_eq_false, if_false]
    split
    · next h => rw [hk1] at h; simp at h
    · rfl
    · next k' i2 h =>
      rw [hk1] at h
      simp only [Res.ok.injEq, Prod.mk.injEq] at h
      obtain ⟨rfl, rfl⟩ := h
      split
      · next h => rw [Int.toNat_natCast, hv1] at h; simp at h
      · rfl
      · next v' i3 h =>
        rw [Int.toNat_natCast, hv1] at h
        simp only [Res.ok.injEq, Prod.mk.injEq] at h
        obtain ⟨rfl, rfl⟩ := h
        have hkk : newKey k = some ⟨k⟩ := by simp [newKey, hp.1]
        rw [hkk]
        simp only [hp.2, Bool.not_true, Bool.false_eq_true, if_false, Int.toNat_natCast, ih]

/-- Numerals of a large value are long: nine bytes with the high bit set on the first eight. -/
theorem leb_lt {bs : Bytes} {n : Nat} (h : Leb bs n) : n < 128 ^ bs.length := by
  induction h with
  | last b h => simpa using h
  | more b bs n h t ih =>
    have hb : b.toNat < 256 := b.toNat_lt
    simp only [List.length_cons, Nat.pow_succ]
    omega

theorem leb_high {bs : Bytes} {n : Nat} (h : Leb bs n) (k : Nat) (hk : k < bs.length) :
    ∀ b ∈ bs.take k, 128 ≤ b.toNat := by
  induction h generalizing k with
  | last b h => simp at hk; subst hk; simp
  | more b bs n h t ih =>
    cases k with
    | zero => simp
    | succ k =>
      simp only [List.take_succ_cons, List.mem_cons]
      rintro c (rfl | hc)
      · exact h
      · exact ih k (by simpa using hk) c hc

end Verif.Tag
