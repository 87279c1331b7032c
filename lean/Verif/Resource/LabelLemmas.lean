import Verif.Resource.Labels
import Mathlib.Data.List.Basic

/-!
# Lemmas about quoting and matching labels
-/

namespace Verif.Resource
open Verif Verif.Utf8 Verif.Wire

/-! ## Hexadecimal numbers -/

theorem readHex_succ (k acc : Nat) (s : Bytes) :
    readHex (k + 1) acc s = (readHex k acc s).bind fun p => readHex 1 p.1 p.2 := by
  induction k generalizing acc s with
  | zero => rfl
  | succ k ih =>
    cases s with
    | nil => rfl
    | cons c s =>
      rw [readHex]
      conv => rhs; rw [readHex]
      cases fromHexChar c with
      | none => rfl
      | some d => exact ih _ _

theorem fromHexChar_digit : ∀ d < 16, fromHexChar (hexDigit (UInt8.ofNat d)) = some (UInt8.ofNat d) := by decide +kernel

theorem readHex_hexN (k acc r : Nat) (rest : Bytes) :
    readHex k acc (hexN k r ++ rest) = some (acc * 16 ^ k + r % 16 ^ k, rest) := by
  induction k generalizing r rest with
  | zero => simp [readHex, hexN, Nat.mod_one]
  | succ k ih =>
    rw [readHex_succ, hexN, List.append_assoc, ih]
    have hd : r % 16 < 16 := by omega
    simp only [Option.bind_some, readHex, List.cons_append, List.nil_append, fromHexChar_digit _ hd]
    rw [toNat_ofNat (by omega)]
    congr 2
    rw [Nat.pow_succ', Nat.mod_mul, Nat.add_mul, Nat.mul_assoc, Nat.mul_comm (16 ^ k) 16]
    omega

theorem hexDigit_range : ∀ d < 16, (hexDigit (UInt8.ofNat d)).toNat < 0x80 ∧ 48 ≤ (hexDigit (UInt8.ofNat d)).toNat := by
  decide +kernel

theorem hexN_range (k r : Nat) : ∀ c ∈ hexN k r, c.toNat < 0x80 ∧ 48 ≤ c.toNat := by
  induction k generalizing r with
  | zero => intro c h; cases h
  | succ k ih =>
    intro c h
    rcases List.mem_append.1 h with h | h
    · exact ih _ c h
    · rw [List.mem_singleton.1 h]
      exact hexDigit_range _ (by omega)

/-! ## One character -/

/-- What `Quote` writes for the first character. -/
def item (P : Nat → Bool) (c : UInt8) (s : Bytes) : Bytes :=
  if (decodeRune (c :: s)).2 = 1 ∧ (decodeRune (c :: s)).1 = runeError then [92, 120] ++ hexN 2 c.toNat
  else escapedRune P (decodeRune (c :: s)).1

theorem quoteLoop_cons (P : Nat → Bool) (f : Nat) (c : UInt8) (s : Bytes) :
    quoteLoop P (f + 1) (c :: s) = item P c s ++ quoteLoop P f ((c :: s).drop (decodeRune (c :: s)).2) := rfl

/-- The kinds of characters: a space, a comma, a quote, and others, which have no quote and no newline and do not
begin with white space or a comma. -/
def ItemOk (e raw : Bytes) : Prop :=
  (e = [32] ∧ raw = [32]) ∨ (e = [44] ∧ raw = [44]) ∨ (e = [92, 34] ∧ raw = [34]) ∨
  (34 ∉ e ∧ 10 ∉ e ∧ ∃ x t, e = x :: t ∧ isWS x = false ∧ x ≠ 44 ∧ ∃ y u, raw = y :: u ∧ y ≠ 44 ∧ y ≠ 32)

theorem hexN_free (k r : Nat) : (34 : UInt8) ∉ hexN k r ∧ (10 : UInt8) ∉ hexN k r := by
  constructor
  · intro h; have := (hexN_range k r _ h).2; simp at this
  · intro h; have := (hexN_range k r _ h).2; simp at this

theorem unquote_multi {r : Nat} (hr : ValidRune r) (h : 0x80 ≤ r) (tail : Bytes) :
    unquoteChar (encodeValid r ++ tail) = some (encodeValid r, tail) := by
  have hd := decode_encode hr tail
  have hx : ∃ x t, encodeValid r = x :: t ∧ 0x80 ≤ x.toNat := by
    unfold encodeValid
    unfold ValidRune at hr
    rw [if_neg (by omega)]
    split
    · exact ⟨_, _, rfl, by rw [toNat_ofNat (by omega)]; omega⟩
    · split
      · exact ⟨_, _, rfl, by rw [toNat_ofNat (by omega)]; omega⟩
      · exact ⟨_, _, rfl, by rw [toNat_ofNat (by omega)]; omega⟩
  obtain ⟨x, t, he, hx⟩ := hx
  have hdrop : (encodeValid r ++ tail).drop (encodeValid r).length = tail := List.drop_left
  have henc := encodeRune_valid hr
  rw [he] at hd hdrop henc ⊢
  simp only [List.cons_append] at hd hdrop ⊢
  rw [unquoteChar]
  have hne : x ≠ 34 := by rintro rfl; simp at hx
  rw [if_neg hne, if_pos hx, hd]
  simp only [hdrop, henc]

theorem encodeValid_free {r : Nat} (hr : ValidRune r) (h : 0x80 ≤ r) :
    ∀ c ∈ encodeValid r, 0x80 ≤ c.toNat := by
  unfold encodeValid
  unfold ValidRune at hr
  rw [if_neg (by omega)]
  intro c hc
  split at hc
  · simp only [List.mem_cons, List.not_mem_nil, or_false] at hc
    rcases hc with rfl | rfl <;> rw [toNat_ofNat (by omega)] <;> omega
  · split at hc
    · simp only [List.mem_cons, List.not_mem_nil, or_false] at hc
      rcases hc with rfl | rfl | rfl <;> rw [toNat_ofNat (by omega)] <;> omega
    · simp only [List.mem_cons, List.not_mem_nil, or_false] at hc
      rcases hc with rfl | rfl | rfl | rfl <;> rw [toNat_ofNat (by omega)] <;> omega

/-- ASCII characters, checked one by one. -/
def asciiItem (r : Nat) : Bytes := escapedRune (fun _ => false) r

theorem ascii_unquote : ∀ r < 0x80, unquoteChar (asciiItem r) = some ([UInt8.ofNat r], []) := by decide +kernel

instance (e raw : Bytes) : Decidable (ItemOk e raw) := by
  unfold ItemOk
  have : Decidable (∃ x t, e = x :: t ∧ isWS x = false ∧ x ≠ 44 ∧ ∃ y u, raw = y :: u ∧ y ≠ 44 ∧ y ≠ 32) := by
    cases e with
    | nil => exact isFalse (by simp)
    | cons x t =>
      cases raw with
      | nil => exact isFalse (by simp)
      | cons y u =>
        exact decidable_of_iff (isWS x = false ∧ x ≠ 44 ∧ y ≠ 44 ∧ y ≠ 32)
          ⟨fun ⟨a, b, c, d⟩ => ⟨x, t, rfl, a, b, y, u, rfl, c, d⟩, fun ⟨_, _, h1, a, b, _, _, h2, c, d⟩ => by
            cases h1; cases h2; exact ⟨a, b, c, d⟩⟩
  infer_instance

theorem ascii_item : ∀ r < 0x80, ItemOk (asciiItem r) [UInt8.ofNat r] := by decide +kernel

theorem ascii_shape : ∀ r < 0x80, asciiItem r = [UInt8.ofNat r] ∧ r ≠ 34 ∧ r ≠ 92 ∨ ∃ e ∈ [97, 98, 102, 110, 114, 116, 118, 92, 34], asciiItem r = [92, e] ∨ asciiItem r = [92, 120] ++ hexN 2 r := by
  decide +kernel

theorem escaped_ascii (P : Nat → Bool) {r : Nat} (h : r < 0x80) : escapedRune P r = asciiItem r := by
  unfold asciiItem escapedRune isPrint
  simp only [if_pos h]

theorem unquoteChar_simple {e b : UInt8} (h : simpleEscape e = some b) (t : Bytes) :
    unquoteChar (92 :: e :: t) = some ([b], t) := by
  rw [unquoteChar, if_neg (by decide), if_neg (by decide), if_neg (by decide), unquoteEscape, h]

theorem unquoteChar_x (n : Nat) (h : n < 256) (t : Bytes) :
    unquoteChar (92 :: 120 :: (hexN 2 n ++ t)) = some ([UInt8.ofNat n], t) := by
  have : simpleEscape 120 = none := by decide
  rw [unquoteChar, if_neg (by decide), if_neg (by decide), if_neg (by decide), unquoteEscape, this]
  simp only [if_true, readHex_hexN, Option.map_some]
  have hm : 0 * 16 ^ 2 + n % 16 ^ 2 = n := by omega
  rw [hm]

theorem ascii_unquote_tail {r : Nat} (h : r < 0x80) (tail : Bytes) :
    unquoteChar (asciiItem r ++ tail) = some ([UInt8.ofNat r], tail) := by
  have h0 := ascii_unquote r h
  rcases ascii_shape r h with ⟨h1, h2, h3⟩ | ⟨e, he, h1 | h1⟩
  · rw [h1]
    simp only [List.cons_append, List.nil_append, unquoteChar]
    have e1 : UInt8.ofNat r ≠ 34 := by
      intro hh; have := congrArg UInt8.toNat hh; rw [toNat_ofNat (by omega)] at this; exact h2 this
    have e2 : UInt8.ofNat r ≠ 92 := by
      intro hh; have := congrArg UInt8.toNat hh; rw [toNat_ofNat (by omega)] at this; exact h3 this
    rw [if_neg e1, if_neg (by rw [toNat_ofNat (by omega)]; omega), if_pos e2]
  · rw [h1] at h0 ⊢
    have : ∃ b, simpleEscape e = some b := by
      simp only [List.mem_cons, List.not_mem_nil, or_false] at he
      rcases he with rfl | rfl | rfl | rfl | rfl | rfl | rfl | rfl | rfl <;> exact ⟨_, rfl⟩
    obtain ⟨b, hb⟩ := this
    have h2 := unquoteChar_simple hb []
    rw [h0] at h2
    simp only [Option.some.injEq, Prod.mk.injEq, and_true] at h2
    rw [h2]
    exact unquoteChar_simple hb tail
  · rw [h1]
    exact unquoteChar_x r (by omega) tail

theorem ofNat_head (r : Nat) (h : 0x80 ≤ r) (hr : ValidRune r) :
    ∃ z u, encodeValid r = z :: u ∧ z ≠ 44 ∧ z ≠ 32 ∧ isWS z = false := by
  cases he : encodeValid r with
  | nil => exact absurd he (encodeValid_ne_nil r)
  | cons z u =>
    have := encodeValid_free hr h z (by rw [he]; simp)
    refine ⟨z, u, rfl, ?_, ?_, ?_⟩
    · rintro rfl; simp at this
    · rintro rfl; simp at this
    · unfold isWS
      simp only [Bool.or_eq_false_iff, decide_eq_false_iff_not]
      refine ⟨⟨⟨⟨?_, ?_⟩, ?_⟩, ?_⟩, ?_⟩ <;> (rintro rfl; simp at this)

/-- What `Quote` writes for a character is read back as it, and is of one of the kinds. -/
theorem item_spec (P : Nat → Bool) (c : UInt8) (s : Bytes) :
    ∃ raw rest, c :: s = raw ++ rest ∧ raw ≠ [] ∧ (c :: s).drop (decodeRune (c :: s)).2 = rest ∧
      (∀ tail, unquoteChar (item P c s ++ tail) = some (raw, tail)) ∧ ItemOk (item P c s) raw := by
  rcases decode_cons c s with ⟨hd, hc⟩ | ⟨r, rest, hv, hcs, hd⟩
  · refine ⟨[c], s, rfl, by simp, by rw [hd]; rfl, ?_⟩
    have hi : item P c s = [92, 120] ++ hexN 2 c.toNat := by unfold item; rw [hd]; simp
    rw [hi]
    constructor
    · intro tail
      have := unquoteChar_x c.toNat c.toNat_lt tail
      rw [UInt8.ofNat_toNat] at this
      exact this
    · refine Or.inr (Or.inr (Or.inr ⟨?_, ?_, 92, _, rfl, by decide, by decide, c, [], rfl, ?_, ?_⟩))
      · simp [(hexN_free 2 c.toNat).1]
      · simp [(hexN_free 2 c.toNat).2]
      · rintro rfl; simp at hc
      · rintro rfl; simp at hc
  · refine ⟨encodeValid r, rest, hcs, encodeValid_ne_nil r, by rw [hd, hcs]; simp, ?_⟩
    have hi : item P c s = escapedRune P r := by
      unfold item
      rw [hd]
      rw [if_neg]
      rintro ⟨h1, h2⟩
      simp only at h1 h2
      rw [h2] at h1
      exact absurd h1 (by decide)
    rw [hi]
    by_cases hr : r < 0x80
    · rw [escaped_ascii P hr]
      have : encodeValid r = [UInt8.ofNat r] := by simp [encodeValid, hr]
      rw [this]
      exact ⟨fun tail => ascii_unquote_tail hr tail, ascii_item r hr⟩
    · have hr' : 0x80 ≤ r := by omega
      obtain ⟨z, u, hz, hz1, hz2, hz3⟩ := ofNat_head r hr' hv
      unfold escapedRune
      rw [if_neg (by omega)]
      by_cases hp : isPrint P r = true
      · rw [if_pos hp, encodeRune_valid hv]
        refine ⟨fun tail => unquote_multi hv hr' tail, Or.inr (Or.inr (Or.inr ⟨?_, ?_, z, u, hz, hz3, hz1, z, u, hz, hz1, hz2⟩))⟩
        · intro h; have := encodeValid_free hv hr' _ h; simp at this
        · intro h; have := encodeValid_free hv hr' _ h; simp at this
      · rw [if_neg hp, if_neg (by omega), if_neg (by omega), if_neg (by omega), if_neg (by omega), if_neg (by omega),
          if_neg (by omega), if_neg (by omega), if_neg (by omega)]
        have hlt : r < 0x110000 := by unfold ValidRune at hv; omega
        by_cases hb : r < 0x10000
        · rw [if_pos hb]
          refine ⟨fun tail => ?_, Or.inr (Or.inr (Or.inr ⟨?_, ?_, 92, _, rfl, by decide, by decide, z, u, hz, hz1, hz2⟩))⟩
          · show unquoteChar (92 :: 117 :: (hexN 4 r ++ tail)) = _
            have : simpleEscape 117 = none := by decide
            have hm : 0 * 16 ^ 4 + r % 16 ^ 4 = r := by omega
            rw [unquoteChar, if_neg (by decide), if_neg (by decide), if_neg (by decide), unquoteEscape, this]
            simp only [runeEscape, readHex_hexN, Option.bind_some, hm]
            rw [if_neg (by decide), if_pos trivial, if_pos hlt, encodeRune_valid hv]
          · simp [(hexN_free 4 r).1]
          · simp [(hexN_free 4 r).2]
        · rw [if_neg hb]
          refine ⟨fun tail => ?_, Or.inr (Or.inr (Or.inr ⟨?_, ?_, 92, _, rfl, by decide, by decide, z, u, hz, hz1, hz2⟩))⟩
          · show unquoteChar (92 :: 85 :: (hexN 8 r ++ tail)) = _
            have : simpleEscape 85 = none := by decide
            have hm : 0 * 16 ^ 8 + r % 16 ^ 8 = r := by omega
            rw [unquoteChar, if_neg (by decide), if_neg (by decide), if_neg (by decide), unquoteEscape, this]
            simp only [runeEscape, readHex_hexN, Option.bind_some, hm]
            rw [if_neg (by decide), if_neg (by decide), if_pos trivial, if_pos hlt, encodeRune_valid hv]
          · simp [(hexN_free 8 r).1]
          · simp [(hexN_free 8 r).2]

theorem item_ne_nil {e raw : Bytes} (h : ItemOk e raw) : e ≠ [] := by
  rcases h with h | h | h | ⟨_, _, x, t, h, _⟩ <;> simp [h]

/-! ## Strings -/

theorem unquoteLoop_quoteLoop (P : Nat → Bool) (f g : Nat) (v : Bytes) (hf : v.length ≤ f)
    (hg : (quoteLoop P f v).length ≤ g) : unquoteLoop g (quoteLoop P f v) = some v := by
  induction f generalizing v g with
  | zero =>
    have : v = [] := List.eq_nil_of_length_eq_zero (by omega)
    subst this
    cases g <;> simp [quoteLoop, unquoteLoop]
  | succ f ih =>
    cases v with
    | nil => cases g <;> simp [quoteLoop, unquoteLoop]
    | cons c s =>
      obtain ⟨raw, rest, h1, h2, h3, h4, h5⟩ := item_spec P c s
      rw [quoteLoop_cons, h3] at hg ⊢
      have hne := item_ne_nil h5
      have hil : 0 < (item P c s).length := List.length_pos_iff.2 hne
      have hrl : 0 < raw.length := List.length_pos_iff.2 h2
      cases g with
      | zero => simp only [List.length_append] at hg; omega
      | succ g =>
        rw [unquoteLoop, if_neg (by simp [hne])]
        simp only [h4]
        rw [ih]
        · rw [h1]; rfl
        · have := congrArg List.length h1
          simp only [List.length_append, List.length_cons] at this hf
          omega
        · simp only [List.length_append] at hg; omega

theorem quoteLoop_no_newline (P : Nat → Bool) (f : Nat) (v : Bytes) : (10 : UInt8) ∉ quoteLoop P f v := by
  induction f generalizing v with
  | zero => simp [quoteLoop]
  | succ f ih =>
    cases v with
    | nil => simp [quoteLoop]
    | cons c s =>
      obtain ⟨raw, rest, _, _, h3, _, h5⟩ := item_spec P c s
      rw [quoteLoop_cons]
      intro h
      rcases List.mem_append.1 h with h | h
      · rcases h5 with ⟨h5, _⟩ | ⟨h5, _⟩ | ⟨h5, _⟩ | ⟨_, h5, _⟩
        · rw [h5] at h; simp at h
        · rw [h5] at h; simp at h
        · rw [h5] at h; simp at h
        · exact h5 h
      · exact ih _ h

/-- `Unquote` undoes `Quote`, for every string. -/
theorem unquote_quote (P : Nat → Bool) (v : Bytes) : unquote (quote P v) = some v := by
  have hq : quote P v = 34 :: (quoteBody P v ++ [34]) := rfl
  rw [hq, unquote, if_pos (by simp)]
  simp only [List.dropLast_concat]
  rw [if_neg (show (10 : UInt8) ∉ quoteBody P v from quoteLoop_no_newline P _ v)]
  exact unquoteLoop_quoteLoop P _ _ v (Nat.le_refl _) (Nat.le_refl _)

/-! ## The expression on what was encoded -/

/-- A quote, spaces, and a comma. -/
def QuoteComma (v : Bytes) : Prop := ∃ a n b, v = a ++ 34 :: (List.replicate n 32 ++ 44 :: b)

theorem isWS_32 : isWS 32 = true := by decide

/-- After a quote, only spaces and a comma look like the end. -/
theorem after_quote (P : Nat → Bool) (f : Nat) (v rest : Bytes) (hf : v.length ≤ f)
    (h : ∃ t, (quoteLoop P f v ++ 34 :: rest).dropWhile isWS = 44 :: t) :
    ∃ n b, v = List.replicate n 32 ++ 44 :: b := by
  induction f generalizing v with
  | zero =>
    have : v = [] := List.eq_nil_of_length_eq_zero (by omega)
    subst this
    obtain ⟨t, h⟩ := h
    simp [quoteLoop, isWS] at h
  | succ f ih =>
    cases v with
    | nil => obtain ⟨t, h⟩ := h; simp [quoteLoop, isWS] at h
    | cons c s =>
      obtain ⟨raw, r, h1, h2, h3, _, h5⟩ := item_spec P c s
      rw [quoteLoop_cons, h3] at h
      rcases h5 with ⟨e1, e2⟩ | ⟨e1, e2⟩ | ⟨e1, e2⟩ | ⟨_, _, x, t, e1, e2, e3, _⟩
      · rw [e1] at h
        obtain ⟨t, h⟩ := h
        simp only [List.cons_append, List.nil_append, List.dropWhile_cons, isWS_32, if_true] at h
        obtain ⟨n, b, hb⟩ := ih r (by rw [e2] at h1; simp only [List.cons_append, List.nil_append, List.cons.injEq] at h1; rw [← h1.2]; simp at hf; exact hf) ⟨t, h⟩
        exact ⟨n + 1, b, by rw [h1, e2, hb]; rfl⟩
      · exact ⟨0, r, by rw [h1, e2]; rfl⟩
      · rw [e1] at h
        obtain ⟨t, h⟩ := h
        simp [isWS] at h
      · rw [e1] at h
        obtain ⟨t, h⟩ := h
        simp only [List.cons_append, List.dropWhile_cons, e2] at h
        simp only [Bool.false_eq_true, if_false, List.cons.injEq] at h
        exact absurd h.1 e3

theorem closing_of_not_quote {c : UInt8} (h : c ≠ 34) (t : Bytes) : closing (c :: t) = none := by
  unfold closing
  split
  · rename_i heq; cases heq; exact absurd rfl h
  · rfl

theorem closing_quote (t : Bytes) (h : ¬ ∃ u, t.dropWhile isWS = 44 :: u) : closing (34 :: t) = none := by
  unfold closing
  split
  · rename_i heq
    cases heq
    split
    · rename_i u hu; exact absurd ⟨u, hu⟩ h
    · rfl
  · rfl

theorem matchValue_skip (e : Bytes) (n : Nat) (tail v rest : Bytes) (hn : e.length ≤ n) (ha : ∀ c ∈ e, isAscii c = true)
    (hc : ∀ x y, e = x ++ y → y ≠ [] → closing (y ++ tail) = none)
    (h : matchValue (n - e.length) tail = some (v, rest)) : matchValue n (e ++ tail) = some (e ++ v, rest) := by
  induction e generalizing n with
  | nil => simpa using h
  | cons c e ih =>
    cases n with
    | zero => simp at hn
    | succ n =>
      have h1 := hc [] (c :: e) rfl (by simp)
      rw [List.cons_append] at h1
      rw [List.cons_append, matchValue, h1]
      simp only [ha c (by simp), if_true]
      rw [ih n (by simpa using hn) (fun x hx => ha x (List.mem_cons_of_mem _ hx))
        (fun x y he hy => hc (c :: x) y (by rw [he]; rfl) hy)
        (by simpa [Nat.add_sub_add_right] using h)]
      rfl

/-- No quote in the text of a value looks like its end. -/
theorem closing_item {P : Nat → Bool} {f : Nat} {raw r s rest e : Bytes} {c : UInt8} (_he : e = item P c s)
    (h1 : c :: s = raw ++ r) (hf : s.length ≤ f) (_h2 : raw ≠ []) (h5 : ItemOk e raw) (hq : ¬ QuoteComma (c :: s)) :
    ∀ x y, e = x ++ y → y ≠ [] → closing (y ++ (quoteLoop P f r ++ 34 :: 44 :: rest)) = none := by
  intro x y hxy hy
  cases y with
  | nil => exact absurd rfl hy
  | cons z y =>
    rw [List.cons_append]
    by_cases hz : z = 34
    · subst hz
      rcases h5 with ⟨e1, e2⟩ | ⟨e1, e2⟩ | ⟨e1, e2⟩ | ⟨e1, _⟩
      · exfalso
        have : (34 : UInt8) ∈ e := by rw [hxy]; simp
        rw [e1] at this; simp at this
      · exfalso
        have : (34 : UInt8) ∈ e := by rw [hxy]; simp
        rw [e1] at this; simp at this
      · have hy0 : y = [] := by
          rw [e1] at hxy
          match x with
          | [] => simp at hxy
          | [_] => simp at hxy; exact hxy.2
          | _ :: _ :: x => have := congrArg List.length hxy; simp at this
        subst hy0
        apply closing_quote
        intro ⟨u, hu⟩
        rw [List.nil_append] at hu
        have hr : s = r := by rw [e2] at h1; simpa using (List.cons.inj h1).2
        obtain ⟨n, b, hb⟩ := after_quote P f r (44 :: rest) (by rw [← hr]; exact hf) ⟨u, hu⟩
        apply hq
        rw [h1, e2, hb]
        exact ⟨[], n, b, rfl⟩
      · exfalso
        apply e1
        rw [hxy]; simp
    · exact closing_of_not_quote hz _

theorem matchValue_quoteLoop (P : Nat → Bool) (f n : Nat) (v rest : Bytes) (hf : v.length ≤ f)
    (hn : (quoteLoop P f v).length ≤ n) (ha : ∀ c ∈ quoteLoop P f v, isAscii c = true) (hq : ¬ QuoteComma v) :
    matchValue n (quoteLoop P f v ++ 34 :: 44 :: rest) = some (quoteLoop P f v, rest) := by
  have hend : ∀ n, matchValue n (34 :: 44 :: rest) = some ([], rest) := by
    intro n
    have : closing (34 :: 44 :: rest) = some rest := by simp [closing, isWS]
    cases n <;> simp only [matchValue, this]
  induction f generalizing v n with
  | zero =>
    have : v = [] := List.eq_nil_of_length_eq_zero (by omega)
    subst this
    exact hend n
  | succ f ih =>
    cases v with
    | nil => exact hend n
    | cons c s =>
      obtain ⟨raw, r, h1, h2, h3, h4, h5⟩ := item_spec P c s
      have hrl : 0 < raw.length := List.length_pos_iff.2 h2
      have hlen := congrArg List.length h1
      simp only [List.length_append, List.length_cons] at hlen hf
      rw [quoteLoop_cons, h3] at hn ha ⊢
      rw [List.append_assoc]
      apply matchValue_skip
      · simp only [List.length_append] at hn; omega
      · exact fun x hx => ha x (List.mem_append_left _ hx)
      · exact closing_item rfl h1 (by omega) h2 h5 hq
      · apply ih
        · omega
        · simp only [List.length_append] at hn; omega
        · exact fun x hx => ha x (List.mem_append_right _ hx)
        · rintro ⟨a, m, b, hb⟩
          exact hq ⟨raw ++ a, m, b, by rw [h1, hb]; simp⟩

/-- What a key must be to be found again: not empty, at most 256 bytes, all ASCII, not beginning with white
space, and without `="` after the first byte. -/
structure GoodKey (k : Bytes) : Prop where
  len : 0 < k.length ∧ k.length ≤ 256
  ascii : ∀ c ∈ k, c.toNat < 0x80
  start : ∀ c, k.head? = some c → ¬ (9 ≤ c.toNat ∧ c.toNat ≤ 13) ∧ c ≠ 32
  noEq : ¬ [61, 34] <:+: k.tail

/-- What a value must be to be found again: at most 256 bytes when quoted, nothing but ASCII when quoted
(so no printable rune beyond it), and no quote that is followed by spaces and a comma. -/
structure GoodValue (P : Nat → Bool) (v : Bytes) : Prop where
  len : (quoteBody P v).length ≤ 256
  ascii : ∀ c ∈ quoteBody P v, c.toNat < 0x80
  noEnd : ¬ QuoteComma v

theorem matchEq_none {c : UInt8} {t : Bytes} (h : ¬ (c = 61 ∧ ∃ u, t = 34 :: u)) : matchEq (c :: t) = none := by
  unfold matchEq
  split
  · rename_i heq; cases heq; exact absurd ⟨rfl, _, rfl⟩ h
  · rfl

theorem matchKey_skip (k : Bytes) (n : Nat) (tail v rest : Bytes) (hn : k.length ≤ n) (ha : ∀ c ∈ k, c.toNat < 0x80)
    (hk : ¬ [61, 34] <:+: k) (h : matchEq (61 :: tail) = some (v, rest)) :
    matchKey n (k ++ 61 :: tail) = some (k, v, rest) := by
  induction k generalizing n with
  | nil => cases n <;> simp only [List.nil_append, matchKey, h]
  | cons c k ih =>
    cases n with
    | zero => simp at hn
    | succ n =>
      have hno : matchEq (c :: (k ++ 61 :: tail)) = none := by
        apply matchEq_none
        rintro ⟨rfl, u, hu⟩
        cases k with
        | nil => simp at hu
        | cons d k =>
          simp only [List.cons_append, List.cons.injEq] at hu
          rw [hu.1] at hk
          exact hk ⟨[], k, rfl⟩
      rw [List.cons_append, matchKey, hno]
      have hac : isAscii c = true := by simp [isAscii, ha c (by simp)]
      simp only [hac, if_true]
      rw [ih n (by simpa using hn) (fun x hx => ha x (List.mem_cons_of_mem _ hx)) (fun hi => hk (hi.trans ⟨[c], [], by simp⟩))]
      rfl

/-- The text of one label, with the comma after it. -/
def labelText (P : Nat → Bool) (p : Bytes × Bytes) : Bytes := p.1 ++ 61 :: 34 :: (quoteBody P p.2 ++ [34, 44])

theorem labelRegex_label (P : Nat → Bool) (k v rest : Bytes) (hk : GoodKey k) (hv : GoodValue P v) :
    labelRegex (labelText P (k, v) ++ rest) = some (k, quoteBody P v, rest) := by
  obtain ⟨hk1, hk2⟩ := hk.len
  cases k with
  | nil => simp at hk1
  | cons c k =>
    have hst := hk.start c rfl
    have hws : isWS c = false := by
      unfold isWS
      simp only [Bool.or_eq_false_iff, decide_eq_false_iff_not]
      obtain ⟨s1, s2⟩ := hst
      refine ⟨⟨⟨⟨?_, ?_⟩, ?_⟩, ?_⟩, s2⟩ <;> (rintro rfl; simp at s1)
    have hval : matchValue 256 (quoteBody P v ++ 34 :: 44 :: rest) = some (quoteBody P v, rest) :=
      matchValue_quoteLoop P _ 256 v rest (Nat.le_refl _) hv.len (fun x hx => by simp [isAscii, hv.ascii x hx]) hv.noEnd
    have hkey : matchKey 255 (k ++ 61 :: (34 :: (quoteBody P v ++ 34 :: 44 :: rest))) = some (k, quoteBody P v, rest) := by
      apply matchKey_skip
      · simp at hk2; omega
      · exact fun x hx => hk.ascii x (List.mem_cons_of_mem _ hx)
      · exact hk.noEq
      · exact hval
    have e : labelText P (c :: k, v) ++ rest = c :: (k ++ 61 :: (34 :: (quoteBody P v ++ 34 :: 44 :: rest))) := by
      simp [labelText]
    rw [e]
    unfold labelRegex
    have ha : isAscii c = true := by simp [isAscii, hk.ascii c (by simp)]
    simp only [List.takeWhile_cons, hws]
    simp [matchHere, ha, hkey]

/-! ## The loop -/

theorem decodeLoop_labels (P : Nat → Bool) (l : List (Bytes × Bytes)) (fuel : Nat) (m : GoMap Bytes Bytes)
    (hg : ∀ p ∈ l, GoodKey p.1 ∧ GoodValue P p.2) (hf : (l.flatMap (labelText P)).length ≤ fuel) :
    decodeLoop fuel m (l.flatMap (labelText P)) = some (.ok (l.foldl (fun m p => GoMap.set m p.1 p.2) m)) := by
  induction l generalizing fuel m with
  | nil => cases fuel <;> simp [decodeLoop]
  | cons p l ih =>
    obtain ⟨k, v⟩ := p
    have hne : labelText P (k, v) ≠ [] := by simp [labelText]
    have hlen : 0 < (labelText P (k, v)).length := List.length_pos_iff.2 hne
    cases fuel with
    | zero => simp only [List.flatMap_cons, List.length_append] at hf; omega
    | succ fuel =>
      rw [List.flatMap_cons, decodeLoop, if_neg (by simp [hne]),
        labelRegex_label P k v _ (hg (k, v) (by simp)).1 (hg (k, v) (by simp)).2]
      have hu : unquote (34 :: quoteBody P v ++ [34]) = some v := unquote_quote P v
      simp only [hu]
      rw [if_neg (by simp), ih fuel _ (fun p hp => hg p (List.mem_cons_of_mem _ hp))
        (by simp only [List.flatMap_cons, List.length_append] at hf; omega)]
      rfl

/-! ## Sorting -/

theorem insertStr_perm (a : Bytes) (l : List Bytes) : (insertStr a l).Perm (a :: l) := by
  induction l with
  | nil => exact List.Perm.refl _
  | cons b l ih =>
    unfold insertStr
    split
    · exact List.Perm.refl _
    · exact (ih.cons b).trans (List.Perm.swap a b l)

theorem sortStrings_perm (l : List Bytes) : (sortStrings l).Perm l := by
  induction l with
  | nil => exact List.Perm.refl _
  | cons a l ih => exact (insertStr_perm a _).trans (ih.cons a)

theorem strLE_total (a b : Bytes) (h : strLE a b = false) : strLE b a = true := by
  induction a generalizing b with
  | nil => simp [strLE] at h
  | cons x a ih =>
    cases b with
    | nil => rfl
    | cons y b =>
      simp only [strLE, Bool.or_eq_false_iff, decide_eq_false_iff_not, Bool.and_eq_false_iff] at h
      simp only [strLE, Bool.or_eq_true, decide_eq_true_eq, Bool.and_eq_true]
      by_cases hxy : x = y
      · subst hxy
        rcases h.2 with h2 | h2
        · exact absurd rfl h2
        · exact Or.inr ⟨rfl, ih b h2⟩
      · left
        have h1 := h.1
        rw [UInt8.lt_iff_toNat_lt] at h1 ⊢
        have : x.toNat ≠ y.toNat := fun he => hxy (UInt8.toNat_inj.1 he)
        omega

theorem strLE_antisymm (a b : Bytes) (h : strLE a b = true) (h' : strLE b a = true) : a = b := by
  induction a generalizing b with
  | nil => cases b with
    | nil => rfl
    | cons y b => simp [strLE] at h'
  | cons x a ih =>
    cases b with
    | nil => simp [strLE] at h
    | cons y b =>
      simp only [strLE, Bool.or_eq_true, decide_eq_true_eq, Bool.and_eq_true] at h h'
      rcases h with h | ⟨rfl, h⟩
      · rcases h' with h' | ⟨rfl, _⟩
        · rw [UInt8.lt_iff_toNat_lt] at h h'; omega
        · rw [UInt8.lt_iff_toNat_lt] at h; omega
      · rcases h' with h' | ⟨_, h'⟩
        · rw [UInt8.lt_iff_toNat_lt] at h'; omega
        · rw [ih b h h']

theorem strLE_trans (a b c : Bytes) (h : strLE a b = true) (h' : strLE b c = true) : strLE a c = true := by
  induction a generalizing b c with
  | nil => rfl
  | cons x a ih =>
    cases b with
    | nil => simp [strLE] at h
    | cons y b =>
      cases c with
      | nil => simp [strLE] at h'
      | cons z c =>
        simp only [strLE, Bool.or_eq_true, decide_eq_true_eq, Bool.and_eq_true, UInt8.lt_iff_toNat_lt] at h h' ⊢
        rcases h with h | ⟨rfl, h⟩
        · rcases h' with h' | ⟨rfl, _⟩
          · left; omega
          · left; exact h
        · rcases h' with h' | ⟨rfl, h'⟩
          · left; exact h'
          · exact Or.inr ⟨rfl, ih b c h h'⟩

theorem insertStr_sorted (a : Bytes) (l : List Bytes) (h : l.Pairwise fun a b => strLE a b = true) :
    (insertStr a l).Pairwise fun a b => strLE a b = true := by
  induction l with
  | nil => simp [insertStr]
  | cons b l ih =>
    have h' := List.pairwise_cons.1 h
    unfold insertStr
    cases hab : strLE a b with
    | true =>
      rw [if_pos rfl]
      refine List.pairwise_cons.2 ⟨fun c hc => ?_, h⟩
      rcases List.mem_cons.1 hc with rfl | hc
      · exact hab
      · exact strLE_trans _ _ _ hab (h'.1 c hc)
    | false =>
      rw [if_neg (by simp)]
      refine List.pairwise_cons.2 ⟨fun c hc => ?_, ih h'.2⟩
      rcases List.mem_cons.1 ((insertStr_perm a l).mem_iff.1 hc) with rfl | hc
      · exact strLE_total _ _ hab
      · exact h'.1 c hc

theorem sortStrings_sorted (l : List Bytes) : (sortStrings l).Pairwise fun a b => strLE a b = true := by
  induction l with
  | nil => simp [sortStrings]
  | cons a l ih => exact insertStr_sorted a _ ih

theorem sortStrings_congr {l l' : List Bytes} (h : l.Perm l') : sortStrings l = sortStrings l' := by
  apply List.Perm.eq_of_pairwise (le := fun a b => strLE a b = true)
  · exact fun a b _ _ h1 h2 => strLE_antisymm a b h1 h2
  · exact sortStrings_sorted l
  · exact sortStrings_sorted l'
  · exact (sortStrings_perm l).trans (h.trans (sortStrings_perm l').symm)

end Verif.Resource
