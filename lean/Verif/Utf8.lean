import Verif.Basic

/-!
# UTF-8 (`unicode/utf8`), from its documentation

The repository uses it through `strings.Map`, `strings.TrimSpace` and `strconv.Quote`.
-/

namespace Verif.Utf8
open Verif

/-- `utf8.RuneError`. -/
def runeError : Nat := 0xFFFD

/-- `utf8.ValidRune`. -/
def ValidRune (r : Nat) : Prop := r < 0xD800 ∨ (0xE000 ≤ r ∧ r < 0x110000)

instance : DecidablePred ValidRune := fun r => by unfold ValidRune; infer_instance

def contByte (b : UInt8) : Bool := decide (0x80 ≤ b.toNat ∧ b.toNat ≤ 0xBF)

/-- `utf8.DecodeRuneInString`: the rune and its width in bytes. An invalid sequence gives `RuneError` with
width one, the empty string `RuneError` with width zero. -/
def decodeRune : Bytes → Nat × Nat
  | [] => (runeError, 0)
  | a :: s =>
    let x := a.toNat
    if x < 0x80 then (x, 1)
    else if x < 0xC2 then (runeError, 1)
    else if x < 0xE0 then
      match s with
      | b :: _ => if contByte b then (x % 32 * 64 + b.toNat % 64, 2) else (runeError, 1)
      | _ => (runeError, 1)
    else if x < 0xF0 then
      match s with
      | b :: c :: _ =>
        if (if x = 0xE0 then 0xA0 else 0x80) ≤ b.toNat ∧ b.toNat ≤ (if x = 0xED then 0x9F else 0xBF) ∧ contByte c
        then (x % 16 * 4096 + b.toNat % 64 * 64 + c.toNat % 64, 3) else (runeError, 1)
      | _ => (runeError, 1)
    else if x < 0xF5 then
      match s with
      | b :: c :: d :: _ =>
        if (if x = 0xF0 then 0x90 else 0x80) ≤ b.toNat ∧ b.toNat ≤ (if x = 0xF4 then 0x8F else 0xBF) ∧ contByte c ∧ contByte d
        then (x % 8 * 262144 + b.toNat % 64 * 4096 + c.toNat % 64 * 64 + d.toNat % 64, 4) else (runeError, 1)
      | _ => (runeError, 1)
    else (runeError, 1)

/-- The bytes of a valid rune. -/
def encodeValid (r : Nat) : Bytes :=
  if r < 0x80 then [UInt8.ofNat r]
  else if r < 0x800 then [UInt8.ofNat (0xC0 + r / 64), UInt8.ofNat (0x80 + r % 64)]
  else if r < 0x10000 then
    [UInt8.ofNat (0xE0 + r / 4096), UInt8.ofNat (0x80 + r / 64 % 64), UInt8.ofNat (0x80 + r % 64)]
  else
    [UInt8.ofNat (0xF0 + r / 262144), UInt8.ofNat (0x80 + r / 4096 % 64), UInt8.ofNat (0x80 + r / 64 % 64),
     UInt8.ofNat (0x80 + r % 64)]

/-- `utf8.EncodeRune`: a rune that is not valid is written as `RuneError`. -/
def encodeRune (r : Nat) : Bytes := if ValidRune r then encodeValid r else encodeValid runeError

/-! ## Facts -/

theorem toNat_ofNat {n : Nat} (h : n < 256) : (UInt8.ofNat n).toNat = n := by
  rw [UInt8.toNat_ofNat']; omega

theorem contByte_ofNat {n : Nat} (h1 : 0x80 ≤ n) (h2 : n ≤ 0xBF) : contByte (UInt8.ofNat n) = true := by
  unfold contByte
  rw [toNat_ofNat (by omega)]
  simp only [decide_eq_true_eq]
  exact ⟨h1, h2⟩

theorem ofNat_eq {c : UInt8} {n : Nat} (h : n = c.toNat) : UInt8.ofNat n = c := by
  rw [h, UInt8.ofNat_toNat]

theorem encodeRune_valid {r : Nat} (h : ValidRune r) : encodeRune r = encodeValid r := if_pos h

theorem encodeValid_ne_nil (r : Nat) : encodeValid r ≠ [] := by
  unfold encodeValid; split
  · simp
  · split
    · simp
    · split <;> simp

/-- Decoding what was encoded. -/
theorem decode_encode {r : Nat} (h : ValidRune r) (s : Bytes) :
    decodeRune (encodeValid r ++ s) = (r, (encodeValid r).length) := by
  unfold ValidRune at h
  unfold encodeValid
  by_cases h1 : r < 0x80
  · rw [if_pos h1]
    simp only [List.cons_append, List.nil_append, decodeRune]
    rw [toNat_ofNat (by omega), if_pos h1]; rfl
  · rw [if_neg h1]
    by_cases h2 : r < 0x800
    · rw [if_pos h2]
      simp only [List.cons_append, List.nil_append, decodeRune]
      rw [toNat_ofNat (by omega : 0xC0 + r / 64 < 256), toNat_ofNat (by omega : 0x80 + r % 64 < 256)]
      rw [if_neg (by omega), if_neg (by omega), if_pos (by omega), if_pos (contByte_ofNat (by omega) (by omega))]
      simp only [List.length_cons, List.length_nil, Prod.mk.injEq]
      refine ⟨?_, trivial⟩; omega
    · rw [if_neg h2]
      by_cases h3 : r < 0x10000
      · rw [if_pos h3]
        simp only [List.cons_append, List.nil_append, decodeRune]
        rw [toNat_ofNat (by omega : 0xE0 + r / 4096 < 256), toNat_ofNat (by omega : 0x80 + r / 64 % 64 < 256),
          toNat_ofNat (by omega : 0x80 + r % 64 < 256)]
        rw [if_neg (by omega), if_neg (by omega), if_neg (by omega), if_pos (by omega), if_pos]
        · simp only [List.length_cons, List.length_nil, Prod.mk.injEq]
          refine ⟨?_, trivial⟩; omega
        · refine ⟨?_, ?_, contByte_ofNat (by omega) (by omega)⟩ <;> split <;> omega
      · rw [if_neg h3]
        simp only [List.cons_append, List.nil_append, decodeRune]
        rw [toNat_ofNat (by omega : 0xF0 + r / 262144 < 256), toNat_ofNat (by omega : 0x80 + r / 4096 % 64 < 256),
          toNat_ofNat (by omega : 0x80 + r / 64 % 64 < 256), toNat_ofNat (by omega : 0x80 + r % 64 < 256)]
        rw [if_neg (by omega), if_neg (by omega), if_neg (by omega), if_neg (by omega), if_pos (by omega), if_pos]
        · simp only [List.length_cons, List.length_nil, Prod.mk.injEq]
          refine ⟨?_, trivial⟩; omega
        · refine ⟨?_, ?_, contByte_ofNat (by omega) (by omega), contByte_ofNat (by omega) (by omega)⟩ <;> split <;> omega

/-- A string that is not empty starts with the bytes of a valid rune, which is the one decoded, or with an
invalid byte. -/
theorem decode_cons (a : UInt8) (s : Bytes) :
    (decodeRune (a :: s) = (runeError, 1) ∧ 0x80 ≤ a.toNat) ∨
    ∃ r rest, ValidRune r ∧ a :: s = encodeValid r ++ rest ∧ decodeRune (a :: s) = (r, (encodeValid r).length) := by
  have ha := a.toNat_lt
  -- it is enough to give the rune
  suffices (decodeRune (a :: s) = (runeError, 1) ∧ 0x80 ≤ a.toNat) ∨ ∃ r rest, ValidRune r ∧ a :: s = encodeValid r ++ rest by
    rcases this with h | ⟨r, rest, h1, h2⟩
    · exact Or.inl h
    · exact Or.inr ⟨r, rest, h1, h2, by rw [h2]; exact decode_encode h1 rest⟩
  by_cases h1 : a.toNat < 0x80
  · exact Or.inr ⟨a.toNat, s, Or.inl (by omega), by simp [encodeValid, h1]⟩
  by_cases h2 : a.toNat < 0xC2
  · exact Or.inl ⟨by simp only [decodeRune]; rw [if_neg h1, if_pos h2], by omega⟩
  by_cases h3 : a.toNat < 0xE0
  · cases s with
    | nil => exact Or.inl ⟨by simp only [decodeRune]; rw [if_neg h1, if_neg h2, if_pos h3], by omega⟩
    | cons b s =>
      have hb := b.toNat_lt
      by_cases hc : contByte b = true
      · right
        simp only [contByte, decide_eq_true_eq] at hc
        refine ⟨a.toNat % 32 * 64 + b.toNat % 64, s, Or.inl (by omega), ?_⟩
        unfold encodeValid
        rw [if_neg (by omega), if_pos (by omega), ofNat_eq (c := a) (by omega), ofNat_eq (c := b) (by omega)]; rfl
      · exact Or.inl ⟨by simp only [decodeRune]; rw [if_neg h1, if_neg h2, if_pos h3, if_neg hc], by omega⟩
  by_cases h4 : a.toNat < 0xF0
  · match s with
    | [] => exact Or.inl ⟨by simp only [decodeRune]; rw [if_neg h1, if_neg h2, if_neg h3, if_pos h4], by omega⟩
    | [b] => exact Or.inl ⟨by simp only [decodeRune]; rw [if_neg h1, if_neg h2, if_neg h3, if_pos h4], by omega⟩
    | b :: c :: s =>
      have hb := b.toNat_lt
      have hcl := c.toNat_lt
      by_cases hc : (if a.toNat = 0xE0 then 0xA0 else 0x80) ≤ b.toNat ∧ b.toNat ≤ (if a.toNat = 0xED then 0x9F else 0xBF) ∧ contByte c
      · right
        obtain ⟨c1, c2, c3⟩ := hc
        simp only [contByte, decide_eq_true_eq] at c3
        refine ⟨a.toNat % 16 * 4096 + b.toNat % 64 * 64 + c.toNat % 64, s, ?_, ?_⟩
        · unfold ValidRune
          split at c1 <;> split at c2 <;> omega
        · have c1' : a.toNat = 0xE0 → 0xA0 ≤ b.toNat := by intro h; rw [if_pos h] at c1; exact c1
          have c1'' : 0x80 ≤ b.toNat := by split at c1 <;> omega
          have c2' : b.toNat ≤ 0xBF := by split at c2 <;> omega
          unfold encodeValid
          rw [if_neg (by omega), if_neg (by omega), if_pos (by omega), ofNat_eq (c := a) (by omega),
            ofNat_eq (c := b) (by omega), ofNat_eq (c := c) (by omega)]; rfl
      · exact Or.inl ⟨by simp only [decodeRune]; rw [if_neg h1, if_neg h2, if_neg h3, if_pos h4, if_neg hc], by omega⟩
  by_cases h5 : a.toNat < 0xF5
  · match s with
    | [] => exact Or.inl ⟨by simp only [decodeRune]; rw [if_neg h1, if_neg h2, if_neg h3, if_neg h4, if_pos h5], by omega⟩
    | [b] => exact Or.inl ⟨by simp only [decodeRune]; rw [if_neg h1, if_neg h2, if_neg h3, if_neg h4, if_pos h5], by omega⟩
    | [b, c] => exact Or.inl ⟨by simp only [decodeRune]; rw [if_neg h1, if_neg h2, if_neg h3, if_neg h4, if_pos h5], by omega⟩
    | b :: c :: d :: s =>
      have hb := b.toNat_lt
      have hcl := c.toNat_lt
      have hdl := d.toNat_lt
      by_cases hc : (if a.toNat = 0xF0 then 0x90 else 0x80) ≤ b.toNat ∧ b.toNat ≤ (if a.toNat = 0xF4 then 0x8F else 0xBF) ∧
          contByte c ∧ contByte d
      · right
        obtain ⟨c1, c2, c3, c4⟩ := hc
        simp only [contByte, decide_eq_true_eq] at c3 c4
        have c1' : a.toNat = 0xF0 → 0x90 ≤ b.toNat := by intro h; rw [if_pos h] at c1; exact c1
        have c2'' : a.toNat = 0xF4 → b.toNat ≤ 0x8F := by intro h; rw [if_pos h] at c2; exact c2
        have c1'' : 0x80 ≤ b.toNat := by split at c1 <;> omega
        have c2' : b.toNat ≤ 0xBF := by split at c2 <;> omega
        refine ⟨a.toNat % 8 * 262144 + b.toNat % 64 * 4096 + c.toNat % 64 * 64 + d.toNat % 64, s, ?_, ?_⟩
        · unfold ValidRune
          omega
        · unfold encodeValid
          rw [if_neg (by omega), if_neg (by omega), if_neg (by omega), ofNat_eq (c := a) (by omega),
            ofNat_eq (c := b) (by omega), ofNat_eq (c := c) (by omega), ofNat_eq (c := d) (by omega)]; rfl
      · exact Or.inl ⟨by simp only [decodeRune]; rw [if_neg h1, if_neg h2, if_neg h3, if_neg h4, if_pos h5, if_neg hc], by omega⟩
  · exact Or.inl ⟨by simp only [decodeRune]; rw [if_neg h1, if_neg h2, if_neg h3, if_neg h4, if_neg h5], by omega⟩

end Verif.Utf8
