import Verif.Basic

/-!
# Unsigned varints (`encoding/binary`)

Library code used by `tag/map_codec.go`. Go's documented algorithm:

```go
func PutUvarint(buf []byte, x uint64) int {
	i := 0
	for x >= 0x80 { buf[i] = byte(x) | 0x80; x >>= 7; i++ }
	buf[i] = byte(x)
	return i + 1
}
func Uvarint(buf []byte) (uint64, int) {
	var x uint64; var s uint
	for i, b := range buf {
		if i == MaxVarintLen64 { return 0, -(i + 1) }
		if b < 0x80 {
			if i == MaxVarintLen64-1 && b > 1 { return 0, -(i + 1) }
			return x | uint64(b)<<s, i + 1
		}
		x |= uint64(b&0x7f) << s
		s += 7
	}
	return 0, 0
}
```
-/

namespace Verif

/-- `binary.PutUvarint`: the bytes written for `x` (a `uint64`, so the callers pass `x < 2^64`). -/
def putUvarint (x : Nat) : Bytes :=
  if x < 128 then [UInt8.ofNat x]
  else UInt8.ofNat (x % 128 + 128) :: putUvarint (x / 128)
termination_by x

/-- The loop of `binary.Uvarint` at index `i` with accumulator `x` and shift `s = 7 i`. `none` stands
for a non-positive second result (buffer too small, or overflow). The accumulated bits are below
`2^s`, so `|` is written as `+`. -/
def uvarintAux (i x s : Nat) : Bytes → Option (Nat × Nat)
  | [] => none
  | b :: bs =>
    if i = 10 then none
    else if b.toNat < 128 then
      if i = 9 ∧ b.toNat > 1 then none else some (x + b.toNat * 2 ^ s, i + 1)
    else uvarintAux (i + 1) (x + (b.toNat % 128) * 2 ^ s) (s + 7) bs

/-- `binary.Uvarint`: value and number of bytes read, or `none`. -/
def uvarint (buf : Bytes) : Option (Nat × Nat) := uvarintAux 0 0 0 buf

theorem putUvarint_ne_nil (x : Nat) : putUvarint x ≠ [] := by
  unfold putUvarint; split <;> simp

theorem uvarintAux_put (i x s y : Nat) (rest : Bytes)
    (hy : y < 2 ^ (64 - 7 * i)) (hi : i ≤ 9) (hs : s = 7 * i) :
    uvarintAux i x s (putUvarint y ++ rest) = some (x + y * 2 ^ s, i + (putUvarint y).length) := by
  fun_induction putUvarint y generalizing i x s with
  | case1 y h =>
    have h1 : (UInt8.ofNat y).toNat = y := by
      rw [UInt8.toNat_ofNat']; omega
    have hne : i ≠ 10 := by omega
    simp only [List.cons_append, List.nil_append, uvarintAux, h1, hne, if_false, h, if_true,
      List.length_cons, List.length_nil]
    split
    · next hc =>
      obtain ⟨rfl, hb⟩ := hc
      simp at hy; omega
    · rfl
  | case2 y h ih =>
    have h1 : (UInt8.ofNat (y % 128 + 128)).toNat = y % 128 + 128 := by
      rw [UInt8.toNat_ofNat']; omega
    have hlt : i < 9 := by
      rcases Nat.lt_or_ge i 9 with h9 | h9
      · exact h9
      · have : i = 9 := by omega
        subst this; simp at hy; omega
    have hne : i ≠ 10 := by omega
    have h2 : ¬ (y % 128 + 128 < 128) := by omega
    simp only [List.cons_append, uvarintAux, h1, hne, if_false, h2, List.length_cons]
    have hpow : 2 ^ (64 - 7 * i) = 2 ^ (64 - 7 * (i + 1)) * 128 := by
      have : 64 - 7 * i = (64 - 7 * (i + 1)) + 7 := by omega
      rw [this, Nat.pow_add]
    have hy' : y / 128 < 2 ^ (64 - 7 * (i + 1)) := by
      rw [hpow] at hy
      exact Nat.div_lt_of_lt_mul (by rw [Nat.mul_comm]; exact hy)
    rw [ih (i + 1) _ (s + 7) hy' (by omega) (by omega)]
    have e1 : (y % 128 + 128) % 128 = y % 128 := by omega
    rw [e1]
    congr 1
    refine Prod.ext ?_ (by simp; omega)
    simp only [Nat.pow_add]
    have : y * 2 ^ s = (y % 128) * 2 ^ s + (y / 128) * (2 ^ s * 2 ^ 7) := by
      have h3 : y = y % 128 + (y / 128) * 128 := by omega
      calc y * 2 ^ s = (y % 128 + (y / 128) * 128) * 2 ^ s := by rw [← h3]
        _ = (y % 128) * 2 ^ s + (y / 128) * (2 ^ s * 2 ^ 7) := by
          rw [Nat.add_mul, Nat.mul_assoc, Nat.mul_comm 128]
    omega

/-- Reading back a written varint, whatever follows it. -/
theorem uvarint_put (y : Nat) (rest : Bytes) (hy : y < 2 ^ 64) :
    uvarint (putUvarint y ++ rest) = some (y, (putUvarint y).length) := by
  have := uvarintAux_put 0 0 0 y rest (by simpa using hy) (by omega) rfl
  simpa [uvarint] using this

theorem uvarintAux_bounds (i x s : Nat) (buf : Bytes) (v n : Nat) (hi : i ≤ 10)
    (h : uvarintAux i x s buf = some (v, n)) : i < n ∧ n ≤ i + buf.length ∧ n ≤ 10 := by
  induction buf generalizing i x s with
  | nil => simp [uvarintAux] at h
  | cons b bs ih =>
    simp only [uvarintAux] at h
    split at h
    · simp at h
    · split at h
      · split at h
        · simp at h
        · simp at h; simp; omega
      · have := ih _ _ _ (by omega) h
        simp; omega

theorem uvarint_bounds {buf : Bytes} {v n : Nat} (h : uvarint buf = some (v, n)) :
    0 < n ∧ n ≤ buf.length ∧ n ≤ 10 := by
  have := uvarintAux_bounds 0 0 0 buf v n (by omega) h
  omega

/-- The value of a varint is a `uint64`. -/
theorem uvarintAux_lt (i x s : Nat) (buf : Bytes) (v n : Nat) (hs : s = 7 * i) (hi10 : i ≤ 10) (hx : x < 2 ^ s)
    (h : uvarintAux i x s buf = some (v, n)) : v < 2 ^ 64 ∧ v < 2 ^ (7 * n) := by
  induction buf generalizing i x s with
  | nil => simp [uvarintAux] at h
  | cons b bs ih =>
    simp only [uvarintAux] at h
    split at h
    · simp at h
    · next hi =>
      split at h
      · next hb =>
        split at h
        · simp at h
        · next hc =>
          simp only [Option.some.injEq, Prod.mk.injEq] at h
          obtain ⟨rfl, rfl⟩ := h
          have hi9 : i ≤ 9 ∨ i > 9 := by omega
          have key : ∀ c, b.toNat < c → x + b.toNat * 2 ^ s < c * 2 ^ s := by
            intro c hc
            calc x + b.toNat * 2 ^ s < 2 ^ s + b.toNat * 2 ^ s := by omega
              _ = (b.toNat + 1) * 2 ^ s := by rw [Nat.add_mul]; omega
              _ ≤ c * 2 ^ s := Nat.mul_le_mul_right _ hc
          have h7 : x + b.toNat * 2 ^ s < 2 ^ (7 * (i + 1)) := by
            have := key 128 hb
            have e : 7 * (i + 1) = 7 + s := by omega
            rw [e, Nat.pow_add]; exact this
          refine ⟨?_, h7⟩
          rcases Nat.lt_or_ge i 9 with h9 | h9
          · calc _ < 2 ^ (7 * (i + 1)) := h7
              _ ≤ 2 ^ 64 := Nat.pow_le_pow_right (by omega) (by omega)
          · by_cases h10 : i = 9
            · have hb2 : b.toNat < 2 := by
                have := fun hh => hc ⟨h10, hh⟩
                omega
              have := key 2 hb2
              have e : (64 : Nat) = 1 + s := by omega
              rw [e, Nat.pow_add]; exact this
            · exfalso
              omega
      · next hb =>
        refine ih (i + 1) _ (s + 7) (by omega) (by omega) ?_ h
        have : b.toNat % 128 < 128 := Nat.mod_lt _ (by omega)
        calc x + b.toNat % 128 * 2 ^ s < 2 ^ s + b.toNat % 128 * 2 ^ s := by omega
          _ = (b.toNat % 128 + 1) * 2 ^ s := by rw [Nat.add_mul]; omega
          _ ≤ 128 * 2 ^ s := Nat.mul_le_mul_right _ this
          _ = 2 ^ (s + 7) := by rw [Nat.pow_add, Nat.mul_comm]

end Verif
