import Verif.Float
import Mathlib.Algebra.Order.Floor.Ring
import Mathlib.Data.Rat.Floor

/-! # More facts about float64 rounding -/

namespace Verif.F64

/-- The upper end of the binade. -/
theorem lt_pow2_ilog2 {a : Rat} (ha : 0 < a) : a < pow2 (ilog2 a + 1) := by
  unfold ilog2
  simp only
  split
  · have hn : 0 < a.num := Rat.num_pos.mpr ha
    have hd : 0 < a.den := a.den_pos
    have h1 : a.num.toNat < 2 ^ (a.num.toNat.log2 + 1) := Nat.lt_log2_self
    have h2 : 2 ^ a.den.log2 ≤ a.den := Nat.log2_self_le (by omega)
    have h1' : (a.num : Rat) < 2 ^ (a.num.toNat.log2 + 1) := by
      have : a.num < ((2 ^ (a.num.toNat.log2 + 1) : Nat) : Int) := by omega
      have := (Int.cast_lt (R := Rat)).mpr this
      simpa using this
    have h2' : (2 : Rat) ^ a.den.log2 ≤ a.den := by
      have := (Nat.cast_le (α := Rat)).mpr h2
      simpa using this
    have hd' : (0 : Rat) < a.den := by exact_mod_cast hd
    have hq : a = a.num / a.den := (Rat.num_div_den a).symm
    rw [show (a.num.toNat.log2 : Int) - a.den.log2 + 1 = ((a.num.toNat.log2 + 1 : Nat) : Int) + -((a.den.log2 : Nat) : Int) by
      push_cast; ring, pow2_add, pow2_ofNat, pow2_neg _ (by omega)]
    simp only [neg_neg, Int.toNat_natCast]
    conv => lhs; rw [hq]
    rw [mul_one_div, div_lt_div_iff₀ hd' (by positivity)]
    have hn' : (0 : Rat) < a.num := by exact_mod_cast hn
    calc (a.num : Rat) * 2 ^ a.den.log2 ≤ a.num * a.den := by
          exact mul_le_mul_of_nonneg_left h2' hn'.le
      _ < 2 ^ (a.num.toNat.log2 + 1) * a.den := mul_lt_mul_of_pos_right h1' hd'
  · next h =>
    rw [show (a.num.toNat.log2 : Int) - a.den.log2 - 1 + 1 = a.num.toNat.log2 - a.den.log2 by ring]
    exact not_le.mp h

theorem ilog2_unique {a : Rat} (ha : 0 < a) {e : Int} (h1 : pow2 e ≤ a) (h2 : a < pow2 (e + 1)) :
    ilog2 a = e := by
  have h3 := lt_of_pow2_lt (lt_of_le_of_lt h1 (lt_pow2_ilog2 ha))
  have h4 := lt_of_pow2_lt (lt_of_le_of_lt (pow2_ilog2_le ha) h2)
  omega

/-- A rational that is a float64. -/
def Valid (q : Rat) : Prop := rnd q = fin q

theorem Valid.pos {q : Rat} (h : Valid q) (hq : 0 < q) : ∃ n : Int, q = n * pow2 (ulpExp q) := by
  unfold Valid rnd at h
  rw [if_neg (ne_of_gt hq), if_pos hq] at h
  simp only at h
  split at h
  · simp at h
  · have : roundPos q = q := by simpa using h
    exact ⟨_, this.symm⟩

theorem ilog2_scale {q : Rat} (hq : 0 < q) (k : Nat) : ilog2 (q * 2 ^ k) = ilog2 q + k := by
  apply ilog2_unique (by positivity)
  · rw [pow2_add, pow2_ofNat]
    exact mul_le_mul_of_nonneg_right (pow2_ilog2_le hq) (by positivity)
  · rw [show ilog2 q + k + 1 = (ilog2 q + 1) + k by ring, pow2_add, pow2_ofNat]
    exact mul_lt_mul_of_pos_right (lt_pow2_ilog2 hq) (by positivity)

/-- Scaling up by a power of two is exact (below the overflow threshold). -/
theorem Valid.scale {q : Rat} (h : Valid q) (h0 : 0 ≤ q) (k : Nat) (hb : q * 2 ^ k < 2 ^ 1024) :
    Valid (q * 2 ^ k) := by
  rcases lt_or_eq_of_le h0 with hq | hq
  · obtain ⟨n, hn⟩ := h.pos hq
    have hle : ulpExp (q * 2 ^ k) ≤ ulpExp q + k := by
      unfold ulpExp; rw [ilog2_scale hq]; omega
    obtain ⟨j, hj⟩ : ∃ j : Nat, ulpExp q + k = ulpExp (q * 2 ^ k) + j :=
      ⟨(ulpExp q + k - ulpExp (q * 2 ^ k)).toNat, by omega⟩
    have hr : roundPos (q * 2 ^ k) = q * 2 ^ k := by
      apply roundPos_exact (n := n * 2 ^ j)
      have e : pow2 (ulpExp q) * 2 ^ k = pow2 (ulpExp (q * 2 ^ k)) * 2 ^ j := by
        have e1 := pow2_add (ulpExp q) k
        have e2 := pow2_add (ulpExp (q * 2 ^ k)) j
        rw [pow2_ofNat] at e1 e2
        rw [← e1, ← e2, hj]
      push_cast
      calc q * 2 ^ k = n * (pow2 (ulpExp q) * 2 ^ k) := by rw [← mul_assoc, ← hn]
        _ = n * 2 ^ j * pow2 (ulpExp (q * 2 ^ k)) := by rw [e]; ring
    unfold Valid rnd
    have hp : 0 < q * 2 ^ k := by positivity
    rw [if_neg (ne_of_gt hp), if_pos hp]
    simp only [hr]
    rw [if_neg (not_le.mpr hb)]
  · subst hq; simp [Valid, rnd]

end Verif.F64
