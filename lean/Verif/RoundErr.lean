import Verif.RoundMono

/-! Facts about rounding: monotone into valid numbers, halves, and the error. -/

namespace Verif.F64

theorem rnd_le {a b : Rat} (hb : Valid b) (h : a ≤ b) {r : Rat} (hr : rnd a = fin r) : r ≤ b := by
  have := rnd_mono h
  rw [hb, hr] at this
  simpa [lt] using this

theorem le_rnd {a b : Rat} (ha : Valid a) (h : a ≤ b) {r : Rat} (hr : rnd b = fin r) : a ≤ r := by
  have := rnd_mono h
  rw [ha, hr] at this
  simpa [lt] using this

/-- Between two representable numbers the result is finite and between them. -/
theorem rnd_between {a b c : Rat} (ha : Valid a) (hc : Valid c) (h1 : a ≤ b) (h2 : b ≤ c) :
    ∃ r, rnd b = fin r ∧ a ≤ r ∧ r ≤ c := by
  have m1 := rnd_mono h1
  have m2 := rnd_mono h2
  rw [ha] at m1
  rw [hc] at m2
  cases hr : rnd b with
  | nan => 
    unfold rnd at hr
    split at hr
    · cases hr
    · split at hr
      · simp only at hr; split at hr <;> cases hr
      · simp only at hr; split at hr <;> cases hr
  | ninf => rw [hr] at m1; simp [lt] at m1
  | pinf => rw [hr] at m2; simp [lt] at m2
  | fin r =>
    rw [hr] at m1 m2
    exact ⟨r, rfl, by simpa [lt] using m1, by simpa [lt] using m2⟩

theorem valid_zero : Valid 0 := by unfold Valid rnd; simp

theorem valid_one : Valid 1 := by
  have := rnd_int 1 (by norm_num)
  unfold Valid
  exact_mod_cast this

theorem Valid.neg {q : Rat} (h : Valid q) : Valid (-q) := by
  unfold Valid at *
  rw [rnd_neg, h]; rfl

theorem valid_two : Valid 2 := by
  have := rnd_int 2 (by norm_num)
  unfold Valid
  exact_mod_cast this

/-- The conversion of a count that is at least two. -/
theorem ofInt_ge_two {n : Int} (h : 2 ≤ n) (h' : n ≤ 2 ^ 63) : ∃ c, rnd (n : Rat) = fin c ∧ 2 ≤ c := by
  have h63 : Valid (1 * 2 ^ 63) := valid_one.scale (by norm_num) 63 (by rw [one_mul]; exact pow_lt_pow_right₀ (by norm_num) (by norm_num))
  rw [one_mul] at h63
  obtain ⟨r, e1, e2, _⟩ := rnd_between valid_two h63 (b := (n : Rat)) (by exact_mod_cast h) (by exact_mod_cast h')
  exact ⟨r, e1, e2⟩

theorem roundHalfEven_err (a : Rat) : |(roundHalfEven a : Rat) - a| ≤ 1 / 2 := by
  have h1 : (a.floor : Rat) ≤ a := Int.floor_le a
  have h2 : a < (a.floor : Rat) + 1 := Int.lt_floor_add_one a
  unfold roundHalfEven
  simp only
  rw [abs_le]
  split
  · constructor <;> linarith
  · split
    · push_cast; constructor <;> linarith
    · split
      · constructor <;> linarith
      · push_cast; constructor <;> linarith

theorem roundPos_err (a : Rat) : |roundPos a - a| ≤ pow2 (ulpExp a) / 2 := by
  have hp := pow2_pos (ulpExp a)
  have h := roundHalfEven_err (a / pow2 (ulpExp a))
  have e : roundPos a - a = (roundHalfEven (a / pow2 (ulpExp a)) - a / pow2 (ulpExp a)) * pow2 (ulpExp a) := by
    unfold roundPos
    field_simp
  rw [e, abs_mul, abs_of_pos hp]
  have := mul_le_mul_of_nonneg_right h hp.le
  linarith

/-- Half a unit in the last place of one, and of the subnormal numbers. -/
def eps : Rat := 1 / 2 ^ 53
def eta : Rat := 1 / 2 ^ 1075

theorem half_ulp {a : Rat} (ha : 0 < a) : pow2 (ulpExp a) / 2 ≤ eps * a + eta := by
  have h1 := pow2_ilog2_le ha
  have hp := pow2_pos (ilog2 a)
  unfold ulpExp
  rcases le_total (ilog2 a - 52) (-1074) with h | h
  · rw [max_eq_right h]
    have : pow2 (-1074) / 2 = eta := by
      rw [pow2_neg _ (by norm_num)]
      show (1 : Rat) / 2 ^ 1074 / 2 = 1 / 2 ^ (1074 + 1)
      rw [pow_succ 2 1074, div_div]
    rw [this]
    have : 0 ≤ eps * a := by unfold eps; positivity
    linarith
  · rw [max_eq_left h]
    have e : pow2 (ilog2 a - 52) = pow2 (ilog2 a) * pow2 (-52) := by
      rw [← pow2_add]; rfl
    have e2 : pow2 (-52) / 2 = eps := by
      rw [pow2_neg _ (by norm_num)]
      show (1 : Rat) / 2 ^ 52 / 2 = 1 / 2 ^ (52 + 1)
      rw [pow_succ 2 52, div_div]
    have : pow2 (ilog2 a) * pow2 (-52) / 2 = eps * pow2 (ilog2 a) := by rw [← e2]; ring
    rw [e, this]
    have h3 : eps * pow2 (ilog2 a) ≤ eps * a := mul_le_mul_of_nonneg_left h1 (by unfold eps; positivity)
    have : 0 ≤ eta := by unfold eta; positivity
    linarith

/-- The error of one operation. -/
theorem rnd_err {q r : Rat} (h : rnd q = fin r) : |r - q| ≤ eps * |q| + eta := by
  have heta : 0 ≤ eta := by unfold eta; positivity
  unfold rnd at h
  split at h
  · next h0 =>
    cases h; subst h0
    simpa using heta
  · split at h
    · next hq =>
      simp only at h
      split at h
      · cases h
      · cases h
        rw [abs_of_pos hq]
        exact (roundPos_err q).trans (half_ulp hq)
    · next h0 hq =>
      have hq' : 0 < -q := by
        rcases lt_trichotomy q 0 with h | h | h
        · linarith
        · exact absurd h h0
        · exact absurd h hq
      simp only at h
      split at h
      · cases h
      · cases h
        have := (roundPos_err (-q)).trans (half_ulp hq')
        rw [abs_of_neg (by linarith : q < 0)]
        rw [show -roundPos (-q) - q = -(roundPos (-q) - -q) by ring, abs_neg]
        exact this

/-- Every representable number is a multiple of the smallest one. -/
theorem Valid.grid {q : Rat} (h : Valid q) : ∃ k : Int, q = k * pow2 (-1074) := by
  have pos : ∀ q : Rat, Valid q → 0 < q → ∃ k : Int, q = k * pow2 (-1074) := by
    intro q h hq
    obtain ⟨n, hn⟩ := h.pos hq
    obtain ⟨j, hj⟩ : ∃ j : Nat, ulpExp q = -1074 + j :=
      ⟨(ulpExp q + 1074).toNat, by
        have : -1074 ≤ ulpExp q := le_max_right _ _
        omega⟩
    refine ⟨n * 2 ^ j, ?_⟩
    rw [hj, pow2_add, pow2_ofNat] at hn
    rw [hn]; push_cast; ring
  rcases lt_trichotomy q 0 with hq | hq | hq
  · obtain ⟨k, hk⟩ := pos (-q) h.neg (by linarith)
    exact ⟨-k, by push_cast; linarith⟩
  · exact ⟨0, by rw [hq]; simp⟩
  · exact pos q h hq

/-- A multiple of the smallest number is rounded exactly, or its rounded value has a representable half that
is not larger. -/
theorem half_le {y x : Rat} (hy : 0 ≤ y) (hg : ∃ k : Int, y = k * pow2 (-1074)) (hx : rnd y = fin x) :
    x = y ∨ (Valid (x / 2) ∧ x / 2 ≤ y) := by
  rcases eq_or_lt_of_le hy with h0 | hpos
  · left
    subst h0
    unfold rnd at hx; simp at hx; exact hx.symm
  unfold rnd at hx
  rw [if_neg (ne_of_gt hpos), if_pos hpos] at hx
  simp only at hx
  split at hx
  · cases hx
  next hov =>
  have hxe : roundPos y = x := F64.fin.inj hx
  by_cases hu : ulpExp y = -1074
  · left
    obtain ⟨k, hk⟩ := hg
    rw [← hu] at hk
    rw [← hxe]; exact roundPos_exact hk
  · right
    have hl : ulpExp y = ilog2 y - 52 ∧ -1074 < ilog2 y - 52 := by
      unfold ulpExp at hu ⊢
      rcases le_total (ilog2 y - 52) (-1074) with h | h
      · rw [max_eq_right h] at hu; exact absurd rfl hu
      · rw [max_eq_left h] at hu ⊢
        exact ⟨rfl, lt_of_le_of_ne h (Ne.symm hu)⟩
    have hlo : pow2 (ilog2 y) ≤ x := by
      rw [← hxe]
      exact le_grid (by omega) (pow2_ilog2_le hpos)
    have hup : x ≤ pow2 (ilog2 y + 1) := by
      rw [← hxe]
      exact grid_le (by omega) (lt_pow2_ilog2 hpos).le
    have hxpos : 0 < x := lt_of_lt_of_le (pow2_pos _) hlo
    have hxv : Valid x := by
      apply rnd_valid (a := y)
      unfold rnd
      rw [if_neg (ne_of_gt hpos), if_pos hpos]
      simp only
      rw [if_neg hov, hxe]
    constructor
    · obtain ⟨n, hn⟩ := hxv.pos hxpos
      have hlx : ilog2 y ≤ ilog2 x := by
        have := lt_of_pow2_lt (lt_of_le_of_lt hlo (lt_pow2_ilog2 hxpos))
        omega
      have hz : ilog2 (x / 2) = ilog2 x - 1 := by
        apply ilog2_unique (by linarith)
        · have h1 := pow2_ilog2_le hxpos
          have h2 := pow2_add_one (ilog2 x - 1)
          rw [show ilog2 x - 1 + 1 = ilog2 x by ring] at h2
          linarith
        · have h1 := lt_pow2_ilog2 hxpos
          have h2 := pow2_add_one (ilog2 x)
          rw [show ilog2 x - 1 + 1 = ilog2 x by ring]
          linarith
      have hux : ulpExp x = ilog2 x - 52 := by unfold ulpExp; rw [max_eq_left (by omega)]
      have huz : ulpExp (x / 2) = ilog2 x - 53 := by unfold ulpExp; rw [hz, max_eq_left (by omega)]; ring
      have hex : roundPos (x / 2) = x / 2 := by
        apply roundPos_exact (n := n)
        have h2 := pow2_add_one (ilog2 x - 53)
        rw [show ilog2 x - 53 + 1 = ilog2 x - 52 by ring] at h2
        rw [huz]
        rw [hux, h2] at hn
        linarith
      unfold Valid rnd
      rw [if_neg (by linarith), if_pos (by linarith)]
      simp only
      rw [hex, if_neg]
      have : x < 2 ^ 1024 := by rw [← hxe]; exact not_le.mp hov
      intro hc
      exact absurd (lt_of_le_of_lt hc (_root_.lt_trans (half_lt_self hxpos) this)) (_root_.lt_irrefl _)
    · have := pow2_add_one (ilog2 y)
      have := pow2_ilog2_le hpos
      linarith

end Verif.F64
