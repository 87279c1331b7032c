import Verif.Rounding

/-! # Rounding is monotone and idempotent -/

namespace Verif.F64

theorem roundHalfEven_mono {a b : Rat} (h : a ≤ b) : roundHalfEven a ≤ roundHalfEven b := by
  have hf : a.floor ≤ b.floor := by
    have : ⌊a⌋ ≤ ⌊b⌋ := Int.floor_mono h
    exact this
  have lo : ∀ q : Rat, q.floor ≤ roundHalfEven q := by
    intro q; unfold roundHalfEven; simp only; split
    · exact le_refl _
    · split
      · omega
      · split <;> omega
  have hi : ∀ q : Rat, roundHalfEven q ≤ q.floor + 1 := by
    intro q; unfold roundHalfEven; simp only; split
    · omega
    · split
      · omega
      · split <;> omega
  rcases lt_or_eq_of_le hf with hlt | heq
  · have := lo b; have := hi a; omega
  · unfold roundHalfEven
    simp only [heq]
    have hd : a - b.floor ≤ b - b.floor := by linarith
    split_ifs <;> first | omega | (exfalso; linarith)

/-- Rounding to a grid that has the bound on it stays below the bound. -/
theorem grid_le {a : Rat} {u m : Int} (hu : u ≤ m) (h : a ≤ pow2 m) : roundHalfEven (a / pow2 u) * pow2 u ≤ pow2 m := by
  obtain ⟨n, rfl⟩ : ∃ n : Nat, m = u + n := ⟨(m - u).toNat, by omega⟩
  have hp := pow2_pos u
  rw [pow2_add, pow2_ofNat] at h ⊢
  have h1 : a / pow2 u ≤ ((2 ^ n : Int) : Rat) := by
    rw [div_le_iff₀ hp]; push_cast; linarith
  have h2 := roundHalfEven_mono h1
  rw [roundHalfEven_int] at h2
  have h3 : ((roundHalfEven (a / pow2 u) : Int) : Rat) ≤ 2 ^ n := by exact_mod_cast h2
  nlinarith

theorem le_grid {a : Rat} {u m : Int} (hu : u ≤ m) (h : pow2 m ≤ a) : pow2 m ≤ roundHalfEven (a / pow2 u) * pow2 u := by
  obtain ⟨n, rfl⟩ : ∃ n : Nat, m = u + n := ⟨(m - u).toNat, by omega⟩
  have hp := pow2_pos u
  rw [pow2_add, pow2_ofNat] at h ⊢
  have h1 : ((2 ^ n : Int) : Rat) ≤ a / pow2 u := by
    rw [le_div_iff₀ hp]; push_cast; linarith
  have h2 := roundHalfEven_mono h1
  rw [roundHalfEven_int] at h2
  have h3 : (2 : Rat) ^ n ≤ (roundHalfEven (a / pow2 u) : Int) := by exact_mod_cast h2
  nlinarith

theorem roundPos_nonneg {a : Rat} (ha : 0 < a) : 0 ≤ roundPos a := by
  have hp := pow2_pos (ulpExp a)
  have h1 : ((0 : Int) : Rat) ≤ a / pow2 (ulpExp a) := by
    rw [Int.cast_zero]; exact div_nonneg ha.le hp.le
  have h2 := roundHalfEven_mono h1
  rw [roundHalfEven_int] at h2
  unfold roundPos
  exact mul_nonneg (by exact_mod_cast h2) hp.le

theorem ilog2_mono {a b : Rat} (ha : 0 < a) (h : a ≤ b) : ilog2 a ≤ ilog2 b := by
  have := lt_of_pow2_lt (lt_of_le_of_lt (pow2_ilog2_le ha) (lt_of_le_of_lt h (lt_pow2_ilog2 (lt_of_lt_of_le ha h))))
  omega

theorem roundPos_mono {a b : Rat} (ha : 0 < a) (h : a ≤ b) : roundPos a ≤ roundPos b := by
  have hb : 0 < b := lt_of_lt_of_le ha h
  have hl := ilog2_mono ha h
  by_cases hu : ulpExp a = ulpExp b
  · unfold roundPos
    rw [hu]
    have hp := pow2_pos (ulpExp b)
    refine mul_le_mul_of_nonneg_right ?_ hp.le
    exact_mod_cast roundHalfEven_mono (div_le_div_of_nonneg_right h hp.le)
  · have h1 : max (ilog2 a + 1) (ulpExp a) ≤ ilog2 b := by unfold ulpExp at *; omega
    have h2 : roundPos a ≤ pow2 (max (ilog2 a + 1) (ulpExp a)) :=
      grid_le (le_max_right _ _) (le_trans (lt_pow2_ilog2 ha).le (pow2_mono (le_max_left _ _)))
    have h3 : pow2 (ilog2 b) ≤ roundPos b := le_grid (by unfold ulpExp at *; omega) (pow2_ilog2_le hb)
    exact le_trans h2 (le_trans (pow2_mono h1) h3)

/-- Rounding is monotone. -/
theorem rnd_mono {a b : Rat} (h : a ≤ b) : lt (rnd b) (rnd a) = false := by
  unfold rnd
  by_cases ha0 : a = 0
  · rw [if_pos ha0]
    by_cases hb0 : b = 0
    · rw [if_pos hb0]; simp [lt]
    · have hb : 0 < b := lt_of_le_of_ne (ha0 ▸ h) (Ne.symm hb0)
      rw [if_neg hb0, if_pos hb]
      simp only
      split
      · simp [lt]
      · simp [lt, roundPos_nonneg hb]
  · rw [if_neg ha0]
    by_cases ha : 0 < a
    · have hb : 0 < b := lt_of_lt_of_le ha h
      rw [if_pos ha, if_neg (ne_of_gt hb), if_pos hb]
      have := roundPos_mono ha h
      simp only
      split_ifs <;> simp only [lt, decide_eq_false_iff_not, not_lt] <;> linarith
    · have ha' : 0 < -a := by
        have : a < 0 := lt_of_le_of_ne (not_lt.mp ha) ha0
        linarith
      rw [if_neg ha]
      simp only
      have hna := roundPos_nonneg ha'
      by_cases hb0 : b = 0
      · rw [if_pos hb0]
        split
        · simp [lt]
        · simp [lt, hna]
      · rw [if_neg hb0]
        by_cases hb : 0 < b
        · have := roundPos_nonneg hb
          rw [if_pos hb]
          split <;> split <;> simp [lt]
          linarith
        · have hb' : 0 < -b := by
            have : b < 0 := lt_of_le_of_ne (not_lt.mp hb) hb0
            linarith
          rw [if_neg hb]
          have := roundPos_mono hb' (by linarith : -b ≤ -a)
          split_ifs <;> simp only [lt, decide_eq_false_iff_not, not_lt] <;> linarith

/-- What rounding gives is a float64. -/
theorem roundPos_idem {a : Rat} (ha : 0 < a) (h0 : 0 < roundPos a) : roundPos (roundPos a) = roundPos a := by
  have hgrid : roundPos a = (roundHalfEven (a / pow2 (ulpExp a)) : Int) * pow2 (ulpExp a) := rfl
  -- an upper bound on the exponent of the result
  have hup : roundPos a ≤ pow2 (max (ilog2 a + 1) (ulpExp a)) :=
    grid_le (le_max_right _ _) (le_trans (lt_pow2_ilog2 ha).le (pow2_mono (le_max_left _ _)))
  have hle := le_trans (pow2_ilog2_le h0) hup
  rcases lt_or_eq_of_le hup with hlt | heq
  · have h1 : ilog2 (roundPos a) < max (ilog2 a + 1) (ulpExp a) := lt_of_pow2_lt (lt_of_le_of_lt (pow2_ilog2_le h0) hlt)
    have h2 : ulpExp (roundPos a) ≤ ulpExp a := by
      show max _ _ ≤ _
      unfold ulpExp at h1 ⊢
      omega
    obtain ⟨n, hn⟩ : ∃ n : Nat, ulpExp a = ulpExp (roundPos a) + n := ⟨(ulpExp a - ulpExp (roundPos a)).toNat, by omega⟩
    apply roundPos_exact (n := roundHalfEven (a / pow2 (ulpExp a)) * 2 ^ n)
    have e : pow2 (ulpExp a) = pow2 (ulpExp (roundPos a)) * 2 ^ n := by
      conv => lhs; rw [hn]
      rw [pow2_add, pow2_ofNat]
    push_cast
    calc roundPos a = (roundHalfEven (a / pow2 (ulpExp a)) : Int) * pow2 (ulpExp a) := hgrid
      _ = _ := by rw [e]; ring
  · -- a power of two
    have hi : ilog2 (roundPos a) = max (ilog2 a + 1) (ulpExp a) :=
      ilog2_unique h0 (le_of_eq heq.symm) (by rw [heq, pow2_add_one]; have := pow2_pos (max (ilog2 a + 1) (ulpExp a)); linarith)
    obtain ⟨n, hn⟩ : ∃ n : Nat, max (ilog2 a + 1) (ulpExp a) = ulpExp (roundPos a) + n :=
      ⟨(max (ilog2 a + 1) (ulpExp a) - ulpExp (roundPos a)).toNat, by
        have : ulpExp (roundPos a) ≤ max (ilog2 a + 1) (ulpExp a) := by
          show max _ _ ≤ _
          rw [hi]; unfold ulpExp; omega
        omega⟩
    apply roundPos_exact (n := 2 ^ n)
    rw [hn, pow2_add, pow2_ofNat] at heq
    push_cast
    linarith

theorem rnd_neg (q : Rat) : rnd (-q) = neg (rnd q) := by
  unfold rnd
  rcases lt_trichotomy q 0 with h | h | h
  · rw [if_neg (by intro hc; linarith), if_pos (by linarith), if_neg (ne_of_lt h), if_neg (not_lt.2 h.le)]
    simp only; split <;> simp [neg]
  · subst h; simp [neg]
  · rw [if_neg (by intro hc; linarith), if_neg (by intro hc; linarith), if_neg (ne_of_gt h), if_pos h]
    simp only [neg_neg]; split <;> simp [neg]

/-- Rounding gives an infinity or a float64. -/
theorem rnd_valid {a r : Rat} (h : rnd a = fin r) : Valid r := by
  have pos : ∀ a r : Rat, 0 < a → rnd a = fin r → Valid r := by
    intro a r ha h
    unfold rnd at h
    rw [if_neg (ne_of_gt ha), if_pos ha] at h
    simp only at h
    split at h
    · simp at h
    · rename_i hlt
      have hr : roundPos a = r := by simpa using h
      rcases lt_or_eq_of_le (roundPos_nonneg ha) with h0 | h0
      · have := roundPos_idem ha h0
        rw [hr] at this h0 hlt
        unfold Valid rnd
        rw [if_neg (ne_of_gt h0), if_pos h0]
        simp only [this]
        rw [if_neg hlt]
      · rw [hr] at h0; subst h0; simp [Valid, rnd]
  rcases lt_trichotomy a 0 with ha | ha | ha
  · have h2 : rnd (-a) = fin (-r) := by rw [rnd_neg, h]; rfl
    have := pos (-a) (-r) (by linarith) h2
    unfold Valid at this ⊢
    rw [rnd_neg] at this
    cases hx : rnd r with
    | fin q => rw [hx] at this; simp [neg] at this; rw [this]
    | nan | ninf | pinf => rw [hx] at this; simp [neg] at this
  · subst ha; simp [rnd] at h; subst h; simp [Valid, rnd]
  · exact pos a r ha h

/-- A float64 value. -/
def Is (x : F64) : Prop := ∀ q, x = fin q → Valid q

theorem rnd_is (q : Rat) : Is (rnd q) := fun _ h => rnd_valid h

theorem add_is (x y : F64) : Is (add x y) := by
  cases x <;> cases y <;> simp only [add] <;> first | exact rnd_is _ | (intro q h; cases h)

/-- Adding a positive number does not decrease. -/
theorem add_pos_ge (x v : F64) (hx : Is x) (hn : IsNum x) (hv : lt (fin 0) v = true) : lt (add x v) x = false ∧
    (x ≠ ninf → IsNum (add x v)) := by
  cases x with
  | nan => exact absurd rfl hn
  | pinf => cases v <;> simp [add, lt, IsNum] at hv ⊢
  | ninf => cases v <;> simp [add, lt] at hv ⊢
  | fin q =>
    cases v with
    | nan => simp [lt] at hv
    | ninf => simp [lt] at hv
    | pinf => simp [add, lt, IsNum]
    | fin w =>
      simp only [lt, decide_eq_true_eq] at hv
      simp only [add]
      have h1 : rnd q = fin q := hx q rfl
      refine ⟨?_, fun _ => ?_⟩
      · rw [← h1]; exact rnd_mono (by linarith)
      · unfold IsNum rnd; split
        · simp
        · split <;> simp only <;> split <;> simp

end Verif.F64
