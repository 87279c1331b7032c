import Verif.View.Equal
import Verif.RoundErr
import Verif.Props.Agg

/-!
# C97: comparing rows

`(*Row).Equal` says whether two rows have the same tags and the same data, sums, means and variances being
compared with a tolerance.
-/

namespace Verif.Props.Equal
open Verif Verif.View Verif.View.Equal Verif.Tag

/-! ## Specification -/

/-- Two finite numbers that are at most `δ` apart. -/
def Within (δ : Rat) (x y : F64) : Prop := ∃ a b : Rat, x = .fin a ∧ y = .fin b ∧ |a - b| ≤ δ

/-- The same number (NaN is none). -/
def SameNum (x y : F64) : Prop := x = y ∧ x ≠ .nan

/-- The variance of a distribution as its fields tell it, in `float64`. -/
def spread (d : Dist F64) : F64 := if d.count ≤ 1 then .fin 0 else F64.div d.ssd (F64.rnd ((d.count - 1 : Int) : Rat))

/-- The data agree, sums, means and variances up to `δ`. -/
def Agree (δ : Rat) : AggData F64 → AggData F64 → Prop
  | .count s n, .count s' n' => s = s' ∧ n = n'
  | .sum s x, .sum s' x' => s = s' ∧ Within δ x x'
  | .dist a, .dist b => a.start = b.start ∧ a.count = b.count ∧ a.cpb = b.cpb ∧ SameNum a.min b.min ∧ SameNum a.max b.max ∧
      Within δ a.mean b.mean ∧ Within δ (spread a) (spread b)
  | .last x, .last x' => SameNum x x'
  | _, _ => False

/-- The count of a distribution is an `int64`. -/
def Int64 : AggData F64 → Prop
  | .dist d => -2 ^ 63 ≤ d.count ∧ d.count < 2 ^ 63
  | _ => True

/-- Every figure that is compared with a tolerance is finite, and none is NaN. -/
def Finite : AggData F64 → Prop
  | .count _ _ => True
  | .sum _ x => ∃ a, x = .fin a
  | .dist d => d.min ≠ .nan ∧ d.max ≠ .nan ∧ (∃ a, d.mean = .fin a) ∧ ∃ a, spread d = .fin a
  | .last x => x ≠ .nan

/-- The datum with another start time. A last value has none. -/
def restart (t : Int) : AggData F64 → AggData F64
  | .count _ n => .count t n
  | .sum _ x => .sum t x
  | .dist d => .dist { d with start := t }
  | .last x => .last x

/-- Up to here numbers count as equal: 0.0000316217… -/
def lo : Rat := 33954 / 2 ^ 30
/-- From here on they count as different: 0.0000316226… -/
def hi : Rat := 33955 / 2 ^ 30

/-! ## Floating point -/

theorem valid_dyadic (n : Nat) (h0 : 0 < n) (h : n ≤ 2 ^ 53) (k : Nat) (hk : k ≤ 1000) : F64.Valid ((n : Rat) / 2 ^ k) := by
  have hn : F64.Valid (n : Rat) := by
    have := F64.rnd_int (n : Int) (by simpa using h)
    unfold F64.Valid; exact_mod_cast this
  have hpos : (0 : Rat) < n := by exact_mod_cast h0
  have hq : (0 : Rat) < (n : Rat) / 2 ^ k := by positivity
  obtain ⟨m, hm⟩ := hn.pos hpos
  have hs := F64.ilog2_scale hq k
  rw [div_mul_cancel₀ _ (by positivity)] at hs
  have hnonneg : 0 ≤ F64.ilog2 (n : Rat) := by
    have h1 : F64.pow2 0 ≤ n := by
      simp only [F64.pow2]; norm_num; exact_mod_cast h0
    have h2 := lt_of_le_of_lt h1 (F64.lt_pow2_ilog2 hpos)
    have := F64.lt_of_pow2_lt h2
    omega
  have hu : F64.ulpExp (n : Rat) = F64.ulpExp ((n : Rat) / 2 ^ k) + k := by
    unfold F64.ulpExp; omega
  have hr : F64.roundPos ((n : Rat) / 2 ^ k) = (n : Rat) / 2 ^ k := by
    apply F64.roundPos_exact (n := m)
    rw [hu, F64.pow2_add, F64.pow2_ofNat] at hm
    rw [eq_comm, ← mul_right_inj' (show (2 : Rat) ^ k ≠ 0 by positivity)]
    rw [mul_div_cancel₀ _ (by positivity)]
    linarith
  unfold F64.Valid F64.rnd
  rw [if_neg (ne_of_gt hq), if_pos hq]
  simp only [hr]
  rw [if_neg]
  intro hc
  have h2 : (n : Rat) / 2 ^ k ≤ n := div_le_self hpos.le (one_le_pow₀ (by norm_num))
  have h3 : (n : Rat) ≤ 2 ^ 53 := by exact_mod_cast h
  exact absurd (hc.trans (h2.trans h3)) (not_le.mpr (pow_lt_pow_right₀ (by norm_num) (by norm_num)))

theorem rnd_ge {a b : Rat} (ha : F64.Valid a) (h : a ≤ b) : F64.rnd b = .pinf ∨ ∃ r, F64.rnd b = .fin r ∧ a ≤ r := by
  have hm := F64.rnd_mono h
  rw [ha] at hm
  have hnan : F64.rnd b ≠ .nan := by
    unfold F64.rnd
    split
    · simp
    · split <;> simp only <;> split <;> simp
  cases e : F64.rnd b with
  | nan => exact absurd e hnan
  | ninf => rw [e] at hm; simp [F64.lt] at hm
  | pinf => exact .inl rfl
  | fin r => rw [e] at hm; simp [F64.lt] at hm; exact .inr ⟨r, rfl, hm⟩

theorem epsilon_is : ∃ e : Rat, epsilon = .fin e ∧ 1152921504 / 2 ^ 60 ≤ e ∧ e ≤ 1152921505 / 2 ^ 60 := by
  have v1 := valid_dyadic 1152921504 (by norm_num) (by norm_num) 60 (by norm_num)
  have v2 := valid_dyadic 1152921505 (by norm_num) (by norm_num) 60 (by norm_num)
  push_cast at v1 v2
  exact F64.rnd_between v1 v2 (by norm_num) (by norm_num)

theorem valid_lo : F64.Valid lo := by
  have := valid_dyadic 33954 (by norm_num) (by norm_num) 30 (by norm_num)
  exact_mod_cast this

theorem valid_hi : F64.Valid hi := by
  have := valid_dyadic 33955 (by norm_num) (by norm_num) 30 (by norm_num)
  exact_mod_cast this

theorem valid_lo2 : F64.Valid (lo * lo) := by
  have := valid_dyadic (33954 ^ 2) (by norm_num) (by norm_num) 60 (by norm_num)
  have e : lo * lo = ((33954 ^ 2 : Nat) : Rat) / 2 ^ 60 := by unfold lo; norm_num
  rw [e]; exact this

theorem valid_hi2 : F64.Valid (hi * hi) := by
  have := valid_dyadic (33955 ^ 2) (by norm_num) (by norm_num) 60 (by norm_num)
  have e : hi * hi = ((33955 ^ 2 : Nat) : Rat) / 2 ^ 60 := by unfold hi; norm_num
  rw [e]; exact this

theorem near_of {x y : F64} (h : Within lo x y) : near x y = true := by
  obtain ⟨a, b, rfl, rfl, hab⟩ := h
  rw [abs_le] at hab
  obtain ⟨r, er, h1, h2⟩ := F64.rnd_between valid_lo.neg valid_lo (b := a + -b) (by linarith) (by linarith)
  obtain ⟨e, he, e1, _⟩ := epsilon_is
  have hl : (0 : Rat) ≤ lo := by unfold lo; norm_num
  have hr2 : r * r ≤ lo * lo := by nlinarith
  obtain ⟨s, es, _, h4⟩ := F64.rnd_between F64.valid_zero valid_lo2 (b := r * r) (mul_self_nonneg r) hr2
  have hd : F64.sub (.fin a) (.fin b) = .fin r := er
  have hm : F64.mul (.fin r) (.fin r) = .fin s := es
  unfold near
  rw [hd, hm, he]
  simp only [F64.lt, decide_eq_true_eq]
  have : lo * lo < 1152921504 / 2 ^ 60 := by unfold lo; norm_num
  linarith

theorem neg_neg (x : F64) : F64.neg (F64.neg x) = x := by cases x <;> simp [F64.neg]

theorem sub_swap (x y : F64) : F64.sub y x = F64.neg (F64.sub x y) := by
  unfold F64.sub
  cases x <;> cases y <;> simp only [F64.neg, F64.add]
  show F64.rnd _ = F64.neg (F64.rnd _)
  rw [← F64.rnd_neg]; congr 1; ring

theorem mul_neg_self (z : F64) : F64.mul (F64.neg z) (F64.neg z) = F64.mul z z := by
  cases z <;> simp [F64.neg, F64.mul]

theorem near_symm (x y : F64) : near x y = near y x := by
  unfold near
  rw [sub_swap x y, mul_neg_self]

theorem near_far {a b : Rat} (h : hi ≤ a - b) : near (.fin a) (.fin b) = false := by
  obtain ⟨e, he, _, e2⟩ := epsilon_is
  have hh : (0 : Rat) ≤ hi := by unfold hi; norm_num
  unfold near
  have hd : F64.sub (.fin a) (.fin b) = F64.rnd (a + -b) := rfl
  rw [hd, he]
  rcases rnd_ge valid_hi (b := a + -b) (by linarith) with hp | ⟨r, hp, hr⟩
  · rw [hp]; rfl
  · rw [hp]
    have hm : F64.mul (.fin r) (.fin r) = F64.rnd (r * r) := rfl
    rw [hm]
    rcases rnd_ge valid_hi2 (b := r * r) (by nlinarith) with hp | ⟨s, hp, hs⟩
    · rw [hp]; rfl
    · rw [hp]
      simp only [F64.lt, decide_eq_false_iff_not, not_lt]
      have : 1152921505 / 2 ^ 60 < hi * hi := by unfold hi; norm_num
      linarith

theorem lt_eps (z : F64) : F64.lt .pinf z = false ∧ F64.lt .nan z = false := by cases z <;> exact ⟨rfl, rfl⟩

theorem near_only {x y : F64} (h : near x y = true) : Within hi x y := by
  cases x with
  | fin a =>
    cases y with
    | fin b =>
      refine ⟨a, b, rfl, rfl, ?_⟩
      by_contra hc
      rw [not_le, lt_abs] at hc
      rcases hc with hc | hc
      · rw [near_far (le_of_lt hc)] at h; cases h
      · rw [near_symm, near_far (by linarith)] at h; cases h
    | _ => simp [near, F64.sub, F64.neg, F64.add, F64.mul, lt_eps] at h
  | _ => cases y <;> simp [near, F64.sub, F64.neg, F64.add, F64.mul, lt_eps] at h

theorem near_self {x : F64} : near x x = true ↔ ∃ a, x = .fin a := by
  constructor
  · intro h
    obtain ⟨a, _, h1, _⟩ := near_only h
    exact ⟨a, h1⟩
  · rintro ⟨a, rfl⟩
    exact near_of ⟨a, a, rfl, rfl, by rw [sub_self, abs_zero]; unfold lo; norm_num⟩

theorem feq_iff {x y : F64} : feq x y = true ↔ SameNum x y := by simp [feq, SameNum]

theorem sameCounts_iff : ∀ (l m : List Int), l.length = m.length → (sameCounts l m = true ↔ l = m)
  | [], [], _ => by simp [sameCounts]
  | [], _ :: _, h => by simp at h
  | _ :: _, [], h => by simp at h
  | a :: l, b :: m, h => by
    have := sameCounts_iff l m (by simpa using h)
    unfold sameCounts
    by_cases e : a = b
    · simp [e, this]
    · simp [e]

theorem variance_is {d : Dist F64} (h : -2 ^ 63 ≤ d.count ∧ d.count < 2 ^ 63) : d.variance = spread d := by
  unfold Dist.variance spread
  split
  · show F64.rnd ((0 : Int) : Rat) = _
    rw [F64.rnd_int 0 (by norm_num)]; simp
  · next hc =>
    have e : wrap64 (d.count - 1) = d.count - 1 := by
      apply Agg.wrap64_id <;> omega
    show F64.div d.ssd (F64.rnd ((wrap64 (d.count - 1) : Int) : Rat)) = _
    rw [e]

theorem distEqual_iff (a b : Dist F64) : distEqual a b = true ↔ a.start = b.start ∧ a.count = b.count ∧ a.cpb = b.cpb ∧
    SameNum a.min b.min ∧ SameNum a.max b.max ∧ near a.mean b.mean = true ∧ near a.variance b.variance = true := by
  unfold distEqual
  by_cases h : a.cpb.length = b.cpb.length
  · rw [if_neg (by simpa using h)]
    have := sameCounts_iff _ _ h
    by_cases e : a.cpb = b.cpb
    · rw [if_neg (by simp [this.2 e])]
      simp only [Bool.and_eq_true, decide_eq_true_eq, feq_iff]
      tauto
    · rw [if_pos (by simpa using fun hc => e (this.1 hc))]
      simp [e]
  · rw [if_pos h]
    simp only [Bool.false_eq_true, false_iff]
    rintro ⟨_, _, e, _⟩
    exact h (by rw [e])

/-! ## Theorems -/

/-- C97. Rows that are reported equal have the same tags in the same order and data of one kind that agree: starts, counts,
bucket counts, smallest, greatest and last values exactly; sums, means and variances are finite and at most 0.00003163 apart. -/
theorem equal_only {t t' : Option (List (Key × Bytes))} {d d' : AggData F64} (hd : Int64 d) (hd' : Int64 d')
    (h : rowEqual false (some ⟨t, .ptr d⟩) (some ⟨t', .ptr d'⟩) = .ok true) : t = t' ∧ Agree hi d d' := by
  simp only [rowEqual, Bool.false_eq_true, if_false] at h
  split at h
  · simp at h
  · next ht =>
    refine ⟨by simpa using ht, ?_⟩
    simp only [equal, Res.ok.injEq] at h
    cases d <;> cases d' <;> simp only [dataEqual, Bool.false_eq_true] at h <;> simp only [Agree]
    · simpa using h
    · simp only [Bool.and_eq_true, decide_eq_true_eq] at h
      exact ⟨h.1, near_only h.2⟩
    · rw [distEqual_iff, variance_is hd, variance_is hd'] at h
      obtain ⟨h1, h2, h3, h4, h5, h6, h7⟩ := h
      exact ⟨h1, h2, h3, h4, h5, near_only h6, near_only h7⟩
    · exact feq_iff.1 h

/-- C97. Rows with the same tags whose data agree, sums, means and variances up to 0.00003162, are reported equal. -/
theorem equal_if {t : Option (List (Key × Bytes))} {d d' : AggData F64} (hd : Int64 d) (hd' : Int64 d')
    (h : Agree lo d d') : rowEqual false (some ⟨t, .ptr d⟩) (some ⟨t, .ptr d'⟩) = .ok true := by
  simp only [rowEqual, Bool.false_eq_true, if_false, ne_eq, not_true_eq_false, equal, Res.ok.injEq]
  cases d <;> cases d' <;> simp only [Agree] at h <;> simp only [dataEqual]
  · simpa using h
  · simp only [Bool.and_eq_true, decide_eq_true_eq]
    exact ⟨h.1, near_of h.2⟩
  · rw [distEqual_iff, variance_is hd, variance_is hd']
    obtain ⟨h1, h2, h3, h4, h5, h6, h7⟩ := h
    exact ⟨h1, h2, h3, h4, h5, near_of h6, near_of h7⟩
  · exact feq_iff.2 h

/-- C97. Comparing rows whose data is not nil never panics, and the order of the two does not matter. -/
theorem equal_symm (same : Bool) (t t' : Option (List (Key × Bytes))) (d d' : AggData F64) :
    rowEqual same (some ⟨t, .ptr d⟩) (some ⟨t', .ptr d'⟩) = rowEqual same (some ⟨t', .ptr d'⟩) (some ⟨t, .ptr d⟩) ∧
    ∃ b, rowEqual same (some ⟨t, .ptr d⟩) (some ⟨t', .ptr d'⟩) = .ok b := by
  have hf : ∀ x y : F64, feq x y = feq y x := by
    intro x y
    rw [Bool.eq_iff_iff, feq_iff, feq_iff]
    unfold SameNum
    constructor <;> (rintro ⟨rfl, h⟩; exact ⟨rfl, h⟩)
  have hs : dataEqual d d' = dataEqual d' d := by
    cases d <;> cases d' <;> simp only [dataEqual]
    · rw [Bool.eq_iff_iff]; simp only [Bool.and_eq_true, decide_eq_true_eq]
      constructor <;> (rintro ⟨rfl, rfl⟩; exact ⟨rfl, rfl⟩)
    · next s x s' x' => rw [near_symm x x', Bool.eq_iff_iff]; simp only [Bool.and_eq_true, decide_eq_true_eq]
                        constructor <;> (rintro ⟨rfl, h⟩; exact ⟨rfl, h⟩)
    · next a b =>
      rw [Bool.eq_iff_iff, distEqual_iff, distEqual_iff, near_symm a.mean, near_symm a.variance]
      unfold SameNum
      constructor <;>
      · rintro ⟨h1, h2, h3, ⟨h4, h4'⟩, ⟨h5, h5'⟩, h6, h7⟩
        exact ⟨h1.symm, h2.symm, h3.symm, ⟨h4.symm, h4 ▸ h4'⟩, ⟨h5.symm, h5 ▸ h5'⟩, h6, h7⟩
    · exact hf _ _
  unfold rowEqual
  cases same with
  | true => simp
  | false =>
    simp only [Bool.false_eq_true, if_false, equal, hs]
    by_cases e : t = t'
    · subst e; simp
    · simp [e, Ne.symm e]

/-- C97, the part that holds. A row is reported equal to itself; a copy of it is, exactly if its figures are finite. -/
theorem copy_equal_partial (t : Option (List (Key × Bytes))) (d : AggData F64) (hd : Int64 d) :
    rowEqual true (some ⟨t, .ptr d⟩) (some ⟨t, .ptr d⟩) = .ok true ∧
    (rowEqual false (some ⟨t, .ptr d⟩) (some ⟨t, .ptr d⟩) = .ok true ↔ Finite d) := by
  refine ⟨rfl, ?_⟩
  simp only [rowEqual, Bool.false_eq_true, if_false, ne_eq, not_true_eq_false, equal, Res.ok.injEq]
  cases d with
  | count s n => simp [dataEqual, Finite]
  | sum s x => simp only [dataEqual, decide_true, Bool.true_and, Finite]; exact near_self
  | last x => simp only [dataEqual, feq_iff, SameNum, Finite, true_and]
  | dist d =>
    simp only [dataEqual, distEqual_iff, variance_is hd, SameNum, near_self, Finite, true_and]

/-- C97. What the comparison of distributions does not look at: bounds, exemplars, and the sum of squared deviations where there
is at most one sample. -/
theorem not_compared (a b : Dist F64) (bs : List F64) (es : List (Option (Exemplar F64))) :
    dataEqual (.dist a) (.dist { b with bounds := bs, epb := es }) = dataEqual (.dist a) (.dist b) ∧
    (b.count ≤ 1 → ∀ x, dataEqual (.dist a) (.dist { b with ssd := x }) = dataEqual (.dist a) (.dist b)) := by
  refine ⟨rfl, fun h x => ?_⟩
  simp only [dataEqual, distEqual, Dist.variance, h, if_true]

/-- C97. `ClearStart` makes the start times of any two data equal and changes nothing else. -/
theorem clear_start (d : AggData F64) : ∃ z : Int, clearStart (.ptr d) = .ok (.ptr (restart z d)) ∧
    ∀ d', clearStart (.ptr d') = .ok (.ptr (restart z d')) := by
  refine ⟨zeroTime, ?_, fun d' => ?_⟩
  · cases d <;> rfl
  · cases d' <;> rfl

/-- C97. Rows whose start times were cleared are reported equal exactly if they would be with any common start time. -/
theorem cleared_equal (d d' : AggData F64) (t : Int) {x y : Data} (hx : clearStart (.ptr d) = .ok x)
    (hy : clearStart (.ptr d') = .ok y) : equal x y = equal (.ptr (restart t d)) (.ptr (restart t d')) := by
  cases d <;> cases d' <;> simp only [clearStart, Res.ok.injEq] at hx hy <;> subst hx <;> subst hy <;>
    simp [equal, restart, dataEqual, distEqual, Dist.variance]

/-- C97. Collected data has an `int64` count. -/
theorem collected_int64 {a : Aggregation F64} {t : Int} {d d' : AggData F64} (h : a.mkData t = .ok d) (ss : List (Sample F64))
    (h' : d.addAll ss = .ok d') : Int64 d' := by
  have hw : ∀ x : Int, -2 ^ 63 ≤ wrap64 x ∧ wrap64 x < 2 ^ 63 := by intro x; unfold wrap64; omega
  rw [AggData.addAll_eq _ (mkData_shape h)] at h'
  simp only [Res.ok.injEq] at h'
  subst h'
  have h0 : Int64 d := by
    unfold Aggregation.mkData at h
    split at h <;> simp at h <;> subst h <;> simp [Int64, newDistributionData]
  clear h
  induction ss generalizing d with
  | nil => exact h0
  | cons s ss ih =>
    apply ih
    cases d with
    | dist d => exact hw _
    | _ => trivial

/-- C97. Two rows that counted equally many samples since the same time, and two that summed the same integers in any two orders
without partial sums beyond `2 ^ 53`, are reported equal. -/
theorem orders_equal (t : Option (List (Key × Bytes))) (st : Int) :
    (∀ ss ss' : List (Sample F64), ss.length = ss'.length → ∃ d d', (AggData.count st 0).addAll ss = .ok d ∧
      (AggData.count st 0).addAll ss' = .ok d' ∧ rowEqual false (some ⟨t, .ptr d⟩) (some ⟨t, .ptr d'⟩) = .ok true) ∧
    (∀ ns ns' : List Int, ns.Perm ns' → (∀ k ≤ ns.length, ((ns.take k).sum).natAbs ≤ 2 ^ 53) →
      (∀ k ≤ ns'.length, ((ns'.take k).sum).natAbs ≤ 2 ^ 53) → ∃ d d',
      (AggData.sum st (F64.fin 0)).addAll (ns.map fun n : Int => ⟨F64.fin n, [], 0⟩) = .ok d ∧
      (AggData.sum st (F64.fin 0)).addAll (ns'.map fun n : Int => ⟨F64.fin n, [], 0⟩) = .ok d' ∧
      rowEqual false (some ⟨t, .ptr d⟩) (some ⟨t, .ptr d'⟩) = .ok true) := by
  refine ⟨fun ss ss' h => ?_, fun ns ns' hp h1 h2 => ?_⟩
  · have e : ∀ (ss ss' : List (Sample F64)) (d : AggData F64), (∃ n, d = .count st n) → ss.length = ss'.length →
        ss.foldl AggData.next d = ss'.foldl AggData.next d ∧ ∃ n, ss.foldl AggData.next d = .count st n := by
      intro ss
      induction ss with
      | nil =>
        intro ss' d hd hl
        cases ss' with
        | nil => exact ⟨rfl, hd⟩
        | cons _ _ => simp at hl
      | cons s ss ih =>
        intro ss' d hd hl
        cases ss' with
        | nil => simp at hl
        | cons s' ss' =>
          obtain ⟨n, rfl⟩ := hd
          exact ih ss' (.count st (wrap64 (n + 1))) ⟨_, rfl⟩ (by simpa using hl)
    obtain ⟨e1, n, e2⟩ := e ss ss' _ ⟨0, rfl⟩ h
    refine ⟨.count st n, .count st n, ?_, ?_, ?_⟩
    · rw [AggData.addAll_eq _ (by trivial), e2]
    · rw [AggData.addAll_eq _ (by trivial), ← e1, e2]
    · exact (copy_equal_partial t (.count st n) trivial).2.2 trivial
  · refine ⟨_, _, Agg.sum_data_exact_ints st ns h1, Agg.sum_data_exact_ints st ns' h2, ?_⟩
    rw [hp.sum_eq]
    exact (copy_equal_partial t (.sum st _) trivial).2.2 ⟨_, rfl⟩

example : [(3 : Int), -5, 7].Perm [7, 3, -5] ∧ (∀ k ≤ 3, (([(3 : Int), -5, 7].take k).sum).natAbs ≤ 2 ^ 53) := by decide

example : ∃ d : AggData F64, Int64 d ∧ Finite d ∧ Agree lo d d ∧ Agree hi d d :=
  ⟨.sum 7 (.fin 3), trivial, ⟨3, rfl⟩, ⟨rfl, 3, 3, rfl, rfl, by norm_num [lo]⟩, ⟨rfl, 3, 3, rfl, rfl, by norm_num [hi]⟩⟩

/-! ## Where it is no equality -/

def sumRow (x : F64) : Option ORow := some ⟨none, .ptr (.sum 0 x)⟩

/-- C97. A copy of a row whose sum has become infinite is not equal to it. -/
theorem infinite_not_equal : rowEqual false (sumRow .pinf) (sumRow .pinf) = .ok false := by
  have h := (copy_equal_partial none (.sum 0 .pinf) trivial).2
  obtain ⟨b, hb⟩ := (equal_symm false none none (.sum 0 .pinf) (.sum 0 .pinf)).2
  have hn : b ≠ true := by
    rintro rfl
    obtain ⟨a, ha⟩ := h.1 hb
    cases ha
  cases b with
  | true => exact absurd rfl hn
  | false => exact hb

/-- C97. Equality of rows is not transitive. -/
theorem not_transitive : ∃ a b c : F64, rowEqual false (sumRow a) (sumRow b) = .ok true ∧
    rowEqual false (sumRow b) (sumRow c) = .ok true ∧ rowEqual false (sumRow a) (sumRow c) = .ok false := by
  refine ⟨.fin 0, .fin (1 / 2 ^ 15), .fin (2 / 2 ^ 15), ?_, ?_, ?_⟩
  · exact equal_if (d := .sum 0 _) (d' := .sum 0 _) trivial trivial ⟨rfl, _, _, rfl, rfl, by rw [abs_le]; unfold lo; norm_num⟩
  · exact equal_if (d := .sum 0 _) (d' := .sum 0 _) trivial trivial ⟨rfl, _, _, rfl, rfl, by rw [abs_le]; unfold lo; norm_num⟩
  · obtain ⟨b, hb⟩ := (equal_symm false none none (.sum 0 (.fin 0)) (.sum 0 (.fin (2 / 2 ^ 15)))).2
    have hn : b ≠ true := by
      rintro rfl
      obtain ⟨_, _, a, c, h1, h2, h3⟩ := equal_only (d := .sum 0 _) (d' := .sum 0 _) trivial trivial hb
      cases h1; cases h2
      rw [abs_le] at h3; unfold hi at h3; norm_num at h3
    cases b with
    | true => exact absurd rfl hn
    | false => exact hb

/-- Two distributions of one sample each, 5: one has it above 3 and below 10, the other above 1 and below 6. -/
def distOf (b c : Int) : Dist F64 := (newDistributionData [.fin b, .fin c] 0).next ⟨.fin 5, [], 0⟩

/-- C97. Rows of views with different bounds are equal. -/
theorem bounds_ignored : (distOf 3 10).bounds ≠ (distOf 1 6).bounds ∧
    rowEqual false (some ⟨none, .ptr (.dist (distOf 3 10))⟩) (some ⟨none, .ptr (.dist (distOf 1 6))⟩) = .ok true := by
  have e : ({ distOf 1 6 with bounds := [.fin 3, .fin 10], epb := (distOf 3 10).epb } : Dist F64) = distOf 3 10 := by decide +kernel
  refine ⟨by decide +kernel, ?_⟩
  have h1 := (not_compared (distOf 3 10) (distOf 1 6) [.fin 3, .fin 10] (distOf 3 10).epb).1
  rw [e] at h1
  have h2 := (copy_equal_partial none (.dist (distOf 3 10)) (show _ ∧ _ by decide +kernel)).2.2
    ⟨by decide +kernel, by decide +kernel, ⟨5, by decide +kernel⟩, ⟨0, by decide +kernel⟩⟩
  simp only [rowEqual, Bool.false_eq_true, if_false, ne_eq, not_true_eq_false, equal] at h2 ⊢
  rw [← h1]; exact h2

/-- C97. A collected row without tags has nil tags, and never equals one with an empty slice, whatever the data. -/
theorem empty_tags_differ (r : Row F64) (h : r.tags = []) (x : Data) :
    rowEqual false (some (collected r)) (some ⟨some [], x⟩) = .ok false := by
  simp [rowEqual, collected, h]

/-- C97. Nil data: a nil row or nil data of the receiver panics where the other is not the same pointer, and so does a nil pointer
of the argument's type, except to a distribution. -/
theorem nil_panics (o : ORow) (d : AggData F64) (t : Option (List (Key × Bytes))) :
    rowEqual false none (some o) = .panic ∧ rowEqual false (some o) none = .panic ∧
    rowEqual false (some ⟨t, .nil⟩) (some ⟨t, .ptr d⟩) = .panic ∧
    rowEqual false (some ⟨t, .ptr d⟩) (some ⟨t, .nil⟩) = .ok false ∧
    rowEqual false (some ⟨t, .ptr d⟩) (some ⟨t, .nilPtr (kind d)⟩) = if kind d = .distribution then .ok false else .panic := by
  refine ⟨rfl, rfl, ?_, ?_, ?_⟩ <;> simp [rowEqual, equal]

end Verif.Props.Equal
