import Verif.RoundErr
import Verif.Props.Agg

/-!
# C63: the running mean in `float64`

`Verif.Props.Agg` has the mean and the squared deviation in exact arithmetic. Here they are computed as the
program does, rounding after every operation.
-/

namespace Verif.Props.AggFloat
open Verif Verif.View Verif.Props.Agg

/-! ## Specification -/

/-- `math.MaxFloat64`. -/
def maxF : Rat := (2 ^ 53 - 1) * 2 ^ 971

/-- A finite sample. -/
def IsVal (s : Sample F64) (q : Rat) : Prop := s.v = .fin q ∧ F64.Valid q

/-- The samples have the values `qs`. -/
def Values (ss : List (Sample F64)) (qs : List Rat) : Prop := List.Forall₂ IsVal ss qs

/-- Zero, positive, or positive infinity: neither negative nor a NaN. -/
def NonNeg (x : F64) : Prop := x = .pinf ∨ ∃ q, 0 ≤ q ∧ x = .fin q

/-- The arithmetic mean. -/
def mean (qs : List Rat) : Rat := qs.sum / qs.length

/-! ## One step -/

theorem maxF_valid : F64.Valid maxF := by
  have h := F64.rnd_int (2 ^ 53 - 1) (by norm_num)
  have hv : F64.Valid (2 ^ 53 - 1) := by
    unfold F64.Valid
    have e : ((2 ^ 53 - 1 : Int) : Rat) = 2 ^ 53 - 1 := by norm_num
    rw [e] at h; exact h
  apply hv.scale (by norm_num)
  have e : (2 : Rat) ^ 1024 = 2 ^ 53 * 2 ^ 971 := by rw [← pow_add]
  rw [e]
  apply mul_lt_mul_of_pos_right (by norm_num) (by positivity)

theorem nonNeg_rnd {q : Rat} (h : 0 ≤ q) : NonNeg (F64.rnd q) := by
  unfold F64.rnd
  rcases eq_or_lt_of_le h with h0 | hp
  · rw [if_pos h0.symm]; exact .inr ⟨0, le_refl _, rfl⟩
  · rw [if_neg (ne_of_gt hp), if_pos hp]
    simp only
    split
    · exact .inl rfl
    · exact .inr ⟨_, F64.roundPos_nonneg hp, rfl⟩

theorem nonNeg_add {x y : F64} (hx : NonNeg x) (hy : NonNeg y) : NonNeg (F64.add x y) := by
  rcases hx with rfl | ⟨a, ha, rfl⟩ <;> rcases hy with rfl | ⟨b, hb, rfl⟩
  · exact .inl rfl
  · exact .inl rfl
  · exact .inl rfl
  · exact nonNeg_rnd (by linarith)

/-- What one sample does to the mean. -/
structure Step (m v c x d r : Rat) : Prop where
  sub : F64.sub (.fin v) (.fin m) = .fin x
  div : F64.div (.fin x) (.fin c) = .fin d
  add : F64.add (.fin m) (.fin d) = .fin r
  valid : F64.Valid r
  lo : min m v ≤ r
  hi : r ≤ max m v
  lo' : min m v ≤ m + d
  hi' : m + d ≤ max m v
  sq : NonNeg (F64.mul (F64.sub (.fin v) (.fin m)) (F64.sub (.fin v) (.fin r)))

theorem step_up {m v c : Rat} (hm : F64.Valid m) (hv : F64.Valid v) (hc : 2 ≤ c) (h : m ≤ v) (hs : v - m ≤ maxF) :
    ∃ x d r, Step m v c x d r := by
  have hy : 0 ≤ v - m := by linarith
  obtain ⟨x, ex, hx0, hxm⟩ := F64.rnd_between F64.valid_zero maxF_valid hy hs
  have hxv := F64.rnd_valid ex
  have hq0 : 0 ≤ x / c := div_nonneg hx0 (by linarith)
  have hq2 : x / c ≤ x / 2 := div_le_div_of_nonneg_left hx0 (by norm_num) hc
  have hgrid : ∃ k : Int, v - m = k * F64.pow2 (-1074) := by
    obtain ⟨a, ha⟩ := hv.grid
    obtain ⟨b, hb⟩ := hm.grid
    exact ⟨a - b, by rw [ha, hb]; push_cast; ring⟩
  obtain ⟨d, ed, hd0, hd1⟩ : ∃ d, F64.rnd (x / c) = .fin d ∧ 0 ≤ d ∧ d ≤ v - m := by
    rcases F64.half_le hy hgrid ex with he | ⟨hval, hle⟩
    · obtain ⟨d, e1, e2, e3⟩ := F64.rnd_between F64.valid_zero hxv hq0 (hq2.trans (by linarith))
      exact ⟨d, e1, e2, e3.trans (le_of_eq he)⟩
    · obtain ⟨d, e1, e2, e3⟩ := F64.rnd_between F64.valid_zero hval hq0 hq2
      exact ⟨d, e1, e2, e3.trans hle⟩
  obtain ⟨r, er, hr1, hr2⟩ := F64.rnd_between hm hv (b := m + d) (by linarith) (by linarith)
  refine ⟨x, d, r, ?_, ?_, er, F64.rnd_valid er, ?_, ?_, ?_, ?_, ?_⟩
  · simp only [F64.sub, F64.neg, F64.add]; rw [← sub_eq_add_neg]; exact ex
  · simp only [F64.div]; rw [if_neg (by linarith)]; exact ed
  · rw [min_eq_left h]; exact hr1
  · rw [max_eq_right h]; exact hr2
  · rw [min_eq_left h]; linarith
  · rw [max_eq_right h]; linarith
  · obtain ⟨x', ex', hx'0, _⟩ := F64.rnd_between F64.valid_zero maxF_valid (b := v - r) (by linarith) (by linarith)
    simp only [F64.sub, F64.neg, F64.add]
    rw [← sub_eq_add_neg, ← sub_eq_add_neg, ex, ex']
    exact nonNeg_rnd (mul_nonneg hx0 hx'0)

theorem sub_neg' (a b : Rat) : F64.sub (.fin a) (.fin b) = F64.neg (F64.sub (.fin (-a)) (.fin (-b))) := by
  show F64.rnd (a + -b) = F64.neg (F64.rnd (-a + - -b))
  rw [← F64.rnd_neg]
  congr 1; ring

theorem step {m v c : Rat} (hm : F64.Valid m) (hv : F64.Valid v) (hc : 2 ≤ c) (hs : |v - m| ≤ maxF) :
    ∃ x d r, Step m v c x d r := by
  obtain ⟨h1, h2⟩ := abs_le.mp hs
  rcases le_total m v with h | h
  · exact step_up hm hv hc h h2
  · obtain ⟨x, d, r, st⟩ := step_up hm.neg hv.neg hc (by linarith : -m ≤ -v) (by linarith)
    refine ⟨-x, -d, -r, ?_, ?_, ?_, st.valid.neg, ?_, ?_, ?_, ?_, ?_⟩
    · rw [sub_neg', st.sub]; rfl
    · have := st.div
      simp only [F64.div] at this ⊢
      rw [if_neg (by linarith)] at this ⊢
      rw [neg_div, F64.rnd_neg, this]; rfl
    · have := st.add
      simp only [F64.add] at this ⊢
      rw [show m + -d = -(-m + d) by ring, F64.rnd_neg, this]; rfl
    · have := st.hi
      rw [max_eq_right (by linarith)] at this
      rw [min_eq_right h]; linarith
    · have := st.lo
      rw [min_eq_left (by linarith)] at this
      rw [max_eq_left h]; linarith
    · have := st.hi'
      rw [max_eq_right (by linarith)] at this
      rw [min_eq_right h]; linarith
    · have := st.lo'
      rw [min_eq_left (by linarith)] at this
      rw [max_eq_left h]; linarith
    · have := st.sq
      rw [sub_neg' v m, sub_neg' v (-r), neg_neg]
      have key : ∀ a b : F64, F64.mul (F64.neg a) (F64.neg b) = F64.mul a b := by
        intro a b
        have hz : ∀ q : Rat, F64.infSign (-q) = F64.neg (F64.infSign q) := by
          intro q
          unfold F64.infSign
          rcases lt_trichotomy q 0 with h | h | h
          · simp [h, not_lt.mpr h.le, F64.neg]
          · simp [h, F64.neg]
          · simp [h, not_lt.mpr h.le, F64.neg]
        have hnn : ∀ a : F64, F64.neg (F64.neg a) = a := by
          intro a; cases a <;> simp [F64.neg]
        cases a with
        | nan => cases b <;> rfl
        | ninf =>
          cases b with
          | fin q => exact hz q
          | _ => rfl
        | pinf =>
          cases b with
          | fin q => show F64.neg (F64.infSign (-q)) = F64.infSign q; rw [hz, hnn]
          | _ => rfl
        | fin q =>
          cases b with
          | nan => rfl
          | ninf => exact hz q
          | pinf => show F64.neg (F64.infSign (-q)) = F64.infSign q; rw [hz, hnn]
          | fin q' => show F64.rnd (-q * -q') = F64.rnd (q * q'); rw [neg_mul_neg]
      rw [key]
      exact this

/-! ## All samples -/

/-- After the first sample. -/
structure Inv (lo hi : Rat) (n : Nat) (d : Dist F64) (m : Rat) : Prop where
  count : d.count = n
  mean : d.mean = .fin m
  valid : F64.Valid m
  lo : lo ≤ m
  hi : m ≤ hi
  ssd : NonNeg d.ssd

theorem next_inv {lo hi : Rat} (hspread : hi - lo ≤ maxF) {n : Nat} (hn : 1 ≤ n) (hn' : n + 1 < 2 ^ 63) {d : Dist F64} {m : Rat}
    (hi' : Inv lo hi n d m) {s : Sample F64} {v : Rat} (hs : IsVal s v) (h1 : lo ≤ v) (h2 : v ≤ hi) :
    ∃ c x e r, F64.rnd ((n + 1 : Int) : Rat) = .fin c ∧ Step m v c x e r ∧ Inv lo hi (n + 1) (d.next s) r := by
  obtain ⟨c, ec, hc⟩ := F64.ofInt_ge_two (n := n + 1) (by omega) (by omega)
  obtain ⟨x, e, r, st⟩ := step hi'.valid hs.2 hc (by
    rw [abs_le]
    have := hi'.lo
    have := hi'.hi
    constructor <;> linarith)
  have hcount : wrap64 (d.count + 1) = (n : Int) + 1 := by
    rw [hi'.count]; exact wrap64_id (by omega) (by omega)
  have hne : ¬ (n : Int) + 1 = 1 := by omega
  have hmean : (d.next s).mean = .fin r := by
    simp only [Dist.next, hcount, if_neg hne, hi'.mean, hs.1, Arith.add, Arith.div, Arith.sub, Arith.ofInt]
    rw [st.sub, ec, st.div, st.add]
  refine ⟨c, x, e, r, ec, st, ⟨?_, hmean, st.valid, ?_, ?_, ?_⟩⟩
  · simp only [Dist.next, hcount]; push_cast; rfl
  · exact le_trans (le_min hi'.lo h1) st.lo
  · exact le_trans st.hi (max_le hi'.hi h2)
  · have : (d.next s).ssd = F64.add d.ssd (F64.mul (F64.sub (.fin v) (.fin m)) (F64.sub (.fin v) (.fin r))) := by
      have hm' := hmean
      simp only [Dist.next] at hm'
      simp only [Dist.next, hcount, if_neg hne, Arith.add, Arith.mul, Arith.sub, Arith.div]
      simp only [hcount, if_neg hne, Arith.add, Arith.div, Arith.sub] at hm'
      rw [hm', hi'.mean, hs.1]
    rw [this]
    exact nonNeg_add hi'.ssd st.sq

theorem first_inv {lo hi : Rat} (bs : List F64) (t : Int) {s : Sample F64} {v : Rat} (hs : IsVal s v) (h1 : lo ≤ v) (h2 : v ≤ hi) :
    Inv lo hi 1 ((newDistributionData bs t).next s) v := by
  refine ⟨?_, ?_, hs.2, h1, h2, ?_⟩
  · rfl
  · exact hs.1
  · exact .inr ⟨0, le_refl _, by simp [Dist.next, newDistributionData, wrap64, Arith.ofInt, F64.rnd]⟩

theorem fold_inv {lo hi : Rat} (hspread : hi - lo ≤ maxF) : ∀ {ss : List (Sample F64)} {qs : List Rat}, Values ss qs →
    (∀ q ∈ qs, lo ≤ q ∧ q ≤ hi) → ∀ {n : Nat}, 1 ≤ n → n + ss.length < 2 ^ 63 → ∀ {d : Dist F64} {m : Rat}, Inv lo hi n d m →
    ∃ m', Inv lo hi (n + ss.length) (ss.foldl Dist.next d) m' := by
  intro ss qs hv
  induction hv with
  | nil => intro _ n _ _ d m h; exact ⟨m, h⟩
  | @cons s q ss qs hs _ ih =>
    intro hb n hn hlen d m h
    simp only [List.length_cons] at hlen
    obtain ⟨_, _, _, r, _, _, hr⟩ := next_inv hspread hn (by omega) h hs (hb q (by simp)).1 (hb q (by simp)).2
    obtain ⟨m', hm'⟩ := ih (fun q hq => hb q (by simp [hq])) (n := n + 1) (by omega) (by omega) hr
    refine ⟨m', ?_⟩
    rw [List.length_cons, show n + (ss.length + 1) = n + 1 + ss.length by omega]
    exact hm'

/-- **C63.** For samples that are finite and no further apart than `math.MaxFloat64`, the `float64` mean is
between any bounds of the samples, and neither the sum of squared deviations nor the variance is ever
negative or a NaN. -/
theorem mean_between (bs : List F64) (t : Int) {ss : List (Sample F64)} {qs : List Rat} (hv : Values ss qs)
    (hne : ss ≠ []) (hlen : ss.length < 2 ^ 63) {lo hi : Rat} (hb : ∀ q ∈ qs, lo ≤ q ∧ q ≤ hi) (hspread : hi - lo ≤ maxF) :
    ∃ d m, (newDistributionData bs t).addAll ss = .ok d ∧ d.mean = .fin m ∧ lo ≤ m ∧ m ≤ hi ∧ NonNeg d.ssd ∧
      NonNeg d.variance := by
  cases hv with
  | nil => exact absurd rfl hne
  | @cons s q ss qs hs hv =>
    have h1 := first_inv (lo := lo) (hi := hi) bs t hs (hb q (by simp)).1 (hb q (by simp)).2
    simp only [List.length_cons] at hlen
    obtain ⟨m, hm⟩ := fold_inv hspread hv (fun q hq => hb q (by simp [hq])) (le_refl 1) (by omega) h1
    refine ⟨_, m, Dist.addAll_eq _ (newDistributionData_shape bs t) _, hm.mean, hm.lo, hm.hi, hm.ssd, ?_⟩
    have hcount := hm.count
    rw [← List.foldl_cons] at hcount
    unfold Dist.variance
    split
    · exact nonNeg_rnd (by norm_num)
    · next hc =>
      rw [hcount] at hc ⊢
      have hw : wrap64 (((1 + ss.length : Nat) : Int) - 1) = ss.length := by
        rw [wrap64_id (by omega) (by omega)]; omega
      rw [hw]
      have hss : 1 ≤ ss.length := by omega
      have h63 : F64.Valid (1 * 2 ^ 63) := F64.valid_one.scale (by norm_num) 63
        (by rw [one_mul]; exact pow_lt_pow_right₀ (by norm_num) (by norm_num))
      rw [one_mul] at h63
      obtain ⟨c, ec, hc1, _⟩ := F64.rnd_between F64.valid_one h63 (b := ((ss.length : Int) : Rat))
        (by exact_mod_cast hss) (by exact_mod_cast (by omega : ss.length ≤ 2 ^ 63))
      simp only [Arith.div, Arith.ofInt]
      rw [ec]
      rcases hm.ssd with h | ⟨x, hx, h⟩
      · rw [List.foldl_cons, h]
        simp only [F64.div]
        rw [if_neg (by linarith)]; exact .inl rfl
      · rw [List.foldl_cons, h]
        simp only [F64.div]
        rw [if_neg (by linarith)]
        exact nonNeg_rnd (div_nonneg hx (by linarith))

theorem exists_bounds : ∀ {qs : List Rat}, qs ≠ [] → ∃ lo hi, lo ∈ qs ∧ hi ∈ qs ∧ ∀ q ∈ qs, lo ≤ q ∧ q ≤ hi
  | [], h => absurd rfl h
  | [a], _ => ⟨a, a, by simp, by simp, by simp⟩
  | a :: b :: l, _ => by
    obtain ⟨lo, hi, h1, h2, h3⟩ := exists_bounds (qs := b :: l) (by simp)
    refine ⟨min a lo, max a hi, ?_, ?_, ?_⟩
    · rcases min_choice a lo with h | h <;> rw [h]
      · simp
      · exact List.mem_cons_of_mem _ h1
    · rcases max_choice a hi with h | h <;> rw [h]
      · simp
      · exact List.mem_cons_of_mem _ h2
    · intro q hq
      rcases List.mem_cons.mp hq with rfl | hq
      · exact ⟨min_le_left _ _, le_max_left _ _⟩
      · exact ⟨(min_le_right _ _).trans (h3 q hq).1, (h3 q hq).2.trans (le_max_right _ _)⟩

theorem Values.mem {ss : List (Sample F64)} {qs : List Rat} (hv : Values ss qs) {q : Rat} (hq : q ∈ qs) :
    F64.fin q ∈ nums ss := by
  induction hv with
  | nil => cases hq
  | @cons s q' ss qs hs _ ih =>
    have hc : nums (s :: ss) = .fin q' :: nums ss := by simp [nums, hs.1]
    rw [hc]
    rcases List.mem_cons.mp hq with rfl | hq
    · simp
    · exact List.mem_cons_of_mem _ (ih hq)

/-- **C63.** What a distribution shows is consistent: `Min ≤ Mean ≤ Max`, for finite samples no further apart
than `math.MaxFloat64`. -/
theorem min_mean_max (bs : List F64) (t : Int) {ss : List (Sample F64)} {qs : List Rat} (hv : Values ss qs)
    (hne : ss ≠ []) (hlen : ss.length < 2 ^ 63) (hspread : ∀ a ∈ qs, ∀ b ∈ qs, a - b ≤ maxF) :
    ∃ d m, (newDistributionData bs t).addAll ss = .ok d ∧ d.mean = .fin m ∧ F64.lt d.mean d.min = false ∧
      F64.lt d.max d.mean = false := by
  have hqne : qs ≠ [] := by
    intro h
    have := hv.length_eq
    rw [h] at this
    exact hne (List.length_eq_zero_iff.mp this)
  obtain ⟨lo, hi, h1, h2, h3⟩ := exists_bounds hqne
  obtain ⟨d, m, e1, e2, e3, e4, _⟩ := mean_between bs t hv hne hlen h3 (hspread hi h2 lo h1)
  obtain ⟨d', e1', hmin, hmax⟩ := dist_min_max bs t ss
  rw [e1] at e1'; cases e1'
  refine ⟨d, m, e1, e2, ?_, ?_⟩
  · rw [e2]
    refine F64.nlt_trans (y := .fin lo) (by simp [F64.IsNum]) (by simpa [F64.lt] using e3) ?_
    exact hmin.2 _ (List.mem_cons_of_mem _ (hv.mem h1))
  · rw [e2]
    refine F64.nlt_trans (y := .fin hi) (by simp [F64.IsNum]) ?_ (by simpa [F64.lt] using e4)
    exact hmax.2 _ (List.mem_cons_of_mem _ (hv.mem h2))

/-! ## How far off the mean is -/

/-- What one sample adds to the error, for samples of absolute value at most `M`. -/
def stepErr (M : Rat) : Rat := 4 * (1 / 2 ^ 53) * M + 3 * (1 / 2 ^ 1075)

theorem step_err {m v c x d r M μ : Rat} (hM : |m| ≤ M) (hv : |v| ≤ M) (hc : 2 ≤ c) (st : Step m v c x d r) :
    |r - (μ + (v - μ) / c)| ≤ |m - μ| + stepErr M := by
  have ex : F64.rnd (v - m) = .fin x := by
    have := st.sub
    simp only [F64.sub, F64.neg, F64.add] at this
    rw [sub_eq_add_neg]; exact this
  have ed : F64.rnd (x / c) = .fin d := by
    have := st.div
    simp only [F64.div] at this
    rw [if_neg (by linarith)] at this; exact this
  have er : F64.rnd (m + d) = .fin r := st.add
  have k1 := F64.rnd_err ex
  have k2 := F64.rnd_err ed
  have k3 := F64.rnd_err er
  have hcpos : 0 < c := by linarith
  have he0 : (0 : Rat) ≤ F64.eps := by unfold F64.eps; positivity
  have he1 : F64.eps ≤ 1 := by unfold F64.eps; norm_num
  have ht0 : (0 : Rat) ≤ F64.eta := by unfold F64.eta; positivity
  have hM0 : 0 ≤ M := le_trans (abs_nonneg _) hM
  obtain ⟨m1, m2⟩ := abs_le.mp hM
  obtain ⟨v1, v2⟩ := abs_le.mp hv
  have hmd : |m + d| ≤ M := by
    rw [abs_le]
    constructor
    · exact le_trans (le_min m1 v1) st.lo'
    · exact le_trans st.hi' (max_le m2 v2)
  have hvm : |v - m| ≤ 2 * M := by rw [abs_le]; constructor <;> linarith
  have half : ∀ a : Rat, |a / c| ≤ |a| / 2 := by
    intro a
    rw [abs_div, abs_of_pos hcpos]
    exact div_le_div_of_nonneg_left (abs_nonneg _) (by norm_num) hc
  have hx : |x| ≤ 2 * M + (F64.eps * (2 * M) + F64.eta) := by
    have h1 : |x| ≤ |x - (v - m)| + |v - m| := by
      have := abs_add_le (x - (v - m)) (v - m)
      rwa [sub_add_cancel] at this
    have h2 : F64.eps * |v - m| ≤ F64.eps * (2 * M) := mul_le_mul_of_nonneg_left hvm he0
    linarith
  have b1 : |r - (m + d)| ≤ F64.eps * M + F64.eta := by
    have : F64.eps * |m + d| ≤ F64.eps * M := mul_le_mul_of_nonneg_left hmd he0
    linarith
  have b2 : |d - x / c| ≤ F64.eps * ((2 * M + (F64.eps * (2 * M) + F64.eta)) / 2) + F64.eta := by
    have h1 : |x / c| ≤ (2 * M + (F64.eps * (2 * M) + F64.eta)) / 2 := (half x).trans (by linarith)
    have : F64.eps * |x / c| ≤ _ := mul_le_mul_of_nonneg_left h1 he0
    linarith
  have b3 : |(x - (v - m)) / c| ≤ (F64.eps * (2 * M) + F64.eta) / 2 := by
    have h2 : F64.eps * |v - m| ≤ F64.eps * (2 * M) := mul_le_mul_of_nonneg_left hvm he0
    exact (half _).trans (by linarith)
  have b4 : |(m - μ) * (1 - 1 / c)| ≤ |m - μ| := by
    rw [abs_mul]
    have h1 : 1 / c ≤ 1 / 2 := by apply one_div_le_one_div_of_le <;> linarith
    have h2 : 0 < 1 / c := by positivity
    have h3 : |1 - 1 / c| ≤ 1 := by rw [abs_le]; constructor <;> linarith
    exact mul_le_of_le_one_right (abs_nonneg _) h3
  have split : r - (μ + (v - μ) / c) = (r - (m + d)) + (d - x / c) + (x - (v - m)) / c + (m - μ) * (1 - 1 / c) := by
    field_simp; ring
  have tri : |r - (μ + (v - μ) / c)| ≤ |r - (m + d)| + |d - x / c| + |(x - (v - m)) / c| + |(m - μ) * (1 - 1 / c)| := by
    rw [split]
    have t1 := abs_add_le ((r - (m + d)) + (d - x / c) + (x - (v - m)) / c) ((m - μ) * (1 - 1 / c))
    have t2 := abs_add_le ((r - (m + d)) + (d - x / c)) ((x - (v - m)) / c)
    have t3 := abs_add_le (r - (m + d)) (d - x / c)
    linarith
  have q1 : F64.eps * (F64.eps * M) ≤ 1 / 2 * (F64.eps * M) :=
    mul_le_mul_of_nonneg_right (by unfold F64.eps; norm_num) (mul_nonneg he0 hM0)
  have q2 : F64.eps * F64.eta ≤ 1 * F64.eta := mul_le_mul_of_nonneg_right he1 ht0
  have hfin : stepErr M = 4 * F64.eps * M + 3 * F64.eta := rfl
  rw [hfin]
  nlinarith [q1, q2, mul_nonneg he0 hM0]

theorem fold_err {M : Rat} (hspread : 2 * M ≤ maxF) : ∀ {ss : List (Sample F64)} {qs : List Rat}, Values ss qs →
    (∀ q ∈ qs, |q| ≤ M) → ∀ {n : Nat}, 1 ≤ n → n + ss.length ≤ 2 ^ 53 → ∀ {d : Dist F64} {m S : Rat}, Inv (-M) M n d m →
    |m - S / n| ≤ (n - 1) * stepErr M →
    ∃ m', Inv (-M) M (n + ss.length) (ss.foldl Dist.next d) m' ∧
      |m' - (S + qs.sum) / (n + ss.length : Nat)| ≤ ((n + ss.length : Nat) - 1) * stepErr M := by
  intro ss qs hv
  induction hv with
  | nil => intro _ n _ _ d m S h he; exact ⟨m, h, by simpa using he⟩
  | @cons s q ss qs hs _ ih =>
    intro hb n hn hlen d m S h he
    simp only [List.length_cons] at hlen
    have hq := hb q (by simp)
    obtain ⟨c, x, e, r, ec, st, hr⟩ := next_inv (by linarith : M - -M ≤ maxF) hn (by omega) h hs (abs_le.mp hq).1 (abs_le.mp hq).2
    have hcn : c = (n : Rat) + 1 := by
      have := F64.rnd_int ((n : Int) + 1) (by omega)
      rw [ec] at this
      have := F64.fin.inj this
      rw [this]; push_cast; rfl
    have hn0 : (1 : Rat) ≤ n := by exact_mod_cast hn
    have hstep := step_err (μ := S / n) (abs_le.mpr ⟨h.lo, h.hi⟩) hq (by rw [hcn]; linarith) st
    have hμ : S / n + (q - S / n) / c = (S + q) / ((n + 1 : Nat) : Rat) := by
      rw [hcn]; push_cast; field_simp; ring
    rw [hμ] at hstep
    obtain ⟨m', hm', hb'⟩ := ih (fun q hq => hb q (by simp [hq])) (n := n + 1) (S := S + q) (by omega) (by omega) hr (by
      push_cast at hstep ⊢
      linarith)
    refine ⟨m', ?_, ?_⟩
    · rw [List.length_cons, show n + (ss.length + 1) = n + 1 + ss.length by omega]
      exact hm'
    · rw [List.length_cons, show n + (ss.length + 1) = n + 1 + ss.length by omega, List.sum_cons, ← add_assoc]
      exact hb'

/-- **C63** (and C14 in `float64`). The `float64` mean of at most 2^53 samples of absolute value at most `M` differs from their
arithmetic mean by at most `4·2^-53·M + 3·2^-1075` for each sample after the first. -/
theorem mean_error (bs : List F64) (t : Int) {ss : List (Sample F64)} {qs : List Rat} (hv : Values ss qs)
    (hne : ss ≠ []) (hlen : ss.length ≤ 2 ^ 53) {M : Rat} (hb : ∀ q ∈ qs, |q| ≤ M) (hspread : 2 * M ≤ maxF) :
    ∃ d m, (newDistributionData bs t).addAll ss = .ok d ∧ d.mean = .fin m ∧
      |m - mean qs| ≤ (ss.length - 1) * stepErr M := by
  have hl : ss.length = qs.length := hv.length_eq
  cases hv with
  | nil => exact absurd rfl hne
  | @cons s q ss qs hs hv =>
    have hq := abs_le.mp (hb q (by simp))
    have h1 := first_inv bs t hs hq.1 hq.2
    simp only [List.length_cons] at hlen hl
    obtain ⟨m, hm, he⟩ := fold_err hspread hv (fun q hq => hb q (by simp [hq])) (le_refl 1) (by omega) h1 (S := q) (by simp)
    refine ⟨_, m, Dist.addAll_eq _ (newDistributionData_shape bs t) _, hm.mean, ?_⟩
    unfold mean
    rw [List.sum_cons, List.length_cons, List.length_cons, ← hl, Nat.add_comm]
    exact he

/-! ## The hypotheses can be met -/

def demo : List (Sample F64) := [⟨.fin 1, [], 0⟩, ⟨.fin 2, [], 1⟩, ⟨.fin (-5), [], 2⟩]

theorem demo_values : Values demo [1, 2, -5] := by
  have h : ∀ n : Int, n.natAbs ≤ 2 ^ 53 → F64.Valid (n : Rat) := fun n hn => F64.rnd_int n hn
  refine .cons ⟨rfl, ?_⟩ (.cons ⟨rfl, ?_⟩ (.cons ⟨rfl, ?_⟩ .nil))
  · exact_mod_cast h 1 (by norm_num)
  · exact_mod_cast h 2 (by norm_num)
  · exact_mod_cast h (-5) (by norm_num)

example : demo ≠ [] ∧ demo.length < 2 ^ 63 ∧ (∀ a ∈ ([1, 2, -5] : List Rat), ∀ b ∈ ([1, 2, -5] : List Rat), a - b ≤ maxF) ∧
    (∀ q ∈ ([1, 2, -5] : List Rat), |q| ≤ 5) ∧ (2 * 5 : Rat) ≤ maxF := by
  have hbig : (10 : Rat) ≤ maxF := by
    unfold maxF
    have : (1 : Rat) ≤ 2 ^ 971 := one_le_pow₀ (by norm_num)
    have h2 := mul_le_mul_of_nonneg_left this (by norm_num : (0 : Rat) ≤ 2 ^ 53 - 1)
    refine le_trans ?_ h2
    norm_num
  refine ⟨by simp [demo], by simp [demo], ?_, ?_, by linarith⟩
  · intro a ha b hb
    simp only [List.mem_cons, List.not_mem_nil, or_false] at ha hb
    rcases ha with rfl | rfl | rfl <;> rcases hb with rfl | rfl | rfl <;> linarith
  · intro q hq
    simp only [List.mem_cons, List.not_mem_nil, or_false] at hq
    rcases hq with rfl | rfl | rfl <;> norm_num [abs_le]

/-- The mean of the first two samples is exact. -/
example : ∃ d, (newDistributionData [] 0).addAll (demo.take 2) = .ok d ∧ d.mean = .fin (3 / 2) := by
  refine ⟨_, Dist.addAll_eq _ (newDistributionData_shape _ _) _, ?_⟩
  decide +kernel

end Verif.Props.AggFloat
