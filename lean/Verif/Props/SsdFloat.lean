import Verif.Props.AggFloat

/-!
# C79: the sum, the squared deviation and the variance in `float64`

`Verif.Props.AggFloat` bounds the error of the running mean. Here the same is done for the figures that are
computed from it: the sum that is exported, the sum of squared deviations and the variance.
-/

namespace Verif.Props.SsdFloat
open Verif Verif.View Verif.Props.Agg Verif.Props.AggFloat

/-! ## Specification -/

/-- The sum of the squared deviations from the mean. -/
def sqDev (qs : List Rat) : Rat := (qs.map fun q => (q - mean qs) ^ 2).sum

/-- The sample variance. -/
def sampleVariance (qs : List Rat) : Rat := sqDev qs / (qs.length - 1)

/-- Half a unit in the last place of one: the greatest relative error of one operation. -/
def u : Rat := 1 / 2 ^ 53

/-! ## Exact arithmetic -/

theorem sum_shift (μ : Rat) : ∀ qs : List Rat,
    (qs.map fun q => (q - μ) ^ 2).sum = (qs.map fun q => q ^ 2).sum - 2 * μ * qs.sum + qs.length * μ ^ 2
  | [] => by simp
  | q :: qs => by
    rw [List.map_cons, List.sum_cons, sum_shift μ qs, List.map_cons, List.sum_cons, List.sum_cons, List.length_cons]
    push_cast; ring

theorem sqDev_eq {qs : List Rat} (h : qs ≠ []) :
    sqDev qs = (qs.map fun q => q ^ 2).sum - qs.sum ^ 2 / qs.length := by
  have hn : (qs.length : Rat) ≠ 0 := by
    have : qs.length ≠ 0 := fun hc => h (List.length_eq_zero_iff.mp hc)
    exact_mod_cast this
  unfold sqDev
  rw [sum_shift]
  unfold mean
  field_simp
  ring

/-- The update in exact arithmetic. -/
theorem update (S Q v : Rat) {n : Rat} (hn : 1 ≤ n) :
    Q + v ^ 2 - (S + v) ^ 2 / (n + 1) = (Q - S ^ 2 / n) + (v - S / n) * (v - (S + v) / (n + 1)) := by
  have h1 : n ≠ 0 := by linarith
  have h2 : n + 1 ≠ 0 := by linarith
  field_simp
  ring

/-! ## Rounding -/

theorem eps_eq : F64.eps = u := rfl

theorem u_pos : 0 < u := by unfold u; positivity

theorem u_small : u ≤ 1 / 2 ^ 53 := le_refl _

theorem eta_le {M : Rat} (hM : 1 ≤ M) : F64.eta ≤ u / 2 ^ 10 ∧ F64.eta ≤ u / 2 ^ 10 * M ∧ F64.eta ≤ u / 2 ^ 10 * M ^ 2 := by
  have h1 : F64.eta ≤ u / 2 ^ 10 := by
    unfold F64.eta u
    rw [div_div, ← pow_add]
    apply one_div_le_one_div_of_le (by positivity)
    exact pow_le_pow_right₀ (by norm_num) (by norm_num)
  have h2 : (0 : Rat) ≤ u / 2 ^ 10 := by have := u_pos; positivity
  refine ⟨h1, h1.trans ?_, h1.trans ?_⟩
  · exact le_mul_of_one_le_right h2 hM
  · exact le_mul_of_one_le_right h2 (one_le_pow₀ hM)

/-- A number that is not too large rounds to a number. -/
theorem rnd_fin {q : Rat} (h : |q| ≤ maxF) : ∃ r, F64.rnd q = .fin r := by
  obtain ⟨h1, h2⟩ := abs_le.mp h
  obtain ⟨r, e, _⟩ := F64.rnd_between maxF_valid.neg maxF_valid h1 h2
  exact ⟨r, e⟩

theorem rnd_near {q r B : Rat} (h : F64.rnd q = .fin r) (hq : |q| ≤ B) : |r - q| ≤ u * B + F64.eta := by
  have h1 := F64.rnd_err h
  rw [eps_eq] at h1
  have := mul_le_mul_of_nonneg_left hq u_pos.le
  linarith

theorem abs_le_add {a b B C : Rat} (h1 : |a - b| ≤ B) (h2 : |b| ≤ C) : |a| ≤ B + C := by
  have := abs_add_le (a - b) b
  rw [sub_add_cancel] at this
  linarith

theorem stepErr_le {M : Rat} (hM : 1 ≤ M) : stepErr M ≤ 5 * u * M := by
  have h := (eta_le hM).2.1
  have e : stepErr M = 4 * u * M + 3 * F64.eta := rfl
  rw [e]
  have := u_pos
  have : 0 ≤ u * M := by positivity
  nlinarith

/-- One step of the sum of squared deviations. -/
theorem ssd_step {M m v r μ μ' s t : Rat} {n : Rat} (hM : 1 ≤ M) (hn : 1 ≤ n) (hn' : n ≤ 2 ^ 48)
    (hm : |m| ≤ M) (hv : |v| ≤ M) (hr : |r| ≤ M) (hμ : |μ| ≤ M) (hμ' : |μ'| ≤ M)
    (em : |m - μ| ≤ 5 * (n - 1) * u * M) (er : |r - μ'| ≤ 5 * n * u * M)
    (ht : |t| ≤ 4 * n * M ^ 2) (es : |s - t| ≤ 31 * n ^ 2 * u * M ^ 2) (hbig : 2 ^ 52 * M ^ 2 ≤ maxF) :
    ∃ s', F64.add (.fin s) (F64.mul (F64.sub (.fin v) (.fin m)) (F64.sub (.fin v) (.fin r))) = .fin s' ∧
      |s' - (t + (v - μ) * (v - μ'))| ≤ 31 * (n + 1) ^ 2 * u * M ^ 2 := by
  have hu := u_pos
  have hus : u ≤ 1 / 2 ^ 53 := u_small
  have hM2 : 1 ≤ M ^ 2 := one_le_pow₀ hM
  have hMM : M ≤ M ^ 2 := by rw [pow_two]; exact le_mul_of_one_le_left (by linarith) hM
  obtain ⟨ha1, ha2, ha3⟩ := eta_le hM
  have heta : 0 ≤ F64.eta := by unfold F64.eta; positivity
  have huM : 0 < u * M := by positivity
  have huM2 : 0 < u * M ^ 2 := by positivity
  have hw : u * M ≤ 1 / 2 ^ 53 * M := mul_le_mul_of_nonneg_right hus (by linarith)
  have hw2 : u * M ^ 2 ≤ 1 / 2 ^ 53 * M ^ 2 := mul_le_mul_of_nonneg_right hus (by linarith)
  have hnz : 0 ≤ n * (u * M ^ 2) := mul_nonneg (by linarith) huM2.le
  have hM2b : 2 * M ≤ maxF := by linarith
  obtain ⟨m1, m2⟩ := abs_le.mp hm
  obtain ⟨v1, v2⟩ := abs_le.mp hv
  obtain ⟨r1, r2⟩ := abs_le.mp hr
  obtain ⟨μ1, μ2⟩ := abs_le.mp hμ
  obtain ⟨ν1, ν2⟩ := abs_le.mp hμ'
  have hvm : |v - m| ≤ 2 * M := by rw [abs_le]; constructor <;> linarith
  have hvr : |v - r| ≤ 2 * M := by rw [abs_le]; constructor <;> linarith
  have hvμ : |v - μ| ≤ 2 * M := by rw [abs_le]; constructor <;> linarith
  have hvμ' : |v - μ'| ≤ 2 * M := by rw [abs_le]; constructor <;> linarith
  obtain ⟨x, ex⟩ := rnd_fin (hvm.trans hM2b)
  obtain ⟨y, ey⟩ := rnd_fin (hvr.trans hM2b)
  have kx := rnd_near ex hvm
  have ky := rnd_near ey hvr
  have dx : |x - (v - μ)| ≤ 5 * n * u * M := by
    have h := abs_add_le (x - (v - m)) (-(m - μ))
    rw [show x - (v - m) + -(m - μ) = x - (v - μ) by ring, abs_neg] at h
    linarith
  have dy : |y - (v - μ')| ≤ 5 * (n + 1) * u * M := by
    have h := abs_add_le (y - (v - r)) (-(r - μ'))
    rw [show y - (v - r) + -(r - μ') = y - (v - μ') by ring, abs_neg] at h
    linarith
  have bx : |x| ≤ 3 * M := by
    have := abs_le_add kx hvm
    linarith
  have by' : |y| ≤ 3 * M := by
    have := abs_le_add ky hvr
    linarith
  -- the product
  have dxy : |x * y - (v - μ) * (v - μ')| ≤ (25 * n + 10) * u * M ^ 2 := by
    have h := abs_add_le ((x - (v - μ)) * y) ((v - μ) * (y - (v - μ')))
    rw [show (x - (v - μ)) * y + (v - μ) * (y - (v - μ')) = x * y - (v - μ) * (v - μ') by ring, abs_mul, abs_mul] at h
    have h1 : |x - (v - μ)| * |y| ≤ (5 * n * u * M) * (3 * M) :=
      mul_le_mul dx by' (abs_nonneg _) (by positivity)
    have h2 : |v - μ| * |y - (v - μ')| ≤ (2 * M) * (5 * (n + 1) * u * M) :=
      mul_le_mul hvμ dy (abs_nonneg _) (by positivity)
    linarith
  have bxy : |x * y| ≤ 9 * M ^ 2 := by
    rw [abs_mul]
    have := mul_le_mul bx by' (abs_nonneg _) (by positivity)
    linarith
  obtain ⟨p, ep⟩ := rnd_fin (q := x * y) (bxy.trans (by linarith))
  have kp := rnd_near ep bxy
  have dp : |p - (v - μ) * (v - μ')| ≤ (25 * n + 20) * u * M ^ 2 := by
    have h := abs_add_le (p - x * y) (x * y - (v - μ) * (v - μ'))
    rw [show p - x * y + (x * y - (v - μ) * (v - μ')) = p - (v - μ) * (v - μ') by ring] at h
    linarith
  have bp : |p| ≤ 10 * M ^ 2 := by
    have := abs_le_add kp bxy
    linarith
  -- the sum
  have hnu : 31 * n * u ≤ 1 := by
    have := mul_le_mul hn' hus hu.le (by norm_num : (0 : Rat) ≤ 2 ^ 48)
    norm_num at this
    linarith
  have bs : |s| ≤ 5 * n * M ^ 2 := by
    have := abs_le_add es ht
    have h2 : 31 * n ^ 2 * u * M ^ 2 ≤ n * M ^ 2 := by
      have : 31 * n ^ 2 * u * M ^ 2 = (31 * n * u) * (n * M ^ 2) := by ring
      rw [this]
      exact mul_le_of_le_one_left (by positivity) hnu
    linarith
  have bsp : |s + p| ≤ (5 * n + 10) * M ^ 2 := by
    have := abs_add_le s p
    linarith
  obtain ⟨s', es'⟩ := rnd_fin (q := s + p) (bsp.trans (by
    have : (5 * n + 10) * M ^ 2 ≤ 2 ^ 52 * M ^ 2 := mul_le_mul_of_nonneg_right (by linarith) (by positivity)
    linarith))
  have ks := rnd_near es' bsp
  refine ⟨s', ?_, ?_⟩
  · simp only [F64.sub, F64.neg, F64.add]
    rw [← sub_eq_add_neg, ← sub_eq_add_neg, ex, ey]
    simp only [F64.mul]
    rw [ep]
    exact es'
  · have h := abs_add_le (s' - (s + p)) ((s - t) + (p - (v - μ) * (v - μ')))
    have h2 := abs_add_le (s - t) (p - (v - μ) * (v - μ'))
    rw [show s' - (s + p) + ((s - t) + (p - (v - μ) * (v - μ'))) = s' - (t + (v - μ) * (v - μ')) by ring] at h
    linarith

/-! ## All samples -/

theorem next_ssd {n : Nat} (hn : 1 ≤ n) (hn' : n + 1 < 2 ^ 63) {d : Dist F64} {m v r : Rat} {s : Sample F64}
    (hc : d.count = n) (hm : d.mean = .fin m) (hs : s.v = .fin v) (hr : (d.next s).mean = .fin r) :
    (d.next s).ssd = F64.add d.ssd (F64.mul (F64.sub (.fin v) (.fin m)) (F64.sub (.fin v) (.fin r))) := by
  have hcount : wrap64 (d.count + 1) = (n : Int) + 1 := by
    rw [hc]; exact wrap64_id (by omega) (by omega)
  have hne : ¬ (n : Int) + 1 = 1 := by omega
  simp only [Dist.next] at hr
  simp only [Dist.next, hcount, if_neg hne, Arith.add, Arith.mul, Arith.sub, Arith.div]
  simp only [hcount, if_neg hne, Arith.add, Arith.div, Arith.sub] at hr
  rw [hr, hm, hs]

/-- What is known after `n` samples with sum `S` and sum of squares `Q`. -/
structure Near (M : Rat) (n : Nat) (S Q : Rat) (d : Dist F64) (m s : Rat) : Prop where
  inv : Inv (-M) M n d m
  mean : |m - S / n| ≤ (n - 1) * stepErr M
  real : |S / n| ≤ M
  ssd : d.ssd = .fin s
  dev : |s - (Q - S ^ 2 / n)| ≤ 31 * n ^ 2 * u * M ^ 2
  size : |Q - S ^ 2 / n| ≤ 4 * n * M ^ 2

theorem near_next {M : Rat} (hM : 1 ≤ M) (hbig : 2 ^ 52 * M ^ 2 ≤ maxF) {n : Nat} (hn : 1 ≤ n) (hn' : n + 1 ≤ 2 ^ 48)
    {S Q m s : Rat} {d : Dist F64} (h : Near M n S Q d m s) {a : Sample F64} {v : Rat} (ha : IsVal a v) (hv : |v| ≤ M) :
    ∃ m' s', Near M (n + 1) (S + v) (Q + v ^ 2) (d.next a) m' s' := by
  have hM2b : M - -M ≤ maxF := by nlinarith
  obtain ⟨c, x, e, r, ec, st, hr⟩ := next_inv hM2b hn (by omega) h.inv ha (abs_le.mp hv).1 (abs_le.mp hv).2
  have hcn : c = (n : Rat) + 1 := by
    have := F64.rnd_int ((n : Int) + 1) (by omega)
    rw [ec] at this
    have := F64.fin.inj this
    rw [this]; push_cast; rfl
  have hn0 : (1 : Rat) ≤ n := by exact_mod_cast hn
  have hmM : |m| ≤ M := abs_le.mpr ⟨h.inv.lo, h.inv.hi⟩
  have hstep := step_err (μ := S / n) hmM hv (by rw [hcn]; linarith) st
  have hμ : S / n + (v - S / n) / c = (S + v) / ((n + 1 : Nat) : Rat) := by
    rw [hcn]; push_cast; field_simp; ring
  rw [hμ] at hstep
  have hreal : |(S + v) / ((n + 1 : Nat) : Rat)| ≤ M := by
    rw [← hμ, hcn]
    have e2 : S / n + (v - S / n) / ((n : Rat) + 1) = (n * (S / n) + v) / ((n : Rat) + 1) := by field_simp; ring
    rw [e2, abs_div, abs_of_pos (by linarith : (0 : Rat) < n + 1), div_le_iff₀ (by linarith)]
    have h1 := abs_add_le (n * (S / n)) v
    rw [abs_mul, abs_of_nonneg (by linarith : (0 : Rat) ≤ n)] at h1
    have := mul_le_mul_of_nonneg_left h.real (by linarith : (0 : Rat) ≤ n)
    linarith
  have hmean : |r - (S + v) / ((n + 1 : Nat) : Rat)| ≤ (((n + 1 : Nat) : Rat) - 1) * stepErr M := by
    have := h.mean
    push_cast at hstep ⊢
    linarith
  have hse := stepErr_le hM
  have em : |m - S / n| ≤ 5 * ((n : Rat) - 1) * u * M := by
    have := mul_le_mul_of_nonneg_left hse (by linarith : (0 : Rat) ≤ n - 1)
    linarith [h.mean]
  have er : |r - (S + v) / ((n + 1 : Nat) : Rat)| ≤ 5 * (n : Rat) * u * M := by
    have := mul_le_mul_of_nonneg_left hse (by linarith : (0 : Rat) ≤ n)
    push_cast at hmean
    push_cast
    linarith
  have hrM : |r| ≤ M := abs_le.mpr ⟨hr.lo, hr.hi⟩
  obtain ⟨s', es', ds'⟩ := ssd_step (n := (n : Rat)) hM hn0 (by exact_mod_cast (by omega : n ≤ 2 ^ 48)) hmM hv hrM h.real hreal em er
    h.size h.dev hbig
  have hup := update S Q v hn0
  have hup' : Q + v ^ 2 - (S + v) ^ 2 / ((n + 1 : Nat) : Rat) =
      (Q - S ^ 2 / n) + (v - S / n) * (v - (S + v) / ((n + 1 : Nat) : Rat)) := by
    push_cast; exact hup
  refine ⟨r, s', hr, hmean, hreal, ?_, ?_, ?_⟩
  · rw [next_ssd hn (by omega) h.inv.count h.inv.mean ha.1 hr.mean, h.ssd]; exact es'
  · rw [hup']; push_cast at ds' ⊢; exact ds'
  · rw [hup']
    have h1 := abs_add_le (Q - S ^ 2 / n) ((v - S / n) * (v - (S + v) / ((n + 1 : Nat) : Rat)))
    have h2 : |(v - S / n) * (v - (S + v) / ((n + 1 : Nat) : Rat))| ≤ (2 * M) * (2 * M) := by
      rw [abs_mul]
      obtain ⟨v1, v2⟩ := abs_le.mp hv
      obtain ⟨a1, a2⟩ := abs_le.mp h.real
      obtain ⟨b1, b2⟩ := abs_le.mp hreal
      refine mul_le_mul ?_ ?_ (abs_nonneg _) (by linarith)
      · rw [abs_le]; constructor <;> linarith
      · rw [abs_le]; constructor <;> linarith
    have := h.size
    push_cast at h1 h2 ⊢
    nlinarith

theorem near_fold {M : Rat} (hM : 1 ≤ M) (hbig : 2 ^ 52 * M ^ 2 ≤ maxF) : ∀ {ss : List (Sample F64)} {qs : List Rat}, Values ss qs →
    (∀ q ∈ qs, |q| ≤ M) → ∀ {n : Nat}, 1 ≤ n → n + ss.length ≤ 2 ^ 48 → ∀ {d : Dist F64} {S Q m s : Rat}, Near M n S Q d m s →
    ∃ m' s', Near M (n + ss.length) (S + qs.sum) (Q + (qs.map fun q => q ^ 2).sum) (ss.foldl Dist.next d) m' s' := by
  intro ss qs hv
  induction hv with
  | nil => intro _ n _ _ d S Q m s h; exact ⟨m, s, by simpa using h⟩
  | @cons a q ss qs ha _ ih =>
    intro hb n hn hlen d S Q m s h
    simp only [List.length_cons] at hlen
    obtain ⟨m', s', h'⟩ := near_next hM hbig hn (by omega) h ha (hb q (by simp))
    obtain ⟨m2, s2, h2⟩ := ih (fun q hq => hb q (by simp [hq])) (n := n + 1) (by omega) (by omega) h'
    refine ⟨m2, s2, ?_⟩
    rw [List.length_cons, show n + (ss.length + 1) = n + 1 + ss.length by omega, List.sum_cons, List.map_cons, List.sum_cons,
      ← add_assoc, ← add_assoc]
    exact h2

theorem near_all (bs : List F64) (t : Int) {ss : List (Sample F64)} {qs : List Rat} (hv : Values ss qs) (hne : ss ≠ [])
    (hlen : ss.length ≤ 2 ^ 48) {M : Rat} (hM : 1 ≤ M) (hb : ∀ q ∈ qs, |q| ≤ M) (hbig : 2 ^ 52 * M ^ 2 ≤ maxF) :
    ∃ d m s, (newDistributionData bs t).addAll ss = .ok d ∧ Near M qs.length qs.sum (qs.map fun q => q ^ 2).sum d m s := by
  have hl : ss.length = qs.length := hv.length_eq
  cases hv with
  | nil => exact absurd rfl hne
  | @cons a q ss qs ha hv =>
    have hq := hb q (by simp)
    have h1 : Near M 1 q (q ^ 2) ((newDistributionData bs t).next a) q 0 := by
      refine ⟨first_inv bs t ha (abs_le.mp hq).1 (abs_le.mp hq).2, by simp, by simpa using hq, ?_, ?_, ?_⟩
      · simp [Dist.next, newDistributionData, wrap64, Arith.ofInt, F64.rnd]
      · have := u_pos
        simp; positivity
      · simp; positivity
    simp only [List.length_cons] at hlen hl
    obtain ⟨m, s, h⟩ := near_fold hM hbig hv (fun q hq => hb q (by simp [hq])) (le_refl 1) (by omega) h1
    refine ⟨_, m, s, Dist.addAll_eq _ (newDistributionData_shape bs t) _, ?_⟩
    rw [List.sum_cons, List.map_cons, List.sum_cons, List.length_cons, ← hl, Nat.add_comm]
    exact h

/-- **C79.** The `float64` sum of squared deviations of at most 2^48 samples of absolute value at most `M`. -/
theorem ssd_error (bs : List F64) (t : Int) {ss : List (Sample F64)} {qs : List Rat} (hv : Values ss qs) (hne : ss ≠ [])
    (hlen : ss.length ≤ 2 ^ 48) {M : Rat} (hM : 1 ≤ M) (hb : ∀ q ∈ qs, |q| ≤ M) (hbig : 2 ^ 52 * M ^ 2 ≤ maxF) :
    ∃ d s, (newDistributionData bs t).addAll ss = .ok d ∧ d.ssd = .fin s ∧
      |s - sqDev qs| ≤ 31 * ss.length ^ 2 * u * M ^ 2 := by
  obtain ⟨d, m, s, hd, h⟩ := near_all bs t hv hne hlen hM hb hbig
  have hl : ss.length = qs.length := hv.length_eq
  have hq : qs ≠ [] := by rintro rfl; exact hne (List.length_eq_zero_iff.mp hl)
  exact ⟨d, s, hd, h.ssd, by rw [sqDev_eq hq, hl]; exact h.dev⟩

/-- **C79.** The `float64` variance of two samples or more. -/
theorem variance_error (bs : List F64) (t : Int) {ss : List (Sample F64)} {qs : List Rat} (hv : Values ss qs)
    (h2 : 2 ≤ ss.length) (hlen : ss.length ≤ 2 ^ 48) {M : Rat} (hM : 1 ≤ M) (hb : ∀ q ∈ qs, |q| ≤ M)
    (hbig : 2 ^ 52 * M ^ 2 ≤ maxF) :
    ∃ d x, (newDistributionData bs t).addAll ss = .ok d ∧ d.variance = .fin x ∧
      |x - sampleVariance qs| ≤ 68 * ss.length * u * M ^ 2 := by
  have hne : ss ≠ [] := by rintro rfl; simp at h2
  obtain ⟨d, m, s, hd, h⟩ := near_all bs t hv hne hlen hM hb hbig
  have hl : ss.length = qs.length := hv.length_eq
  have hq : qs ≠ [] := by rintro rfl; exact hne (List.length_eq_zero_iff.mp hl)
  have hdev := h.dev
  have hsize := h.size
  rw [← sqDev_eq hq] at hdev hsize
  rw [← hl] at hdev hsize
  generalize hN : ss.length = N at *
  have hN2 : (2 : Rat) ≤ N := by exact_mod_cast h2
  have hN3 : (N : Rat) ≤ 2 ^ 48 := by exact_mod_cast hlen
  have hu := u_pos
  have hus : u ≤ 1 / 2 ^ 53 := u_small
  have hM2 : 1 ≤ M ^ 2 := one_le_pow₀ hM
  obtain ⟨-, -, ha3⟩ := eta_le hM
  have hP : (0 : Rat) < N - 1 := by linarith
  have hnu : 31 * (N : Rat) * u ≤ 1 := by
    have := mul_le_mul hN3 hus hu.le (by norm_num : (0 : Rat) ≤ 2 ^ 48)
    norm_num at this ⊢
    nlinarith
  have huM : 0 < u * M ^ 2 := by positivity
  have bs' : |s| ≤ 5 * N * M ^ 2 := by
    have h1 := abs_le_add hdev hsize
    have h3 : 31 * (N : Rat) ^ 2 * u * M ^ 2 ≤ N * M ^ 2 := by
      have : 31 * (N : Rat) ^ 2 * u * M ^ 2 = (31 * N * u) * (N * M ^ 2) := by ring
      rw [this]
      exact mul_le_of_le_one_left (by positivity) hnu
    linarith
  have bq : |s / ((N : Rat) - 1)| ≤ 10 * M ^ 2 := by
    rw [abs_div, abs_of_pos hP, div_le_iff₀ hP]
    nlinarith
  obtain ⟨x, ex⟩ := rnd_fin (q := s / ((N : Rat) - 1)) (bq.trans (by nlinarith))
  have kx := rnd_near ex bq
  refine ⟨d, x, hd, ?_, ?_⟩
  · have hc := h.inv.count
    rw [← hl] at hc
    unfold Dist.variance
    rw [hc, if_neg (by omega), wrap64_id (by omega) (by omega), h.ssd]
    simp only [Arith.div, Arith.ofInt]
    rw [F64.rnd_int _ (by omega)]
    simp only [F64.div]
    push_cast
    rw [if_neg (by linarith)]
    exact ex
  · have hv' : sampleVariance qs = sqDev qs / ((N : Rat) - 1) := by unfold sampleVariance; rw [← hl]
    have e1 : |s / ((N : Rat) - 1) - sqDev qs / ((N : Rat) - 1)| ≤ 62 * N * u * M ^ 2 := by
      rw [← sub_div, abs_div, abs_of_pos hP, div_le_iff₀ hP]
      have : 31 * (N : Rat) ^ 2 ≤ 62 * N * (N - 1) := by nlinarith
      have := mul_le_mul_of_nonneg_right this huM.le
      nlinarith
    have h3 := abs_add_le (x - s / ((N : Rat) - 1)) (s / ((N : Rat) - 1) - sqDev qs / ((N : Rat) - 1))
    rw [sub_add_sub_cancel] at h3
    rw [hv']
    nlinarith

/-- **C79.** The `float64` sum, which is what is exported: the mean times the count. -/
theorem sum_error (bs : List F64) (t : Int) {ss : List (Sample F64)} {qs : List Rat} (hv : Values ss qs) (hne : ss ≠ [])
    (hlen : ss.length ≤ 2 ^ 48) {M : Rat} (hM : 1 ≤ M) (hb : ∀ q ∈ qs, |q| ≤ M) (hbig : 2 ^ 52 * M ^ 2 ≤ maxF) :
    ∃ d x, (newDistributionData bs t).addAll ss = .ok d ∧ d.sum = .fin x ∧
      |x - qs.sum| ≤ 5 * ss.length ^ 2 * u * M := by
  obtain ⟨d, m, s, hd, h⟩ := near_all bs t hv hne hlen hM hb hbig
  have hl : ss.length = qs.length := hv.length_eq
  have hq : qs ≠ [] := by rintro rfl; exact hne (List.length_eq_zero_iff.mp hl)
  have hpos : 1 ≤ qs.length := Nat.pos_of_ne_zero fun hc => hq (List.length_eq_zero_iff.mp hc)
  have hmean := h.mean
  have hc := h.inv.count
  have hlo := h.inv.lo
  have hhi := h.inv.hi
  rw [← hl] at hmean hc hpos
  generalize hN : ss.length = N at *
  have hN1 : (1 : Rat) ≤ N := by exact_mod_cast hpos
  have hN3 : (N : Rat) ≤ 2 ^ 48 := by exact_mod_cast hlen
  have hu := u_pos
  obtain ⟨-, ha2, -⟩ := eta_le hM
  have hmM : |m| ≤ M := abs_le.mpr ⟨hlo, hhi⟩
  have hM2 : M ≤ M ^ 2 := by nlinarith
  have bq : |m * (N : Rat)| ≤ N * M := by
    rw [abs_mul, abs_of_pos (by linarith : (0 : Rat) < N), mul_comm]
    exact mul_le_mul_of_nonneg_left hmM (by linarith)
  obtain ⟨x, ex⟩ := rnd_fin (q := m * (N : Rat)) (bq.trans (by
    have h1 : (N : Rat) * M ≤ 2 ^ 48 * M ^ 2 := mul_le_mul hN3 hM2 (by linarith) (by norm_num)
    nlinarith))
  have kx := rnd_near ex bq
  refine ⟨d, x, hd, ?_, ?_⟩
  · unfold Dist.sum
    rw [h.inv.mean, hc]
    simp only [Arith.mul, Arith.ofInt]
    rw [F64.rnd_int _ (by omega)]
    simp only [F64.mul]
    push_cast
    exact ex
  · have hse := mul_le_mul_of_nonneg_left (stepErr_le hM) (by linarith : (0 : Rat) ≤ N - 1)
    have e1 : |m * (N : Rat) - qs.sum| ≤ N * ((N - 1) * (5 * u * M)) := by
      have : m * (N : Rat) - qs.sum = N * (m - qs.sum / N) := by field_simp
      rw [this, abs_mul, abs_of_pos (by linarith : (0 : Rat) < N)]
      exact mul_le_mul_of_nonneg_left (hmean.trans hse) (by linarith)
    have h3 := abs_add_le (x - m * (N : Rat)) (m * (N : Rat) - qs.sum)
    rw [sub_add_sub_cancel] at h3
    have huM : 0 < u * M := by positivity
    nlinarith

/-- **C79.** Equal samples: the mean is exact and the deviation is zero, without any rounding. -/
theorem equal_samples (bs : List F64) (t : Int) {ss : List (Sample F64)} {q : Rat} (hq : F64.Valid q) (hne : ss ≠ [])
    (hall : ∀ s ∈ ss, s.v = .fin q) (hlen : ss.length < 2 ^ 63) :
    ∃ d, (newDistributionData bs t).addAll ss = .ok d ∧ d.mean = .fin q ∧ d.ssd = .fin 0 ∧ d.variance = .fin 0 := by
  have hz : F64.rnd 0 = .fin 0 := F64.valid_zero
  have main : ∀ (ss : List (Sample F64)) (n : Nat) (d : Dist F64), 1 ≤ n → n + ss.length < 2 ^ 63 → (∀ s ∈ ss, s.v = .fin q) →
      d.count = n → d.mean = .fin q → d.ssd = .fin 0 →
      (ss.foldl Dist.next d).count = (n + ss.length : Nat) ∧ (ss.foldl Dist.next d).mean = .fin q ∧
        (ss.foldl Dist.next d).ssd = .fin 0 := by
    intro ss
    induction ss with
    | nil => intro n d _ _ _ h1 h2 h3; exact ⟨by simpa using h1, h2, h3⟩
    | cons a ss ih =>
      intro n d hn hl ha h1 h2 h3
      simp only [List.length_cons] at hl
      have hav := ha a (by simp)
      have hcount : wrap64 (d.count + 1) = (n : Int) + 1 := by
        rw [h1]; exact wrap64_id (by omega) (by omega)
      have hne1 : ¬ (n : Int) + 1 = 1 := by omega
      obtain ⟨c, ec, hc⟩ := F64.ofInt_ge_two (n := n + 1) (by omega) (by omega)
      have hsub : F64.sub (.fin q) (.fin q) = .fin 0 := by
        simp only [F64.sub, F64.neg, F64.add]; rw [add_neg_cancel]; exact hz
      have hm : (d.next a).mean = .fin q := by
        simp only [Dist.next, hcount, if_neg hne1, h2, hav, Arith.add, Arith.div, Arith.sub, Arith.ofInt]
        rw [hsub, ec]
        simp only [F64.div]
        rw [if_neg (by linarith), zero_div, hz]
        simp only [F64.add]
        rw [add_zero]; exact hq
      have hs : (d.next a).ssd = .fin 0 := by
        rw [next_ssd hn (by omega) h1 h2 hav hm, hsub, h3]
        simp only [F64.mul]
        rw [mul_zero, hz]
        simp only [F64.add]
        rw [add_zero]; exact hz
      have hc' : (d.next a).count = ((n + 1 : Nat) : Int) := by
        simp only [Dist.next, hcount]; push_cast; rfl
      have := ih (n + 1) (d.next a) (by omega) (by omega) (fun s hs => ha s (by simp [hs])) hc' hm hs
      rw [List.length_cons, show n + (ss.length + 1) = n + 1 + ss.length by omega]
      exact this
  cases ss with
  | nil => exact absurd rfl hne
  | cons a ss =>
    simp only [List.length_cons] at hlen
    have hav := hall a (by simp)
    obtain ⟨h1, h2, h3⟩ := main ss 1 ((newDistributionData bs t).next a) (le_refl 1) (by omega)
      (fun s hs => hall s (by simp [hs])) rfl hav
      (by simp [Dist.next, newDistributionData, wrap64, Arith.ofInt, F64.rnd])
    refine ⟨_, Dist.addAll_eq _ (newDistributionData_shape bs t) _, h2, h3, ?_⟩
    rw [List.foldl_cons]
    unfold Dist.variance
    split
    · exact hz
    · next hc =>
      rw [h1] at hc ⊢
      rw [h3, wrap64_id (by omega) (by omega)]
      have h63 : F64.Valid (1 * 2 ^ 63) := F64.valid_one.scale (by norm_num) 63
        (by rw [one_mul]; exact pow_lt_pow_right₀ (by norm_num) (by norm_num))
      rw [one_mul] at h63
      have hge : 1 ≤ ss.length := by omega
      have e : (((1 + ss.length : Nat) : Int) - 1) = (ss.length : Int) := by omega
      rw [e]
      obtain ⟨c, ec, hc1, _⟩ := F64.rnd_between F64.valid_one h63 (b := ((ss.length : Int) : Rat))
        (by exact_mod_cast hge) (by exact_mod_cast (by omega : ss.length ≤ 2 ^ 63))
      simp only [Arith.div, Arith.ofInt]
      rw [ec]
      simp only [F64.div]
      rw [if_neg (by linarith), zero_div]; exact hz

/-! ## The hypotheses can be met -/

theorem big : (2 : Rat) ^ 52 * 5 ^ 2 ≤ maxF := by
  unfold maxF
  have h1 : (2 : Rat) ^ 5 ≤ 2 ^ 971 := pow_le_pow_right₀ (by norm_num) (by norm_num)
  have h2 := mul_le_mul_of_nonneg_left h1 (by norm_num : (0 : Rat) ≤ 2 ^ 53 - 1)
  refine le_trans ?_ h2
  norm_num

theorem demo_le : ∀ q ∈ ([1, 2, -5] : List Rat), |q| ≤ 5 := by
  intro q hq
  simp only [List.mem_cons, List.not_mem_nil, or_false] at hq
  rcases hq with rfl | rfl | rfl <;> norm_num [abs_le]

example : ∃ d s, (newDistributionData [] 0).addAll demo = .ok d ∧ d.ssd = .fin s ∧
    |s - sqDev [1, 2, -5]| ≤ 31 * 3 ^ 2 * u * 5 ^ 2 := by
  have := ssd_error [] 0 demo_values (by simp [demo]) (by simp [demo]) (by norm_num) demo_le big
  simpa [demo] using this

example : sqDev [1, 2, -5] = 86 / 3 ∧ sampleVariance [1, 2, -5] = 43 / 3 := by
  constructor <;> (simp [sampleVariance, sqDev, mean]; norm_num)

example : ∃ d x, (newDistributionData [] 0).addAll demo = .ok d ∧ d.variance = .fin x ∧
    |x - sampleVariance [1, 2, -5]| ≤ 68 * 3 * u * 5 ^ 2 := by
  have := variance_error [] 0 demo_values (by simp [demo]) (by simp [demo]) (by norm_num) demo_le big
  simpa [demo] using this

example : ∃ d : Dist F64, (newDistributionData [] 0).addAll [⟨.fin 1, [], 0⟩, ⟨.fin 1, [], 0⟩, ⟨.fin 1, [], 0⟩] = .ok d ∧
    d.mean = .fin 1 ∧ d.ssd = .fin 0 ∧ d.variance = .fin 0 :=
  equal_samples [] 0 F64.valid_one (by simp) (by simp) (by simp)

end Verif.Props.SsdFloat
