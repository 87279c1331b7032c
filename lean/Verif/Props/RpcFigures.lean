import Verif.Zpages.RpcPage
import Verif.Props.TraceRows
import Verif.RoundErr
import Mathlib.Tactic.Linarith
import Mathlib.Tactic.Ring
import Mathlib.Tactic.FieldSimp
import Mathlib.Tactic.IntervalCases

/-!
# C92, figures: what is printed on the RPC page reads as the figure, to the precision shown
-/

namespace Verif.Props.RpcFigures
open Verif Verif.Zpages Verif.Zpages.Rpcz
open Verif.F64 (rnd Valid roundHalfEven eps eta rnd_err rnd_between rnd_mono rnd_le le_rnd roundHalfEven_err roundHalfEven_mono)
open Verif.Props.Grpc (numeral numeral_digits isDigit digits_digits)
open Verif.Props.TraceRows (takeDigits numeral_zeros digits_len digits_head notSpace)

/-! ## Specification: reading figures -/

/-- The unit after a figure. -/
def unitOf (b : Bytes) : Option Rat :=
  if b = [] then some 1 else if b = str " M " then some (10 ^ 6) else if b = str " G " then some (10 ^ 9)
  else if b = str " T " then some (10 ^ 12) else if b = str " P " then some (10 ^ 15) else if b = str " E " then some (10 ^ 18)
  else none

/-- Digits, perhaps a point and digits, perhaps a unit. -/
def unsigned (t : Bytes) : Option Rat :=
  let a := t.takeWhile isDigit
  let r := t.dropWhile isDigit
  if a = [] then none
  else if r.head? = some 46 then
    (unitOf (r.tail.dropWhile isDigit)).map fun u => (numeral a + numeral (r.tail.takeWhile isDigit) / 10 ^ (r.tail.takeWhile isDigit).length) * u
  else (unitOf r).map fun u => numeral a * u

/-- The number that a figure of the page stands for: nothing but a blank is zero. -/
def figure (t : Bytes) : Option Rat :=
  if t = [32] then some 0
  else if t.head? = some 45 then (unsigned t.tail).map fun v => -v
  else unsigned t

example : figure (str "1234") = some 1234 ∧ figure (str "1.250 M ") = some 1250000 ∧ figure (str "-0.005") = some (-(5 / 1000)) ∧
    figure (str " ") = some 0 ∧ figure (str "NaN") = none ∧ figure (str "1.5 X ") = none := by decide +kernel

/-! ## Decimals -/

theorem pad3 {n : Nat} (h : n < 1000) :
    (pad 3 48 (Http.digits 19 n)).length = 3 ∧ (∀ c ∈ pad 3 48 (Http.digits 19 n), isDigit c = true) ∧
      numeral (pad 3 48 (Http.digits 19 n)) = n := by
  have hl := digits_len 19 n 2 (by omega)
  refine ⟨by simp only [pad, List.length_append, List.length_replicate]; omega, ?_, ?_⟩
  · intro c hc
    simp only [pad, List.mem_append] at hc
    rcases hc with hc | hc
    · rw [List.eq_of_mem_replicate hc]; decide
    · exact digits_digits _ _ c hc
  · rw [pad, numeral_zeros, numeral_digits _ _ (by omega)]

theorem take_all {d : Bytes} (hd : ∀ x ∈ d, isDigit x = true) (r : Bytes) (hr : ∀ c, r.head? = some c → isDigit c = false) :
    (d ++ r).takeWhile isDigit = d ∧ (d ++ r).dropWhile isDigit = r := by
  induction d with
  | nil =>
    cases r with
    | nil => simp
    | cons c r => simp [hr c rfl]
  | cons x d ih =>
    have := ih (fun y hy => hd y (by simp [hy]))
    simp [hd x (by simp), this]

theorem unit_head {b : Bytes} {u : Rat} (h : unitOf b = some u) : ∀ c, b.head? = some c → isDigit c = false := by
  intro c hc
  unfold unitOf at h
  split at h
  · simp_all
  · repeat' split at h
    all_goals first
      | (subst_vars; simp [str] at hc; subst hc; decide)
      | cases h

theorem lt_ten_pow (n : Nat) : n < 10 ^ (n + 1) := by
  have : n < 2 ^ n := Nat.lt_two_pow_self
  have h2 : 2 ^ n ≤ 10 ^ n := Nat.pow_le_pow_left (by omega) n
  have h3 : 10 ^ n ≤ 10 ^ (n + 1) := Nat.pow_le_pow_right (by omega) (by omega)
  omega

theorem unsigned_point (n : Nat) {b : Bytes} {u : Rat} (hb : unitOf b = some u) :
    unsigned (Http.digits (n / 1000) (n / 1000) ++ 46 :: pad 3 48 (Http.digits 19 (n % 1000)) ++ b) = some ((n : Rat) / 1000 * u) := by
  have hp := pad3 (n := n % 1000) (by omega)
  have h1 := takeDigits (Http.digits (n / 1000) (n / 1000)) 46 (pad 3 48 (Http.digits 19 (n % 1000)) ++ b) (digits_digits _ _) (by decide)
  have h2 := take_all hp.2.1 b (unit_head hb)
  obtain ⟨c, r, hc, -⟩ := digits_head (n / 1000) (n / 1000)
  unfold unsigned
  rw [List.append_assoc, List.cons_append, h1.1, h1.2]
  simp only [List.head?_cons, List.tail_cons, h2.1, h2.2, hb, if_true, Option.map_some]
  rw [if_neg (by rw [hc]; simp), numeral_digits _ _ (lt_ten_pow _), hp.2.2, hp.1]
  congr 2
  have : (n : Rat) = ((1000 * (n / 1000) + n % 1000 : Nat) : Rat) := by rw [Nat.div_add_mod]
  rw [this]
  push_cast
  ring

theorem unsigned_digits (f n : Nat) (h : n < 10 ^ (f + 1)) : unsigned (Http.digits f n) = some (n : Rat) := by
  have h1 := take_all (digits_digits f n) [] (by simp)
  rw [List.append_nil] at h1
  obtain ⟨c, r, hc, -⟩ := digits_head f n
  unfold unsigned
  rw [h1.1, h1.2]
  simp only [List.head?_nil]
  rw [if_neg (by rw [hc]; simp), numeral_digits _ _ h]
  simp [unitOf]

theorem digits_first (f n : Nat) (b : Bytes) : Http.digits f n ++ b ≠ [32] ∧ (Http.digits f n ++ b).head? ≠ some 45 := by
  obtain ⟨c, r, hc, hd⟩ := digits_head f n
  have := notSpace hd
  rw [hc]
  simp [this.1, this.2.1]

/-- The decimal that is nearest, with three digits after the point. -/
def thousandths (q : Rat) : Rat := (if q < 0 then -1 else 1) * ((roundHalfEven (|q| * 1000)).toNat : Rat) / 1000

theorem figure_fixed3 (q : Rat) {b : Bytes} {u : Rat} (hb : unitOf b = some u) : figure (fixed3 q ++ b) = some (thousandths q * u) := by
  unfold fixed3 thousandths figure
  simp only
  split
  · rw [if_neg (by simp), if_pos (by simp)]
    simp only [List.cons_append, List.nil_append, List.tail_cons]
    rw [show Http.digits ((roundHalfEven (|q| * 1000)).toNat / 1000) ((roundHalfEven (|q| * 1000)).toNat / 1000) ++
      46 :: pad 3 48 (Http.digits 19 ((roundHalfEven (|q| * 1000)).toNat % 1000)) ++ b = _ from rfl, unsigned_point _ hb]
    simp only [Option.map_some, Option.some.injEq]
    ring
  · have h := digits_first ((roundHalfEven (|q| * 1000)).toNat / 1000) ((roundHalfEven (|q| * 1000)).toNat / 1000)
      (46 :: pad 3 48 (Http.digits 19 ((roundHalfEven (|q| * 1000)).toNat % 1000)) ++ b)
    rw [List.nil_append, if_neg (by simpa using h.1), if_neg (by simpa using h.2), unsigned_point _ hb]
    simp only [one_mul]

theorem round_nonneg {a : Rat} (h : 0 ≤ a) : 0 ≤ roundHalfEven a := by
  have := roundHalfEven_mono h
  rwa [show roundHalfEven (0 : Rat) = 0 from by simpa using F64.roundHalfEven_int 0] at this

theorem thousandths_err (q : Rat) : |thousandths q - q| ≤ 1 / 2000 := by
  have h := roundHalfEven_err (|q| * 1000)
  have h0 : 0 ≤ roundHalfEven (|q| * 1000) := round_nonneg (by positivity)
  have e : ((roundHalfEven (|q| * 1000)).toNat : Rat) = (roundHalfEven (|q| * 1000) : Rat) := by
    have : (((roundHalfEven (|q| * 1000)).toNat : Int) : Rat) = (roundHalfEven (|q| * 1000) : Rat) := by rw [Int.toNat_of_nonneg h0]
    exact_mod_cast this
  unfold thousandths
  rw [e]
  rw [abs_le] at h ⊢
  split
  · next hq =>
    rw [abs_of_neg hq] at *
    constructor <;> linarith [h.1, h.2]
  · next hq =>
    rw [abs_of_nonneg (not_lt.1 hq)] at *
    constructor <;> linarith [h.1, h.2]

theorem thousandths_mono {p q : Rat} (hp : 0 ≤ p) (h : p ≤ q) : thousandths p ≤ thousandths q := by
  have hq : 0 ≤ q := le_trans hp h
  unfold thousandths
  rw [if_neg (not_lt.2 hp), if_neg (not_lt.2 hq), abs_of_nonneg hp, abs_of_nonneg hq]
  have := roundHalfEven_mono (a := p * 1000) (b := q * 1000) (by linarith)
  have h2 : ((roundHalfEven (p * 1000)).toNat : Rat) ≤ ((roundHalfEven (q * 1000)).toNat : Rat) := by
    exact_mod_cast Int.toNat_le_toNat this
  linarith

theorem thousandths_int (n : Nat) : thousandths n = n := by
  unfold thousandths
  rw [if_neg (by simp), abs_of_nonneg (by simp)]
  have : (n : Rat) * 1000 = ((n * 1000 : Int) : Rat) := by push_cast; ring
  rw [this, F64.roundHalfEven_int]
  have : ((n : Int) * 1000).toNat = n * 1000 := by omega
  rw [this]
  push_cast
  ring

/-! ## Counts -/

theorem valid_unit {k : Nat} (hk : k ≤ 6) : Valid (10 ^ (3 * k)) := by
  rcases Nat.lt_or_ge k 6 with h | h
  · have := F64.rnd_int (10 ^ (3 * k)) (by interval_cases k <;> norm_num)
    unfold Valid
    exact_mod_cast this
  · have hk6 : k = 6 := by omega
    subst hk6
    have h5 : Valid ((5 : Rat) ^ 18) := by
      have := F64.rnd_int (5 ^ 18) (by norm_num)
      unfold Valid
      exact_mod_cast this
    have := h5.scale (by positivity) 18 (by
      have : (5 : Rat) ^ 18 * 2 ^ 18 < 2 ^ 64 := by norm_num
      exact lt_trans this (pow_lt_pow_right₀ (by norm_num) (by norm_num)))
    rw [show (10 : Rat) ^ (3 * 6) = 5 ^ 18 * 2 ^ 18 by norm_num]
    exact this

theorem valid_64 : Valid (2 ^ 64) := by
  have := F64.valid_one.scale (by norm_num) 64 (by rw [one_mul]; exact pow_lt_pow_right₀ (by norm_num) (by norm_num))
  rwa [one_mul] at this

theorem eps_pos : 0 < eps := by unfold eps; positivity

theorem eta_le : eta ≤ eps := by
  unfold eta eps
  exact one_div_le_one_div_of_le (by positivity) (pow_le_pow_right₀ (by norm_num) (by norm_num))

theorem eta_nonneg : 0 ≤ eta := by unfold eta; positivity

/-- A rounding of a number that is at least one. -/
theorem err_one {q r : Rat} (h : rnd q = .fin r) (hq : 1 ≤ q) : |r - q| ≤ 2 * eps * q := by
  have := rnd_err h
  rw [abs_of_nonneg (by linarith : (0 : Rat) ≤ q)] at this
  have h2 : eps * 1 ≤ eps * q := mul_le_mul_of_nonneg_left hq eps_pos.le
  linarith [eta_le]

/-- `float64(n) / u`. -/
theorem scaled {n : Nat} {u : Rat} (hu : Valid u) (h1 : 1 ≤ u) (hn : u ≤ n) (h64 : (n : Rat) ≤ 2 ^ 64) :
    ∃ r1 r, rnd n = .fin r1 ∧ rnd (r1 / u) = .fin r ∧ F64.div (rnd n) (.fin u) = .fin r ∧ 1 ≤ r ∧ |r - n / u| ≤ 5 * eps * (n / u) := by
  have hu0 : 0 < u := by linarith
  obtain ⟨r1, e1, l1, g1⟩ := rnd_between hu valid_64 hn h64
  have hq1 : 1 ≤ r1 / u := by rw [le_div_iff₀ hu0]; linarith
  have hq2 : r1 / u ≤ 2 ^ 64 := by
    rw [div_le_iff₀ hu0]
    have : (2 : Rat) ^ 64 * 1 ≤ 2 ^ 64 * u := mul_le_mul_of_nonneg_left h1 (by positivity)
    linarith
  obtain ⟨r, e2, l2, _⟩ := rnd_between F64.valid_one valid_64 hq1 hq2
  refine ⟨r1, r, e1, e2, by rw [e1]; simp only [F64.div, if_neg hu0.ne', e2], l2, ?_⟩
  have d1 := err_one e1 (le_trans h1 hn)
  have d2 := err_one e2 hq1
  have e3 : r1 / u - n / u = (r1 - n) / u := by ring
  have d3 : |r1 / u - n / u| ≤ 2 * eps * (n / u) := by
    rw [e3, abs_div, abs_of_pos hu0, div_le_iff₀ hu0]
    calc |r1 - n| ≤ 2 * eps * n := d1
      _ = 2 * eps * (n / u) * u := by field_simp
  have hnu : (1 : Rat) ≤ n / u := by rw [le_div_iff₀ hu0]; linarith
  have heps : eps ≤ 1 / 8 := by unfold eps; norm_num
  have d4 : r1 / u ≤ n / u + 2 * eps * (n / u) := by linarith [(abs_le.1 d3).2]
  have d5 : 2 * eps * (r1 / u) ≤ 2 * eps * (n / u + 2 * eps * (n / u)) := mul_le_mul_of_nonneg_left d4 (by linarith [eps_pos])
  have d6 : 2 * eps * (2 * eps * (n / u)) ≤ 1 / 4 * (2 * eps * (n / u)) :=
    mul_le_mul_of_nonneg_right (by linarith) (by have := eps_pos; positivity)
  have d7 : 0 < eps * (n / u) := by have := eps_pos; positivity
  have e4 : r - n / u = (r - r1 / u) + (r1 / u - n / u) := by ring
  rw [e4]
  refine le_trans (abs_add_le _ _) ?_
  nlinarith

theorem rnd_le_rnd {a b x y : Rat} (h : a ≤ b) (hx : rnd a = .fin x) (hy : rnd b = .fin y) : x ≤ y := by
  have := rnd_mono h
  rw [hx, hy] at this
  simpa [F64.lt] using this

/-- The suffixes. -/
def suffix (k : Nat) : Bytes := match k with
  | 2 => str " M "
  | 3 => str " G "
  | 4 => str " T "
  | 5 => str " P "
  | _ => str " E "

theorem unit_suffix {k : Nat} (h2 : 2 ≤ k) (h6 : k ≤ 6) : unitOf (suffix k) = some (10 ^ (3 * k)) := by
  interval_cases k <;> decide +kernel

theorem one_le_unit (k : Nat) : (1 : Rat) ≤ 10 ^ (3 * k) := one_le_pow₀ (by norm_num)

/-- A count of a million or more has a unit. -/
theorem count_unit (w : BitVec 64) (h : 10 ^ 6 ≤ w.toNat) : ∃ k r1 r, 2 ≤ k ∧ k ≤ 6 ∧ 10 ^ (3 * k) ≤ w.toNat ∧
    (k < 6 → w.toNat < 10 ^ (3 * (k + 1))) ∧ rnd w.toNat = .fin r1 ∧ rnd (r1 / 10 ^ (3 * k)) = .fin r ∧ 1 ≤ r ∧
    |r - w.toNat / 10 ^ (3 * k)| ≤ 5 * eps * (w.toNat / 10 ^ (3 * k)) ∧
    figure (countFormatter w) = some (thousandths r * 10 ^ (3 * k)) := by
  have h64 : (w.toNat : Rat) ≤ 2 ^ 64 := by exact_mod_cast w.isLt.le
  have key : ∀ k, 2 ≤ k → k ≤ 6 → 10 ^ (3 * k) ≤ w.toNat → (k < 6 → w.toNat < 10 ^ (3 * (k + 1))) →
      countFormatter w = (if F64.div (rnd w.toNat) (.fin (10 ^ (3 * k))) ≠ .fin 0 then
        sprintf3 (F64.div (rnd w.toNat) (.fin (10 ^ (3 * k)))) ++ suffix k else Http.digits 19 w.toNat) →
      ∃ k r1 r, 2 ≤ k ∧ k ≤ 6 ∧ 10 ^ (3 * k) ≤ w.toNat ∧
        (k < 6 → w.toNat < 10 ^ (3 * (k + 1))) ∧ rnd w.toNat = .fin r1 ∧ rnd (r1 / 10 ^ (3 * k)) = .fin r ∧ 1 ≤ r ∧
        |r - w.toNat / 10 ^ (3 * k)| ≤ 5 * eps * (w.toNat / 10 ^ (3 * k)) ∧
        figure (countFormatter w) = some (thousandths r * 10 ^ (3 * k)) := by
    intro k h2 h6 hl hu hc
    obtain ⟨r1, r, e1, e2, e3, e4, e5⟩ := scaled (valid_unit h6) (one_le_unit k) (by exact_mod_cast hl) h64
    refine ⟨k, r1, r, h2, h6, hl, hu, e1, e2, e4, e5, ?_⟩
    rw [hc, e3, if_pos (by simp; intro h0; linarith)]
    exact figure_fixed3 r (unit_suffix h2 h6)
  have hpos : ¬ w.toNat ≤ 0 := by omega
  by_cases h18 : 10 ^ 18 ≤ w.toNat
  · exact key 6 (by omega) (by omega) h18 (by omega) (by simp only [countFormatter, if_neg hpos, if_pos h18, suffix])
  by_cases h15 : 10 ^ 15 ≤ w.toNat
  · exact key 5 (by omega) (by omega) h15 (fun _ => not_le.1 h18) (by simp only [countFormatter, if_neg hpos, if_neg h18, if_pos h15, suffix])
  by_cases h12 : 10 ^ 12 ≤ w.toNat
  · exact key 4 (by omega) (by omega) h12 (fun _ => not_le.1 h15) (by
      simp only [countFormatter, if_neg hpos, if_neg h18, if_neg h15, if_pos h12, suffix])
  by_cases h9 : 10 ^ 9 ≤ w.toNat
  · exact key 3 (by omega) (by omega) h9 (fun _ => not_le.1 h12) (by
      simp only [countFormatter, if_neg hpos, if_neg h18, if_neg h15, if_neg h12, if_pos h9, suffix])
  · exact key 2 (by omega) (by omega) h (fun _ => not_le.1 h9) (by
      simp only [countFormatter, if_neg hpos, if_neg h18, if_neg h15, if_neg h12, if_neg h9, if_pos h, suffix])

/-- Counts below a million are shown as they are; zero is shown as a blank. -/
theorem count_exact (w : BitVec 64) (h : w.toNat < 10 ^ 6) : figure (countFormatter w) = some (w.toNat : Rat) := by
  unfold countFormatter
  by_cases h0 : w.toNat ≤ 0
  · rw [if_pos h0]
    have : w.toNat = 0 := by omega
    rw [this]
    decide +kernel
  · rw [if_neg h0]
    simp only [if_neg (show ¬ 10 ^ 18 ≤ w.toNat by omega), if_neg (show ¬ 10 ^ 15 ≤ w.toNat by omega),
      if_neg (show ¬ 10 ^ 12 ≤ w.toNat by omega), if_neg (show ¬ 10 ^ 9 ≤ w.toNat by omega),
      if_neg (show ¬ 10 ^ 6 ≤ w.toNat by omega), ne_eq, not_true_eq_false, if_false]
    have hd := digits_first 19 w.toNat []
    rw [List.append_nil] at hd
    unfold figure
    rw [if_neg hd.1, if_neg hd.2]
    exact unsigned_digits _ _ (by omega)

/-- All counts are shown to a twentieth of a percent. -/
theorem count_close (w : BitVec 64) : ∃ v, figure (countFormatter w) = some v ∧ |v - w.toNat| ≤ 501 / 10 ^ 6 * w.toNat := by
  by_cases h : w.toNat < 10 ^ 6
  · refine ⟨_, count_exact w h, ?_⟩
    rw [sub_self, abs_zero]
    positivity
  · obtain ⟨k, r1, r, h2, h6, hl, hu, e1, e2, e3, e4, e5⟩ := count_unit w (not_lt.1 h)
    refine ⟨_, e5, ?_⟩
    have ht := thousandths_err r
    have hu0 : (0 : Rat) < 10 ^ (3 * k) := by positivity
    have hl' : (10 : Rat) ^ (3 * k) ≤ w.toNat := by exact_mod_cast hl
    have e : thousandths r * 10 ^ (3 * k) - (w.toNat : Rat) =
        ((thousandths r - r) + (r - w.toNat / 10 ^ (3 * k))) * 10 ^ (3 * k) := by field_simp; ring
    rw [e, abs_mul, abs_of_pos hu0]
    have h3 := le_trans (abs_add_le (thousandths r - r) (r - w.toNat / 10 ^ (3 * k))) (add_le_add ht e4)
    have h4 := mul_le_mul_of_nonneg_right h3 hu0.le
    refine le_trans h4 ?_
    have e6 : (1 / 2000 + 5 * eps * ((w.toNat : Rat) / 10 ^ (3 * k))) * 10 ^ (3 * k) = 10 ^ (3 * k) / 2000 + 5 * eps * w.toNat := by
      field_simp
    rw [e6]
    have heps : 5 * eps ≤ 1 / 10 ^ 6 := by unfold eps; norm_num
    have h7 : 5 * eps * (w.toNat : Rat) ≤ 1 / 10 ^ 6 * w.toNat := mul_le_mul_of_nonneg_right heps (by positivity)
    linarith

/-- Counts that grow are never shown as falling. -/
theorem count_mono (w w' : BitVec 64) (h : w.toNat ≤ w'.toNat) : ∃ v v', figure (countFormatter w) = some v ∧
    figure (countFormatter w') = some v' ∧ v ≤ v' := by
  have hcast : (w.toNat : Rat) ≤ w'.toNat := by exact_mod_cast h
  by_cases h1 : w'.toNat < 10 ^ 6
  · exact ⟨_, _, count_exact w (by omega), count_exact w' h1, hcast⟩
  · obtain ⟨k', r1', r', a2, a6, al, au, b1, b2, b3, b4, b5⟩ := count_unit w' (not_lt.1 h1)
    have hone : (10 : Rat) ^ (3 * k') ≤ thousandths r' * 10 ^ (3 * k') := by
      have := thousandths_mono (by norm_num) b3
      have e := thousandths_int 1
      rw [Nat.cast_one] at e
      rw [e] at this
      have hp : (0 : Rat) < 10 ^ (3 * k') := by positivity
      have := mul_le_mul_of_nonneg_right this hp.le
      linarith
    by_cases h0 : w.toNat < 10 ^ 6
    · refine ⟨_, _, count_exact w h0, b5, le_trans ?_ hone⟩
      have g1 : (w.toNat : Rat) ≤ 10 ^ (3 * 2) := by exact_mod_cast h0.le
      exact le_trans g1 (pow_le_pow_right₀ (by norm_num) (by omega))
    · obtain ⟨k, r1, r, c2, c6, cl, cu, d1, d2, d3, d4, d5⟩ := count_unit w (not_lt.1 h0)
      refine ⟨_, _, d5, b5, ?_⟩
      have hr1 : r1 ≤ r1' := rnd_le_rnd hcast d1 b1
      rcases Nat.lt_trichotomy k k' with hk | hk | hk
      · have hvk : (w.toNat : Rat) ≤ 10 ^ (3 * (k + 1)) := by exact_mod_cast (cu (by omega)).le
        have g1 : r1 ≤ 10 ^ (3 * (k + 1)) := rnd_le (valid_unit (by omega)) hvk d1
        have g2 : r1 / 10 ^ (3 * k) ≤ 1000 := by
          rw [div_le_iff₀ (by positivity)]
          refine le_trans g1 (le_of_eq ?_)
          rw [show 3 * (k + 1) = 3 * k + 3 by ring, pow_add]; ring
        have v1000 : Valid 1000 := by
          have := F64.rnd_int 1000 (by norm_num)
          unfold Valid
          exact_mod_cast this
        have g3 : r ≤ 1000 := rnd_le v1000 g2 d2
        have g4 := thousandths_mono (by linarith) g3
        have e := thousandths_int 1000
        rw [Nat.cast_ofNat] at e
        rw [e] at g4
        refine le_trans ?_ hone
        refine le_trans (mul_le_mul_of_nonneg_right g4 (by positivity)) ?_
        refine le_trans (le_of_eq ?_) (pow_le_pow_right₀ (by norm_num) (by omega : 3 * (k + 1) ≤ 3 * k'))
        rw [show 3 * (k + 1) = 3 * k + 3 by ring, pow_add]; ring
      · subst hk
        have : r ≤ r' := rnd_le_rnd (div_le_div_of_nonneg_right hr1 (by positivity)) d2 b2
        exact mul_le_mul_of_nonneg_right (thousandths_mono (by linarith) this) (by positivity)
      · exfalso
        have g1 := au (by omega)
        have g2 : 10 ^ (3 * (k' + 1)) ≤ 10 ^ (3 * k) := Nat.pow_le_pow_right (by omega) (by omega)
        omega

/-! ## Latencies and rates -/

theorem figure_sprintf3 (q : Rat) : figure (sprintf3 (.fin q)) = some (thousandths q) := by
  have := figure_fixed3 q (b := []) (u := 1) (by simp [unitOf])
  simpa [sprintf3] using this

/-- Rates are shown to three decimals. -/
theorem rate_close (q : Rat) : ∃ v, figure (rateFormatter (.fin q)) = some v ∧ |v - q| ≤ 1 / 2000 :=
  ⟨_, figure_sprintf3 q, thousandths_err q⟩

theorem rnd_fin_of_le {a b : Rat} (hb : Valid b) (h : |a| ≤ b) : ∃ r, rnd a = .fin r := by
  obtain ⟨r, e, _, _⟩ := rnd_between hb.neg hb (by linarith [neg_abs_le a]) (le_trans (le_abs_self a) h)
  exact ⟨r, e⟩

/-- Rates of bytes are shown in millions, to three decimals. -/
theorem dataRate_close (q : Rat) (hq : Valid q) : ∃ v, figure (dataRateFormatter (.fin q)) = some v ∧
    |v - q / 10 ^ 6| ≤ 1 / 2000 + |q| / 10 ^ 6 * eps + eta := by
  have hv : Valid |q| := by
    rcases abs_choice q with h | h <;> rw [h]
    · exact hq
    · exact hq.neg
  obtain ⟨r, hr⟩ := rnd_fin_of_le (a := q / 10 ^ 6) hv (by
    rw [abs_div, abs_of_pos (by norm_num : (0 : Rat) < 10 ^ 6)]
    exact div_le_self (abs_nonneg _) (by norm_num))
  refine ⟨thousandths r, ?_, ?_⟩
  · unfold dataRateFormatter
    simp only [F64.div]
    rw [if_neg (by norm_num), hr, figure_sprintf3]
  · have h1 := rnd_err hr
    rw [abs_div, abs_of_pos (by norm_num : (0 : Rat) < 10 ^ 6)] at h1
    have e : thousandths r - q / 10 ^ 6 = (thousandths r - r) + (r - q / 10 ^ 6) := by ring
    rw [e]
    refine le_trans (abs_add_le _ _) ?_
    linarith [thousandths_err r]

theorem valid_63 : Valid (2 ^ 63) := by
  have := F64.valid_one.scale (by norm_num) 63 (by rw [one_mul]; exact pow_lt_pow_right₀ (by norm_num) (by norm_num))
  rwa [one_mul] at this

/-- A duration of ten milliseconds or more is shown in whole milliseconds, the fraction dropped; a shorter one is shown to
a microsecond. -/
theorem ms_close (d : Int) (h1 : -2 ^ 63 ≤ d) (h2 : d < 2 ^ 63) : ∃ v, figure (msFormatter d) = some v ∧
    (10000000 ≤ d → v ≤ (d : Rat) / 10 ^ 6 ∧ (d : Rat) / 10 ^ 6 < v + 1) ∧
    (d < 10000000 → |v - (d : Rat) / 10 ^ 6| ≤ 1 / 2000 + |(d : Rat)| / 10 ^ 6 / 2 ^ 49) := by
  unfold msFormatter
  by_cases h0 : d = 0
  · subst h0
    refine ⟨0, by decide +kernel, fun h => absurd h (by decide), fun _ => ?_⟩
    norm_num
  rw [if_neg h0]
  by_cases hd : d < 10 * 1000000
  · rw [if_pos hd]
    have hdabs : |(d : Rat)| ≤ 2 ^ 63 := by
      rw [abs_le]
      exact ⟨by exact_mod_cast h1, by exact_mod_cast h2.le⟩
    have hd1 : (1 : Rat) ≤ |(d : Rat)| := by
      have := Int.one_le_abs h0
      rw [← Int.cast_abs]
      exact_mod_cast this
    obtain ⟨r1, e1⟩ := rnd_fin_of_le valid_63 hdabs
    obtain ⟨k, e2⟩ := rnd_fin_of_le (a := 1 / 10 ^ 6) F64.valid_one (by rw [abs_of_pos (by norm_num)]; norm_num)
    have d1 := rnd_err e1
    have d2 := rnd_err e2
    rw [abs_of_pos (by norm_num : (0 : Rat) < 1 / 10 ^ 6)] at d2
    have he := eps_pos
    have het := eta_le
    have het0 := eta_nonneg
    have heps : eps ≤ 1 / 10 ^ 15 := by unfold eps; norm_num
    have hetas : eta ≤ eps / 10 ^ 6 := by
      unfold eta eps
      rw [div_div]
      exact one_div_le_one_div_of_le (by positivity) (le_trans (by norm_num : (2 : Rat) ^ 53 * 10 ^ 6 ≤ 2 ^ 80) (pow_le_pow_right₀ (by norm_num) (by norm_num)))
    -- relative errors
    obtain ⟨x, hx⟩ : ∃ x, x = |(d : Rat)| := ⟨_, rfl⟩
    rw [← hx] at d1 hd1 hdabs
    have hepsx : eps ≤ eps * x := by nlinarith
    have q1 : |r1 - d| ≤ 2 * eps * x := by linarith
    have q2 : |k - 1 / 10 ^ 6| ≤ 2 * eps / 10 ^ 6 := by linarith
    have k1 : |k| ≤ 2 / 10 ^ 6 := by
      have := abs_sub_abs_le_abs_sub k (1 / 10 ^ 6)
      rw [abs_of_pos (by norm_num : (0 : Rat) < 1 / 10 ^ 6)] at this
      linarith
    have q3 : |r1 * k - d / 10 ^ 6| ≤ 4 * eps * x / 10 ^ 6 + 2 * eps * x / 10 ^ 6 := by
      have e : r1 * k - d / 10 ^ 6 = (r1 - d) * k + d * (k - 1 / 10 ^ 6) := by ring
      rw [e]
      refine le_trans (abs_add_le _ _) ?_
      rw [abs_mul, abs_mul, ← hx]
      have m1 : |r1 - d| * |k| ≤ 2 * eps * x * (2 / 10 ^ 6) := mul_le_mul q1 k1 (abs_nonneg _) (by positivity)
      have m2 : x * |k - 1 / 10 ^ 6| ≤ x * (2 * eps / 10 ^ 6) := mul_le_mul_of_nonneg_left q2 (by linarith)
      linarith
    have q4 : |r1 * k| ≤ 2 * x / 10 ^ 6 := by
      have := abs_sub_abs_le_abs_sub (r1 * k) (d / 10 ^ 6 : Rat)
      rw [abs_div, abs_of_pos (by norm_num : (0 : Rat) < 10 ^ 6), ← hx] at this
      have : 6 * (eps * x) ≤ 1 * x := by nlinarith
      linarith
    obtain ⟨r, e3⟩ := rnd_fin_of_le (a := r1 * k) valid_64 (by
      refine le_trans q4 ?_
      have : x / 10 ^ 6 ≤ x := div_le_self (by linarith) (by norm_num)
      have e64 : (2 : Rat) ^ 64 = 2 * 2 ^ 63 := by norm_num
      linarith)
    have d3 := rnd_err e3
    refine ⟨thousandths r, ?_, fun h => absurd h (by omega), fun _ => ?_⟩
    · rw [e1, e2]
      simp only [F64.mul]
      rw [e3, figure_sprintf3]
    · rw [← hx]
      have e : thousandths r - (d : Rat) / 10 ^ 6 = (thousandths r - r) + ((r - r1 * k) + (r1 * k - d / 10 ^ 6)) := by ring
      rw [e]
      refine le_trans (abs_add_le _ _) (add_le_add (thousandths_err r) (le_trans (abs_add_le _ _) ?_))
      have m3 : eps * |r1 * k| ≤ eps * (2 * x / 10 ^ 6) := mul_le_mul_of_nonneg_left q4 he.le
      have e8 : x / 10 ^ 6 / 2 ^ 49 = 16 * (eps * x) / 10 ^ 6 := by unfold eps; ring
      have m4 : |r - r1 * k| ≤ 2 * eps * x / 10 ^ 6 + eps * x / 10 ^ 6 := by linarith
      have hpos : 0 ≤ eps * x := by positivity
      rw [e8]
      linarith
  · rw [if_neg hd]
    obtain ⟨n, rfl⟩ : ∃ n : Nat, d = n := ⟨d.toNat, by omega⟩
    have ht : (n : Int).tdiv 1000000 = ((n / 1000000 : Nat) : Int) := by rw [Int.tdiv_eq_ediv_of_nonneg (by omega)]; omega
    refine ⟨((n / 1000000 : Nat) : Rat), ?_, fun _ => ?_, fun h => absurd h (by omega)⟩
    · rw [ht, TraceRows.itoa_nat]
      have hf := digits_first 19 (n / 1000000) []
      rw [List.append_nil] at hf
      unfold figure
      rw [if_neg hf.1, if_neg hf.2]
      exact unsigned_digits _ _ (by omega)
    · have e : n = 1000000 * (n / 1000000) + n % 1000000 := (Nat.div_add_mod _ _).symm
      have e' : ((n : Int) : Rat) = 1000000 * ((n / 1000000 : Nat) : Rat) + ((n % 1000000 : Nat) : Rat) := by
        rw [Int.cast_natCast]; exact_mod_cast e
      have hm : ((n % 1000000 : Nat) : Rat) < 1000000 := by exact_mod_cast Nat.mod_lt n (by norm_num)
      have hm0 : (0 : Rat) ≤ ((n % 1000000 : Nat) : Rat) := by positivity
      rw [e']
      constructor
      · rw [le_div_iff₀ (by norm_num)]; linarith
      · rw [div_lt_iff₀ (by norm_num)]; linarith

end Verif.Props.RpcFigures
