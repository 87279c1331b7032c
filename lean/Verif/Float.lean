import Mathlib.Data.Rat.Defs
import Mathlib.Algebra.Order.Ring.Rat
import Mathlib.Tactic.Ring
import Mathlib.Tactic.Linarith
import Mathlib.Tactic.FieldSimp
import Mathlib.Tactic.NormNum
import Mathlib.Tactic.Positivity

/-!
# Go `float64`

The code that computes with `float64` is written once over `Arith`, and read in two ways: over the
IEEE 754 binary64 numbers `F64` (what the program does) and over the rationals (what it would do
without rounding). Nothing here models a particular function of the repository.
-/

namespace Verif

/-- The `float64` operations the repository uses. -/
class Arith (F : Type) where
  lt : F → F → Bool
  add : F → F → F
  sub : F → F → F
  mul : F → F → F
  div : F → F → F
  /-- conversion from an integer, `float64(n)` -/
  ofInt : Int → F
  /-- `math.MaxFloat64` -/
  maxFloat : F
  /-- `math.SmallestNonzeroFloat64` -/
  smallestNonzero : F

/-- Exact arithmetic. Division by zero does not occur in the modelled code. -/
instance : Arith Rat where
  lt a b := decide (a < b)
  add := (· + ·)
  sub := (· - ·)
  mul := (· * ·)
  div := (· / ·)
  ofInt n := (n : Rat)
  maxFloat := (2 ^ 53 - 1) * 2 ^ 971
  smallestNonzero := 1 / 2 ^ 1074

/-- IEEE 754 binary64 values. A finite value is its rational value; the two zeros are identified
(no modelled code distinguishes them), and so are all NaNs. -/
inductive F64 where
  | nan
  | ninf
  | pinf
  | fin (q : Rat)
  deriving DecidableEq, Repr

namespace F64

/-- `x < y`. -/
def lt : F64 → F64 → Bool
  | nan, _ => false
  | _, nan => false
  | ninf, ninf => false
  | ninf, _ => true
  | _, ninf => false
  | pinf, _ => false
  | _, pinf => true
  | fin a, fin b => decide (a < b)

/-- `2 ^ e` for an integer exponent. -/
def pow2 (e : Int) : Rat := if 0 ≤ e then 2 ^ e.toNat else 1 / 2 ^ (-e).toNat

/-- The exponent of the binade of a positive rational: `2 ^ e ≤ a < 2 ^ (e + 1)`. -/
def ilog2 (a : Rat) : Int :=
  let k : Int := (a.num.toNat.log2 : Int) - a.den.log2
  if pow2 k ≤ a then k else k - 1

/-- Nearest integer, ties to even. -/
def roundHalfEven (a : Rat) : Int :=
  let f := a.floor
  let d := a - f
  if d < 1 / 2 then f
  else if 1 / 2 < d then f + 1
  else if f % 2 = 0 then f else f + 1

/-- Exponent of the unit in the last place for a positive rational. -/
def ulpExp (a : Rat) : Int := max (ilog2 a - 52) (-1074)

/-- Rounding of a positive rational to the format's grid (before the overflow test). -/
def roundPos (a : Rat) : Rat := roundHalfEven (a / pow2 (ulpExp a)) * pow2 (ulpExp a)

/-- Rounding to nearest, ties to even, with overflow to infinity. -/
def rnd (q : Rat) : F64 :=
  if q = 0 then fin 0
  else if 0 < q then
    let r := roundPos q
    if 2 ^ 1024 ≤ r then pinf else fin r
  else
    let r := roundPos (-q)
    if 2 ^ 1024 ≤ r then ninf else fin (-r)

def neg : F64 → F64
  | nan => nan
  | ninf => pinf
  | pinf => ninf
  | fin q => fin (-q)

def add : F64 → F64 → F64
  | nan, _ => nan
  | _, nan => nan
  | pinf, ninf => nan
  | ninf, pinf => nan
  | pinf, _ => pinf
  | _, pinf => pinf
  | ninf, _ => ninf
  | _, ninf => ninf
  | fin a, fin b => rnd (a + b)

def sub (a b : F64) : F64 := add a (neg b)

/-- An infinity with the sign of `q`, NaN for zero. -/
def infSign (q : Rat) : F64 := if 0 < q then pinf else if q < 0 then ninf else nan

def mul : F64 → F64 → F64
  | nan, _ => nan
  | _, nan => nan
  | pinf, pinf => pinf
  | pinf, ninf => ninf
  | ninf, pinf => ninf
  | ninf, ninf => pinf
  | pinf, fin b => infSign b
  | fin a, pinf => infSign a
  | ninf, fin b => neg (infSign b)
  | fin a, ninf => neg (infSign a)
  | fin a, fin b => rnd (a * b)

/-- Division. A zero divisor is read as `+0`. -/
def div : F64 → F64 → F64
  | nan, _ => nan
  | _, nan => nan
  | pinf, pinf => nan
  | pinf, ninf => nan
  | ninf, pinf => nan
  | ninf, ninf => nan
  | pinf, fin b => if b < 0 then ninf else pinf
  | ninf, fin b => if b < 0 then pinf else ninf
  | fin _, pinf => fin 0
  | fin _, ninf => fin 0
  | fin a, fin b => if b = 0 then infSign a else rnd (a / b)

instance : Arith F64 where
  lt := lt
  add := add
  sub := sub
  mul := mul
  div := div
  ofInt n := rnd n
  maxFloat := fin ((2 ^ 53 - 1) * 2 ^ 971)
  smallestNonzero := fin (1 / 2 ^ 1074)

/-! ## Order -/

/-- Not a NaN. -/
def IsNum (x : F64) : Prop := x ≠ nan

theorem lt_irrefl (x : F64) : lt x x = false := by
  cases x <;> simp [lt]

theorem lt_trans {x y z : F64} (h : lt x y = true) (h' : lt y z = true) : lt x z = true := by
  cases x <;> cases y <;> cases z <;> simp [lt] at *; linarith

theorem lt_asymm {x y : F64} (h : lt x y = true) : lt y x = false := by
  cases x <;> cases y <;> simp [lt] at *; linarith

/-- On numbers `¬ (x < y)` is `y ≤ x`; it is transitive. -/
theorem nlt_trans {x y z : F64} (hy : IsNum y) (h : lt x y = false) (h' : lt y z = false) :
    lt x z = false := by
  cases x <;> cases y <;> cases z <;> simp [lt, IsNum] at *; linarith

theorem lt_of_lt_of_nlt {x y z : F64} (hz : IsNum z) (h : lt x y = true) (h' : lt z y = false) :
    lt x z = true := by
  cases x <;> cases y <;> cases z <;> simp [lt, IsNum] at *; linarith

theorem eq_of_nlt {x y : F64} (hx : IsNum x) (hy : IsNum y) (h : lt x y = false)
    (h' : lt y x = false) : x = y := by
  cases x <;> cases y <;> simp [lt, IsNum] at *; linarith

/-! ## Rounding -/

theorem pow2_pos (e : Int) : 0 < pow2 e := by
  unfold pow2; split <;> positivity

theorem pow2_neg (e : Int) (h : e ≤ 0) : pow2 e = 1 / 2 ^ (-e).toNat := by
  unfold pow2
  split
  · have : e = 0 := by omega
    subst this; simp
  · rfl

theorem pow2_add_one (e : Int) : pow2 (e + 1) = 2 * pow2 e := by
  unfold pow2
  by_cases h : 0 ≤ e
  · rw [if_pos h, if_pos (by omega), show (e + 1).toNat = e.toNat + 1 by omega]; ring
  · rw [if_neg h]
    by_cases h2 : 0 ≤ e + 1
    · rw [if_pos h2]
      have : e = -1 := by omega
      subst this; norm_num
    · rw [if_neg h2, show (-e).toNat = (-(e+1)).toNat + 1 by omega]
      field_simp; ring

theorem roundHalfEven_int (n : Int) : roundHalfEven (n : Rat) = n := by
  simp [roundHalfEven, Rat.floor_intCast]

theorem roundPos_exact {a : Rat} {n : Int} (h : a = n * pow2 (ulpExp a)) : roundPos a = a := by
  have hp := pow2_pos (ulpExp a)
  have : a / pow2 (ulpExp a) = (n : Rat) := by
    rw [div_eq_iff (ne_of_gt hp)]; exact h
  unfold roundPos
  rw [this, roundHalfEven_int]; exact h.symm

theorem pow2_ofNat (n : Nat) : pow2 (n : Int) = 2 ^ n := by
  simp [pow2]

theorem pow2_mono {a b : Int} (h : a ≤ b) : pow2 a ≤ pow2 b := by
  obtain ⟨n, rfl⟩ : ∃ n : Nat, b = a + n := ⟨(b - a).toNat, by omega⟩
  clear h
  induction n with
  | zero => simp
  | succ n ih =>
    have := pow2_pos (a + n)
    rw [show a + ((n + 1 : Nat) : Int) = (a + n) + 1 by push_cast; ring, pow2_add_one]
    linarith

theorem lt_of_pow2_lt {a b : Int} (h : pow2 a < pow2 b) : a < b := by
  by_contra hn
  exact absurd (pow2_mono (not_lt.mp hn)) (not_le.mpr h)

theorem pow2_add (a b : Int) : pow2 (a + b) = pow2 a * pow2 b := by
  have key : ∀ n : Nat, ∀ a : Int, pow2 (a + n) = pow2 a * 2 ^ n := by
    intro n
    induction n with
    | zero => intro a; simp
    | succ n ih =>
      intro a
      rw [show a + ((n + 1 : Nat) : Int) = (a + n) + 1 by push_cast; ring, pow2_add_one, ih]
      ring
  by_cases h : 0 ≤ b
  · obtain ⟨n, rfl⟩ : ∃ n : Nat, b = n := ⟨b.toNat, by omega⟩
    rw [key, pow2_ofNat]
  · obtain ⟨n, rfl⟩ : ∃ n : Nat, b = -n := ⟨(-b).toNat, by omega⟩
    have h1 := key n (a + -n)
    rw [show a + -(n : Int) + n = a by ring] at h1
    rw [h1, pow2_neg (-(n : Int)) (by omega)]
    simp only [neg_neg, Int.toNat_natCast]
    field_simp

/-- The lower end of the binade. -/
theorem pow2_ilog2_le {a : Rat} (ha : 0 < a) : pow2 (ilog2 a) ≤ a := by
  unfold ilog2
  simp only
  split
  · assumption
  · have hn : 0 < a.num := Rat.num_pos.mpr ha
    have hd : 0 < a.den := a.den_pos
    have h1 : 2 ^ a.num.toNat.log2 ≤ a.num.toNat := Nat.log2_self_le (by omega)
    have h2 : a.den < 2 ^ (a.den.log2 + 1) := Nat.lt_log2_self
    have h1' : (2 : Rat) ^ a.num.toNat.log2 ≤ (a.num : Rat) := by
      have : ((2 ^ a.num.toNat.log2 : Nat) : Int) ≤ a.num := by omega
      have := (Int.cast_le (R := Rat)).mpr this
      simpa using this
    have h2' : (a.den : Rat) ≤ 2 ^ (a.den.log2 + 1) := by
      have := (Nat.cast_le (α := Rat)).mpr (Nat.le_of_lt h2)
      simpa using this
    have hd' : (0 : Rat) < a.den := by exact_mod_cast hd
    have hq : a = a.num / a.den := (Rat.num_div_den a).symm
    rw [show (a.num.toNat.log2 : Int) - a.den.log2 - 1 = a.num.toNat.log2 + -((a.den.log2 + 1 : Nat) : Int) by
      push_cast; ring, pow2_add, pow2_ofNat, pow2_neg _ (by omega)]
    simp only [neg_neg, Int.toNat_natCast]
    conv => rhs; rw [hq]
    rw [mul_one_div, div_le_div_iff₀ (by positivity) hd']
    exact mul_le_mul h1' h2' (le_of_lt hd') (by exact_mod_cast hn.le)

/-- Integers up to `2 ^ 53` in absolute value are represented exactly. -/
theorem roundPos_nat (n : Nat) (h0 : 0 < n) (h : n ≤ 2 ^ 53) : roundPos (n : Rat) = n := by
  have hpos : (0 : Rat) < n := by exact_mod_cast h0
  have hle := pow2_ilog2_le hpos
  have hcases : ulpExp n ≤ 0 ∨ (n = 2 ^ 53 ∧ ulpExp n = 1) := by
    rcases Nat.lt_or_ge n (2 ^ 53) with hlt | hge
    · left
      have : ilog2 n < 53 := by
        apply lt_of_pow2_lt
        refine lt_of_le_of_lt hle ?_
        rw [show (53 : Int) = ((53 : Nat) : Int) from rfl, pow2_ofNat]
        exact_mod_cast hlt
      unfold ulpExp; omega
    · have hn : n = 2 ^ 53 := by omega
      subst hn
      have : ilog2 ((2 ^ 53 : Nat) : Rat) < 54 := by
        apply lt_of_pow2_lt
        refine lt_of_le_of_lt hle ?_
        rw [show (54 : Int) = ((54 : Nat) : Int) from rfl, pow2_ofNat]
        norm_num
      have h2 : ulpExp ((2 ^ 53 : Nat) : Rat) ≤ 1 := by unfold ulpExp; omega
      rcases lt_or_ge 0 (ulpExp ((2 ^ 53 : Nat) : Rat)) with h3 | h3
      · right; exact ⟨rfl, by omega⟩
      · left; exact h3
  rcases hcases with h1 | ⟨h1, h2⟩
  · apply roundPos_exact (n := (n * 2 ^ (-(ulpExp n)).toNat : Nat))
    rw [pow2_neg _ h1]
    push_cast
    field_simp
  · apply roundPos_exact (n := 2 ^ 52)
    rw [h2, h1]
    simp only [pow2]
    norm_num

theorem rnd_int (n : Int) (h : n.natAbs ≤ 2 ^ 53) : rnd (n : Rat) = fin n := by
  unfold rnd
  rcases lt_trichotomy n 0 with hn | hn | hn
  · obtain ⟨k, rfl⟩ : ∃ k : Nat, n = -k := ⟨n.natAbs, by omega⟩
    have hk : 0 < k := by omega
    have hk' : k ≤ 2 ^ 53 := by omega
    have hq : (0 : Rat) < k := by exact_mod_cast hk
    have hq' : (k : Rat) ≤ 2 ^ 53 := by exact_mod_cast hk'
    push_cast
    rw [if_neg (by linarith), if_neg (by linarith)]
    simp only [neg_neg, roundPos_nat k hk hk']
    rw [if_neg]
    intro hc
    exact absurd (hc.trans hq') (not_le.mpr (pow_lt_pow_right₀ (by norm_num) (by norm_num)))
  · subst hn; simp
  · obtain ⟨k, rfl⟩ : ∃ k : Nat, n = k := ⟨n.natAbs, by omega⟩
    have hk : 0 < k := by omega
    have hk' : k ≤ 2 ^ 53 := by omega
    have hq : (0 : Rat) < k := by exact_mod_cast hk
    have hq' : (k : Rat) ≤ 2 ^ 53 := by exact_mod_cast hk'
    push_cast
    rw [if_neg (by linarith), if_pos hq]
    simp only [roundPos_nat k hk hk']
    rw [if_neg]
    intro hc
    exact absurd (hc.trans hq') (not_le.mpr (pow_lt_pow_right₀ (by norm_num) (by norm_num)))

end F64
end Verif
