import Verif.Float
import Mathlib.Algebra.Order.Floor.Ring
import Mathlib.Data.Rat.Floor
import Mathlib.Tactic.Linarith
import Mathlib.Tactic.Positivity

/-! # Dropping the fraction of a number, as conversions to integers do -/

namespace Verif.Props

/-- `n` is `q` without its fraction: the integer next to it on the side of zero. -/
def TowardsZero (q : Rat) (n : Int) : Prop :=
  (0 ≤ q → 0 ≤ n ∧ (n : Rat) ≤ q ∧ q < n + 1) ∧ (q ≤ 0 → n ≤ 0 ∧ q ≤ n ∧ (n : Rat) - 1 < q)

theorem TowardsZero.unique {q : Rat} {n m : Int} (h : TowardsZero q n) (h' : TowardsZero q m) : n = m := by
  rcases le_total 0 q with hq | hq
  · obtain ⟨_, a2, a3⟩ := h.1 hq
    obtain ⟨_, b2, b3⟩ := h'.1 hq
    have h1 : (n : Rat) < m + 1 := by linarith
    have h2 : (m : Rat) < n + 1 := by linarith
    norm_cast at h1 h2
    omega
  · obtain ⟨_, a2, a3⟩ := h.2 hq
    obtain ⟨_, b2, b3⟩ := h'.2 hq
    have h1 : (n : Rat) - 1 < m := by linarith
    have h2 : (m : Rat) - 1 < n := by linarith
    norm_cast at h1 h2
    omega

theorem towardsZero_of (q : Rat) : TowardsZero q (if 0 ≤ q then q.floor else -((-q).floor)) := by
  have e : ∀ x : Rat, x.floor = ⌊x⌋ := fun x => rfl
  have f1 : ∀ x : Rat, ((x.floor : Int) : Rat) ≤ x := fun x => Int.floor_le x
  have f2 : ∀ x : Rat, x < (x.floor : Int) + 1 := fun x => Int.lt_floor_add_one x
  have f3 : ∀ x : Rat, 0 ≤ x → 0 ≤ x.floor := fun x h => Int.floor_nonneg.mpr h
  by_cases hq : 0 ≤ q
  · rw [if_pos hq]
    refine ⟨fun _ => ⟨f3 q hq, f1 q, f2 q⟩, fun h => ?_⟩
    have : q = 0 := le_antisymm h hq
    subst this
    have h0 : Rat.floor 0 = 0 := by rw [e]; exact Int.floor_zero
    rw [h0]
    norm_num
  · rw [if_neg hq]
    push Not at hq
    refine ⟨fun h => absurd h (by linarith), fun _ => ⟨?_, ?_, ?_⟩⟩
    · have := f3 (-q) (by linarith); omega
    · have := f1 (-q); push_cast; linarith
    · have := f2 (-q); push_cast; linarith

example : TowardsZero (-5 / 2) (-2) ∧ ¬ TowardsZero (-5 / 2) (-3) := by
  unfold TowardsZero
  norm_num

end Verif.Props
