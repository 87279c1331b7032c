import Verif.Trace.Ids
import Mathlib.Data.Nat.ModEq
import Mathlib.Tactic.Ring
import Mathlib.Tactic.Linarith
import Mathlib.Data.List.Range
import Mathlib.Data.Nat.GCD.Basic
import Mathlib.Data.List.Nodup
import Mathlib.Data.List.Perm.Subperm
import Mathlib.Data.List.Pairwise
import Mathlib.Data.Nat.Prime.Basic

/-!
# C23: span and trace identifiers
-/

namespace Verif.Props.Ids
open Verif Verif.Trace

/-- The generator's increment is odd. -/
def Odd (g : IDGen) : Prop := g.spanIDInc % 2 = 1

theorem odd_init (a b c d : Nat) : Odd (IDGen.init a b c d) := by
  simp [Odd, IDGen.init]

/-- The `k`-th value produced by the counter. -/
def val (g : IDGen) (k : Nat) : Nat := (g.nextSpanID + k * g.spanIDInc) % two64

theorem val_next (g : IDGen) (k : Nat) : val (g.addSpanID).1 k = val g (k + 1) := by
  simp only [val, IDGen.addSpanID]
  rw [Nat.mod_add_mod]
  congr 1
  ring

theorem val_one (g : IDGen) : (g.addSpanID).2 = val g 1 := by
  simp [val, IDGen.addSpanID]

theorem inc_next (g : IDGen) : (g.addSpanID).1.spanIDInc = g.spanIDInc := rfl

/-- The log is the non-zero values of the counter, in order. -/
theorem log_eq (g : IDGen) (ts : List Nat) :
    (runSpanIDs g ts).2.map Prod.snd = ((List.range ts.length).map fun k => val g (k + 1)).filter (· ≠ 0) := by
  induction ts generalizing g with
  | nil => rfl
  | cons t ts ih =>
    simp only [runSpanIDs, List.length_cons, List.range_succ_eq_map, List.map_cons, List.map_map]
    have h := ih (g.addSpanID).1
    have e : ((List.range ts.length).map ((fun k => val g (k + 1)) ∘ Nat.succ)) =
        (List.range ts.length).map fun k => val (g.addSpanID).1 (k + 1) := by
      apply List.map_congr_left
      intro k _
      simp [val_next]
    rw [e]
    have hv := val_one g
    by_cases hz : val g 1 = 0
    · have h0 : (g.addSpanID).2 = 0 := by rw [hv, hz]
      rw [List.filter_cons_of_neg (by simp [hz])]
      simp only [h0, if_true]
      exact h
    · have h0 : (g.addSpanID).2 ≠ 0 := by rw [hv]; exact hz
      rw [List.filter_cons_of_pos (by simp [hz])]
      simp only [h0, if_false, List.map_cons, h]
      rw [hv]

theorem val_eq_iff {g : IDGen} (ho : Odd g) (i j : Nat) (hij : i ≤ j) :
    val g i = val g j ↔ two64 ∣ (j - i) := by
  have hc : Nat.Coprime two64 g.spanIDInc := by
    unfold two64
    apply Nat.Coprime.pow_left
    rw [Nat.coprime_two_left, Nat.odd_iff]
    exact ho
  obtain ⟨d, rfl⟩ : ∃ d, j = i + d := ⟨j - i, by omega⟩
  rw [Nat.add_sub_cancel_left]
  unfold val
  constructor
  · intro h
    have h2 : g.nextSpanID + i * g.spanIDInc + d * g.spanIDInc ≡ g.nextSpanID + i * g.spanIDInc + 0 [MOD two64] := by
      unfold Nat.ModEq
      rw [Nat.add_zero, h]; congr 1; ring
    have h3 := Nat.ModEq.add_left_cancel' _ h2
    exact hc.dvd_of_dvd_mul_right ((Nat.modEq_zero_iff_dvd).mp h3)
  · rintro ⟨q, rfl⟩
    rw [show g.nextSpanID + (i + two64 * q) * g.spanIDInc = g.nextSpanID + i * g.spanIDInc + two64 * (q * g.spanIDInc) by ring]
    rw [Nat.add_mul_mod_self_left]

theorem val_lt (g : IDGen) (k : Nat) : val g k < two64 := Nat.mod_lt _ (by unfold two64; norm_num)

/-- In a window of `2 ^ 64` consecutive values at least `2 ^ 64 - 1` are not zero. -/
theorem window (g : IDGen) (ho : Odd g) (a n : Nat) (hn : n ≤ two64) :
    n - 1 ≤ (((List.range n).map fun k => val g (a + k)).filter (· ≠ 0)).length := by
  have hnd : ((List.range n).map fun k => val g (a + k)).Nodup := by
    refine List.Nodup.map_on ?_ List.nodup_range
    intro x hx y hy hxy
    rw [List.mem_range] at hx hy
    rcases Nat.le_total x y with h | h
    · have := (val_eq_iff ho (a + x) (a + y) (by omega)).mp hxy
      have h2 := Nat.eq_zero_of_dvd_of_lt this (by omega)
      omega
    · have := (val_eq_iff ho (a + y) (a + x) (by omega)).mp hxy.symm
      have h2 := Nat.eq_zero_of_dvd_of_lt this (by omega)
      omega
  have hlen := List.length_eq_length_filter_add (l := (List.range n).map fun k => val g (a + k)) (· ≠ 0)
  have hz : (((List.range n).map fun k => val g (a + k)).filter (fun x => !(decide (x ≠ 0)))).length ≤ 1 := by
    have hs : (((List.range n).map fun k => val g (a + k)).filter (fun x => !(decide (x ≠ 0)))).Nodup := hnd.filter _
    generalize hl : ((List.range n).map fun k => val g (a + k)).filter (fun x => !(decide (x ≠ 0))) = l at hs
    have hall : ∀ x ∈ l, x = 0 := by
      intro x hx
      rw [← hl, List.mem_filter] at hx
      simpa using hx.2
    match l, hs, hall with
    | [], _, _ => simp
    | [_], _, _ => simp
    | x :: y :: l, hs, hall =>
      have h1 := hall x (by simp)
      have h2 := hall y (by simp)
      subst h1 h2
      simp at hs
  simp only [List.length_map, List.length_range] at hlen
  omega

/-! ## C23 -/

/-- No returned span ID is zero, whatever the seed and the schedule. -/
theorem spanID_nonzero (a b c d : Nat) (sched : List Nat) (p : Nat × Nat)
    (h : p ∈ (runSpanIDs (IDGen.init a b c d) sched).2) : p.2 ≠ 0 ∧ p.2 < two64 := by
  have : p.2 ∈ (runSpanIDs (IDGen.init a b c d) sched).2.map Prod.snd := List.mem_map.mpr ⟨p, h, rfl⟩
  rw [log_eq, List.mem_filter] at this
  refine ⟨by simpa using this.2, ?_⟩
  obtain ⟨k, _, hk⟩ := List.mem_map.mp this.1
  rw [← hk]
  exact val_lt _ _

/-- The counting argument: two equal non-zero values with indices `i < j` lie at least a full period
apart, and a full period contributes all but one of its values. -/
theorem long_log (g : IDGen) (ho : Odd g) (N i j n : Nat) (hN : N = two64) (hij : i < j) (hj : j < n)
    (hj0 : val g (j + 1) ≠ 0) (heq : val g (i + 1) = val g (j + 1)) :
    N ≤ (((List.range n).map fun k => val g (k + 1)).filter (· ≠ 0)).length := by
  have hdvd := (val_eq_iff ho (i + 1) (j + 1) (by omega)).mp heq
  rw [← hN] at hdvd
  have hge : N ≤ j - i := by
    have : j + 1 - (i + 1) = j - i := by omega
    rw [this] at hdvd
    exact Nat.le_of_dvd (by omega) hdvd
  have hw := window g ho (i + 1) N (Nat.le_of_eq hN)
  have hsub : List.Sublist
      (((List.range N).map fun k => val g (i + 1 + k)).filter (· ≠ 0) ++ [val g (j + 1)])
      (((List.range n).map fun k => val g (k + 1)).filter (· ≠ 0)) := by
    have hsplit : List.range n =
        (List.range i ++ (List.range N).map (i + ·)) ++
          (List.range (n - (i + N))).map (i + N + ·) := by
      conv => lhs; rw [show n = (i + N) + (n - (i + N)) by omega]
      rw [List.range_add, List.range_add]
    rw [hsplit]
    simp only [List.map_append, List.filter_append, List.map_map]
    apply List.Sublist.append
    · have e : ((List.range N).map ((fun k => val g (k + 1)) ∘ (i + ·))) =
          (List.range N).map fun k => val g (i + 1 + k) := by
        apply List.map_congr_left; intro k _; simp only [Function.comp]; exact congrArg (val g) (by omega)
      rw [e]
      exact List.sublist_append_right _ _
    · rw [List.singleton_sublist, List.mem_filter]
      refine ⟨List.mem_map.mpr ⟨j - (i + N), List.mem_range.mpr (by omega), ?_⟩, by simpa using hj0⟩
      simp only [Function.comp]
      exact congrArg (val g) (by omega)
  have := hsub.length_le
  rw [List.length_append, List.length_singleton] at this
  omega

/-- Among the first `2 ^ 64 - 1` calls to return, whatever the seed and however the callers interleave,
no two return the same span ID. -/
theorem spanID_unique (a b c d : Nat) (sched : List Nat)
    (hn : (runSpanIDs (IDGen.init a b c d) sched).2.length ≤ 2 ^ 64 - 1) :
    ((runSpanIDs (IDGen.init a b c d) sched).2.map Prod.snd).Nodup := by
  have ho := odd_init a b c d
  generalize IDGen.init a b c d = g at *
  have hlen : ((runSpanIDs g sched).2.map Prod.snd).length ≤ 2 ^ 64 - 1 := by simpa using hn
  rw [log_eq] at hlen ⊢
  rw [List.Nodup, List.pairwise_filter, List.pairwise_map, List.pairwise_iff_getElem]
  intro i j hi hj hij hi0 hj0 heq
  simp only [List.getElem_range] at heq hi0 hj0
  simp only [List.length_range] at hi hj
  obtain ⟨N, hN⟩ : ∃ N, N = two64 := ⟨_, rfl⟩
  have := long_log g ho N i j sched.length hN hij hj (by simpa using hj0) heq
  have e64 : N = 2 ^ 64 := hN
  omega

theorem run_inc (g : IDGen) (ts : List Nat) : (runSpanIDs g ts).1.spanIDInc = g.spanIDInc := by
  induction ts generalizing g with
  | nil => rfl
  | cons t ts ih => simp only [runSpanIDs]; rw [ih, inc_next]

/-- At any time, a call that is not interrupted returns after at most two iterations. -/
theorem call_terminates (a b c d : Nat) (sched : List Nat) (t : Nat) :
    (runSpanIDs (runSpanIDs (IDGen.init a b c d) sched).1 [t, t]).2 ≠ [] := by
  have ho : Odd (runSpanIDs (IDGen.init a b c d) sched).1 := by
    unfold Odd; rw [run_inc]; exact odd_init a b c d
  generalize (runSpanIDs (IDGen.init a b c d) sched).1 = g at *
  intro h
  have hl := log_eq g [t, t]
  rw [h] at hl
  have e : (List.range 2).map (fun k => val g (k + 1)) = [val g 1, val g 2] := rfl
  simp only [List.map_nil, List.length_cons, List.length_nil, Nat.zero_add, Nat.reduceAdd] at hl
  rw [e] at hl
  have h1 : val g 1 = 0 := by
    by_contra hn; rw [List.filter_cons_of_pos (by simpa using hn)] at hl; simp at hl
  have h2 : val g 2 = 0 := by
    by_contra hn; rw [List.filter_cons_of_neg (by simpa using h1), List.filter_cons_of_pos (by simpa using hn)] at hl; simp at hl
  have := (val_eq_iff ho 1 2 (by omega)).mp (h1.trans h2.symm)
  have : two64 ≤ 1 := Nat.le_of_dvd (by omega) this
  exact absurd this (by unfold two64; norm_num)

/-- The bytes of an ID determine it. -/
theorem leBytes_inj (n x y : Nat) (hx : x < 256 ^ n) (hy : y < 256 ^ n) (h : leBytes n x = leBytes n y) :
    x = y := by
  induction n generalizing x y with
  | zero => simp at hx hy; omega
  | succ n ih =>
    simp only [leBytes, List.cons.injEq] at h
    have h1 : x % 256 = y % 256 := by
      have := congrArg UInt8.toNat h.1
      simp at this
      exact this
    have h2 := ih (x / 256) (y / 256) (by rw [Nat.div_lt_iff_lt_mul (by norm_num), ← pow_succ]; exact hx)
      (by rw [Nat.div_lt_iff_lt_mul (by norm_num), ← pow_succ]; exact hy) h.2
    omega

theorem leBytes_length (n x : Nat) : (leBytes n x).length = n := by
  induction n generalizing x with
  | zero => rfl
  | succ n ih => simp [leBytes, ih]

/-- The same for the eight bytes callers see: they are not all zero and do not repeat. -/
theorem spanID_bytes (a b c d : Nat) (sched : List Nat)
    (hn : (runSpanIDs (IDGen.init a b c d) sched).2.length ≤ 2 ^ 64 - 1) :
    (((runSpanIDs (IDGen.init a b c d) sched).2.map fun p => spanIDBytes p.2).Nodup) ∧
      ∀ p ∈ (runSpanIDs (IDGen.init a b c d) sched).2,
        (spanIDBytes p.2).length = 8 ∧ spanIDBytes p.2 ≠ List.replicate 8 0 := by
  have e : two64 = 256 ^ 8 := by unfold two64; norm_num
  refine ⟨?_, ?_⟩
  · have h := spanID_unique a b c d sched hn
    have e2 : ((runSpanIDs (IDGen.init a b c d) sched).2.map fun p => spanIDBytes p.2) =
        ((runSpanIDs (IDGen.init a b c d) sched).2.map Prod.snd).map spanIDBytes := by
      rw [List.map_map]; rfl
    rw [e2]
    refine List.Nodup.map_on ?_ h
    intro x hx y hy hxy
    obtain ⟨p, hp, rfl⟩ := List.mem_map.mp hx
    obtain ⟨q, hq, rfl⟩ := List.mem_map.mp hy
    exact leBytes_inj 8 _ _ (e ▸ (spanID_nonzero a b c d sched p hp).2)
      (e ▸ (spanID_nonzero a b c d sched q hq).2) hxy
  · intro p hp
    refine ⟨leBytes_length 8 _, fun h => ?_⟩
    have h0 : spanIDBytes p.2 = leBytes 8 0 := by rw [h]; decide
    exact (spanID_nonzero a b c d sched p hp).1
      (leBytes_inj 8 _ _ (e ▸ (spanID_nonzero a b c d sched p hp).2) (by norm_num) h0)

/-- Trace IDs, however, can be zero: for any two outputs of the random source there are additions
(which come from the operating system's random numbers) that make the trace ID all zero. The code does
not check for it, although its comment and the property promise a non-zero trace ID. -/
theorem traceID_can_be_zero (a b r0 r1 : Nat) :
    ∃ c d, (IDGen.init a b c d).newTraceID r0 r1 = List.replicate 16 0 := by
  refine ⟨two64 - r0 % two64, two64 - r1 % two64, ?_⟩
  have key : ∀ r : Nat, (r + (two64 - r % two64) % two64) % two64 = 0 := by
    intro r
    have h1 : r % two64 < two64 := Nat.mod_lt _ (by unfold two64; norm_num)
    rw [Nat.add_mod, Nat.mod_mod, ← Nat.add_mod]
    rw [show r + (two64 - r % two64) = two64 * (r / two64) + two64 by
      have := Nat.div_add_mod r two64; omega]
    rw [Nat.mul_add_mod, Nat.mod_self]
  simp only [IDGen.newTraceID, IDGen.init, key]
  decide

/-- What holds of trace IDs: for given additions exactly one pair of random outputs gives zero. -/
theorem traceID_nonzero_partial (a b c d r0 r1 : Nat) (h0 : r0 < two64) (h1 : r1 < two64)
    (h : (r0, r1) ≠ ((two64 - c % two64) % two64, (two64 - d % two64) % two64)) :
    (IDGen.init a b c d).newTraceID r0 r1 ≠ List.replicate 16 0 := by
  intro hz
  have hz' : leBytes 8 ((r0 + c % two64) % two64) ++ leBytes 8 ((r1 + d % two64) % two64) =
      leBytes 8 0 ++ leBytes 8 0 := by
    simp only [IDGen.newTraceID, IDGen.init] at hz
    rw [hz]; decide
  have hs := List.append_inj hz' (by rw [leBytes_length, leBytes_length])
  have e : two64 = 256 ^ 8 := by unfold two64; norm_num
  have pos : 0 < two64 := by unfold two64; norm_num
  have a1 := leBytes_inj 8 _ _ (e ▸ Nat.mod_lt _ pos) (by norm_num) hs.1
  have a2 := leBytes_inj 8 _ _ (e ▸ Nat.mod_lt _ pos) (by norm_num) hs.2
  have solve : ∀ r x : Nat, r < two64 → (r + x % two64) % two64 = 0 → r = (two64 - x % two64) % two64 := by
    intro r x hr h
    have hx : x % two64 < two64 := Nat.mod_lt _ pos
    rcases Nat.lt_or_ge (r + x % two64) two64 with hlt | hge
    · rw [Nat.mod_eq_of_lt hlt] at h
      have : x % two64 = 0 := by omega
      rw [this, Nat.sub_zero, Nat.mod_self]; omega
    · rw [Nat.mod_eq_sub_mod hge, Nat.mod_eq_of_lt (by omega)] at h
      rw [Nat.mod_eq_of_lt (by omega)]; omega
  exact h (Prod.ext (solve r0 c h0 a1) (solve r1 d h1 a2))

/-! ## The hypotheses are met -/

/-- Two threads, the first meeting zero in its loop and trying again after the second got its ID. -/
example : (runSpanIDs (IDGen.init (2 ^ 64 - 5) 5 0 0) [0, 1, 0]).2 = [(1, 5), (0, 10)] := by
  decide +kernel

example : (IDGen.init 1 2 3 4).newTraceID 5 6 = [8, 0, 0, 0, 0, 0, 0, 0, 10, 0, 0, 0, 0, 0, 0, 0] := by
  decide +kernel

end Verif.Props.Ids
