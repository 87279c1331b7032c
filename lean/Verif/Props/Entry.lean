import Mathlib.Algebra.BigOperators.Group.Finset.Piecewise
import Verif.Metric.Entry
import Mathlib.Algebra.BigOperators.Group.List.Basic
import Mathlib.Algebra.BigOperators.Group.Finset.Basic
import Mathlib.Data.BitVec

/-!
# C40: values of gauges and cumulatives
-/

namespace Verif.Props.Entry
open Verif Verif.Metric

variable {V : Type} [DecidableEq V]

/-! ## The specification: calls one after the other -/

/-- A call, done at once: the new value and the result. -/
def apply (k : Kind V) : Op V → V → V × Option V
  | .set v, _ => (v, none)
  | .add v, m => (k.add m v, none)
  | .inc v, m => (if k.nonPos v then m else k.add m v, none)
  | .read, m => (m, some (k.clamp m))

/-- Calls one after the other: the value they leave, provided each has the result it is said to have. -/
def replay (k : Kind V) : V → List (Lin V) → Option V
  | m, [] => some m
  | m, l :: ls => if (apply k l.op m).2 = l.res then replay k (apply k l.op m).1 ls else none

def logOf (t : Nat) (log : List (Lin V)) : List (Lin V) := log.filter fun l => l.tid = t

omit [DecidableEq V] in
theorem logOf_append (t : Nat) (a b : List (Lin V)) : logOf t (a ++ b) = logOf t a ++ logOf t b := by
  simp [logOf]

theorem replay_append (k : Kind V) (m : V) (a b : List (Lin V)) :
    replay k m (a ++ b) = (replay k m a).bind fun m => replay k m b := by
  induction a generalizing m with
  | nil => rfl
  | cons l ls ih =>
    simp only [List.cons_append, replay]
    split
    · exact ih _
    · rfl

/-- The result a goroutine is about to return, if its call has taken effect. -/
def pending : PC V → List (Option V)
  | .done r => [r]
  | _ => []

/-- What holds whatever the schedule. -/
structure Inv (k : Kind V) (zero : V) (progs : Nat → List (Op V)) (s : St V) : Prop where
  /-- the value is what the calls that took effect leave, in the order they did -/
  replay : replay k zero s.log = some s.mem
  /-- each goroutine's calls took effect in its order, with the results it was given -/
  res : ∀ t, (logOf t s.log).map Lin.res = (s.th t).results ++ pending (s.th t).pc
  ops : ∀ t, (logOf t s.log).map Lin.op ++ (s.th t).prog.drop (pending (s.th t).pc).length = progs t
  left : ∀ t, (pending (s.th t).pc).length ≤ (s.th t).prog.length
  /-- in the loop -/
  loaded : ∀ t v old seen, (s.th t).pc = .loaded v old seen →
    (∃ op ops, (s.th t).prog = op :: ops ∧ ∀ m, apply k op m = (k.add m v, none)) ∧
    seen ≤ s.log.length ∧ (seen = s.log.length → s.mem = old)

theorem inv_start (k : Kind V) (zero : V) (progs : Nat → List (Op V)) : Inv k zero progs (start zero progs) where
  replay := rfl
  res _ := rfl
  ops _ := rfl
  left _ := Nat.zero_le _
  loaded _ _ _ _ h := by cases h

omit [DecidableEq V] in
theorem setTh_same (s : St V) (t : Nat) (x : Thread V) : (setTh s t x).th t = x := by simp [setTh]

omit [DecidableEq V] in
theorem setTh_other (s : St V) (t i : Nat) (x : Thread V) (h : i ≠ t) : (setTh s t x).th i = s.th i := by simp [setTh, h]

/-- A step inside a goroutine that touches nothing else. -/
theorem inv_local {k : Kind V} {zero : V} {progs : Nat → List (Op V)} {s : St V} (h : Inv k zero progs s) (t : Nat)
    (x : Thread V)
    (h1 : x.results ++ pending x.pc = (s.th t).results ++ pending (s.th t).pc)
    (h2 : x.prog.drop (pending x.pc).length = (s.th t).prog.drop (pending (s.th t).pc).length)
    (h3 : (pending x.pc).length ≤ x.prog.length)
    (h4 : ∀ v old seen, x.pc = .loaded v old seen →
      (∃ op ops, x.prog = op :: ops ∧ ∀ m, apply k op m = (k.add m v, none)) ∧
      seen ≤ s.log.length ∧ (seen = s.log.length → s.mem = old)) :
    Inv k zero progs (setTh s t x) := by
  refine ⟨h.replay, fun i => ?_, fun i => ?_, fun i => ?_, fun i => ?_⟩
  · by_cases hi : i = t
    · subst hi; rw [setTh_same, h1]; exact h.res i
    · rw [setTh_other _ _ _ _ hi]; exact h.res i
  · by_cases hi : i = t
    · subst hi; rw [setTh_same, h2]; exact h.ops i
    · rw [setTh_other _ _ _ _ hi]; exact h.ops i
  · by_cases hi : i = t
    · subst hi; rw [setTh_same]; exact h3
    · rw [setTh_other _ _ _ _ hi]; exact h.left i
  · by_cases hi : i = t
    · subst hi; rw [setTh_same]; exact h4
    · rw [setTh_other _ _ _ _ hi]; exact h.loaded i

/-- A step in which the current call takes effect as it would alone. -/
theorem inv_effect {k : Kind V} {zero : V} {progs : Nat → List (Op V)} {s : St V} (h : Inv k zero progs s) (t : Nat)
    (op : Op V) (ops : List (Op V)) (m : V) (r : Option V) (hp : (s.th t).prog = op :: ops)
    (hpc : pending (s.th t).pc = []) (ha : apply k op s.mem = (m, r)) : Inv k zero progs (effect s t op m r) := by
  have hlog : ∀ i, logOf i (s.log ++ [⟨t, op, r⟩]) = if i = t then logOf t s.log ++ [⟨t, op, r⟩] else logOf i s.log := by
    intro i
    rw [logOf_append]
    by_cases hi : i = t
    · subst hi; simp [logOf]
    · rw [if_neg hi]; simp [logOf, Ne.symm hi]
  refine ⟨?_, fun i => ?_, fun i => ?_, fun i => ?_, fun i v old seen hl => ?_⟩
  · show Entry.replay k zero (s.log ++ [⟨t, op, r⟩]) = some m
    rw [replay_append, h.replay]
    simp [Entry.replay, ha]
  · show (logOf i (s.log ++ [⟨t, op, r⟩])).map Lin.res = _
    rw [hlog]
    unfold effect
    by_cases hi : i = t
    · subst hi
      rw [if_pos rfl, setTh_same, List.map_append, h.res i, hpc]
      simp [pending]
    · rw [if_neg hi, setTh_other _ _ _ _ hi]; exact h.res i
  · show (logOf i (s.log ++ [⟨t, op, r⟩])).map Lin.op ++ _ = _
    rw [hlog]
    unfold effect
    by_cases hi : i = t
    · subst hi
      have := h.ops i
      rw [hpc, hp] at this
      rw [if_pos rfl, setTh_same, ← this]
      simp [pending, hp]
    · rw [if_neg hi, setTh_other _ _ _ _ hi]; exact h.ops i
  · unfold effect
    by_cases hi : i = t
    · subst hi; rw [setTh_same]; simp [pending, hp]
    · rw [setTh_other _ _ _ _ hi]; exact h.left i
  · unfold effect at hl
    by_cases hi : i = t
    · subst hi; rw [setTh_same] at hl; cases hl
    · rw [setTh_other _ _ _ _ hi] at hl
      obtain ⟨a, b, c⟩ := h.loaded i v old seen hl
      refine ⟨?_, ?_, fun he => ?_⟩
      · unfold effect; rw [setTh_other _ _ _ _ hi]; exact a
      · show seen ≤ (s.log ++ [(⟨t, op, r⟩ : Lin V)]).length
        simp; omega
      · have he : seen = (s.log ++ [(⟨t, op, r⟩ : Lin V)]).length := he
        simp at he; omega

theorem inv_startAdd {k : Kind V} {zero : V} {progs : Nat → List (Op V)} {s : St V} (h : Inv k zero progs s) (t : Nat)
    (op : Op V) (ops : List (Op V)) (v : V) (hp : (s.th t).prog = op :: ops) (hpc : pending (s.th t).pc = [])
    (ha : ∀ m, apply k op m = (k.add m v, none)) : Inv k zero progs (startAdd k s t op v) := by
  unfold startAdd
  split
  · refine inv_local h t _ (by rw [hpc]; rfl) (by rw [hpc]; rfl) (Nat.zero_le _) ?_
    intro v' old seen he
    cases he
    exact ⟨⟨op, ops, hp, ha⟩, Nat.le_refl _, fun _ => rfl⟩
  · exact inv_effect h t op ops _ _ hp hpc (ha _)

theorem inv_step {k : Kind V} {zero : V} {progs : Nat → List (Op V)} {s s' : St V} (h : Inv k zero progs s) (t : Nat)
    (hs : step k t s = some s') : Inv k zero progs s' := by
  unfold step at hs
  split at hs
  · cases hs
  · rename_i hpc _
    cases hs
    exact inv_local h t _ (by rw [hpc]; rfl) (by rw [hpc]; rfl) (Nat.zero_le _) (fun _ _ _ he => by cases he)
  · rename_i hpc hp
    cases hs
    exact inv_effect h t _ _ _ _ hp (by rw [hpc]; rfl) rfl
  · rename_i hpc hp
    cases hs
    exact inv_effect h t _ _ _ _ hp (by rw [hpc]; rfl) rfl
  · rename_i hpc hp
    cases hs
    exact inv_startAdd h t _ _ _ hp (by rw [hpc]; rfl) (fun _ => rfl)
  · rename_i hpc hp
    split at hs
    · rename_i hn
      cases hs
      exact inv_effect h t _ _ _ _ hp (by rw [hpc]; rfl) (by simp [apply, hn])
    · rename_i hn
      cases hs
      exact inv_startAdd h t _ _ _ hp (by rw [hpc]; rfl) (fun _ => by simp [apply, hn])
  · rename_i v old seen op ops hpc hp
    obtain ⟨⟨op', ops', hp', ha⟩, _, _⟩ := h.loaded t v old seen hpc
    rw [hp] at hp'
    cases hp'
    split at hs
    · rename_i hm
      cases hs
      exact inv_effect h t _ _ _ _ hp (by rw [hpc]; rfl) (by rw [ha, hm])
    · cases hs
      exact inv_local h t _ (by rw [hpc]; rfl) (by rw [hpc]; rfl) (Nat.zero_le _) (fun _ _ _ he => by cases he)
  · rename_i r op ops hpc hp
    cases hs
    exact inv_local h t _ (by rw [hpc]; simp [pending]) (by rw [hpc, hp]; rfl) (Nat.zero_le _) (fun _ _ _ he => by cases he)
  · cases hs

theorem inv_run {k : Kind V} {zero : V} {progs : Nat → List (Op V)} (sched : List Nat) {s : St V} (h : Inv k zero progs s) :
    Inv k zero progs (run k s sched) := by
  induction sched generalizing s with
  | nil => exact h
  | cons t sched ih =>
    refine ih ?_
    show Inv k zero progs ((step k t s).getD s)
    cases hs : step k t s with
    | none => exact h
    | some s' => exact inv_step h t hs

/-! ## Linearizability -/

omit [DecidableEq V] in
theorem pending_le (pc : PC V) : (pending pc).length ≤ 1 := by cases pc <;> simp [pending]

/-- Whatever the goroutines and the schedule, there is an order of calls, `log`, such that
- done one after the other in that order, the calls have the results they had and leave the value the
  entry has;
- each goroutine's calls are in it in the order the goroutine made them: those that have returned, with
  the results they returned, and perhaps the one it is in. -/
theorem linearizable (k : Kind V) (zero : V) (progs : Nat → List (Op V)) (sched : List Nat) :
    replay k zero (run k (start zero progs) sched).log = some (run k (start zero progs) sched).mem ∧
    ∀ t, (logOf t (run k (start zero progs) sched).log).map Lin.op <+: progs t ∧
      ((run k (start zero progs) sched).th t).results <+: (logOf t (run k (start zero progs) sched).log).map Lin.res ∧
      (logOf t (run k (start zero progs) sched).log).length ≤ ((run k (start zero progs) sched).th t).results.length + 1 := by
  have h := inv_run sched (inv_start k zero progs)
  refine ⟨h.replay, fun t => ⟨⟨_, h.ops t⟩, ⟨_, (h.res t).symm⟩, ?_⟩⟩
  have h1 := congrArg List.length (h.res t)
  have h2 := pending_le ((run k (start zero progs) sched).th t).pc
  simp only [List.length_map, List.length_append] at h1
  omega

theorem step_log {k : Kind V} {s s' : St V} {t : Nat} (hs : step k t s = some s') : s.log <+: s'.log := by
  have hadd : ∀ op v, s.log <+: (startAdd k s t op v).log := by
    intro op v
    unfold startAdd
    split
    · exact List.prefix_refl _
    · exact List.prefix_append _ _
  unfold step at hs
  split at hs
  · cases hs
  · cases hs; exact List.prefix_refl _
  · cases hs; exact List.prefix_append _ _
  · cases hs; exact List.prefix_append _ _
  · cases hs; exact hadd _ _
  · split at hs
    · cases hs; exact List.prefix_append _ _
    · cases hs; exact hadd _ _
  · split at hs
    · cases hs; exact List.prefix_append _ _
    · cases hs; exact List.prefix_refl _
  · cases hs; exact List.prefix_refl _
  · cases hs

theorem run_log (k : Kind V) (sched : List Nat) (s : St V) : s.log <+: (run k s sched).log := by
  induction sched generalizing s with
  | nil => exact List.prefix_refl _
  | cons t sched ih =>
    refine List.IsPrefix.trans ?_ (ih ((step k t s).getD s))
    cases hs : step k t s with
    | none => exact List.prefix_refl _
    | some s' => exact step_log hs

theorem run_append (k : Kind V) (s : St V) (a b : List Nat) : run k s (a ++ b) = run k (run k s a) b := by
  simp [run]

/-- The order respects time: what has returned at some moment is in it, a goroutine that is between calls
then has nothing more in it, and all that follows comes behind. -/
theorem respects_time (k : Kind V) (zero : V) (progs : Nat → List (Op V)) (a b : List Nat) :
    (run k (start zero progs) a).log <+: (run k (start zero progs) (a ++ b)).log ∧
    ∀ t, ((run k (start zero progs) a).th t).results.length ≤ (logOf t (run k (start zero progs) a).log).length ∧
      (((run k (start zero progs) a).th t).pc = .idle →
        (logOf t (run k (start zero progs) a).log).length = ((run k (start zero progs) a).th t).results.length) := by
  have h := inv_run a (inv_start k zero progs)
  refine ⟨by rw [run_append]; exact run_log _ _ _, fun t => ?_⟩
  have h1 := congrArg List.length (h.res t)
  simp only [List.length_map, List.length_append] at h1
  refine ⟨by omega, fun hi => ?_⟩
  rw [hi] at h1
  simpa [pending] using h1

/-- A goroutine goes round the loop again only if another call has taken effect since it loaded the
value: of any goroutines in the loop, one gets through. -/
theorem retry_only_after_progress (k : Kind V) (zero : V) (progs : Nat → List (Op V)) (sched : List Nat) (t : Nat)
    (v old : V) (seen : Nat) (hl : ((run k (start zero progs) sched).th t).pc = .loaded v old seen)
    (hs : ∀ s', step k t (run k (start zero progs) sched) = some s' → (s'.th t).pc = .run) :
    seen < (run k (start zero progs) sched).log.length := by
  have h := inv_run sched (inv_start k zero progs)
  obtain ⟨⟨op, ops, hp, _⟩, h2, h3⟩ := h.loaded t v old seen hl
  rcases Nat.lt_or_ge seen (run k (start zero progs) sched).log.length with hlt | hge
  · exact hlt
  · have hm := h3 (by omega)
    have := hs (effect (run k (start zero progs) sched) t op (k.add old v) none) (by
      unfold step; rw [hl, hp]; simp [hm])
    unfold effect at this
    rw [setTh_same] at this
    cases this

/-! ## Sums -/

section Sums

omit [DecidableEq V] in
theorem logOf_sum {M : Type} [AddCommMonoid M] (f : Op V → M) (n : Nat) (log : List (Lin V)) (h : ∀ l ∈ log, l.tid < n) :
    (log.map fun l => f l.op).sum = ∑ t ∈ Finset.range n, ((logOf t log).map fun l => f l.op).sum := by
  induction log with
  | nil => simp [logOf]
  | cons l log ih =>
    rw [List.map_cons, List.sum_cons, ih (fun x hx => h x (List.mem_cons_of_mem _ hx))]
    have hl := h l (by simp)
    have : ∀ t, ((logOf t (l :: log)).map fun l => f l.op).sum =
        (if t = l.tid then f l.op else 0) + ((logOf t log).map fun l => f l.op).sum := by
      intro t
      by_cases ht : l.tid = t
      · simp [logOf, ht]
      · rw [if_neg (Ne.symm ht)]
        simp [logOf, ht]
    simp only [this, Finset.sum_add_distrib]
    congr 1
    rw [Finset.sum_ite_eq' (Finset.range n) l.tid]
    simp [hl]

/-- The calls that took effect are those of the goroutines. -/
theorem tids {k : Kind V} {zero : V} {progs : Nat → List (Op V)} {s : St V} (h : Inv k zero progs s) (n : Nat)
    (hn : ∀ t, n ≤ t → progs t = []) : ∀ l ∈ s.log, l.tid < n := by
  intro l hl
  by_contra hc
  have h1 := h.ops l.tid
  rw [hn l.tid (by omega)] at h1
  have h2 : l ∈ logOf l.tid s.log := List.mem_filter.2 ⟨hl, by simp⟩
  have := List.append_eq_nil_iff.1 h1
  rw [List.map_eq_nil_iff.1 this.1] at h2
  cases h2

theorem finished_ops {k : Kind V} {zero : V} {progs : Nat → List (Op V)} {s : St V} (h : Inv k zero progs s) (t : Nat)
    (hf : (s.th t).prog = []) : (logOf t s.log).map Lin.op = progs t := by
  have h1 := h.ops t
  rw [hf] at h1
  simpa using h1

theorem mem_log_op {k : Kind V} {zero : V} {progs : Nat → List (Op V)} {s : St V} (h : Inv k zero progs s)
    (l : Lin V) (hl : l ∈ s.log) : l.op ∈ progs l.tid := by
  rw [← h.ops l.tid]
  exact List.mem_append_left _ (List.mem_map.2 ⟨l, List.mem_filter.2 ⟨hl, by simp⟩, rfl⟩)

/-- What an `Add` or `Inc` adds to an integer entry. -/
def delta : Op (BitVec 64) → BitVec 64
  | .add v => v
  | .inc v => if v.toInt ≤ 0 then 0 else v
  | _ => 0

theorem int_replay (log : List (Lin (BitVec 64))) (h : ∀ l ∈ log, ∀ v, l.op ≠ .set v) (m m' : BitVec 64)
    (hr : replay intKind m log = some m') : m' = m + (log.map fun l => delta l.op).sum := by
  induction log generalizing m with
  | nil => simp only [replay, Option.some.injEq] at hr; simp [hr]
  | cons l log ih =>
    simp only [replay] at hr
    split at hr
    · have := ih (fun x hx => h x (List.mem_cons_of_mem _ hx)) _ hr
      rw [this, List.map_cons, List.sum_cons, ← add_assoc]
      congr 1
      cases hop : l.op with
      | set v => exact absurd hop (h l (by simp) v)
      | add v => rfl
      | read => simp [apply, delta]
      | inc v =>
        by_cases hv : v.toInt ≤ 0
        · simp [apply, delta, intKind, hv]
        · simp [apply, delta, intKind, hv]
    · cases hr

/-- No addition is lost: whatever the schedule, once all goroutines have finished, an integer entry that
was not set is the sum of all that was added to it (in 64 bits). -/
theorem int_no_lost_update (progs : Nat → List (Op (BitVec 64))) (n : Nat) (hn : ∀ t, n ≤ t → progs t = [])
    (hset : ∀ t, ∀ op ∈ progs t, ∀ v, op ≠ .set v) (sched : List Nat)
    (hf : ∀ t < n, ((run intKind (start 0 progs) sched).th t).prog = []) :
    (run intKind (start 0 progs) sched).mem = ∑ t ∈ Finset.range n, ((progs t).map delta).sum := by
  have h := inv_run sched (inv_start intKind 0 progs)
  rw [int_replay _ (fun l hl => hset l.tid l.op (mem_log_op h l hl)) _ _ h.replay,
    logOf_sum delta n _ (tids h n hn), zero_add]
  apply Finset.sum_congr rfl
  intro t ht
  rw [← finished_ops h t (hf t (Finset.mem_range.1 ht)), List.map_map]
  rfl

/-- What an `Inc` adds to an integer cumulative, as a number. -/
def posPart : Op (BitVec 64) → Nat
  | .inc v => v.toInt.toNat
  | _ => 0

theorem delta_posPart (op : Op (BitVec 64)) (h : ∀ v, op ≠ .add v) : delta op = BitVec.ofNat 64 (posPart op) := by
  cases op with
  | set v => rfl
  | add v => exact absurd rfl (h v)
  | read => rfl
  | inc v =>
    simp only [delta, posPart]
    split
    · rename_i h0
      rw [Int.toNat_of_nonpos h0]; rfl
    · rename_i h0
      have hv : v.toInt = v.toNat := by
        rw [BitVec.toInt_eq_toNat_cond] at h0 ⊢
        split
        · rfl
        · rename_i h1
          rw [if_neg h1] at h0
          have := v.isLt
          omega
      apply BitVec.eq_of_toNat_eq
      rw [hv]
      simp

theorem sum_delta (log : List (Lin (BitVec 64))) (h : ∀ l ∈ log, ∀ v, l.op ≠ .add v) :
    (log.map fun l => delta l.op).sum = BitVec.ofNat 64 (log.map fun l => posPart l.op).sum := by
  induction log with
  | nil => rfl
  | cons l log ih =>
    rw [List.map_cons, List.map_cons, List.sum_cons, List.sum_cons, ih (fun x hx => h x (List.mem_cons_of_mem _ hx)),
      delta_posPart _ (h l (by simp)), BitVec.ofNat_add]

/-- An integer cumulative whose increments add up to less than 2^63 is, at every moment, the sum of the
positive increments that have taken effect. -/
theorem int_cumulative (progs : Nat → List (Op (BitVec 64))) (n : Nat) (hn : ∀ t, n ≤ t → progs t = [])
    (hops : ∀ t, ∀ op ∈ progs t, (∃ v, op = .inc v) ∨ op = .read)
    (hsum : ∑ t ∈ Finset.range n, ((progs t).map posPart).sum < 2 ^ 63) (sched : List Nat) :
    (run intKind (start 0 progs) sched).mem.toInt =
      ((run intKind (start 0 progs) sched).log.map fun l => posPart l.op).sum ∧
    ((run intKind (start 0 progs) sched).log.map fun l => posPart l.op).sum < 2 ^ 63 := by
  have h := inv_run sched (inv_start intKind 0 progs)
  have hset : ∀ l ∈ (run intKind (start 0 progs) sched).log, (∀ v, l.op ≠ .set v) ∧ ∀ v, l.op ≠ .add v := by
    intro l hl
    rcases hops l.tid l.op (mem_log_op h l hl) with ⟨v, hv⟩ | hv <;> rw [hv] <;> exact ⟨by simp, by simp⟩
  have hlt : ((run intKind (start 0 progs) sched).log.map fun l => posPart l.op).sum < 2 ^ 63 := by
    refine Nat.lt_of_le_of_lt ?_ hsum
    rw [logOf_sum posPart n _ (tids h n hn)]
    apply Finset.sum_le_sum
    intro t _
    have := h.ops t
    rw [← this, List.map_append, List.sum_append, List.map_map]
    exact Nat.le_add_right _ _
  refine ⟨?_, hlt⟩
  rw [int_replay _ (fun l hl => (hset l hl).1) _ _ h.replay, sum_delta _ (fun l hl => (hset l hl).2), zero_add,
    BitVec.toInt_eq_toNat_cond]
  simp only [BitVec.toNat_ofNat]
  rw [Nat.mod_eq_of_lt (by omega), if_pos (by omega)]

/-- Such a cumulative never decreases.

Partial: C40 says so without the bound on the sum, and then it fails: `int_cumulative_wraps`. -/
theorem int_cumulative_increases_partial (progs : Nat → List (Op (BitVec 64))) (n : Nat) (hn : ∀ t, n ≤ t → progs t = [])
    (hops : ∀ t, ∀ op ∈ progs t, (∃ v, op = .inc v) ∨ op = .read)
    (hsum : ∑ t ∈ Finset.range n, ((progs t).map posPart).sum < 2 ^ 63) (a b : List Nat) :
    (run intKind (start 0 progs) a).mem.toInt ≤ (run intKind (start 0 progs) (a ++ b)).mem.toInt := by
  rw [(int_cumulative progs n hn hops hsum a).1, (int_cumulative progs n hn hops hsum (a ++ b)).1]
  obtain ⟨l, hl⟩ := (respects_time intKind 0 progs a b).1
  rw [← hl, List.map_append, List.sum_append]
  push_cast
  omega

end Sums

/-! ## Floats -/

/-- The values a float cumulative can have: not NaN, not negative. -/
def Good (m : F64) : Prop := F64.Is m ∧ F64.IsNum m ∧ F64.lt m (.fin 0) = false

theorem inc_good (v m : F64) (hv : v ≠ .nan) (hm : Good m) :
    Good (apply floatKind (.inc v) m).1 ∧ F64.lt (apply floatKind (.inc v) m).1 m = false := by
  obtain ⟨h1, h2, h3⟩ := hm
  have ha : (apply floatKind (.inc v) m).1 = if floatKind.nonPos v = true then m else F64.add m v := rfl
  rw [ha]
  by_cases hn : floatKind.nonPos v = true
  · rw [if_pos hn]
    exact ⟨⟨h1, h2, h3⟩, F64.lt_irrefl _⟩
  · rw [if_neg hn]
    have hpos : F64.lt (.fin 0) v = true := by
      simp only [floatKind, Bool.or_eq_true, decide_eq_true_eq, not_or, Bool.not_eq_true] at hn
      cases v with
      | nan => exact absurd rfl hv
      | pinf => rfl
      | ninf => simp [F64.lt] at hn
      | fin q =>
        simp only [F64.lt, decide_eq_false_iff_not, not_lt, decide_eq_true_eq, F64.fin.injEq] at hn ⊢
        exact lt_of_le_of_ne hn.1 (Ne.symm hn.2)
    obtain ⟨a1, a2⟩ := F64.add_pos_ge m v h1 h2 hpos
    have hni : m ≠ .ninf := by rintro rfl; simp [F64.lt] at h3
    refine ⟨⟨F64.add_is _ _, a2 hni, F64.nlt_trans h2 a1 h3⟩, a1⟩

theorem float_replay (log : List (Lin F64)) (h : ∀ l ∈ log, (∃ v, l.op = .inc v ∧ v ≠ .nan) ∨ l.op = .read) (m m' : F64)
    (hm : Good m) (hr : replay floatKind m log = some m') : Good m' ∧ F64.lt m' m = false := by
  induction log generalizing m with
  | nil => simp only [replay, Option.some.injEq] at hr; subst hr; exact ⟨hm, F64.lt_irrefl _⟩
  | cons l log ih =>
    simp only [replay] at hr
    split at hr
    · have hstep : Good (apply floatKind l.op m).1 ∧ F64.lt (apply floatKind l.op m).1 m = false := by
        rcases h l (by simp) with ⟨v, hv, hn⟩ | hv
        · rw [hv]; exact inc_good v m hn hm
        · rw [hv]; exact ⟨hm, F64.lt_irrefl _⟩
      obtain ⟨i1, i2⟩ := ih (fun x hx => h x (List.mem_cons_of_mem _ hx)) _ hstep.1 hr
      exact ⟨i1, F64.nlt_trans hstep.1.2.1 i2 hstep.2⟩
    · cases hr

theorem good_zero : Good (.fin 0) := by
  refine ⟨fun q hq => ?_, by simp [F64.IsNum], F64.lt_irrefl _⟩
  cases hq
  simp [F64.Valid, F64.rnd]

/-- A float cumulative never decreases, whatever the schedule, if it is not incremented by NaN. It is
never NaN or negative, so readings are its value.

Partial: C40 says so for all increments, and with NaN it fails: `float_cumulative_nan`. -/
theorem float_cumulative_increases_partial (progs : Nat → List (Op F64))
    (hops : ∀ t, ∀ op ∈ progs t, (∃ v, op = .inc v ∧ v ≠ .nan) ∨ op = .read) (a b : List Nat) :
    F64.lt (run floatKind (start (.fin 0) progs) (a ++ b)).mem (run floatKind (start (.fin 0) progs) a).mem = false ∧
    Good (run floatKind (start (.fin 0) progs) a).mem := by
  have ha := inv_run a (inv_start floatKind (.fin 0) progs)
  have hb := inv_run (a ++ b) (inv_start floatKind (.fin 0) progs)
  have hga := (float_replay _ (fun l hl => hops l.tid l.op (mem_log_op ha l hl)) _ _ good_zero ha.replay).1
  obtain ⟨l, hl⟩ := (respects_time floatKind (.fin 0) progs a b).1
  have hr := hb.replay
  rw [← hl, replay_append, ha.replay] at hr
  refine ⟨(float_replay l (fun x hx => hops x.tid x.op (mem_log_op hb x ?_)) _ _ hga hr).2, hga⟩
  rw [← hl]; exact List.mem_append_right _ hx

/-- The readings of a cumulative, in the order they took effect, never decrease. -/
theorem readings_increase (progs : Nat → List (Op F64))
    (hops : ∀ t, ∀ op ∈ progs t, (∃ v, op = .inc v ∧ v ≠ .nan) ∨ op = .read) (sched : List Nat)
    (x y z : List (Lin F64)) (t u : Nat) (r s : F64)
    (h : (run floatKind (start (.fin 0) progs) sched).log = x ++ ⟨t, .read, some r⟩ :: y ++ ⟨u, .read, some s⟩ :: z) :
    F64.lt s r = false := by
  have hi := inv_run sched (inv_start floatKind (.fin 0) progs)
  have hr := hi.replay
  have hok : ∀ l ∈ (run floatKind (start (.fin 0) progs) sched).log, (∃ v, l.op = .inc v ∧ v ≠ .nan) ∨ l.op = .read :=
    fun l hl => hops l.tid l.op (mem_log_op hi l hl)
  rw [h] at hok
  rw [h, List.append_assoc, replay_append] at hr
  cases hx : replay floatKind (.fin 0) x with
  | none => rw [hx] at hr; cases hr
  | some m =>
    rw [hx] at hr
    simp only [Option.bind_some, List.cons_append, replay] at hr
    split at hr
    · rename_i e1
      rw [replay_append] at hr
      cases hy : replay floatKind (apply floatKind .read m).1 y with
      | none => rw [hy] at hr; cases hr
      | some m' =>
        rw [hy] at hr
        simp only [Option.bind_some, replay] at hr
        split at hr
        · rename_i e2
          have g1 := (float_replay x (fun l hl => hok l (by simp [hl])) _ _ good_zero hx).1
          obtain ⟨g2, g3⟩ := float_replay y (fun l hl => hok l (by simp [hl])) m m' g1 hy
          simp only [apply, Option.some.injEq] at e1 e2
          have c1 : floatKind.clamp m = m := by simp [floatKind, g1.2.2]
          have c2 : floatKind.clamp m' = m' := by simp [floatKind, g2.2.2]
          rw [c1] at e1; rw [c2] at e2
          rw [← e1, ← e2]; exact g3
        · cases hr
    · cases hr

/-- Additions of integers to a float entry. -/
def intOp (n : Int) : Op F64 := .add (.fin n)

theorem float_sum (log : List (Lin F64)) (ns : List Int) (hl : log.map Lin.op = ns.map intOp) (m : Int) (m' : F64)
    (hb : m.natAbs + (ns.map Int.natAbs).sum ≤ 2 ^ 53) (hr : replay floatKind (.fin m) log = some m') :
    m' = .fin ((m + ns.sum : Int) : Rat) := by
  induction log generalizing ns m with
  | nil =>
    have : ns = [] := by
      cases ns with
      | nil => rfl
      | cons => cases hl
    subst this
    simp only [replay, Option.some.injEq] at hr
    simp [← hr]
  | cons l log ih =>
    cases ns with
    | nil => cases hl
    | cons n ns =>
      simp only [List.map_cons, List.cons.injEq] at hl
      simp only [List.map_cons, List.sum_cons] at hb ⊢
      simp only [replay] at hr
      split at hr
      · rw [hl.1] at hr
        have he : (apply floatKind (intOp n) (.fin m)).1 = .fin ((m + n : Int) : Rat) := by
          show F64.rnd ((m : Rat) + n) = _
          rw [← F64.rnd_int (m + n) (by omega)]
          push_cast; rfl
        rw [he] at hr
        rw [ih ns hl.2 (m + n) (by omega) hr, add_assoc]
      · cases hr

/-- No addition is lost in a float entry either: if goroutines add integers whose absolute values add up
to at most 2^53, so that no sum is rounded, then once all have finished the value is their sum. -/
theorem float_no_lost_update (progs : Nat → List Int) (n : Nat) (hn : ∀ t, n ≤ t → progs t = [])
    (hb : ∑ t ∈ Finset.range n, ((progs t).map Int.natAbs).sum ≤ 2 ^ 53) (sched : List Nat)
    (hf : ∀ t < n, ((run floatKind (start (.fin 0) fun t => (progs t).map intOp) sched).th t).prog = []) :
    (run floatKind (start (.fin 0) fun t => (progs t).map intOp) sched).mem =
      .fin ((∑ t ∈ Finset.range n, (progs t).sum : Int) : Rat) := by
  have h := inv_run sched (inv_start floatKind (.fin 0) fun t => (progs t).map intOp)
  generalize run floatKind (start (.fin 0) fun t => (progs t).map intOp) sched = s at h hf
  -- the numbers, in the order they were added
  let num : Op F64 → Int := fun op => match op with
    | .add (.fin q) => q.num
    | _ => 0
  have hnum : ∀ k : Int, num (intOp k) = k := fun k => rfl
  have hall : ∀ l ∈ s.log, l.op = intOp (num l.op) := by
    intro l hl
    obtain ⟨k, _, hk⟩ := List.mem_map.1 (mem_log_op h l hl)
    rw [← hk, hnum]
  have hmap : s.log.map Lin.op = (s.log.map fun l => num l.op).map intOp := by
    rw [List.map_map]
    exact List.map_congr_left (fun l hl => hall l hl)
  have hs := logOf_sum num n s.log (tids h n (fun t ht => by simp [hn t ht]))
  have hs2 := logOf_sum (fun op => (num op).natAbs) n s.log (tids h n (fun t ht => by simp [hn t ht]))
  have hfin : ∀ t, (logOf t s.log).map Lin.op = (progs t).map intOp := by
    intro t
    by_cases ht : t < n
    · exact finished_ops h t (hf t ht)
    · have := h.ops t
      simp only [hn t (by omega), List.map_nil, List.append_eq_nil_iff] at this ⊢
      exact this.1
  have e1 : ∀ t, ((logOf t s.log).map fun l => num l.op) = progs t := by
    intro t
    have := congrArg (List.map num) (hfin t)
    rw [List.map_map, List.map_map] at this
    have hid : (num ∘ intOp) = id := by funext k; exact hnum k
    rw [hid, List.map_id] at this
    exact this
  have e2 : ∀ t, ((logOf t s.log).map fun l => (num l.op).natAbs) = (progs t).map Int.natAbs := by
    intro t
    rw [← e1 t, List.map_map]; rfl
  have := float_sum s.log (s.log.map fun l => num l.op) hmap 0 s.mem (by
    rw [List.map_map]
    have hc : (Int.natAbs ∘ fun l : Lin F64 => num l.op) = fun l => (num l.op).natAbs := rfl
    rw [hc, hs2]
    simp only [e2]
    simpa using hb) (by simpa using h.replay)
  rw [this, zero_add, hs]
  simp only [e1]

/-! ## Where the code differs -/

/-- Increments that add up to 2^63 or more: the reading falls, here from 2^63 - 1 to 0. -/
theorem int_cumulative_wraps :
    let progs : Nat → List (Op (BitVec 64)) := fun t => if t = 0 then [.inc 0x7fffffffffffffff, .read, .inc 1, .read] else []
    ((run intKind (start 0 progs) (List.replicate 12 0)).th 0).results =
      [none, some 0x7fffffffffffffff, none, some 0] := by decide +kernel

/-- An increment by NaN is not ignored and makes the cumulative NaN for ever. -/
theorem float_cumulative_nan :
    let progs : Nat → List (Op F64) := fun t => if t = 0 then [.inc (.fin 1), .read, .inc .nan, .read, .inc (.fin 1), .read] else []
    ((run floatKind (start (.fin 0) progs) (List.replicate 24 0)).th 0).results =
      [none, some (.fin 1), none, some .nan, none, some .nan] := by decide +kernel

/-- A gauge that is negative reads as zero: the reading is not the sum of the additions. -/
theorem gauge_reads_negative_as_zero :
    let progs : Nat → List (Op (BitVec 64)) := fun t => if t = 0 then [.add (-5), .read, .add 7, .read] else []
    ((run intKind (start 0 progs) (List.replicate 12 0)).th 0).results = [none, some 0, none, some 2] := by decide +kernel

/-! ## Cases -/

/-- Two goroutines that both load before either swaps: one goes round again, and no addition is lost. -/
example :
    let progs : Nat → List (Op F64) := fun t => if t = 0 then [.add (.fin 1), .read] else if t = 1 then [.add (.fin 2)] else []
    let s := run floatKind (start (.fin 0) progs) [0, 1, 0, 1, 0, 1, 1, 1, 1, 0, 0, 0, 0]
    s.mem = .fin 3 ∧ (s.th 0).results = [none, some (.fin 3)] ∧ (s.th 1).results = [none] := by decide +kernel

/-- The hypotheses of `float_no_lost_update` and `int_no_lost_update`. -/
example : ∀ t < 2, ((run floatKind (start (.fin 0) fun t => (if t < 2 then [(3 : Int), -1] else []).map intOp)
    [0, 1, 0, 1, 0, 1, 1, 1, 1, 1, 1, 1, 1, 0, 0, 0, 0, 0]).th t).prog = [] := by decide +kernel

example : ∀ t < 2, ((run intKind (start 0 fun t => if t < 2 then [.inc 3, .add (-1)] else [])
    [0, 1, 0, 1, 0, 1, 1, 1, 1, 1, 1, 0, 0, 0]).th t).prog = [] := by decide +kernel

end Verif.Props.Entry
