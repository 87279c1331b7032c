import Verif.Grpc.Stats
import Mathlib.Algebra.BigOperators.Fin
import Mathlib.Algebra.BigOperators.Group.Finset.Piecewise
import Mathlib.Algebra.BigOperators.Group.Finset.Basic

/-! Helper lemmas about the gRPC plugin: what every schedule keeps. -/

namespace Verif.Grpc
open Verif Verif.Trace

/-- What thread `i` has left to do. -/
def State.todo (s : State) (i : Nat) : List Micro := (s.threads[i]?.map (·.todo)).getD []
def State.loaded (s : State) (i : Nat) : List Int := (s.threads[i]?.map (·.loaded)).getD []
/-- What came from thread `i`. -/
def State.outs (s : State) (i : Nat) : List Out := (s.out.filter fun o => o.1 = i).map (·.2)

/-- What the additions in a list of steps add to a field. -/
def adds (f : Field) : List Micro → Int
  | [] => 0
  | .add g n :: l => (if g = f then n else 0) + adds f l
  | _ :: l => adds f l

/-- An addition to the field. -/
def isAdd (f : Field) : Micro → Bool
  | .add g _ => decide (g = f)
  | _ => false

def loads : List Micro → List Field
  | [] => []
  | .load f :: l => f :: loads l
  | _ :: l => loads l

/-- What a list of steps sends out, given the loaded values. -/
def outsOf (c : Ctx) (vs : List Int) : List Micro → List Out
  | [] => []
  | .trace op :: l => .trace op :: outsOf c vs l
  | .recordStarted cl :: l => startedRecord c cl ++ outsOf c vs l
  | .recordEnd cl st :: l => endRecord c cl st vs ++ outsOf c vs l
  | _ :: l => outsOf c vs l

theorem adds_append (f : Field) (l l' : List Micro) : adds f (l ++ l') = adds f l + adds f l' := by
  induction l with
  | nil => simp [adds]
  | cons m l ih => cases m <;> simp [adds, ih, Int.add_assoc]

theorem loads_append (l l' : List Micro) : loads (l ++ l') = loads l ++ loads l' := by
  induction l with
  | nil => rfl
  | cons m l ih => cases m <;> simp [loads, ih]

theorem outsOf_append (c : Ctx) (vs : List Int) (l l' : List Micro) :
    outsOf c vs (l ++ l') = outsOf c vs l ++ outsOf c vs l' := by
  induction l with
  | nil => rfl
  | cons m l ih => cases m <;> simp [outsOf, ih]

/-- No end record. -/
def NoEnd (l : List Micro) : Prop := ∀ cl st, Micro.recordEnd cl st ∉ l

theorem outsOf_congr {c : Ctx} {l : List Micro} (h : NoEnd l) (vs vs' : List Int) : outsOf c vs l = outsOf c vs' l := by
  induction l with
  | nil => rfl
  | cons m l ih =>
    have h' : NoEnd l := fun cl st hm => h cl st (by simp [hm])
    cases m with
    | recordEnd cl st => exact absurd (by simp) (h cl st)
    | _ => simp [outsOf, ih h']

theorem wrap64_wrap (a b : Int) : wrap64 (wrap64 a + b) = wrap64 (a + b) := by unfold wrap64; omega

/-! ## Shapes of the handlers -/

/-- A step of the handler is at a position: a list split in `handleRPC`. -/
theorem load_noEnd {c : Ctx} {order : List Bytes} {e : Event} {pre rest : List Micro} {f : Field}
    (h : handleRPC c order e = pre ++ .load f :: rest) : NoEnd pre := by
  intro cl st hm
  have key : ∀ (l : List Micro), (∀ a b p q, l ≠ p ++ .recordEnd a b :: q ∨ q = []) → ∀ pre rest, l = pre ++ .load f :: rest →
      Micro.recordEnd cl st ∉ pre := by
    intro l hl pre rest heq hm
    obtain ⟨p, q, hpq⟩ := List.append_of_mem hm
    rcases hl cl st p (q ++ .load f :: rest) with h1 | h1
    · exact h1 (by rw [heq, hpq]; simp)
    · simp at h1
  refine key (handleRPC c order e) ?_ pre rest h hm
  intro a b p q
  by_cases hq : q = []
  · exact .inr hq
  left
  intro he
  have hrev := congrArg List.reverse he
  have hq' : q.reverse ≠ [] := by simpa using hq
  obtain ⟨z, zs, hz⟩ := List.exists_cons_of_ne_nil hq'
  simp only [List.reverse_append, List.reverse_cons, hz, List.append_assoc, List.cons_append] at hrev
  have hmem : Micro.recordEnd a b ∈ zs ++ ([Micro.recordEnd a b] ++ p.reverse) := by simp
  have : ∀ (l : List Micro), (handleRPC c order e).reverse = z :: l → Micro.recordEnd a b ∉ l := by
    intro l hl
    unfold handleRPC traceHandleRPC statsHandleRPC at hl
    cases e with
    | «end» cl err =>
      cases hm : c.method.isNone <;> cases err <;> simp [hm] at hl <;> (obtain ⟨_, rfl⟩ := hl; simp)
    | begin cl ff => cases hm : c.method.isNone <;> simp [hm] at hl <;> (obtain ⟨_, rfl⟩ := hl; simp)
    | outPayload n w => cases hm : c.method.isNone <;> simp [hm] at hl <;> (obtain ⟨_, rfl⟩ := hl; simp)
    | inPayload n w => cases hm : c.method.isNone <;> simp [hm] at hl <;> (obtain ⟨_, rfl⟩ := hl; simp)
    | header => simp at hl
  exact this _ hrev hmem

/-- The position of thread `i` in its handler. -/
structure At (c : Ctx) (order : List Bytes) (e : Event) (s : State) (i : Nat) (pre : List Micro) : Prop where
  split : handleRPC c order e = pre ++ s.todo i
  nload : (s.loaded i).length = (loads pre).length
  out : s.outs i = outsOf c (s.loaded i) pre

structure Inv (c : Ctx) (order : List Bytes) (evs : List Event) (s : State) : Prop where
  ctx : s.ctx = c
  len : s.threads.length = evs.length
  pos : ∀ i (h : i < evs.length), ∃ pre, At c order evs[i] s i pre
  count : ∀ f, s.count f = wrap64 (∑ i : Fin evs.length, (adds f (handleRPC c order evs[i]) - adds f (s.todo i)))
  ids : ∀ o ∈ s.out, o.1 < evs.length

theorem inv_init (c : Ctx) (order : List Bytes) (evs : List Event) : Inv c order evs (State.init c order evs) := by
  have ht : ∀ i (h : i < evs.length), (State.init c order evs).todo i = handleRPC c order evs[i] := by
    intro i h
    simp [State.todo, State.init, List.getElem?_eq_getElem h]
  refine ⟨rfl, by simp [State.init], ?_, ?_, ?_⟩
  · intro i h
    refine ⟨[], ?_, ?_, ?_⟩
    · rw [ht i h]; rfl
    · simp [State.loaded, State.init, List.getElem?_eq_getElem h, loads]
    · simp [State.outs, State.init, outsOf]
  · intro f
    have : ∀ i : Fin evs.length, adds f (handleRPC c order evs[i]) - adds f ((State.init c order evs).todo i) = 0 := by
      intro i; rw [ht i i.2]; simp
    rw [Finset.sum_congr rfl fun i _ => this i]
    simp [State.init, wrap64]
  · simp [State.init]

/-- A step of thread `t`: its first step goes, and what that does. -/
theorem step_eq {s s' : State} {t : Nat} (h : s.step t = some s') :
    ∃ m rest, s.panicked = false ∧ s.todo t = m :: rest ∧ t < s.threads.length ∧ s'.ctx = s.ctx ∧
      (m ≠ .panic → s'.panicked = false ∧ s'.threads.length = s.threads.length ∧ s'.todo t = rest ∧
        (∀ i, i ≠ t → s'.todo i = s.todo i ∧ s'.loaded i = s.loaded i) ∧
        s'.loaded t = s.loaded t ++ (loads [m]).map s.count ∧
        s'.out = s.out ++ (outsOf s.ctx (s.loaded t) [m]).map (fun o => (t, o)) ∧
        (∀ f, s'.count f = if isAdd f m then wrap64 (s.count f + adds f [m]) else s.count f)) ∧
      (m = .panic → s' = { s with panicked := true }) := by
  unfold State.step at h
  cases hp : s.panicked with
  | true => rw [hp] at h; simp at h
  | false =>
    rw [hp] at h
    simp only [Bool.false_eq_true, if_false] at h
    cases hth : s.threads[t]? with
    | none => rw [hth] at h; simp at h
    | some th =>
      rw [hth] at h
      simp only at h
      have hlt : t < s.threads.length := by
        obtain ⟨hlt, _⟩ := List.getElem?_eq_some_iff.1 hth
        exact hlt
      obtain ⟨td, ld⟩ := th
      cases td with
      | nil => simp at h
      | cons m rest =>
        simp only at h
        refine ⟨m, rest, rfl, by simp [State.todo, hth], hlt, ?_, ?_, ?_⟩
        · cases m <;> simp only [Option.some.injEq] at h <;> subst h <;> rfl
        · intro hm
          have hset : ∀ (l : List Int) i, i ≠ t → (s.threads.set t ⟨rest, l⟩)[i]? = s.threads[i]? := fun l i hi =>
            List.getElem?_set_ne (Ne.symm hi)
          have hself : ∀ (l : List Int), (s.threads.set t ⟨rest, l⟩)[t]? = some ⟨rest, l⟩ := by
            intro l; simp [hlt]
          have hl : s.loaded t = ld := by simp [State.loaded, hth]
          cases m with
          | panic => exact absurd rfl hm
          | trace op =>
            simp only [Option.some.injEq] at h; subst h
            refine ⟨rfl, by simp, by simp [State.todo, hself], fun i hi => ?_, by simp [State.loaded, hself, hth, loads], by simp [outsOf], fun f => by simp [isAdd]⟩
            simp [State.todo, State.loaded, hset _ _ hi]
          | add f n =>
            simp only [Option.some.injEq] at h; subst h
            refine ⟨rfl, by simp, by simp [State.todo, hself], fun i hi => ?_, by simp [State.loaded, hself, hth, loads], by simp [outsOf], fun g => ?_⟩
            · simp [State.todo, State.loaded, hset _ _ hi]
            · by_cases hg : g = f
              · subst hg; simp [adds, isAdd]
              · simp [isAdd, hg, Ne.symm hg]
          | load f =>
            simp only [Option.some.injEq] at h; subst h
            refine ⟨rfl, by simp, by simp [State.todo, hself], fun i hi => ?_, by simp [State.loaded, hself, hth, loads], by simp [outsOf], fun f => by simp [isAdd]⟩
            simp [State.todo, State.loaded, hset _ _ hi]
          | recordStarted cl =>
            simp only [Option.some.injEq] at h; subst h
            refine ⟨rfl, by simp, by simp [State.todo, hself], fun i hi => ?_, by simp [State.loaded, hself, hth, loads], by simp [outsOf], fun f => by simp [isAdd]⟩
            simp [State.todo, State.loaded, hset _ _ hi]
          | recordEnd cl st =>
            simp only [Option.some.injEq] at h; subst h
            refine ⟨rfl, by simp, by simp [State.todo, hself], fun i hi => ?_, by simp [State.loaded, hself, hth, loads], by simp [outsOf, hl], fun f => by simp [isAdd]⟩
            simp [State.todo, State.loaded, hset _ _ hi]
        · intro hm; subst hm; simp only [Option.some.injEq] at h; exact h.symm

theorem outs_append {s s' : State} {t : Nat} {l : List Out} (h : s'.out = s.out ++ l.map (fun o => (t, o))) (i : Nat) :
    s'.outs i = s.outs i ++ if i = t then l else [] := by
  unfold State.outs
  rw [h, List.filter_append, List.map_append]
  congr 1
  by_cases hi : i = t
  · subst hi
    rw [List.filter_eq_self.2 (by simp)]
    simp
  · rw [if_neg hi, List.filter_eq_nil_iff.2]
    · rfl
    · simp; intro _ _; exact fun h => hi h.symm

theorem inv_step {c : Ctx} {order : List Bytes} {evs : List Event} {s s' : State} {t : Nat}
    (hI : Inv c order evs s) (h : s.step t = some s') : Inv c order evs s' := by
  obtain ⟨m, rest, hp, htd, hlt, hctx, h1, h2⟩ := step_eq h
  by_cases hm : m = .panic
  · have := h2 hm
    subst this
    exact ⟨hI.ctx, hI.len, fun i hi => (hI.pos i hi).imp fun _ a => ⟨a.split, a.nload, a.out⟩, hI.count, hI.ids⟩
  obtain ⟨_, hlen, htd', hoth, hld, hout, hcnt⟩ := h1 hm
  have hlt' : t < evs.length := hI.len ▸ hlt
  refine ⟨hctx.trans hI.ctx, hlen.trans hI.len, ?_, ?_, ?_⟩
  · intro i hi
    obtain ⟨pre, ha⟩ := hI.pos i hi
    by_cases hit : i = t
    · subst hit
      have hsp := ha.split
      rw [htd] at hsp
      refine ⟨pre ++ [m], ?_, ?_, ?_⟩
      · rw [htd', hsp]; simp
      · rw [hld, loads_append, List.length_append, List.length_append, ha.nload]; simp
      · rw [outs_append hout, if_pos rfl, ha.out, hld, outsOf_append, hI.ctx]
        cases m with
        | load f =>
          have hne := load_noEnd hsp
          simp only [loads, List.map, outsOf, List.append_nil]
          exact outsOf_congr hne _ _
        | _ => simp [loads]
    · refine ⟨pre, ?_, ?_, ?_⟩
      · rw [(hoth i hit).1]; exact ha.split
      · rw [(hoth i hit).2]; exact ha.nload
      · rw [outs_append hout, if_neg hit, List.append_nil, (hoth i hit).2]; exact ha.out
  · intro f
    have hsum : ∑ i : Fin evs.length, (adds f (handleRPC c order evs[i]) - adds f (s'.todo i)) =
        ∑ i : Fin evs.length, (adds f (handleRPC c order evs[i]) - adds f (s.todo i)) + adds f [m] := by
      have hd : adds f [m] = ∑ i : Fin evs.length, if i = ⟨t, hlt'⟩ then adds f [m] else 0 := by
        rw [Finset.sum_ite_eq']; simp
      conv => rhs; rw [hd]
      rw [← Finset.sum_add_distrib]
      apply Finset.sum_congr rfl
      intro i _
      by_cases hi : i = ⟨t, hlt'⟩
      · subst hi
        simp only [if_true]
        rw [htd', htd]
        have : adds f (m :: rest) = adds f [m] + adds f rest := adds_append f [m] rest
        omega
      · rw [if_neg hi, (hoth i (fun he => hi (Fin.ext he))).1]; omega
    rw [hcnt f, hI.count f, hsum]
    by_cases ha : isAdd f m = true
    · rw [if_pos ha, wrap64_wrap]
    · rw [if_neg ha]
      have : adds f [m] = 0 := by
        cases m with
        | add g n =>
          have : g ≠ f := fun hg => ha (by simp [isAdd, hg])
          simp [adds, this]
        | _ => simp [adds]
      rw [this, Int.add_zero]
  · intro o ho
    rw [hout] at ho
    rcases List.mem_append.1 ho with ho | ho
    · exact hI.ids o ho
    · obtain ⟨x, _, rfl⟩ := List.mem_map.1 ho; exact hlt'

theorem inv_run {c : Ctx} {order : List Bytes} {evs : List Event} {s s' : State} {sched : List Nat}
    (hI : Inv c order evs s) (h : s.run sched = some s') : Inv c order evs s' := by
  induction sched generalizing s with
  | nil => simp only [State.run, Option.some.injEq] at h; subst h; exact hI
  | cons t ts ih =>
    simp only [State.run] at h
    cases hs : s.step t with
    | none => rw [hs] at h; cases h
    | some s1 => rw [hs] at h; exact ih (inv_step hI hs) h

/-- Finished threads stay finished. -/
theorem todo_nil_run {s s' : State} {sched : List Nat} (h : s.run sched = some s') {i : Nat} (hi : s.todo i = []) :
    s'.todo i = [] := by
  induction sched generalizing s with
  | nil => simp only [State.run, Option.some.injEq] at h; subst h; exact hi
  | cons t ts ih =>
    simp only [State.run] at h
    cases hs : s.step t with
    | none => rw [hs] at h; cases h
    | some s1 =>
      rw [hs] at h
      refine ih h ?_
      obtain ⟨m, rest, _, htd, _, _, h1, h2⟩ := step_eq hs
      by_cases hm : m = .panic
      · rw [h2 hm]; exact hi
      · by_cases hit : i = t
        · subst hit; rw [hi] at htd; cases htd
        · rw [((h1 hm).2.2.2.1 i hit).1]; exact hi

/-- The threads get ever less to do. -/
theorem todo_length_run {s s' : State} {sched : List Nat} (h : s.run sched = some s') (i : Nat) :
    (s'.todo i).length ≤ (s.todo i).length := by
  induction sched generalizing s with
  | nil => simp only [State.run, Option.some.injEq] at h; subst h; exact Nat.le_refl _
  | cons t ts ih =>
    simp only [State.run] at h
    cases hs : s.step t with
    | none => rw [hs] at h; cases h
    | some s1 =>
      rw [hs] at h
      refine Nat.le_trans (ih h) ?_
      obtain ⟨m, rest, _, htd, _, _, h1, h2⟩ := step_eq hs
      by_cases hm : m = .panic
      · rw [h2 hm]; exact Nat.le_refl _
      · by_cases hit : i = t
        · subst hit; rw [(h1 hm).2.2.1, htd]; simp
        · rw [((h1 hm).2.2.2.1 i hit).1]

theorem run_append {s : State} {a b : List Nat} : s.run (a ++ b) = (s.run a).bind fun s => s.run b := by
  induction a generalizing s with
  | nil => rfl
  | cons t ts ih =>
    simp only [List.cons_append, State.run]
    cases s.step t with
    | none => rfl
    | some s1 => exact ih

end Verif.Grpc
