import Verif.Conc.Object

/-!
# Calls on a shared object take effect one at a time

What has to be checked of the methods of an object, one access at a time (`Correct`), and what then holds of every
execution.
-/

namespace Verif.Conc
variable {S Op L R : Type}

/-! ## What an execution is to satisfy -/

/-- The calls that took effect, in order. -/
def tooks (log : List (Ev Op R)) : List (Id × Op × R) := log.filterMap fun e => match e with
  | .took id op r => some (id, op, r)
  | _ => none

/-- Made one after the other from `s`, the calls lead to `s'`, with these results. -/
inductive Runs (spec : Op → S → S → R → Prop) : S → List (Id × Op × R) → S → Prop where
  | nil (s : S) : Runs spec s [] s
  | snoc {s s' s'' : S} {l : List (Id × Op × R)} {id : Id} {op : Op} {r : R} :
    Runs spec s l s' → spec op s' s'' r → Runs spec s (l ++ [(id, op, r)]) s''

/-- The execution is as if the calls were made one after the other. -/
structure Linear (spec : Op → S → S → R → Prop) (s : S) (log : List (Ev Op R)) (s' : S) : Prop where
  /-- in the order in which they took effect, with the results they had -/
  runs : Runs spec s (tooks log) s'
  /-- no call takes effect twice -/
  once : ((tooks log).map Prod.fst).Nodup
  /-- a call takes effect after it is made -/
  call : ∀ p q id op r, log = p ++ .took id op r :: q → .called id op ∈ p
  /-- a call takes effect before it returns, and returns the result it had then -/
  ret : ∀ p q id r, log = p ++ .returned id r :: q → ∃ op, .took id op r ∈ p
  /-- calls are made once -/
  calls : ∀ p q id op, log = p ++ .called id op :: q → ∀ op', .called id op' ∉ p

/-! ## What has to be checked -/

/-- Both can hold the lock at a time. -/
def compat : Mode → Mode → Prop
  | .none, _ => True
  | _, .none => True
  | .read, .read => True
  | _, _ => False

structure Correct (O : Object S Op L R) (spec : Op → S → S → R → Prop) (I : S → Prop) where
  /-- how the lock is held there -/
  mode : L → Mode
  /-- the result, once the call has taken effect -/
  res : L → Option R
  /-- what the local state has to do with the memory -/
  J : Op → L → S → Prop
  enter : ∀ op, mode (O.enter op) = .none ∧ res (O.enter op) = none ∧ ∀ s, I s → O.can op s = true → J op (O.enter op) s
  read : ∀ {op l s c l'}, I s → J op l s → O.act op l s c = some (.read l') →
    mode l' = mode l ∧ res l' = res l ∧ J op l' s
  eff : ∀ {op l s c s' l' r}, I s → J op l s → O.act op l s c = some (.eff s' l' r) →
    mode l' = mode l ∧ res l = none ∧ res l' = some r ∧ spec op s s' r ∧ I s' ∧ J op l' s' ∧
      ∀ op2 l2, compat (mode l) (mode l2) → J op2 l2 s → J op2 l2 s'
  lock : ∀ {op l s c l'}, I s → J op l s → O.act op l s c = some (.lock l') →
    mode l = .none ∧ mode l' = .write ∧ res l' = res l ∧ J op l' s
  unlock : ∀ {op l s c l'}, I s → J op l s → O.act op l s c = some (.unlock l') →
    mode l = .write ∧ mode l' = .none ∧ res l' = res l ∧ J op l' s
  rlock : ∀ {op l s c l'}, I s → J op l s → O.act op l s c = some (.rlock l') →
    mode l = .none ∧ mode l' = .read ∧ res l' = res l ∧ J op l' s
  runlock : ∀ {op l s c l'}, I s → J op l s → O.act op l s c = some (.runlock l') →
    mode l = .read ∧ mode l' = .none ∧ res l' = res l ∧ J op l' s
  ret : ∀ {op l s c r}, I s → J op l s → O.act op l s c = some (.ret r) → mode l = .none ∧ res l = some r
  panic : ∀ {op l s c}, I s → J op l s → O.act op l s c ≠ some .panic
  live : ∀ {op l s}, I s → J op l s → ∃ c x, O.act op l s c = some x

/-! ## The invariant -/

variable {O : Object S Op L R} {spec : Op → S → S → R → Prop} {I : S → Prop}

structure Inv (K : Correct O spec I) (s0 : S) (st : St S Op L R) : Prop where
  ok : st.crashed = false
  mem : I st.mem
  local_ : ∀ t op l, st.pc t = some (op, l) → K.J op l st.mem
  writer : ∀ t, st.writer = some t ↔ ∃ op l, st.pc t = some (op, l) ∧ K.mode l = .write
  reader : ∀ t, t ∈ st.readers ↔ ∃ op l, st.pc t = some (op, l) ∧ K.mode l = .read
  nodup : st.readers.Nodup
  excl : ∀ t, st.writer = some t → st.readers = []
  lin : Linear spec s0 st.log st.mem
  made : ∀ t op l, st.pc t = some (op, l) → 0 < st.made t ∧ .called (st.cur t) op ∈ st.log ∧
    (∀ r, .returned (st.cur t) r ∉ st.log) ∧
    (match K.res l with
      | none => ∀ op' r, .took (st.cur t) op' r ∉ st.log
      | some r => .took (st.cur t) op r ∈ st.log)
  fresh : ∀ e ∈ st.log, match e with
    | .called id _ => id.2 < st.made id.1
    | .took id _ _ => id.2 < st.made id.1
    | .returned id _ => id.2 < st.made id.1

theorem snoc_split {α : Type} {log p q : List α} {e x : α} (h : log ++ [e] = p ++ x :: q) :
    (log = p ∧ e = x) ∨ ∃ q', log = p ++ x :: q' := by
  rcases List.eq_nil_or_concat q with rfl | ⟨q', y, rfl⟩
  · have := List.append_inj' h rfl
    exact Or.inl ⟨this.1, by simpa using this.2⟩
  · rw [List.concat_eq_append, ← List.cons_append, ← List.append_assoc] at h
    exact Or.inr ⟨q', (List.append_inj' h rfl).1⟩

theorem tooks_snoc (log : List (Ev Op R)) (e : Ev Op R) : tooks (log ++ [e]) = tooks log ++ tooks [e] := by
  simp [tooks]

theorem mem_tooks {log : List (Ev Op R)} {id : Id} {op : Op} {r : R} : (id, op, r) ∈ tooks log ↔ Ev.took id op r ∈ log := by
  simp only [tooks, List.mem_filterMap]
  constructor
  · rintro ⟨e, he, h⟩
    cases e <;> simp at h
    obtain ⟨rfl, rfl, rfl⟩ := h
    exact he
  · intro h
    exact ⟨_, h, rfl⟩

theorem Linear.called {s s' : S} {log : List (Ev Op R)} (h : Linear spec s log s') (id : Id) (op : Op)
    (hn : ∀ op', Ev.called id op' ∉ log) : Linear spec s (log ++ [.called id op]) s' := by
  have ht : tooks (log ++ [Ev.called id op]) = tooks log := by rw [tooks_snoc]; simp [tooks]
  refine ⟨by rw [ht]; exact h.runs, by rw [ht]; exact h.once, ?_, ?_, ?_⟩
  · intro p q id' op' r e
    rcases snoc_split e with ⟨_, e⟩ | ⟨q', e⟩
    · cases e
    · exact h.call _ _ _ _ _ e
  · intro p q id' r e
    rcases snoc_split e with ⟨_, e⟩ | ⟨q', e⟩
    · cases e
    · exact h.ret _ _ _ _ e
  · intro p q id' op' e
    rcases snoc_split e with ⟨rfl, e'⟩ | ⟨q', e⟩
    · cases e'; exact hn
    · exact h.calls _ _ _ _ e

theorem Linear.took {s s' s'' : S} {log : List (Ev Op R)} (h : Linear spec s log s') {id : Id} {op : Op} {r : R}
    (hs : spec op s' s'' r) (hc : Ev.called id op ∈ log) (hn : ∀ op' r', Ev.took id op' r' ∉ log) :
    Linear spec s (log ++ [.took id op r]) s'' := by
  have ht : tooks (log ++ [Ev.took id op r]) = tooks log ++ [(id, op, r)] := by rw [tooks_snoc]; simp [tooks]
  refine ⟨by rw [ht]; exact h.runs.snoc hs, ?_, ?_, ?_, ?_⟩
  · rw [ht, List.map_append, List.nodup_append]
    refine ⟨h.once, by simp, ?_⟩
    intro x hx y hy
    simp only [List.map_cons, List.map_nil, List.mem_singleton] at hy
    obtain ⟨⟨i, o, r'⟩, hm, rfl⟩ := List.mem_map.1 hx
    rintro rfl
    subst hy
    exact hn _ _ (mem_tooks.1 hm)
  · intro p q id' op' r' e
    rcases snoc_split e with ⟨rfl, e'⟩ | ⟨q', e⟩
    · cases e'; exact hc
    · exact h.call _ _ _ _ _ e
  · intro p q id' r e
    rcases snoc_split e with ⟨_, e⟩ | ⟨q', e⟩
    · cases e
    · exact h.ret _ _ _ _ e
  · intro p q id' op' e
    rcases snoc_split e with ⟨rfl, e'⟩ | ⟨q', e⟩
    · cases e'
    · exact h.calls _ _ _ _ e

theorem Linear.returned {s s' : S} {log : List (Ev Op R)} (h : Linear spec s log s') {id : Id} {op : Op} {r : R}
    (ht : Ev.took id op r ∈ log) : Linear spec s (log ++ [.returned id r]) s' := by
  have hk : tooks (log ++ [Ev.returned id r]) = tooks log := by rw [tooks_snoc]; simp [tooks]
  refine ⟨by rw [hk]; exact h.runs, by rw [hk]; exact h.once, ?_, ?_, ?_⟩
  · intro p q id' op' r e
    rcases snoc_split e with ⟨_, e⟩ | ⟨q', e⟩
    · cases e
    · exact h.call _ _ _ _ _ e
  · intro p q id' r e
    rcases snoc_split e with ⟨rfl, e'⟩ | ⟨q', e⟩
    · cases e'; exact ⟨op, ht⟩
    · exact h.ret _ _ _ _ e
  · intro p q id' op' e
    rcases snoc_split e with ⟨rfl, e'⟩ | ⟨q', e⟩
    · cases e'
    · exact h.calls _ _ _ _ e

theorem upd_same {α : Type} (f : Nat → α) (t : Nat) (x : α) : upd f t x t = x := by simp [upd]
theorem upd_other {α : Type} (f : Nat → α) {t u : Nat} (x : α) (h : u ≠ t) : upd f t x u = f u := by simp [upd, h]

theorem Inv.init (K : Correct O spec I) (s : S) (hs : I s) (programs : Nat → List Op) : Inv K s (init s programs) := by
  refine ⟨rfl, hs, ?_, ?_, ?_, by simp [Conc.init], ?_, ?_, ?_, ?_⟩
  · intro t op l h; cases h
  · intro t; simp [Conc.init]
  · intro t; simp [Conc.init]
  · intro t h; cases h
  · refine ⟨Runs.nil _, by simp [tooks, Conc.init], ?_, ?_, ?_⟩
    · intro p q id op r e; simp [Conc.init] at e
    · intro p q id r e; simp [Conc.init] at e
    · intro p q id op e; simp [Conc.init] at e
  · intro t op l h; cases h
  · intro e h; cases h

theorem mode_goto {K : Correct O spec I} {pc : Nat → Option (Op × L)} {t u : Nat} {op : Op} {l' : L} {m : Mode} :
    (∃ op' l, upd pc t (some (op, l')) u = some (op', l) ∧ K.mode l = m) ↔
      if u = t then K.mode l' = m else ∃ op' l, pc u = some (op', l) ∧ K.mode l = m := by
  by_cases h : u = t
  · subst h
    simp only [upd_same, if_true, Option.some.injEq, Prod.mk.injEq]
    constructor
    · rintro ⟨_, _, ⟨rfl, rfl⟩, h⟩; exact h
    · intro h; exact ⟨_, _, ⟨rfl, rfl⟩, h⟩
  · simp only [upd_other _ _ h, h, if_false]

theorem mode_at {K : Correct O spec I} {pc : Nat → Option (Op × L)} {t : Nat} {op : Op} {l : L} {m : Mode}
    (h : pc t = some (op, l)) : (∃ op' l', pc t = some (op', l') ∧ K.mode l' = m) ↔ K.mode l = m := by
  rw [h]
  constructor
  · rintro ⟨_, _, e, h⟩; cases e; exact h
  · intro h; exact ⟨_, _, rfl, h⟩

/-- A step inside a call that neither takes effect nor returns: the log and the memory stay. -/
theorem Inv.inside {K : Correct O spec I} {s0 : S} {st : St S Op L R} (h : Inv K s0 st) {t : Nat} {op : Op} {l l' : L}
    (hpc : st.pc t = some (op, l)) (hJ : K.J op l' st.mem) (hres : K.res l' = K.res l) {w : Option Nat} {rs : List Nat}
    (hw : ∀ u, w = some u ↔ if u = t then K.mode l' = .write else st.writer = some u)
    (hr : ∀ u, u ∈ rs ↔ if u = t then K.mode l' = .read else u ∈ st.readers)
    (hnd : rs.Nodup) (hex : ∀ u, w = some u → rs = []) :
    Inv K s0 ({ st with writer := w, readers := rs }.goto t op l') := by
  refine ⟨h.ok, h.mem, ?_, ?_, ?_, hnd, hex, h.lin, ?_, h.fresh⟩
  · intro u op' l2 hu
    simp only [St.goto] at hu ⊢
    by_cases e : u = t
    · subst e; rw [upd_same] at hu; cases hu; exact hJ
    · rw [upd_other _ _ e] at hu; exact h.local_ u _ _ hu
  · intro u
    simp only [St.goto]
    rw [mode_goto, hw]
    by_cases e : u = t
    · simp [e]
    · simp only [e, if_false]; exact h.writer u
  · intro u
    simp only [St.goto]
    rw [mode_goto, hr]
    by_cases e : u = t
    · simp [e]
    · simp only [e, if_false]; exact h.reader u
  · intro u op' l2 hu
    simp only [St.goto] at hu
    by_cases e : u = t
    · subst e; rw [upd_same] at hu; cases hu
      have := h.made u _ _ hpc
      rw [← hres] at this
      exact this
    · rw [upd_other _ _ e] at hu; exact h.made u _ _ hu

theorem Inv.step {K : Correct O spec I} {s0 : S} {st st' : St S Op L R} (h : Inv K s0 st) {t c : Nat}
    (hs : step O st t c = some st') : Inv K s0 st' := by
  unfold Conc.step at hs
  rw [if_neg (by simp [h.ok])] at hs
  cases hpc : st.pc t with
  | none =>
    rw [hpc] at hs
    cases htd : st.todo t with
    | nil => simp [htd] at hs
    | cons op rest =>
      simp only [htd] at hs
      cases hcan : O.can op st.mem with
      | false => simp [hcan] at hs
      | true =>
      simp only [hcan, if_true, Option.some.injEq] at hs
      subst hs
      obtain ⟨e1, e2, e3⟩ := K.enter op
      have hnw : st.writer ≠ some t := fun e => by
        obtain ⟨_, _, e, _⟩ := (h.writer t).1 e
        rw [hpc] at e; cases e
      have hnr : t ∉ st.readers := fun e => by
        obtain ⟨_, _, e, _⟩ := (h.reader t).1 e
        rw [hpc] at e; cases e
      have hfresh : ∀ e ∈ st.log, match e with
          | .called id _ => id ≠ (t, st.made t)
          | .took id _ _ => id ≠ (t, st.made t)
          | .returned id _ => id ≠ (t, st.made t) := by
        intro e he
        have := h.fresh e he
        cases e with
        | called id _ => rintro rfl; exact absurd this (by simp)
        | took id _ _ => rintro rfl; exact absurd this (by simp)
        | returned id _ => rintro rfl; exact absurd this (by simp)
      refine ⟨h.ok, h.mem, ?_, ?_, ?_, h.nodup, h.excl, ?_, ?_, ?_⟩
      · intro u op' l2 hu
        simp only [St.goto] at hu ⊢
        by_cases e : u = t
        · subst e; rw [upd_same] at hu; cases hu; exact e3 _ h.mem hcan
        · rw [upd_other _ _ e] at hu; exact h.local_ u _ _ hu
      · intro u
        simp only [St.goto]
        rw [mode_goto]
        by_cases e : u = t
        · subst e; simp only [if_true, e1, reduceCtorEq, iff_false]; exact hnw
        · simp only [e, if_false]; exact h.writer u
      · intro u
        simp only [St.goto]
        rw [mode_goto]
        by_cases e : u = t
        · subst e; simp only [if_true, e1, reduceCtorEq, iff_false]; exact hnr
        · simp only [e, if_false]; exact h.reader u
      · exact h.lin.called _ _ (fun op' hm => hfresh _ hm rfl)
      · intro u op' l2 hu
        simp only [St.goto, St.cur] at hu ⊢
        by_cases e : u = t
        · subst e; rw [upd_same] at hu; cases hu
          rw [upd_same, e2]
          simp only [Nat.add_sub_cancel]
          refine ⟨Nat.succ_pos _, by simp, ?_, ?_⟩
          · intro r hm
            simp only [List.mem_append, List.mem_singleton, reduceCtorEq, or_false] at hm
            exact hfresh _ hm rfl
          · intro op' r hm
            simp only [List.mem_append, List.mem_singleton, reduceCtorEq, or_false] at hm
            exact hfresh _ hm rfl
        · rw [upd_other _ _ e] at hu ⊢
          obtain ⟨g1, g2, g3, g4⟩ := h.made u _ _ hu
          refine ⟨g1, List.mem_append_left _ g2, ?_, ?_⟩
          · intro r hm
            simp only [List.mem_append, List.mem_singleton, reduceCtorEq, or_false] at hm
            exact g3 r hm
          · cases hk : K.res l2 with
            | none =>
              rw [hk] at g4
              intro op' r hm
              simp only [List.mem_append, List.mem_singleton, reduceCtorEq, or_false] at hm
              exact g4 _ _ hm
            | some r =>
              rw [hk] at g4
              exact List.mem_append_left _ g4
      · intro e he
        have hmono : ∀ id : Id, id.2 < st.made id.1 → id.2 < upd st.made t (st.made t + 1) id.1 := by
          intro id hid
          by_cases e : id.1 = t
          · rw [e, upd_same]; rw [e] at hid; omega
          · rw [upd_other _ _ e]; exact hid
        simp only [St.goto, List.mem_append, List.mem_singleton] at he ⊢
        rcases he with he | rfl
        · have := h.fresh e he
          cases e <;> exact hmono _ this
        · simp [upd_same]
  | some x =>
    obtain ⟨op, l⟩ := x
    simp only [hpc] at hs
    have hJ := h.local_ t op l hpc
    have hwt : st.writer = some t ↔ K.mode l = .write := (h.writer t).trans (mode_at hpc)
    have hrt : t ∈ st.readers ↔ K.mode l = .read := (h.reader t).trans (mode_at hpc)
    cases hact : O.act op l st.mem c with
    | none => simp [hact] at hs
    | some a =>
      cases a with
      | panic => exact absurd hact (K.panic h.mem hJ)
      | read l' =>
        simp only [hact, Option.some.injEq] at hs
        subst hs
        obtain ⟨e1, e2, e3⟩ := K.read h.mem hJ hact
        refine h.inside hpc e3 e2 (w := st.writer) (rs := st.readers) ?_ ?_ h.nodup h.excl
        · intro u; by_cases e : u = t
          · subst e; simp only [if_true, e1]; exact hwt
          · simp [e]
        · intro u; by_cases e : u = t
          · subst e; simp only [if_true, e1]; exact hrt
          · simp [e]
      | lock l' =>
        obtain ⟨e1, e2, e3, e4⟩ := K.lock h.mem hJ hact
        simp only [hact] at hs
        split at hs
        · next hfree =>
          simp only [Option.some.injEq] at hs
          subst hs
          refine h.inside hpc e4 e3 (w := some t) (rs := st.readers) ?_ ?_ h.nodup (fun _ _ => hfree.2)
          · intro u; by_cases e : u = t
            · subst e; simp [e2]
            · simp only [e, if_false, hfree.1, Option.some.injEq, reduceCtorEq, iff_false]; exact fun x => e x.symm
          · intro u; by_cases e : u = t
            · subst e; simp [e2, hfree.2]
            · simp [e]
        · simp at hs
      | unlock l' =>
        obtain ⟨e1, e2, e3, e4⟩ := K.unlock h.mem hJ hact
        simp only [hact, hwt.2 e1, if_true, Option.some.injEq] at hs
        subst hs
        refine h.inside hpc e4 e3 (w := none) (rs := st.readers) ?_ ?_ h.nodup (by intro u hu; cases hu)
        · intro u; by_cases e : u = t
          · subst e; simp [e2]
          · simp only [e, if_false, hwt.2 e1, Option.some.injEq, reduceCtorEq, false_iff]; exact fun x => e x.symm
        · intro u; by_cases e : u = t
          · subst e; simp [e2, h.excl _ (hwt.2 e1)]
          · simp [e]
      | rlock l' =>
        obtain ⟨e1, e2, e3, e4⟩ := K.rlock h.mem hJ hact
        simp only [hact] at hs
        have hnr : t ∉ st.readers := fun x => by rw [hrt.1 x] at e1; cases e1
        split at hs
        · next hfree =>
          simp only [Option.some.injEq] at hs
          subst hs
          refine h.inside hpc e4 e3 (w := st.writer) (rs := t :: st.readers) ?_ ?_ (List.nodup_cons.2 ⟨hnr, h.nodup⟩)
            (by intro u hu; rw [hfree] at hu; cases hu)
          · intro u; by_cases e : u = t
            · subst e; simp [e2, hfree]
            · simp [e]
          · intro u; by_cases e : u = t
            · subst e; simp [e2]
            · simp [e]
        · simp at hs
      | runlock l' =>
        obtain ⟨e1, e2, e3, e4⟩ := K.runlock h.mem hJ hact
        simp only [hact, hrt.2 e1, if_true, Option.some.injEq] at hs
        subst hs
        refine h.inside hpc e4 e3 (w := st.writer) (rs := st.readers.erase t) ?_ ?_ (h.nodup.erase t) ?_
        · intro u; by_cases e : u = t
          · subst e
            simp only [if_true, e2, reduceCtorEq, iff_false]
            intro x; rw [hwt.1 x] at e1; cases e1
          · simp [e]
        · intro u; rw [h.nodup.mem_erase_iff]
          by_cases e : u = t
          · subst e; simp [e2]
          · simp [e]
        · intro u hu; rw [h.excl u hu]; rfl
      | eff s' l' r =>
        simp only [hact, Option.some.injEq] at hs
        subst hs
        obtain ⟨e1, e2, e3, e4, e5, e6, e7⟩ := K.eff h.mem hJ hact
        obtain ⟨g1, g2, g3, g4⟩ := h.made t _ _ hpc
        rw [e2] at g4
        refine ⟨h.ok, e5, ?_, ?_, ?_, h.nodup, h.excl, h.lin.took e4 g2 g4, ?_, ?_⟩
        · intro u op' l2 hu
          simp only [St.goto] at hu ⊢
          by_cases e : u = t
          · subst e; rw [upd_same] at hu; cases hu; exact e6
          · rw [upd_other _ _ e] at hu
            refine e7 _ _ ?_ (h.local_ u _ _ hu)
            have hwu : st.writer = some u ↔ K.mode l2 = .write := (h.writer u).trans (mode_at hu)
            have hru : u ∈ st.readers ↔ K.mode l2 = .read := (h.reader u).trans (mode_at hu)
            cases m1 : K.mode l <;> cases m2 : K.mode l2 <;> simp only [compat]
            · have a1 := hrt.2 m1; have a2 := h.excl _ (hwu.2 m2); rw [a2] at a1; simp at a1
            · have a1 := hru.2 m2; have a2 := h.excl _ (hwt.2 m1); rw [a2] at a1; simp at a1
            · have a1 := hwt.2 m1; rw [hwu.2 m2] at a1; exact e (Option.some.inj a1)
        · intro u
          simp only [St.goto]
          rw [mode_goto]
          by_cases e : u = t
          · subst e; simp only [if_true, e1]; exact hwt
          · simp only [e, if_false]; exact h.writer u
        · intro u
          simp only [St.goto]
          rw [mode_goto]
          by_cases e : u = t
          · subst e; simp only [if_true, e1]; exact hrt
          · simp only [e, if_false]; exact h.reader u
        · intro u op' l2 hu
          simp only [St.goto, St.cur] at hu ⊢
          by_cases e : u = t
          · subst e; rw [upd_same] at hu; cases hu
            rw [e3]
            refine ⟨g1, List.mem_append_left _ g2, ?_, by simp [St.cur]⟩
            intro r' hm
            simp only [List.mem_append, List.mem_singleton, reduceCtorEq, or_false] at hm
            exact g3 r' hm
          · rw [upd_other _ _ e] at hu
            obtain ⟨f1, f2, f3, f4⟩ := h.made u _ _ hu
            refine ⟨f1, List.mem_append_left _ f2, ?_, ?_⟩
            · intro r' hm
              simp only [List.mem_append, List.mem_singleton, reduceCtorEq, or_false] at hm
              exact f3 r' hm
            · cases hk : K.res l2 with
              | none =>
                rw [hk] at f4
                intro op' r' hm
                simp only [List.mem_append, List.mem_singleton, Ev.took.injEq] at hm
                rcases hm with hm | ⟨hm, _⟩
                · exact f4 _ _ hm
                · exact e (congrArg Prod.fst hm)
              | some r' =>
                rw [hk] at f4
                exact List.mem_append_left _ f4
        · intro e he
          simp only [St.goto, List.mem_append, List.mem_singleton] at he ⊢
          rcases he with he | rfl
          · exact h.fresh e he
          · simp only [St.cur]; omega
      | ret r =>
        simp only [hact, Option.some.injEq] at hs
        subst hs
        obtain ⟨e1, e2⟩ := K.ret h.mem hJ hact
        obtain ⟨g1, g2, g3, g4⟩ := h.made t _ _ hpc
        rw [e2] at g4
        refine ⟨h.ok, h.mem, ?_, ?_, ?_, h.nodup, h.excl, h.lin.returned g4, ?_, ?_⟩
        · intro u op' l2 hu
          simp only at hu ⊢
          by_cases e : u = t
          · subst e; rw [upd_same] at hu; cases hu
          · rw [upd_other _ _ e] at hu; exact h.local_ u _ _ hu
        · intro u
          by_cases e : u = t
          · subst e
            simp only [upd_same, reduceCtorEq, false_and, exists_false, iff_false]
            intro x; rw [hwt.1 x] at e1; cases e1
          · simp only [upd_other _ _ e]; exact h.writer u
        · intro u
          by_cases e : u = t
          · subst e
            simp only [upd_same, reduceCtorEq, false_and, exists_false, iff_false]
            intro x; rw [hrt.1 x] at e1; cases e1
          · simp only [upd_other _ _ e]; exact h.reader u
        · intro u op' l2 hu
          simp only [St.cur] at hu ⊢
          by_cases e : u = t
          · subst e; rw [upd_same] at hu; cases hu
          · rw [upd_other _ _ e] at hu
            obtain ⟨f1, f2, f3, f4⟩ := h.made u _ _ hu
            refine ⟨f1, List.mem_append_left _ f2, ?_, ?_⟩
            · intro r' hm
              simp only [List.mem_append, List.mem_singleton, Ev.returned.injEq] at hm
              rcases hm with hm | ⟨hm, _⟩
              · exact f3 r' hm
              · exact e (congrArg Prod.fst hm)
            · cases hk : K.res l2 with
              | none =>
                rw [hk] at f4
                intro op' r' hm
                simp only [List.mem_append, List.mem_singleton, reduceCtorEq, or_false] at hm
                exact f4 _ _ hm
              | some r' =>
                rw [hk] at f4
                exact List.mem_append_left _ f4
        · intro e he
          simp only [List.mem_append, List.mem_singleton] at he ⊢
          rcases he with he | rfl
          · exact h.fresh e he
          · simp only [St.cur]; omega

theorem Inv.run {K : Correct O spec I} {s0 : S} : ∀ (ms : List (Nat × Nat)) {st st' : St S Op L R}, Inv K s0 st →
    run O st ms = some st' → Inv K s0 st' := by
  intro ms
  induction ms with
  | nil => intro st st' h hr; cases hr; exact h
  | cons m ms ih =>
    intro st st' h hr
    simp only [Conc.run] at hr
    cases hs : Conc.step O st m.1 m.2 with
    | none => simp [hs] at hr
    | some st1 =>
      simp only [hs, Option.bind_some] at hr
      exact ih (h.step hs) hr

/-! ## What holds of every execution -/

/-- Nothing panics, and the execution is as if the calls had been made one after the other. -/
theorem linear (K : Correct O spec I) {s : S} (hs : I s) {programs : Nat → List Op} {ms : List (Nat × Nat)}
    {st : St S Op L R} (h : run O (init s programs) ms = some st) :
    st.crashed = false ∧ Linear spec s st.log st.mem :=
  let H := (Inv.init K s hs programs).run ms h
  ⟨H.ok, H.lin⟩

/-- As long as a goroutine is in a call or can make its next one, some goroutine can go on: nobody waits for ever because of the lock. -/
theorem progress (K : Correct O spec I) {s : S} (hs : I s) {programs : Nat → List Op} {ms : List (Nat × Nat)}
    {st : St S Op L R} (h : run O (init s programs) ms = some st) {t : Nat} (ht : st.pc t ≠ none ∨ ∃ op rest, st.todo t = op :: rest ∧ O.can op st.mem = true) :
    ∃ u c st', step O st u c = some st' := by
  have H := (Inv.init K s hs programs).run ms h
  -- who holds the lock can go on
  have hold : ∀ u op l, st.pc u = some (op, l) → K.mode l ≠ .none → ∃ u c st', step O st u c = some st' := by
    intro u op l hpc hm
    obtain ⟨c, a, ha⟩ := K.live H.mem (H.local_ u _ _ hpc)
    refine ⟨u, c, ?_⟩
    unfold Conc.step
    rw [if_neg (by simp [H.ok])]
    simp only [hpc, ha]
    cases a with
    | lock l' => exact absurd (K.lock H.mem (H.local_ u _ _ hpc) ha).1 hm
    | rlock l' => exact absurd (K.rlock H.mem (H.local_ u _ _ hpc) ha).1 hm
    | unlock l' => by_cases e : st.writer = some u <;> simp [e]
    | runlock l' => by_cases e : u ∈ st.readers <;> simp [e]
    | _ => simp
  have holdw : st.writer ≠ none → ∃ u c st', step O st u c = some st' := by
    intro hw
    obtain ⟨u, hu⟩ := Option.ne_none_iff_exists'.1 hw
    obtain ⟨op, l, hp, hm⟩ := (H.writer u).1 hu
    exact hold u op l hp (by rw [hm]; simp)
  have holdr : st.readers ≠ [] → ∃ u c st', step O st u c = some st' := by
    intro hr
    obtain ⟨u, hu⟩ := List.exists_mem_of_ne_nil _ hr
    obtain ⟨op, l, hp, hm⟩ := (H.reader u).1 hu
    exact hold u op l hp (by rw [hm]; simp)
  cases hpc : st.pc t with
  | none =>
    obtain ⟨op, rest, htd, hcan⟩ := ht.resolve_left (by simp [hpc])
    refine ⟨t, 0, ?_⟩
    unfold Conc.step
    rw [if_neg (by simp [H.ok])]
    simp [hpc, htd, hcan]
  | some x =>
    obtain ⟨op, l⟩ := x
    obtain ⟨c, a, ha⟩ := K.live H.mem (H.local_ t _ _ hpc)
    by_cases hw : st.writer = none
    · by_cases hr : st.readers = []
      · refine ⟨t, c, ?_⟩
        unfold Conc.step
        rw [if_neg (by simp [H.ok])]
        simp only [hpc, ha]
        cases a with
        | unlock l' => by_cases e : st.writer = some t <;> simp [e]
        | runlock l' => by_cases e : t ∈ st.readers <;> simp [e]
        | lock l' => simp [hw, hr]
        | rlock l' => simp [hw]
        | _ => simp
      · exact holdr hr
    · exact holdw hw

/-- Calls take effect in an order that agrees with real time: if one has returned before another is made, it is the
first to take effect. -/
theorem Linear.realtime {s s' : S} {log : List (Ev Op R)} (h : Linear spec s log s') {a b : Id} {ra : R} {ob : Op}
    {p q : List (Ev Op R)} (hb : log = p ++ .called b ob :: q) (ha : .returned a ra ∈ p) :
    ∃ op, (a, op, ra) ∈ tooks p ∧ ∀ op' r', (b, op', r') ∉ tooks p := by
  obtain ⟨p1, p2, rfl⟩ := List.append_of_mem ha
  obtain ⟨op, ht⟩ := h.ret p1 (p2 ++ .called b ob :: q) a ra (by rw [hb]; simp)
  refine ⟨op, mem_tooks.2 (by simp [ht]), ?_⟩
  intro op' r' hm
  obtain ⟨q1, q2, e⟩ := List.append_of_mem (mem_tooks.1 hm)
  have hc := h.call q1 (q2 ++ .called b ob :: q) b op' r' (by rw [hb, e]; simp)
  exact h.calls _ _ b ob hb op' (by rw [e]; simp [hc])

end Verif.Conc
