import Verif.Trace.EndConc
import Mathlib.Data.List.Induction
import Mathlib.Data.List.Perm.Basic

/-!
# C27 with concurrent callers
-/

namespace Verif.Props.EndConc
open Verif Verif.Trace.EndConc

/-! ## Specification -/

/-- Whether an exporter is registered after the events. -/
def registered (e : Exporter) (evs : List Ev) : Bool :=
  evs.foldl (fun b ev => match ev with
    | .added _ x => if x = e then true else b
    | .removed _ x => if x = e then false else b
    | _ => b) false

/-- The events before the first `End` of span `i` ran. -/
def before (i : Nat) : List Ev → Option (List Ev)
  | [] => none
  | ev :: evs => if ev = .loaded i then some [] else (before i evs).map (ev :: ·)

/-- How often exporter `e` was given span `i`. -/
def times (e : Exporter) (i : Nat) (evs : List Ev) : Nat := evs.countP (fun x => decide (x = .exported e i))

/-! ## Invariant -/

theorem registered_snoc (e : Exporter) (evs : List Ev) (ev : Ev) : registered e (evs ++ [ev]) = match ev with
    | .added _ x => if x = e then true else registered e evs
    | .removed _ x => if x = e then false else registered e evs
    | _ => registered e evs := by
  simp only [registered, List.foldl_append, List.foldl_cons, List.foldl_nil]

theorem before_snoc (i : Nat) (evs : List Ev) (ev : Ev) : before i (evs ++ [ev]) =
    match before i evs with
    | some p => some p
    | none => if ev = .loaded i then some evs else none := by
  induction evs with
  | nil => by_cases h : ev = .loaded i <;> simp [before, h]
  | cons x evs ih =>
    simp only [List.cons_append, before, ih]
    by_cases h : x = .loaded i
    · simp [h]
    · simp only [h, if_false]
      cases before i evs with
      | some p => rfl
      | none => by_cases h' : ev = .loaded i <;> simp [h']

theorem times_snoc (e : Exporter) (i : Nat) (evs : List Ev) (ev : Ev) :
    times e i (evs ++ [ev]) = times e i evs + if ev = .exported e i then 1 else 0 := by
  simp [times, List.countP_append, List.countP_cons]

/-- The span whose Once lock a goroutine holds there. -/
def inOnce : PC → Option Nat
  | .check i => some i
  | .load i => some i
  | .data i _ _ => some i
  | .exporting i _ => some i
  | .setDone i => some i
  | .unlock i => some i
  | _ => none

/-- Whether a goroutine holds exporterMu there. -/
def inReg : PC → Bool
  | .regLoad _ _ => true
  | .regStore _ _ _ => true
  | .regUnlock _ _ => true
  | _ => false

/-- The first End is past the load of the exporters, and not yet done. -/
def past : PC → Option Nat
  | .data i _ _ => some i
  | .exporting i _ => some i
  | .setDone i => some i
  | _ => none

/-- Every exporter registered before has got the span once, others not at all. -/
def Complete (sp : Spans) (i : Nat) (evs : List Ev) : Prop :=
  ∃ p, before i evs = some p ∧
    (∀ e, times e i evs = if sp.sampled i = true ∧ registered e p = true then 1 else 0) ∧
    evs.countP (fun x => decide (x = .finished i)) = if sp.hasStore i then 1 else 0

/-- What the program counter of the goroutine inside says. -/
def PCInv (sp : Spans) (st : St) : PC → Prop
  | .data i exp must => st.done i = false ∧ must = (sp.sampled i && decide (exp.length > 0)) ∧ exp.Nodup ∧
      ∃ p, before i st.evs = some p ∧ (∀ e, e ∈ exp ↔ registered e p = true) ∧ (∀ e, times e i st.evs = 0) ∧
        st.evs.countP (fun x => decide (x = .finished i)) = 0
  | .exporting i rem => st.done i = false ∧ rem.Nodup ∧ ∃ p, before i st.evs = some p ∧
      (∀ e, times e i st.evs + (if e ∈ rem then 1 else 0) = if sp.sampled i = true ∧ registered e p = true then 1 else 0) ∧
      st.evs.countP (fun x => decide (x = .finished i)) = if sp.hasStore i then 1 else 0
  | .setDone i => st.done i = false ∧ Complete sp i st.evs
  | .check _ => True
  | .load i => st.done i = false
  | .unlock i => st.done i = true
  | .regStore a e new => new = newMap a e st.exporters
  | .fast i => sp.recording i = true
  | .lock i => sp.recording i = true
  | _ => True

structure Inv (sp : Spans) (st : St) : Prop where
  nodup : st.exporters.Nodup
  regs : ∀ e, e ∈ st.exporters ↔ registered e st.evs = true
  mu : ∀ t, inReg (st.pc t) = true ↔ st.mu = some t
  once : ∀ t i, inOnce (st.pc t) = some i ↔ st.once i = some t
  pcs : ∀ t, PCInv sp st (st.pc t)
  doneC : ∀ i, st.done i = true → Complete sp i st.evs
  fresh : ∀ i, st.done i = false → (∀ t, past (st.pc t) ≠ some i) → before i st.evs = none ∧
    (∀ e, times e i st.evs = 0) ∧ st.evs.countP (fun x => decide (x = .finished i)) = 0
  ret : ∀ t i, .returned t i ∈ st.evs → sp.recording i = true → st.done i = true

theorem inv_init (sp : Spans) (programs : Nat → List Call) : Inv sp (init programs) := by
  constructor <;> simp [init, registered, inReg, inOnce, PCInv, before, times]


/-! ### Frame -/

/-- Nothing about span `i` differs. -/
def Same (i : Nat) (st st' : St) : Prop := st'.done i = st.done i ∧ before i st'.evs = before i st.evs ∧
  (∀ e, times e i st'.evs = times e i st.evs) ∧
  st'.evs.countP (fun x => decide (x = .finished i)) = st.evs.countP (fun x => decide (x = .finished i))

theorem Same.complete {i : Nat} {st st' : St} (h : Same i st st') {sp : Spans} (hc : Complete sp i st.evs) :
    Complete sp i st'.evs := by
  obtain ⟨_, h2, h3, h4⟩ := h
  obtain ⟨p, c1, c2, c3⟩ := hc
  exact ⟨p, by rw [h2, c1], fun e => by rw [h3, c2], by rw [h4, c3]⟩

theorem pcinv_frame {sp : Spans} {st st' : St} {p : PC} (h : PCInv sp st p)
    (hs : ∀ i, inOnce p = some i → Same i st st')
    (hx : ∀ a e n, p = .regStore a e n → st'.exporters = st.exporters) : PCInv sp st' p := by
  cases p with
  | data i exp must =>
    obtain ⟨h1, h2, h3, q, h4, h5, h6, h7⟩ := h
    obtain ⟨s1, s2, s3, s4⟩ := hs i rfl
    exact ⟨by rw [s1, h1], h2, h3, q, by rw [s2, h4], h5, fun e => by rw [s3, h6], by rw [s4, h7]⟩
  | exporting i rem =>
    obtain ⟨h1, h3, q, h4, h6, h7⟩ := h
    obtain ⟨s1, s2, s3, s4⟩ := hs i rfl
    exact ⟨by rw [s1, h1], h3, q, by rw [s2, h4], fun e => by rw [s3, h6], by rw [s4, h7]⟩
  | setDone i => exact ⟨by rw [(hs i rfl).1, h.1], (hs i rfl).complete h.2⟩
  | load i => show st'.done i = false; rw [(hs i rfl).1]; exact h
  | unlock i => show st'.done i = true; rw [(hs i rfl).1]; exact h
  | regStore a e new => show new = newMap a e st'.exporters; rw [hx a e new rfl]; exact h
  | _ => exact h

theorem past_inOnce {p : PC} {i : Nat} (h : past p = some i) : inOnce p = some i := by
  cases p <;> simp_all [past, inOnce]

/-- A step of goroutine `t` that may change what is known of span `i0` only (when it holds its lock
before or after), if at all. -/
theorem inv_frame {sp : Spans} {st st' : St} (h : Inv sp st) (t : Nat) (p1 : PC) (touched : Option Nat)
    (hpc : st'.pc = upd st.pc t p1)
    (hsame : ∀ j, touched ≠ some j → Same j st st')
    (hother : ∀ u, u ≠ t → ∀ j, inOnce (st.pc u) = some j → touched ≠ some j)
    (hpast : ∀ j, touched ≠ some j → (past p1 = some j ↔ past (st.pc t) = some j))
    (hnodup : st'.exporters.Nodup)
    (hregs : ∀ e, e ∈ st'.exporters ↔ registered e st'.evs = true)
    (hx : ∀ u, u ≠ t → ∀ a e n, st.pc u = .regStore a e n → st'.exporters = st.exporters)
    (hp1 : PCInv sp st' p1)
    (hmu : ∀ u, inReg (st'.pc u) = true ↔ st'.mu = some u)
    (honce : ∀ u i, inOnce (st'.pc u) = some i ↔ st'.once i = some u)
    (hdone : ∀ i, touched = some i → st'.done i = true → Complete sp i st'.evs)
    (hfresh : ∀ i, touched = some i → st'.done i = false → past p1 ≠ some i → before i st'.evs = none ∧
      (∀ e, times e i st'.evs = 0) ∧ st'.evs.countP (fun x => decide (x = .finished i)) = 0)
    (hret : ∀ t i, .returned t i ∈ st'.evs → sp.recording i = true → st'.done i = true) : Inv sp st' := by
  have hpcu : ∀ u, u ≠ t → st'.pc u = st.pc u := by intro u hu; rw [hpc]; simp [upd, hu]
  have hpct : st'.pc t = p1 := by rw [hpc]; simp [upd]
  refine ⟨hnodup, hregs, hmu, honce, ?_, ?_, ?_, hret⟩
  · intro u
    by_cases hu : u = t
    · rw [hu, hpct]; exact hp1
    · rw [hpcu u hu]
      exact pcinv_frame (h.pcs u) (fun j hj => hsame j (hother u hu j hj)) (hx u hu)
  · intro j hd
    by_cases hj : touched = some j
    · exact hdone j hj hd
    · have s := hsame j hj
      rw [s.1] at hd
      exact s.complete (h.doneC j hd)
  · intro j hd hp
    by_cases hj : touched = some j
    · exact hfresh j hj hd (by rw [← hpct]; exact hp t)
    · obtain ⟨s1, s2, s3, s4⟩ := hsame j hj
      rw [s1] at hd
      have := h.fresh j hd (by
        intro u hu
        by_cases hut : u = t
        · rw [hut] at hu
          exact hp t (by rw [hpct]; exact (hpast j hj).2 hu)
        · exact hp u (by rw [hpcu u hut]; exact hu))
      exact ⟨by rw [s2, this.1], fun e => by rw [s3, this.2.1], by rw [s4, this.2.2]⟩

/-- Locks when the goroutine stays in the same critical sections. -/
theorem locks_keep {sp : Spans} {st st' : St} (h : Inv sp st) (t : Nat) (p1 : PC)
    (hpc : st'.pc = upd st.pc t p1) (hm : st'.mu = st.mu) (ho : st'.once = st.once)
    (h1 : inReg p1 = inReg (st.pc t)) (h2 : inOnce p1 = inOnce (st.pc t)) :
    (∀ u, inReg (st'.pc u) = true ↔ st'.mu = some u) ∧ (∀ u i, inOnce (st'.pc u) = some i ↔ st'.once i = some u) := by
  constructor
  · intro u
    rw [hpc, hm, ← h.mu u]
    by_cases hu : u = t
    · simp [upd, hu, h1]
    · simp [upd, hu]
  · intro u i
    rw [hpc, ho, ← h.once u i]
    by_cases hu : u = t
    · simp [upd, hu, h2]
    · simp [upd, hu]

theorem same_of_eq {st st' : St} (hd : st'.done = st.done) (he : st'.evs = st.evs) (j : Nat) : Same j st st' := by
  simp [Same, hd, he]

/-- Appending an event that is not about the progress of span `j`. -/
theorem same_snoc {st st' : St} {ev : Ev} (j : Nat) (hd : st'.done j = st.done j) (he : st'.evs = st.evs ++ [ev])
    (h1 : ev ≠ .loaded j) (h2 : ∀ e, ev ≠ .exported e j) (h3 : ev ≠ .finished j) : Same j st st' := by
  refine ⟨hd, ?_, ?_, ?_⟩
  · rw [he, before_snoc]
    cases before j st.evs <;> simp [h1]
  · intro e
    rw [he, times_snoc]
    simp [h2 e]
  · rw [he]
    simp [List.countP_append, h3]

/-- A step that changes only where the goroutine is, within the same critical sections. -/
theorem inv_move {sp : Spans} {st : St} (h : Inv sp st) (t : Nat) (p1 : PC) (todo : Nat → List Call)
    (h1 : inReg p1 = inReg (st.pc t)) (h2 : inOnce p1 = inOnce (st.pc t)) (h3 : past p1 = past (st.pc t))
    (hp : PCInv sp st p1) : Inv sp { st with pc := upd st.pc t p1, todo := todo } := by
  have hl := locks_keep h t p1 (st' := { st with pc := upd st.pc t p1, todo := todo }) rfl rfl rfl h1 h2
  refine inv_frame h t p1 none rfl (fun j _ => same_of_eq rfl rfl j) (by simp) (by simp [h3]) h.nodup h.regs
    (fun _ _ _ _ _ _ => rfl) ?_ hl.1 hl.2 (by simp) (by simp) h.ret
  exact pcinv_frame hp (fun i _ => same_of_eq rfl rfl i) (fun _ _ _ _ => rfl)

theorem registered_snoc_other (e : Exporter) (evs : List Ev) (ev : Ev) (h1 : ∀ t x, ev ≠ .added t x) (h2 : ∀ t x, ev ≠ .removed t x) :
    registered e (evs ++ [ev]) = registered e evs := by
  rw [registered_snoc]
  cases ev <;> simp_all

/-- As `inv_move`, and End returns. -/
theorem inv_return {sp : Spans} {st : St} (h : Inv sp st) (t i : Nat) (todo : Nat → List Call)
    (h1 : inReg (st.pc t) = false) (h2 : inOnce (st.pc t) = none) (h3 : past (st.pc t) = none)
    (hp : sp.recording i = true → st.done i = true) :
    Inv sp { st with pc := upd st.pc t .idle, todo := todo, evs := st.evs ++ [.returned t i] } := by
  have hl := locks_keep h t .idle
    (st' := { st with pc := upd st.pc t .idle, todo := todo, evs := st.evs ++ [.returned t i] }) rfl rfl rfl
    (by rw [h1]; rfl) (by rw [h2]; rfl)
  refine inv_frame h t .idle none rfl (fun j _ => same_snoc j rfl rfl (by simp) (by simp) (by simp)) (by simp)
    (fun j _ => by rw [h3]; simp [past]) h.nodup ?_ (fun _ _ _ _ _ _ => rfl) trivial hl.1 hl.2 (by simp) (by simp) ?_
  · intro e
    show e ∈ st.exporters ↔ registered e (st.evs ++ [.returned t i]) = true
    rw [registered_snoc_other _ _ _ (by simp) (by simp)]
    exact h.regs e
  · intro u j hm hr
    rcases List.mem_append.1 hm with hm | hm
    · exact h.ret u j hm hr
    · simp only [List.mem_cons, Ev.returned.injEq, List.not_mem_nil, or_false] at hm
      rw [hm.2] at hr ⊢
      exact hp hr

theorem mem_newMap (a : Bool) (e x : Exporter) (old : List Exporter) : x ∈ newMap a e old ↔
    if a then x = e ∨ x ∈ old else x ≠ e ∧ x ∈ old := by
  cases a
  · simp [newMap, and_comm]
  · simp only [newMap, if_true]
    by_cases h : e ∈ old
    · rw [if_pos h]
      constructor
      · exact Or.inr
      · rintro (rfl | hx)
        · exact h
        · exact hx
    · rw [if_neg h, List.mem_append, List.mem_singleton, or_comm]

theorem nodup_newMap (a : Bool) (e : Exporter) (old : List Exporter) (h : old.Nodup) : (newMap a e old).Nodup := by
  cases a
  · exact List.Pairwise.filter _ h
  · simp only [newMap, if_true]
    by_cases he : e ∈ old
    · rwa [if_pos he]
    · rw [if_neg he]
      exact List.nodup_append.2 ⟨h, by simp, by intro x hx y hy; simp at hy; rintro rfl; exact he (hy ▸ hx)⟩

/-- The only goroutine inside the Once of span `i` is the holder of its lock. -/
theorem only_inside {sp : Spans} {st : St} (h : Inv sp st) {t i : Nat} (ht : st.once i = some t) (u : Nat) (hu : u ≠ t)
    (j : Nat) (hj : inOnce (st.pc u) = some j) : some i ≠ some j := by
  intro he
  cases he
  have := (h.once u i).1 hj
  rw [ht] at this
  cases this
  exact hu rfl

theorem regs_snoc {sp : Spans} {st : St} (h : Inv sp st) (ev : Ev) (h1 : ∀ t x, ev ≠ .added t x) (h2 : ∀ t x, ev ≠ .removed t x)
    (e : Exporter) : e ∈ st.exporters ↔ registered e (st.evs ++ [ev]) = true := by
  rw [registered_snoc_other _ _ _ h1 h2]; exact h.regs e

theorem ret_snoc {sp : Spans} {st : St} (h : Inv sp st) (ev : Ev) (h1 : ∀ t i, ev ≠ .returned t i) (done : Nat → Bool)
    (hd : ∀ i, st.done i = true → done i = true) :
    ∀ t i, .returned t i ∈ st.evs ++ [ev] → sp.recording i = true → done i = true := by
  intro u j hm hr
  rcases List.mem_append.1 hm with hm | hm
  · exact hd j (h.ret u j hm hr)
  · exact absurd (List.mem_singleton.1 hm).symm (h1 u j)

/-- A call, or the return of a registration, says nothing about spans and exporters. -/
theorem inv_note {sp : Spans} {st : St} (h : Inv sp st) (ev : Ev)
    (hev : (∃ t c, ev = .called t c) ∨ (∃ t a e, ev = .regReturned t a e)) : Inv sp { st with evs := st.evs ++ [ev] } := by
  have h0 : upd st.pc 0 (st.pc 0) = st.pc := by funext u; simp only [upd]; split <;> simp_all
  have n1 : ∀ t x, ev ≠ .added t x := by rcases hev with ⟨t, c, rfl⟩ | ⟨t, a, e, rfl⟩ <;> simp
  have n2 : ∀ t x, ev ≠ .removed t x := by rcases hev with ⟨t, c, rfl⟩ | ⟨t, a, e, rfl⟩ <;> simp
  have hs : ∀ j, Same j st { st with evs := st.evs ++ [ev] } := by
    intro j
    refine same_snoc j rfl rfl ?_ ?_ ?_ <;> rcases hev with ⟨t, c, rfl⟩ | ⟨t, a, e, rfl⟩ <;> simp
  refine inv_frame h 0 (st.pc 0) none h0.symm (fun j _ => hs j) (by simp) (fun _ _ => Iff.rfl) h.nodup
    (regs_snoc h ev n1 n2) (fun _ _ _ _ _ _ => rfl) (pcinv_frame (h.pcs 0) (fun j _ => hs j) (fun _ _ _ _ => rfl))
    h.mu h.once (by simp) (by simp) (ret_snoc h ev ?_ _ (fun _ => id))
  rcases hev with ⟨t, c, rfl⟩ | ⟨t, a, e, rfl⟩ <;> simp

theorem fresh_of_holder {sp : Spans} {st : St} (h : Inv sp st) {t i : Nat} (ho : st.once i = some t)
    (hp : past (st.pc t) ≠ some i) (hd : st.done i = false) : before i st.evs = none ∧
    (∀ e, times e i st.evs = 0) ∧ st.evs.countP (fun x => decide (x = .finished i)) = 0 := by
  refine h.fresh i hd fun u hu => ?_
  by_cases hut : u = t
  · exact hp (hut ▸ hu)
  · exact only_inside h ho u hut i (past_inOnce hu) rfl

/-- The load of the exporters. -/
theorem inv_load {sp : Spans} {st : St} (h : Inv sp st) (t i : Nat) (hpc : st.pc t = .load i) (p1 : PC)
    (hp1 : p1 = if sp.hasStore i || (sp.sampled i && decide (st.exporters.length > 0)) then
      .data i st.exporters (sp.sampled i && decide (st.exporters.length > 0)) else .setDone i) :
    Inv sp { st with pc := upd st.pc t p1, evs := st.evs ++ [.loaded i] } := by
  have ho : st.once i = some t := (h.once t i).1 (by rw [hpc]; rfl)
  have hd : st.done i = false := by have := h.pcs t; rw [hpc] at this; exact this
  obtain ⟨f1, f2, f3⟩ := fresh_of_holder h ho (by rw [hpc]; simp [past]) hd
  have hin : inOnce p1 = some i := by subst hp1; split <;> rfl
  have hpast : past p1 = some i := by subst hp1; split <;> rfl
  have hreg : inReg p1 = false := by subst hp1; split <;> rfl
  have hl := locks_keep h t p1 (st' := { st with pc := upd st.pc t p1, evs := st.evs ++ [.loaded i] }) rfl rfl rfl
    (by rw [hpc, hreg]; rfl) (by rw [hpc, hin]; rfl)
  have hb : before i (st.evs ++ [.loaded i]) = some st.evs := by rw [before_snoc, f1]; simp
  have ht : ∀ e, times e i (st.evs ++ [.loaded i]) = 0 := by intro e; rw [times_snoc, f2]; simp
  have hf : (st.evs ++ [Ev.loaded i]).countP (fun x => decide (x = .finished i)) = 0 := by
    rw [List.countP_append, f3]; simp
  refine inv_frame h t p1 (some i) rfl ?_ (only_inside h ho) ?_ h.nodup (regs_snoc h _ (by simp) (by simp))
    (fun _ _ _ _ _ _ => rfl) ?_ hl.1 hl.2 ?_ ?_ (ret_snoc h _ (by simp) _ (fun _ => id))
  · intro j hj
    exact same_snoc j rfl rfl (by simpa using hj) (by simp) (by simp)
  · intro j hj
    rw [hpast, hpc]
    exact ⟨fun h => absurd h hj, fun h => by cases h⟩
  · subst hp1
    split
    · exact ⟨hd, rfl, h.nodup, st.evs, hb, h.regs, ht, hf⟩
    · rename_i hc
      simp only [Bool.or_eq_true, Bool.and_eq_true, decide_eq_true_eq, not_or, not_and] at hc
      refine ⟨hd, st.evs, hb, fun e => ?_, ?_⟩
      · rw [ht]
        split
        · rename_i hs
          have := (h.regs e).2 hs.2
          exact absurd (List.length_pos_of_mem this) (hc.2 hs.1)
        · rfl
      · rw [hf]; simp [hc.1]
  · intro j hj hdj
    cases hj
    rw [show st.done i = true from hdj] at hd; cases hd
  · intro j hj _ hp
    cases hj
    exact absurd hpast hp

/-- makeSpanData and finished. -/
theorem inv_data {sp : Spans} {st : St} (h : Inv sp st) (t i : Nat) (exp : List Exporter) (must : Bool)
    (hpc : st.pc t = .data i exp must) (evs : List Ev)
    (hevs : evs = if sp.hasStore i then st.evs ++ [.finished i] else st.evs) :
    Inv sp { st with pc := upd st.pc t (.exporting i (if must then exp else [])), evs := evs } := by
  have ho : st.once i = some t := (h.once t i).1 (by rw [hpc]; rfl)
  have hp := h.pcs t
  rw [hpc] at hp
  obtain ⟨hd, hm, hnd, p, hb, hreg, ht, hf⟩ := hp
  have hl := locks_keep h t (.exporting i (if must then exp else []))
    (st' := { st with pc := upd st.pc t (.exporting i (if must then exp else [])), evs := evs }) rfl rfl rfl
    (by rw [hpc]; rfl) (by rw [hpc]; rfl)
  have hb' : before i evs = some p := by subst hevs; split <;> simp [before_snoc, hb]
  have ht' : ∀ e, times e i evs = 0 := by intro e; subst hevs; split <;> simp [times_snoc, ht]
  have hf' : evs.countP (fun x => decide (x = .finished i)) = if sp.hasStore i then 1 else 0 := by
    subst hevs; split <;> simp [hf]
  refine inv_frame h t _ (some i) rfl ?_ (only_inside h ho) ?_ h.nodup ?_
    (fun _ _ _ _ _ _ => rfl) ?_ hl.1 hl.2 ?_ ?_ ?_
  · intro j hj
    subst hevs
    by_cases hs : sp.hasStore i = true
    · exact same_snoc j rfl (if_pos hs) (by simp) (by simp) (by simpa using hj)
    · exact ⟨rfl, by simp [hs], fun e => by simp [hs], by simp [hs]⟩
  · intro j _
    simp [hpc, past]
  · subst hevs
    intro e
    by_cases hs : sp.hasStore i = true
    · simp only [if_pos hs]; exact regs_snoc h _ (by simp) (by simp) e
    · simp only [if_neg hs]; exact h.regs e
  · refine ⟨hd, ?_, p, hb', fun e => ?_, hf'⟩
    · split
      · exact hnd
      · simp
    · show times e i evs + _ = _
      rw [ht', hm]
      by_cases hsmp : sp.sampled i = true
      · by_cases hx : exp.length > 0
        · simp only [hsmp, hx, decide_true, Bool.and_self, if_true, true_and, hreg e]
          omega
        · have : exp = [] := List.length_eq_zero_iff.1 (by omega)
          have hn : ¬ registered e p = true := by rw [← hreg e, this]; simp
          simp [this, hn]
      · simp [hsmp]
  · intro j hj hdj
    cases hj
    rw [show st.done i = true from hdj] at hd; cases hd
  · intro j hj _ hp
    cases hj
    exact absurd rfl hp
  · subst hevs
    by_cases hs : sp.hasStore i = true
    · simp only [if_pos hs]; exact ret_snoc h _ (by simp) _ (fun _ => id)
    · simp only [if_neg hs]; exact h.ret

/-- One call of ExportSpan. -/
theorem inv_export {sp : Spans} {st : St} (h : Inv sp st) (t i c : Nat) (rem : List Exporter) (e : Exporter)
    (hpc : st.pc t = .exporting i rem) (he : rem[c]? = some e) :
    Inv sp { st with pc := upd st.pc t (.exporting i (rem.eraseIdx c)), evs := st.evs ++ [.exported e i] } := by
  have ho : st.once i = some t := (h.once t i).1 (by rw [hpc]; rfl)
  have hp := h.pcs t
  rw [hpc] at hp
  obtain ⟨hd, hnd, p, hb, ht, hf⟩ := hp
  have hl := locks_keep h t (.exporting i (rem.eraseIdx c))
    (st' := { st with pc := upd st.pc t (.exporting i (rem.eraseIdx c)), evs := st.evs ++ [.exported e i] }) rfl rfl rfl
    (by rw [hpc]; rfl) (by rw [hpc]; rfl)
  obtain ⟨hlt, hget⟩ := List.getElem?_eq_some_iff.1 he
  have hmem : ∀ x, x ∈ rem.eraseIdx c ↔ x ≠ e ∧ x ∈ rem := by
    intro x
    have hperm : rem.Perm (e :: rem.eraseIdx c) := by
      have := List.getElem_cons_eraseIdx_perm hlt
      rw [hget] at this
      exact this.symm
    have hnd2 := (hperm.nodup_iff).1 hnd
    constructor
    · intro hx
      exact ⟨fun hxe => (List.nodup_cons.1 hnd2).1 (hxe ▸ hx), hperm.mem_iff.2 (List.mem_cons_of_mem _ hx)⟩
    · rintro ⟨hx, hm⟩
      rcases List.mem_cons.1 (hperm.mem_iff.1 hm) with hm | hm
      · exact absurd hm hx
      · exact hm
  refine inv_frame h t _ (some i) rfl ?_ (only_inside h ho) ?_ h.nodup (regs_snoc h _ (by simp) (by simp))
    (fun _ _ _ _ _ _ => rfl) ?_ hl.1 hl.2 ?_ ?_ (ret_snoc h _ (by simp) _ (fun _ => id))
  · intro j hj
    refine same_snoc j rfl rfl (by simp) ?_ (by simp)
    intro x hx
    cases hx
    exact hj rfl
  · intro j _
    simp [hpc, past]
  · refine ⟨hd, hnd.sublist (List.eraseIdx_sublist _ _), p, by simp [before_snoc, hb], fun x => ?_, ?_⟩
    · show times x i (st.evs ++ [.exported e i]) + _ = _
      rw [times_snoc, ← ht x]
      simp only [hmem x]
      by_cases hx : x = e
      · subst hx
        simp [List.mem_of_getElem? he]
      · have : (Ev.exported e i = Ev.exported x i) = False := by
          simp; exact fun h => hx h.symm
        simp [this, hx]
    · show (st.evs ++ [Ev.exported e i]).countP _ = _
      rw [List.countP_append, hf]; simp
  · intro j hj hdj
    cases hj
    rw [show st.done i = true from hdj] at hd; cases hd
  · intro j hj _ hp
    cases hj
    exact absurd rfl hp

theorem inv_exported {sp : Spans} {st : St} (h : Inv sp st) (t i : Nat) (hpc : st.pc t = .exporting i []) :
    Inv sp { st with pc := upd st.pc t (.setDone i) } := by
  refine inv_move h t (.setDone i) st.todo (by rw [hpc]; rfl) (by rw [hpc]; rfl) (by rw [hpc]; rfl) ?_
  have hp := h.pcs t
  rw [hpc] at hp
  obtain ⟨hd, hnd, p, hb, ht, hf⟩ := hp
  exact ⟨hd, p, hb, fun e => by rw [← ht e]; simp, hf⟩

theorem inv_setDone {sp : Spans} {st : St} (h : Inv sp st) (t i : Nat) (hpc : st.pc t = .setDone i) :
    Inv sp { st with done := upd st.done i true, pc := upd st.pc t (.unlock i) } := by
  have ho : st.once i = some t := (h.once t i).1 (by rw [hpc]; rfl)
  have hp := h.pcs t
  rw [hpc] at hp
  obtain ⟨hd, hc⟩ := hp
  have hl := locks_keep h t (.unlock i)
    (st' := { st with done := upd st.done i true, pc := upd st.pc t (.unlock i) }) rfl rfl rfl
    (by rw [hpc]; rfl) (by rw [hpc]; rfl)
  refine inv_frame h t _ (some i) rfl ?_ (only_inside h ho) ?_ h.nodup h.regs
    (fun _ _ _ _ _ _ => rfl) (by simp [PCInv, upd]) hl.1 hl.2 ?_ ?_ ?_
  · intro j hj
    have : j ≠ i := fun he => hj (by rw [he])
    exact ⟨by simp [upd, this], rfl, fun _ => rfl, rfl⟩
  · intro j hj
    simp only [past, hpc]
    constructor
    · intro h; cases h
    · intro h; exact absurd h hj
  · intro j hj _
    cases hj
    exact hc
  · intro j hj hdj
    cases hj
    simp [upd] at hdj
  · intro u j hm hr
    by_cases hj : j = i
    · simp [upd, hj]
    · simp only [upd, hj, if_false]; exact h.ret u j hm hr

theorem inv_unlock {sp : Spans} {st : St} (h : Inv sp st) (t i : Nat) (hpc : st.pc t = .unlock i) :
    Inv sp { st with once := upd st.once i none, evs := st.evs ++ [.returned t i], pc := upd st.pc t .idle } := by
  have ho : st.once i = some t := (h.once t i).1 (by rw [hpc]; rfl)
  have hp := h.pcs t
  rw [hpc] at hp
  refine inv_frame h t _ none rfl (fun j _ => same_snoc j rfl rfl (by simp) (by simp) (by simp)) (by simp)
    (fun j _ => by simp [past, hpc]) h.nodup (regs_snoc h _ (by simp) (by simp))
    (fun _ _ _ _ _ _ => rfl) trivial ?_ ?_ (by simp) (by simp) ?_
  · intro u
    show inReg (upd st.pc t .idle u) = true ↔ st.mu = some u
    rw [← h.mu u]
    by_cases hu : u = t
    · simp [upd, hu, hpc, inReg]
    · simp [upd, hu]
  · intro u j
    show inOnce (upd st.pc t .idle u) = some j ↔ upd st.once i none j = some u
    have hk := h.once u j
    by_cases hu : u = t
    · subst hu
      by_cases hj : j = i
      · simp [upd, hj, inOnce]
      · rw [hpc] at hk
        simp only [upd, if_true, hj, if_false, ← hk, inOnce]
        simp [Ne.symm hj]
    · by_cases hj : j = i
      · subst hj
        simp only [upd, hu, if_false, if_true, hk, ho]
        simp [Ne.symm hu]
      · simp only [upd, hu, if_false, hj, hk]
  · intro u j hm hr
    rcases List.mem_append.1 hm with hm | hm
    · exact h.ret u j hm hr
    · simp only [List.mem_cons, Ev.returned.injEq, List.not_mem_nil, or_false] at hm
      rw [hm.2]
      exact hp

theorem inv_lock {sp : Spans} {st : St} (h : Inv sp st) (t i : Nat) (hpc : st.pc t = .lock i) (hn : st.once i = none) :
    Inv sp { st with once := upd st.once i (some t), pc := upd st.pc t (.check i) } := by
  refine inv_frame h t _ none rfl (fun j _ => same_of_eq rfl rfl j) (by simp)
    (fun j _ => by simp [past, hpc]) h.nodup h.regs (fun _ _ _ _ _ _ => rfl) trivial ?_ ?_ (by simp) (by simp) h.ret
  · intro u
    show inReg (upd st.pc t (.check i) u) = true ↔ st.mu = some u
    rw [← h.mu u]
    by_cases hu : u = t
    · simp [upd, hu, hpc, inReg]
    · simp [upd, hu]
  · intro u j
    show inOnce (upd st.pc t (.check i) u) = some j ↔ upd st.once i (some t) j = some u
    have hk := h.once u j
    by_cases hu : u = t
    · subst hu
      by_cases hj : j = i
      · simp [upd, hj, inOnce]
      · rw [hpc] at hk
        simp only [upd, if_true, hj, if_false, ← hk, inOnce]
        simp [Ne.symm hj]
    · by_cases hj : j = i
      · subst hj
        simp only [upd, hu, if_false, if_true, hk, hn]
        simp [Ne.symm hu]
      · simp only [upd, hu, if_false, hj, hk]

theorem inv_regLock {sp : Spans} {st : St} (h : Inv sp st) (t : Nat) (a : Bool) (e : Exporter)
    (hpc : st.pc t = .regLock a e) (hn : st.mu = none) :
    Inv sp { st with mu := some t, pc := upd st.pc t (.regLoad a e) } := by
  refine inv_frame h t _ none rfl (fun j _ => same_of_eq rfl rfl j) (by simp)
    (fun j _ => by simp [past, hpc]) h.nodup h.regs (fun _ _ _ _ _ _ => rfl) trivial ?_ ?_ (by simp) (by simp) h.ret
  · intro u
    show inReg (upd st.pc t (.regLoad a e) u) = true ↔ some t = some u
    have := h.mu u
    rw [hn] at this
    by_cases hu : u = t
    · simp [upd, hu, inReg]
    · simp only [upd, hu, if_false, this]
      simp [Ne.symm hu]
  · intro u j
    show inOnce (upd st.pc t (.regLoad a e) u) = some j ↔ st.once j = some u
    rw [← h.once u j]
    by_cases hu : u = t
    · simp [upd, hu, hpc, inOnce]
    · simp [upd, hu]

theorem inv_regUnlock {sp : Spans} {st : St} (h : Inv sp st) (t : Nat) {a : Bool} {e : Exporter}
    (hpc : st.pc t = .regUnlock a e) :
    Inv sp { st with mu := none, pc := upd st.pc t .idle } := by
  refine inv_frame h t _ none rfl (fun j _ => same_of_eq rfl rfl j) (by simp)
    (fun j _ => by simp [past, hpc]) h.nodup h.regs (fun _ _ _ _ _ _ => rfl) trivial ?_ ?_ (by simp) (by simp) h.ret
  · intro u
    show inReg (upd st.pc t .idle u) = true ↔ none = some u
    have ht : st.mu = some t := (h.mu t).1 (by rw [hpc]; rfl)
    have := h.mu u
    by_cases hu : u = t
    · simp [upd, hu, inReg]
    · simp only [upd, hu, if_false, this, ht]
      simp [Ne.symm hu]
  · intro u j
    show inOnce (upd st.pc t .idle u) = some j ↔ st.once j = some u
    rw [← h.once u j]
    by_cases hu : u = t
    · simp [upd, hu, hpc, inOnce]
    · simp [upd, hu]

theorem inv_regStore {sp : Spans} {st : St} (h : Inv sp st) (t : Nat) (a : Bool) (e : Exporter) (new : List Exporter)
    (hpc : st.pc t = .regStore a e new) :
    Inv sp { st with exporters := new, evs := st.evs ++ [if a then .added t e else .removed t e],
                     pc := upd st.pc t (.regUnlock a e) } := by
  have hnew := h.pcs t
  rw [hpc] at hnew
  change new = newMap a e st.exporters at hnew
  have hl := locks_keep h t (.regUnlock a e)
    (st' := { st with exporters := new, evs := st.evs ++ [if a then .added t e else .removed t e],
                      pc := upd st.pc t (.regUnlock a e) }) rfl rfl rfl (by rw [hpc]; rfl) (by rw [hpc]; rfl)
  refine inv_frame h t _ none rfl
    (fun j _ => same_snoc j rfl rfl (by cases a <;> simp) (by cases a <;> simp) (by cases a <;> simp)) (by simp)
    (fun j _ => by simp [past, hpc]) (by rw [hnew]; exact nodup_newMap _ _ _ h.nodup) ?_ ?_ trivial hl.1 hl.2
    (by simp) (by simp) (ret_snoc h _ (by cases a <;> simp) _ (fun _ => id))
  · intro x
    show x ∈ new ↔ registered x (st.evs ++ [if a then .added t e else .removed t e]) = true
    rw [hnew, mem_newMap, registered_snoc]
    have := h.regs x
    cases a
    · by_cases hx : x = e
      · simp [hx]
      · simp [hx, Ne.symm hx, this]
    · by_cases hx : x = e
      · simp [hx]
      · simp [hx, Ne.symm hx, this]
  · intro u hu a' e' n hp
    have h1 := (h.mu u).1 (by rw [hp]; rfl)
    have h2 := (h.mu t).1 (by rw [hpc]; rfl)
    rw [h1] at h2
    cases h2
    exact absurd rfl hu

theorem inv_step {sp : Spans} {st st' : St} (h : Inv sp st) (t c : Nat) (hs : step sp st t c = some st') : Inv sp st' := by
  have hp := h.pcs t
  unfold step at hs
  cases hpc : st.pc t with
  | idle =>
    simp only [hpc] at hs
    cases ht : st.todo t with
    | nil => simp [ht] at hs
    | cons call rest =>
      replace h := inv_note h (.called t call) (Or.inl ⟨t, call, rfl⟩)
      cases call with
      | endSpan i =>
        by_cases hr : sp.recording i = true
        · simp only [ht, hr, Bool.not_true, Bool.false_eq_true, if_false, Option.some.injEq] at hs
          rw [← hs]
          exact inv_move h t (.fast i) _ (by rw [hpc]; rfl) (by rw [hpc]; rfl) (by rw [hpc]; rfl) hr
        · simp only [ht, hr, Bool.not_false, if_true, Option.some.injEq] at hs
          rw [← hs]
          exact inv_return h t i _ (by rw [hpc]; rfl) (by rw [hpc]; rfl) (by rw [hpc]; rfl) (fun h => absurd h hr)
      | register e =>
        simp only [ht, Option.some.injEq] at hs
        rw [← hs]
        exact inv_move h t _ _ (by rw [hpc]; rfl) (by rw [hpc]; rfl) (by rw [hpc]; rfl) trivial
      | unregister e =>
        simp only [ht, Option.some.injEq] at hs
        rw [← hs]
        exact inv_move h t _ _ (by rw [hpc]; rfl) (by rw [hpc]; rfl) (by rw [hpc]; rfl) trivial
  | fast i =>
    simp only [hpc] at hs
    by_cases hd : st.done i = true
    · simp only [hd, if_true, Option.some.injEq] at hs
      rw [← hs]
      exact inv_return h t i _ (by rw [hpc]; rfl) (by rw [hpc]; rfl) (by rw [hpc]; rfl) (fun _ => hd)
    · simp only [hd, Bool.false_eq_true, if_false, Option.some.injEq] at hs
      rw [← hs]
      exact inv_move h t (.lock i) _ (by rw [hpc]; rfl) (by rw [hpc]; rfl) (by rw [hpc]; rfl) (by rw [hpc] at hp; exact hp)
  | lock i =>
    simp only [hpc] at hs
    cases ho : st.once i with
    | some _ => simp [ho] at hs
    | none =>
      simp only [ho, Option.some.injEq] at hs
      rw [← hs]
      exact inv_lock h t i hpc ho
  | check i =>
    simp only [hpc] at hs
    by_cases hd : st.done i = true
    · simp only [hd, if_true, Option.some.injEq] at hs
      rw [← hs]
      exact inv_move h t (.unlock i) _ (by rw [hpc]; rfl) (by rw [hpc]; rfl) (by rw [hpc]; rfl) hd
    · simp only [hd, Bool.false_eq_true, if_false, Option.some.injEq] at hs
      rw [← hs]
      exact inv_move h t (.load i) _ (by rw [hpc]; rfl) (by rw [hpc]; rfl) (by rw [hpc]; rfl) (by simpa [PCInv] using hd)
  | load i =>
    simp only [hpc] at hs
    split at hs
    · rename_i hc
      cases hs
      exact inv_load h t i hpc _ (by rw [if_pos hc])
    · rename_i hc
      cases hs
      exact inv_load h t i hpc _ (by rw [if_neg hc])
  | data i exp must =>
    simp only [hpc] at hs
    by_cases hst : sp.hasStore i = true
    · simp only [hst, if_true, Option.some.injEq] at hs
      rw [← hs]
      exact inv_data h t i exp must hpc _ (by rw [if_pos hst])
    · simp only [hst, Bool.false_eq_true, if_false, Option.some.injEq] at hs
      rw [← hs]
      exact inv_data h t i exp must hpc _ (by rw [if_neg hst])
  | exporting i rem =>
    simp only [hpc] at hs
    cases rem with
    | nil => cases hs; exact inv_exported h t i hpc
    | cons x rem =>
      cases he : (x :: rem)[c]? with
      | none => simp [he] at hs
      | some e =>
        simp only [he, Option.some.injEq] at hs
        rw [← hs]
        exact inv_export h t i c _ e hpc he
  | setDone i =>
    simp only [hpc] at hs; cases hs
    exact inv_setDone h t i hpc
  | unlock i =>
    simp only [hpc] at hs; cases hs
    exact inv_unlock h t i hpc
  | regLock a e =>
    simp only [hpc] at hs
    cases hm : st.mu with
    | some _ => simp [hm] at hs
    | none =>
      simp only [hm, Option.some.injEq] at hs
      rw [← hs]
      exact inv_regLock h t a e hpc hm
  | regLoad a e =>
    simp only [hpc] at hs; cases hs
    exact inv_move h t _ _ (by rw [hpc]; rfl) (by rw [hpc]; rfl) (by rw [hpc]; rfl) rfl
  | regStore a e new =>
    simp only [hpc] at hs; cases hs
    exact inv_regStore h t a e new hpc
  | regUnlock a e =>
    simp only [hpc] at hs; cases hs
    exact inv_note (inv_regUnlock h t hpc) (.regReturned t a e) (Or.inr ⟨t, a, e, rfl⟩)

theorem inv_run (sp : Spans) (sched : List (Nat × Nat)) : ∀ (st st' : St), Inv sp st → run sp st sched = some st' →
    Inv sp st' := by
  induction sched with
  | nil => intro st st' h hr; cases hr; exact h
  | cons x l ih =>
    intro st st' h hr
    obtain ⟨t, c⟩ := x
    simp only [run, Option.bind_eq_some_iff] at hr
    obtain ⟨st1, h1, h2⟩ := hr
    exact ih st1 st' (inv_step h t c h1) h2

/-! ## C27 -/

/-- Under every interleaving of any number of goroutines ending spans and registering or unregistering
exporters, no exporter gets a span twice; and an exporter gets a span only if that span is sampled
and the exporter was registered when the first End of the span looked. -/
theorem at_most_once (sp : Spans) (programs : Nat → List Call) (sched : List (Nat × Nat)) (st : St)
    (hr : run sp (init programs) sched = some st) (i : Nat) (e : Exporter) :
    times e i st.evs ≤ 1 ∧
    (times e i st.evs = 1 → sp.sampled i = true ∧ ∃ p, before i st.evs = some p ∧ registered e p = true) := by
  have h := inv_run sp sched _ st (inv_init sp programs) hr
  have hcomp : Complete sp i st.evs → times e i st.evs ≤ 1 ∧
      (times e i st.evs = 1 → sp.sampled i = true ∧ ∃ p, before i st.evs = some p ∧ registered e p = true) := by
    rintro ⟨p, h1, h2, _⟩
    rw [h2]
    split
    · rename_i hc; exact ⟨Nat.le_refl _, fun _ => ⟨hc.1, p, h1, hc.2⟩⟩
    · exact ⟨by omega, fun h => by omega⟩
  cases hd : st.done i with
  | true => exact hcomp (h.doneC i hd)
  | false =>
    by_cases hp : ∃ t, past (st.pc t) = some i
    · obtain ⟨t, ht⟩ := hp
      have hpi := h.pcs t
      cases hpc : st.pc t <;> rw [hpc] at ht hpi <;> simp only [past, Option.some.injEq, reduceCtorEq] at ht
      · subst ht
        obtain ⟨_, _, _, p, _, _, hz, _⟩ := hpi
        rw [hz]; exact ⟨by omega, fun h => by omega⟩
      · subst ht
        obtain ⟨_, _, p, hb, hz, _⟩ := hpi
        have hze := hz e
        split at hze <;> split at hze
        · exact ⟨by omega, fun h => by omega⟩
        · exact ⟨by omega, fun h => by omega⟩
        · rename_i hc
          exact ⟨by omega, fun _ => ⟨hc.1, p, hb, hc.2⟩⟩
        · exact ⟨by omega, fun h => by omega⟩
      · subst ht
        exact hcomp hpi.2
    · have := (h.fresh i hd (fun t ht => hp ⟨t, ht⟩)).2.1 e
      rw [this]; exact ⟨by omega, fun h => by omega⟩

/-- As soon as any call of End of a recording span has returned, in whichever goroutine, every exporter
registered when the first End looked has got the span exactly once, if it is sampled, no other
exporter has got it, and if the span is kept in a span store it was handed over exactly once. -/
theorem exported_when_returned (sp : Spans) (programs : Nat → List Call) (sched : List (Nat × Nat)) (st : St)
    (hr : run sp (init programs) sched = some st) (t i : Nat) (hrec : sp.recording i = true)
    (hret : .returned t i ∈ st.evs) :
    ∃ p, before i st.evs = some p ∧
      (∀ e, times e i st.evs = if sp.sampled i = true ∧ registered e p = true then 1 else 0) ∧
      st.evs.countP (fun x => decide (x = .finished i)) = if sp.hasStore i then 1 else 0 := by
  have h := inv_run sp sched _ st (inv_init sp programs) hr
  exact h.doneC i (h.ret t i hret hrec)

/-- Concurrent RegisterExporter and UnregisterExporter calls lose no update: the exporters in use are at
any moment those whose last completed update is a registration. -/
theorem exporters_linearizable (sp : Spans) (programs : Nat → List Call) (sched : List (Nat × Nat)) (st : St)
    (hr : run sp (init programs) sched = some st) (e : Exporter) :
    e ∈ st.exporters ↔ registered e st.evs = true :=
  (inv_run sp sched _ st (inv_init sp programs) hr).regs e

/-- No deadlock: as long as some goroutine has something left to do, some goroutine can take a step. -/
theorem progress (sp : Spans) (programs : Nat → List Call) (sched : List (Nat × Nat)) (st : St)
    (hr : run sp (init programs) sched = some st) (t : Nat) (hleft : st.pc t ≠ .idle ∨ st.todo t ≠ []) :
    ∃ u, (step sp st u 0).isSome = true := by
  have h := inv_run sp sched _ st (inv_init sp programs) hr
  have inner : ∀ u i, inOnce (st.pc u) = some i → (step sp st u 0).isSome = true := by
    intro u i hu
    unfold step
    cases hpc : st.pc u <;> rw [hpc] at hu <;> simp only [inOnce, reduceCtorEq] at hu <;> simp only
    · split <;> rfl
    · split <;> rfl
    · rfl
    · rename_i rem; cases rem <;> rfl
    · rfl
    · rfl
  have innerReg : ∀ u, inReg (st.pc u) = true → (step sp st u 0).isSome = true := by
    intro u hu
    unfold step
    cases hpc : st.pc u <;> rw [hpc] at hu <;> simp only [inReg, Bool.false_eq_true] at hu <;> rfl
  cases hpc : st.pc t with
  | idle =>
    refine ⟨t, ?_⟩
    unfold step
    rw [hpc]
    simp only
    cases ht : st.todo t with
    | nil => simp [hpc, ht] at hleft
    | cons c rest => cases c <;> simp only <;> (try split) <;> rfl
  | fast i => refine ⟨t, ?_⟩; unfold step; rw [hpc]; simp only; split <;> rfl
  | lock i =>
    cases ho : st.once i with
    | none => refine ⟨t, ?_⟩; unfold step; rw [hpc]; simp only [ho]; rfl
    | some u => exact ⟨u, inner u i ((h.once u i).2 ho)⟩
  | regLock a e =>
    cases hm : st.mu with
    | none => refine ⟨t, ?_⟩; unfold step; rw [hpc]; simp only [hm]; rfl
    | some u => exact ⟨u, innerReg u ((h.mu u).2 hm)⟩
  | check i => exact ⟨t, inner t i (by rw [hpc]; rfl)⟩
  | load i => exact ⟨t, inner t i (by rw [hpc]; rfl)⟩
  | data i _ _ => exact ⟨t, inner t i (by rw [hpc]; rfl)⟩
  | exporting i _ => exact ⟨t, inner t i (by rw [hpc]; rfl)⟩
  | setDone i => exact ⟨t, inner t i (by rw [hpc]; rfl)⟩
  | unlock i => exact ⟨t, inner t i (by rw [hpc]; rfl)⟩
  | regLoad _ _ => exact ⟨t, innerReg t (by rw [hpc]; rfl)⟩
  | regStore _ _ _ => exact ⟨t, innerReg t (by rw [hpc]; rfl)⟩
  | regUnlock _ _ => exact ⟨t, innerReg t (by rw [hpc]; rfl)⟩

/-! A concrete run: goroutine 0 registers exporters 7 and 8; goroutines 1 and 2 both end span 0, overlapping,
while goroutine 3 unregisters 8 after the exporters were loaded. Both exporters get the span once. -/

def demoSpans : Spans := ⟨fun _ => true, fun _ => true, fun _ => true⟩
def demoPrograms : Nat → List Call
  | 0 => [.register 7, .register 8]
  | 1 => [.endSpan 0]
  | 2 => [.endSpan 0]
  | 3 => [.unregister 8]
  | _ => []
def demoSched : List (Nat × Nat) :=
  List.replicate 10 (0, 0) ++ [(1, 0), (2, 0), (1, 0), (2, 0), (2, 0), (2, 0), (2, 0)] ++ List.replicate 5 (3, 0) ++
  [(2, 0), (2, 1), (2, 0), (2, 0), (2, 0), (2, 0)] ++ [(1, 0), (1, 0), (1, 0)]

example : (match run demoSpans (init demoPrograms) demoSched with
    | some st => decide (st.evs = [.called 0 (.register 7), .added 0 7, .regReturned 0 true 7,
        .called 0 (.register 8), .added 0 8, .regReturned 0 true 8, .called 1 (.endSpan 0), .called 2 (.endSpan 0),
        .loaded 0, .called 3 (.unregister 8), .removed 3 8, .regReturned 3 false 8, .finished 0, .exported 8 0,
        .exported 7 0, .returned 2 0, .returned 1 0])
    | none => false) = true := by decide +kernel

end Verif.Props.EndConc
