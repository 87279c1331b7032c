import Verif.View.ReportConcLemmas
import Mathlib.Tactic.ByContra

/-!
# When exporters of views are called (C61)
-/

namespace Verif.Props.ReportConc
open Verif Verif.View.ReportConc

/-! ## Specification: reports and exports come one at a time -/

/-- What is going on: nothing, a report of goroutine `i`, or a call of `ExportView` on exporter `e`
in a report of `i`. -/
inductive Mon where
  | free
  | report (i : Nat)
  | exporting (i e : Nat)
  deriving DecidableEq, Repr

/-- The events that are allowed; `none` is a violation. -/
def Mon.next : Mon → Ev → Option Mon
  | .free, .reportBegin i => some (.report i)
  | .report i, .reportEnd j => if i = j then some .free else none
  | .report i, .exportBegin j e => if i = j then some (.exporting i e) else none
  | .exporting i e, .exportEnd j f => if i = j ∧ e = f then some (.report i) else none
  | m, .called _ _ => some m
  | m, .returned _ _ => some m
  | _, _ => none

def Mon.run : Mon → List Ev → Option Mon
  | m, [] => some m
  | m, ev :: evs => (m.next ev).bind fun m => m.run evs

theorem Mon.run_append (m : Mon) (xs ys : List Ev) :
    m.run (xs ++ ys) = (m.run xs).bind fun m => m.run ys := by
  induction xs generalizing m with
  | nil => rfl
  | cons x xs ih =>
    simp only [List.cons_append, Mon.run]
    cases m.next x with
    | none => rfl
    | some m' => exact ih m'

/-- The monitor's state is where the goroutines are. -/
def RelMon (s : State) : Mon → Prop
  | .free => ∀ (i : Nat) (g : G), s.gs[i]? = some g → g.loop.any Loop.hasE = false
  | .report i => ∃ (g : G) (src : Src) (n : Nat) (es : List Nat),
      s.gs[i]? = some g ∧ g.loop = some (.range src n es)
  | .exporting i e => ∃ (g : G) (src : Src) (n : Nat) (es : List Nat),
      s.gs[i]? = some g ∧ g.loop = some (.call src n es e)

theorem relMon_report {s : State} (hi : View.ReportConc.Inv s) {i j : Nat} {g : G} {src n es} (hg : s.gs[i]? = some g)
    (hl : g.loop = some (.range src n es)) {m : Mon} (hm : RelMon s m) (hj : j = i) : m = .report j := by
  subst hj
  have hE : holdsE g = true := by simp [holdsE, hl, Loop.hasE]
  cases m with
  | free => have := hm j g hg; rw [hl] at this; cases this
  | report k =>
    obtain ⟨g', src', n', es', h1, h2⟩ := hm
    have := hi.uniqueE hg h1 hE (by simp [holdsE, h2, Loop.hasE])
    rw [this]
  | exporting k e =>
    obtain ⟨g', src', n', es', h1, h2⟩ := hm
    have := hi.uniqueE hg h1 hE (by simp [holdsE, h2, Loop.hasE])
    subst this
    rw [hg] at h1; cases h1
    rw [hl] at h2; cases h2

theorem relMon_exporting {s : State} (hi : View.ReportConc.Inv s) {i : Nat} {g : G} {src n es e} (hg : s.gs[i]? = some g)
    (hl : g.loop = some (.call src n es e)) {m : Mon} (hm : RelMon s m) : m = .exporting i e := by
  have hE : holdsE g = true := by simp [holdsE, hl, Loop.hasE]
  cases m with
  | free => have := hm i g hg; rw [hl] at this; cases this
  | report k =>
    obtain ⟨g', src', n', es', h1, h2⟩ := hm
    have := hi.uniqueE hg h1 hE (by simp [holdsE, h2, Loop.hasE])
    subst this
    rw [hg] at h1; cases h1
    rw [hl] at h2; cases h2
  | exporting k e' =>
    obtain ⟨g', src', n', es', h1, h2⟩ := hm
    have := hi.uniqueE hg h1 hE (by simp [holdsE, h2, Loop.hasE])
    subst this
    rw [hg] at h1; cases h1
    rw [hl] at h2; cases h2
    rfl

/-- Nobody else is reporting when the lock is free. -/
theorem relMon_free {s : State} (hi : View.ReportConc.Inv s) (he : s.emu = none) {m : Mon} (hm : RelMon s m) : m = .free := by
  cases m with
  | free => rfl
  | report k =>
    obtain ⟨g', src', n', es', h1, h2⟩ := hm
    have := (hi.e k g' h1).mp (by simp [holdsE, h2, Loop.hasE])
    rw [he] at this; cases this
  | exporting k e' =>
    obtain ⟨g', src', n', es', h1, h2⟩ := hm
    have := (hi.e k g' h1).mp (by simp [holdsE, h2, Loop.hasE])
    rw [he] at this; cases this

/-- A step that changes no loop between reporting and not reporting leaves the monitor. -/
theorem relMon_keep {s s' : State} {m : Mon} (hm : RelMon s m)
    (h : ∀ j : Nat, (s'.gs[j]?).bind G.loop = (s.gs[j]?).bind G.loop ∨
      (((s.gs[j]?).bind G.loop).any Loop.hasE = false ∧ ((s'.gs[j]?).bind G.loop).any Loop.hasE = false)) :
    RelMon s' m := by
  cases m with
  | free =>
    intro j g hg
    rcases h j with h1 | ⟨_, h1⟩
    · rw [hg] at h1
      have h1 : g.loop = _ := h1
      rw [h1]
      cases hs : s.gs[j]? with
      | none => rfl
      | some g0 => exact hm j g0 hs
    · rw [hg] at h1; exact h1
  | report i =>
    obtain ⟨g, src, n, es, h1, h2⟩ := hm
    rcases h i with h3 | ⟨h3, _⟩
    · rw [h1] at h3
      have h3 : _ = g.loop := h3
      rw [h2] at h3
      cases hs : s'.gs[i]? with
      | none => rw [hs] at h3; cases h3
      | some g' => rw [hs] at h3; exact ⟨g', src, n, es, hs, h3⟩
    · rw [h1] at h3
      have h3 : g.loop.any Loop.hasE = false := h3
      rw [h2] at h3; cases h3
  | exporting i e =>
    obtain ⟨g, src, n, es, h1, h2⟩ := hm
    rcases h i with h3 | ⟨h3, _⟩
    · rw [h1] at h3
      have h3 : _ = g.loop := h3
      rw [h2] at h3
      cases hs : s'.gs[i]? with
      | none => rw [hs] at h3; cases h3
      | some g' => rw [hs] at h3; exact ⟨g', src, n, es, hs, h3⟩
    · rw [h1] at h3
      have h3 : g.loop.any Loop.hasE = false := h3
      rw [h2] at h3; cases h3

theorem bind_upd {s : State} {i j : Nat} {g g' : G} {evs : List Ev} (hg : s.gs[i]? = some g)
    (h : g'.loop = g.loop ∨ (g.loop.any Loop.hasE = false ∧ g'.loop.any Loop.hasE = false)) :
    ((s.upd i g' evs).gs[j]?).bind G.loop = (s.gs[j]?).bind G.loop ∨
      (((s.gs[j]?).bind G.loop).any Loop.hasE = false ∧
        (((s.upd i g' evs).gs[j]?).bind G.loop).any Loop.hasE = false) := by
  rw [get_upd hg]
  by_cases hj : j = i
  · subst hj
    rw [if_pos rfl, hg]
    exact h
  · rw [if_neg hj]; exact Or.inl rfl

theorem bind_reply (s : State) (k j : Nat) :
    ((s.reply k).gs[j]?).bind G.loop = (s.gs[j]?).bind G.loop := by
  rw [get_reply]
  split
  · cases s.gs[j]? with
    | none => rfl
    | some g => exact replied_loop g
  · rfl

theorem relMon_T {s s' : State} {i : Nat} {g : G} (hi : View.ReportConc.Inv s) (hg : s.gs[i]? = some g) (ht : T s i g s')
    {evs : List Ev} (htr : s'.trace = s.trace ++ evs) {m : Mon} (hm : RelMon s m) :
    ∃ m', m.run evs = some m' ∧ RelMon s' m' := by
  have canc : ∀ {a : List Ev}, s.trace ++ a = s.trace ++ evs → evs = a :=
    fun h => (List.append_cancel_left h).symm
  have keep : ∀ {g' : G} {s'' : State} {l : List Ev}, s''.gs = (s.upd i g' l).gs →
      (g'.loop = g.loop ∨ (g.loop.any Loop.hasE = false ∧ g'.loop.any Loop.hasE = false)) →
      RelMon s'' m := by
    intro g' s'' l h1 h2
    refine relMon_keep hm (fun j => ?_)
    rw [h1]; exact bind_upd hg h2
  have keepR : ∀ {g' : G} {l : List Ev} (k : Nat),
      (g'.loop = g.loop ∨ (g.loop.any Loop.hasE = false ∧ g'.loop.any Loop.hasE = false)) →
      RelMon ((s.upd i g' l).reply k) m := by
    intro g' l k h2
    refine relMon_keep hm (fun j => ?_)
    rw [bind_reply]; exact bind_upd hg h2
  cases ht with
  | callE op r hc hcur hr =>
    rw [canc htr]
    exact ⟨m, by cases m <;> rfl, keep (g' := { g with todo := r, cur := .wantE op }) rfl (Or.inl rfl)⟩
  | callOther c r cur hc hcur hr hn =>
    rw [canc htr]; exact ⟨m, rfl, keep (g' := { g with todo := r, cur := cur }) (l := []) rfl (Or.inl rfl)⟩
  | lockE op hc hcur he =>
    rw [canc htr]; exact ⟨m, rfl, keep (g' := { g with cur := .inE op }) (l := []) rfl (Or.inl rfl)⟩
  | unlockE op hc hcur =>
    rw [canc htr]; exact ⟨m, rfl, keep (g' := { g with cur := .out op }) (l := []) rfl (Or.inl rfl)⟩
  | ret op hc hcur =>
    rw [canc htr]
    exact ⟨m, by cases m <;> rfl, keep (g' := { g with cur := .idle }) rfl (Or.inl rfl)⟩
  | send k hc hcur =>
    rw [canc htr]
    exact ⟨m, rfl, keep (g' := { g with cur := if k.isSome then .awaiting else .idle }) (l := []) rfl (Or.inl rfl)⟩
  | lockMu hc hcur he =>
    rw [canc htr]; exact ⟨m, rfl, keep (g' := { g with cur := .inMu }) (l := []) rfl (Or.inl rfl)⟩
  | unlockMu hc hcur =>
    rw [canc htr]; exact ⟨m, rfl, keep (g' := { g with cur := .idle }) (l := []) rfl (Or.inl rfl)⟩
  | tick n hl =>
    rw [canc htr]
    exact ⟨m, rfl, keep (g' := { g with loop := some (.lockMu n) }) (l := []) rfl (Or.inr (by simp [hl, Loop.hasE]))⟩
  | take l rest hl hn =>
    rw [canc htr]
    refine ⟨m, rfl, keep (g' := { g with loop := some l }) (l := []) rfl (Or.inr ?_)⟩
    rcases hn with ⟨w, rfl⟩ | ⟨j, n, rfl⟩ <;> simp [hl, Loop.hasE]
  | answer j rest hl =>
    have hev : evs = [] := canc (a := []) (by rw [← htr]; simp [State.reply])
    rw [hev]
    refine ⟨m, rfl, relMon_keep hm (fun k => Or.inl (bind_reply s j k))⟩
  | tickMu n l hl hmu hn =>
    rw [canc htr]
    refine ⟨m, rfl, keep (g' := { g with loop := some l }) (l := []) rfl (Or.inr ?_)⟩
    rcases hn with rfl | ⟨n, rfl⟩ <;> simp [hl, Loop.hasE]
  | tickEnd hl =>
    rw [canc htr]
    exact ⟨m, rfl, keep (g' := { g with loop := some .select }) (l := []) rfl (Or.inr (by simp [hl, Loop.hasE]))⟩
  | handled w hl =>
    rw [canc htr]
    exact ⟨m, rfl, keep (g' := { g with loop := some .select }) (l := []) rfl (Or.inr (by simp [hl, Loop.hasE]))⟩
  | handledReply w j hl =>
    rw [canc htr]
    exact ⟨m, rfl, keepR (g' := { g with loop := some .select }) (l := []) j (Or.inr (by simp [hl, Loop.hasE]))⟩
  | begin src n order hl he ho =>
    rw [canc htr]
    have := relMon_free hi he hm
    subst this
    refine ⟨.report i, rfl, { g with loop := some (.range src n order) }, src, n, order, ?_, rfl⟩
    show (s.upd i _ [.reportBegin i]).gs[i]? = _
    rw [get_upd hg, if_pos rfl]
  | done src n hl =>
    rw [canc htr]
    have := relMon_report hi hg hl hm rfl
    subst this
    refine ⟨.free, by simp [Mon.run, Mon.next], ?_⟩
    intro j x hx
    have hx : (s.upd i { g with loop := some (afterReport src n) } [.reportEnd i]).gs[j]? = some x := hx
    rw [get_upd hg] at hx
    by_cases hj : j = i
    · rw [if_pos hj] at hx; cases hx
      cases src <;> cases n <;> rfl
    · rw [if_neg hj] at hx
      cases hh : x.loop.any Loop.hasE with
      | false => rfl
      | true =>
        exact absurd (hi.uniqueE hx hg (by simp [holdsE, hh]) (by simp [holdsE, hl, Loop.hasE])) hj
  | enter src n e es calls hl =>
    rw [canc htr]
    have := relMon_report hi hg hl hm rfl
    subst this
    refine ⟨.exporting i e, by simp [Mon.run, Mon.next], ⟨calls, .idle, some (.call src n es e)⟩, src, n, es, ?_, rfl⟩
    rw [get_upd hg, if_pos rfl]
  | leave src n e es hl hcur hr =>
    rw [canc htr]
    have := relMon_exporting hi hg hl hm
    subst this
    refine ⟨.report i, by simp [Mon.run, Mon.next], { g with loop := some (.range src n es) }, src, n, es, ?_, rfl⟩
    rw [get_upd hg, if_pos rfl]
  | removed who n hl =>
    rw [canc htr]
    exact ⟨m, rfl, keepR (g' := { g with loop := some .select }) (l := []) who (Or.inr (by simp [hl, Loop.hasE]))⟩
  | next who n hl =>
    rw [canc htr]
    exact ⟨m, rfl, keep (g' := { g with loop := some (.lockE (.unregister who) n) }) (l := []) rfl
      (Or.inr (by simp [hl, Loop.hasE]))⟩

/-- C61. `ExportView` is not called concurrently: for every program of every goroutine, whatever the
exporters call, any number of worker loops and every schedule, reports follow each other and the calls
of `ExportView` in a report follow each other; each returns before the next begins. -/
theorem exports_serial (cap : Nat) (progs : List (List Call)) (loops : Nat) (as : List Action) (s : State)
    (h : exec (init cap progs loops) as = some s) : ∃ m, Mon.run .free s.trace = some m := by
  have hP := exec_inv (P := fun s => ∃ m, Mon.run .free s.trace = some m ∧ RelMon s m) (Q := fun _ => True)
    (by
      intro s i g s' evs hi ⟨m, h1, h2⟩ hg hT htr _
      obtain ⟨m', h3, h4⟩ := relMon_T hi hg hT htr h2
      exact ⟨m', by rw [htr, Mon.run_append, h1]; exact h3, h4⟩)
    (inv_init cap progs loops) ⟨.free, rfl, by
      intro i g hg
      have hm := List.mem_of_getElem? hg
      simp only [init, List.mem_append, List.mem_map, List.mem_replicate] at hm
      rcases hm with ⟨p, _, rfl⟩ | ⟨_, rfl⟩ <;> rfl⟩ h (u := s.trace) (by simp [init]) (fun _ _ => trivial)
  obtain ⟨m, h1, _⟩ := hP
  exact ⟨m, h1⟩

/-! ## Calls in progress -/

/-- The goroutine is inside this call. -/
def pend (op : Op) (g : G) : Bool := decide (g.cur = .wantE op ∨ g.cur = .inE op ∨ g.cur = .out op)

def pendN (s : State) (i : Nat) (op : Op) : Nat := ((s.gs[i]?).any (pend op)).toNat

theorem pend_replied (op : Op) (g : G) : pend op (replied g) = pend op g := by
  unfold pend
  rcases replied_cur g with h | ⟨h1, h2⟩
  · rw [h]
  · rw [h1, h2]; simp

theorem pendN_reply (s : State) (k i : Nat) (op : Op) : pendN (s.reply k) i op = pendN s i op := by
  unfold pendN
  rw [get_reply]
  split
  · cases s.gs[i]? with
    | none => rfl
    | some g => simp [pend_replied]
  · rfl

theorem pendN_upd {s : State} {i j : Nat} {g g' : G} {evs : List Ev} (hg : s.gs[i]? = some g) (op : Op) :
    pendN (s.upd i g' evs) j op = if j = i then (pend op g').toNat else pendN s j op := by
  unfold pendN
  rw [get_upd hg]
  split <;> rfl

/-- Calls and returns of the exporter operations match. -/
def Matched (s : State) : Prop :=
  ∀ i op, s.trace.count (.called i op) = s.trace.count (.returned i op) + pendN s i op

theorem matched_T {s s' : State} {i : Nat} {g : G} (hi : View.ReportConc.Inv s) (hM : Matched s) (hg : s.gs[i]? = some g)
    (ht : T s i g s') : Matched s' := by
  have hgn : ∀ op, pendN s i op = (pend op g).toNat := by intro op; simp [pendN, hg]
  -- a silent step that leaves the calls in progress of goroutine `i`
  have quiet : ∀ {g' : G} {s'' : State}, s''.gs = (s.upd i g' []).gs → s''.trace = s.trace →
      (∀ op, pend op g' = pend op g) → Matched s'' := by
    intro g' s'' h1 h2 h3 j op
    have h4 : pendN s'' j op = pendN (s.upd i g' []) j op := by unfold pendN; rw [h1]
    rw [h2, hM j op, h4, pendN_upd hg]
    split
    · next hj => subst hj; rw [hgn, h3]
    · rfl
  -- any step whose events are none of these
  have other : ∀ {g' : G} {s'' : State} {ev : Ev}, s''.gs = (s.upd i g' []).gs → s''.trace = s.trace ++ [ev] →
      (∀ op, pend op g' = pend op g) → (∀ j op, ev ≠ .called j op ∧ ev ≠ .returned j op) → Matched s'' := by
    intro g' s'' ev h1 h2 h3 h5 j op
    have h4 : pendN s'' j op = pendN (s.upd i g' []) j op := by unfold pendN; rw [h1]
    have c1 : [ev].count (.called j op) = 0 :=
      List.count_eq_zero.mpr (fun hc => (h5 j op).1 (List.mem_singleton.mp hc).symm)
    have c2 : [ev].count (.returned j op) = 0 :=
      List.count_eq_zero.mpr (fun hc => (h5 j op).2 (List.mem_singleton.mp hc).symm)
    rw [h2, List.count_append, List.count_append, c1, c2, h4, pendN_upd hg]
    split
    · next hj => subst hj; rw [Nat.add_zero, Nat.add_zero, hM, hgn, h3]
    · rw [Nat.add_zero, Nat.add_zero, hM]
  cases ht with
  | callE op r hc hcur hr =>
    intro j o
    show (s.trace ++ [_]).count _ = (s.trace ++ [_]).count _ + _
    rw [List.count_append, List.count_append, hM j o, pendN_upd hg]
    by_cases hj : j = i
    · subst hj
      rw [if_pos rfl, hgn]
      by_cases ho : o = op
      · subst ho; simp [pend, hcur]
      · have : ¬ op = o := fun h => ho h.symm
        simp [pend, hcur, this]
    · rw [if_neg hj]
      have : ¬ i = j := fun h => hj h.symm
      simp [this]
  | ret op hc hcur =>
    intro j o
    show (s.trace ++ [_]).count _ = (s.trace ++ [_]).count _ + _
    rw [List.count_append, List.count_append, hM j o, pendN_upd hg]
    by_cases hj : j = i
    · subst hj
      rw [if_pos rfl, hgn]
      by_cases ho : o = op
      · subst ho; simp [pend, hcur]
      · have : ¬ op = o := fun h => ho h.symm
        simp [pend, hcur, this]
    · rw [if_neg hj]
      have : ¬ i = j := fun h => hj h.symm
      simp [this]
  | callOther c r cur hc hcur hr hn =>
    refine quiet (g' := { g with todo := r, cur := cur }) rfl (by simp [State.upd]) ?_
    intro o; rcases hn with rfl | ⟨k, rfl⟩ <;> simp [pend, hcur]
  | lockE op hc hcur he =>
    refine quiet (g' := { g with cur := .inE op }) rfl (by simp [State.upd]) ?_
    intro o; simp [pend, hcur]
  | unlockE op hc hcur =>
    refine quiet (g' := { g with cur := .out op }) rfl (by simp [State.upd]) ?_
    intro o; simp [pend, hcur]
  | send k hc hcur =>
    refine quiet (g' := { g with cur := if k.isSome then .awaiting else .idle }) rfl (by simp [State.upd]) ?_
    intro o; cases k <;> simp [pend, hcur]
  | lockMu hc hcur he =>
    refine quiet (g' := { g with cur := .inMu }) rfl (by simp [State.upd]) ?_
    intro o; simp [pend, hcur]
  | unlockMu hc hcur =>
    refine quiet (g' := { g with cur := .idle }) rfl (by simp [State.upd]) ?_
    intro o; simp [pend, hcur]
  | tick n hl =>
    exact quiet (g' := { g with loop := some (.lockMu n) }) rfl (by simp [State.upd]) (fun o => rfl)
  | take l rest hl hn =>
    exact quiet (g' := { g with loop := some l }) rfl (by simp [State.upd]) (fun o => rfl)
  | answer j rest hl => 
    intro k op
    have h1 := hM k op
    rw [← pendN_reply s j k op] at h1
    exact h1
  | tickMu n l hl hmu hn =>
    exact quiet (g' := { g with loop := some l }) rfl (by simp [State.upd]) (fun o => rfl)
  | tickEnd hl =>
    exact quiet (g' := { g with loop := some .select }) rfl (by simp [State.upd]) (fun o => rfl)
  | handled w hl =>
    exact quiet (g' := { g with loop := some .select }) rfl (by simp [State.upd]) (fun o => rfl)
  | handledReply w j hl =>
    have hq : Matched (s.upd i { g with loop := some .select } []) :=
      quiet (g' := { g with loop := some .select }) rfl (by simp [State.upd]) (fun o => rfl)
    intro k op; rw [pendN_reply]; exact hq k op
  | begin src n order hl he ho =>
    exact other (g' := { g with loop := some (.range src n order) }) rfl rfl (fun o => rfl) (by simp)
  | done src n hl =>
    exact other (g' := { g with loop := some (afterReport src n) }) rfl rfl (fun o => rfl) (by simp)
  | enter src n e es calls hl =>
    refine other (g' := ⟨calls, .idle, some (.call src n es e)⟩) rfl rfl ?_ (by simp)
    intro o
    have := hi.wf i g hg _ hl
    simp [pend, this.1]
  | leave src n e es hl hcur hr =>
    exact other (g' := { g with loop := some (.range src n es) }) rfl rfl (fun o => rfl) (by simp)
  | removed who n hl =>
    have hq : Matched (s.upd i { g with loop := some .select } []) :=
      quiet (g' := { g with loop := some .select }) rfl (by simp [State.upd]) (fun o => rfl)
    intro k op; rw [pendN_reply]; exact hq k op
  | next who n hl =>
    exact quiet (g' := { g with loop := some (.lockE (.unregister who) n) }) rfl (by simp [State.upd]) (fun o => rfl)

theorem matched_exec {cap : Nat} {progs : List (List Call)} {loops : Nat} {as : List Action} {s : State}
    (h : exec (init cap progs loops) as = some s) : Matched s := by
  refine exec_inv (P := Matched) (Q := fun _ => True)
    (fun s i g s' evs hi hP hg hT _ _ => matched_T hi hP hg hT)
    (inv_init cap progs loops) ?_ h (u := s.trace) (by simp [init]) (fun _ _ => trivial)
  intro i op
  have : pendN (init cap progs loops) i op = 0 := by
    unfold pendN
    cases hg : (init cap progs loops).gs[i]? with
    | none => rfl
    | some g =>
      have hm := List.mem_of_getElem? hg
      simp only [init, List.mem_append, List.mem_map, List.mem_replicate] at hm
      rcases hm with ⟨p, _, rfl⟩ | ⟨_, rfl⟩ <;> simp [pend]
  rw [this]; simp [init]

/-- Nobody is inside this call. -/
def NoOp (op : Op) (s : State) : Prop := ∀ (i : Nat) (g : G), s.gs[i]? = some g → pend op g = false

theorem noOp_of_matched {s : State} (hM : Matched s) {op : Op}
    (h : ∀ i, s.trace.count (.called i op) = s.trace.count (.returned i op)) : NoOp op s := by
  intro i g hg
  have := hM i op
  rw [h i] at this
  have h0 : pendN s i op = 0 := by omega
  simp only [pendN, hg, Option.any_some] at h0
  cases hp : pend op g with
  | false => rfl
  | true => rw [hp] at h0; cases h0

/-- Without a new call nobody gets inside one. -/
theorem noOp_T {s s' : State} {i : Nat} {g : G} {op : Op} (hN : NoOp op s)
    (hg : s.gs[i]? = some g) (ht : T s i g s') {evs : List Ev} (htr : s'.trace = s.trace ++ evs)
    (hQ : ∀ j, .called j op ∉ evs) : NoOp op s' := by
  have hpg := hN i g hg
  have upd : ∀ {g' : G} {s'' : State}, s''.gs = (s.upd i g' []).gs → pend op g' = false → NoOp op s'' := by
    intro g' s'' h1 h2 j x hx
    rw [h1, get_upd hg] at hx
    split at hx
    · cases hx; exact h2
    · exact hN j x hx
  have rep : ∀ {s'' : State} (k : Nat), NoOp op s'' → NoOp op (s''.reply k) := by
    intro s'' k h j x hx
    obtain ⟨g0, h1, rfl | rfl⟩ := get_reply_some hx
    · exact h j _ h1
    · rw [pend_replied]; exact h j _ h1
  cases ht with
  | callE o r hc hcur hr =>
    refine upd (g' := { g with todo := r, cur := .wantE o }) rfl ?_
    have hev : [Ev.called i o] = evs := List.append_cancel_left (show s.trace ++ [Ev.called i o] = s.trace ++ evs from htr)
    have : o ≠ op := by rintro rfl; exact hQ i (by rw [← hev]; simp)
    simp [pend, this]
  | callOther c r cur hc hcur hr hn =>
    refine upd (g' := { g with todo := r, cur := cur }) rfl ?_
    rcases hn with rfl | ⟨k, rfl⟩ <;> simp [pend]
  | lockE o hc hcur he =>
    refine upd (g' := { g with cur := .inE o }) rfl ?_
    simpa [pend, hcur] using hpg
  | unlockE o hc hcur =>
    refine upd (g' := { g with cur := .out o }) rfl ?_
    simpa [pend, hcur] using hpg
  | ret o hc hcur => exact upd (g' := { g with cur := .idle }) rfl (by simp [pend])
  | send k hc hcur =>
    refine upd (g' := { g with cur := if k.isSome then .awaiting else .idle }) rfl ?_
    cases k <;> simp [pend]
  | lockMu hc hcur he => exact upd (g' := { g with cur := .inMu }) rfl (by simp [pend])
  | unlockMu hc hcur => exact upd (g' := { g with cur := .idle }) rfl (by simp [pend])
  | tick n hl => exact upd (g' := { g with loop := some (.lockMu n) }) rfl hpg
  | take l rest hl hn => exact upd (g' := { g with loop := some l }) rfl hpg
  | answer j rest hl => exact rep (s'' := s) j hN
  | tickMu n l hl hmu hn => exact upd (g' := { g with loop := some l }) rfl hpg
  | tickEnd hl => exact upd (g' := { g with loop := some .select }) rfl hpg
  | handled w hl => exact upd (g' := { g with loop := some .select }) rfl hpg
  | handledReply w j hl => exact rep j (upd (g' := { g with loop := some .select }) rfl hpg)
  | begin src n order hl he ho => exact upd (g' := { g with loop := some (.range src n order) }) rfl hpg
  | done src n hl => exact upd (g' := { g with loop := some (afterReport src n) }) rfl hpg
  | enter src n e es calls hl =>
    exact upd (g' := ⟨calls, .idle, some (.call src n es e)⟩) rfl (by simp [pend])
  | leave src n e es hl hcur hr => exact upd (g' := { g with loop := some (.range src n es) }) rfl hpg
  | removed who n hl => exact rep who (upd (g' := { g with loop := some .select }) rfl hpg)
  | next who n hl => exact upd (g' := { g with loop := some (.lockE (.unregister who) n) }) rfl hpg

/-! ## After `UnregisterExporter` has returned -/

/-- The exporters a report still has to call or is calling. -/
def ahead (g : G) : List Nat :=
  match g.loop with
  | some (.range _ _ es) => es
  | some (.call _ _ es e) => e :: es
  | _ => []

theorem ahead_loop {g g' : G} (h : g'.loop = g.loop) : ahead g' = ahead g := by unfold ahead; rw [h]

theorem ahead_nil {g : G} (h : g.loop.any Loop.hasE = false) : ahead g = [] := by
  unfold ahead
  cases hl : g.loop with
  | none => rfl
  | some l => rw [hl] at h; cases l <;> first | rfl | cases h

/-- The exporter is not registered and no report will call it or is calling it. -/
def Quiet (e : Nat) (s : State) : Prop :=
  e ∉ s.exps ∧ ∀ (i : Nat) (g : G), s.gs[i]? = some g → e ∉ ahead g

theorem quiet_T {s s' : State} {i : Nat} {g : G} {e : Nat} (hN : NoOp (.add e) s)
    (hq : Quiet e s) (hg : s.gs[i]? = some g) (ht : T s i g s') : Quiet e s' := by
  have hag := hq.2 i g hg
  have upd : ∀ {g' : G} {s'' : State}, s''.gs = (s.upd i g' []).gs → e ∉ s''.exps → e ∉ ahead g' → Quiet e s'' := by
    intro g' s'' h1 h2 h3
    refine ⟨h2, ?_⟩
    intro j x hx
    rw [h1, get_upd hg] at hx
    split at hx
    · cases hx; exact h3
    · exact hq.2 j x hx
  have rep : ∀ {s'' : State} (k : Nat), Quiet e s'' → Quiet e (s''.reply k) := by
    intro s'' k h
    refine ⟨h.1, ?_⟩
    intro j x hx
    obtain ⟨g0, h1, rfl | rfl⟩ := get_reply_some hx
    · exact h.2 j _ h1
    · rw [ahead_loop (replied_loop g0)]; exact h.2 j _ h1
  cases ht with
  | callE o r hc hcur hr => exact upd (g' := { g with todo := r, cur := .wantE o }) rfl hq.1 hag
  | callOther c r cur hc hcur hr hn => exact upd (g' := { g with todo := r, cur := cur }) rfl hq.1 hag
  | lockE o hc hcur he => exact upd (g' := { g with cur := .inE o }) rfl hq.1 hag
  | unlockE o hc hcur =>
    refine upd (g' := { g with cur := .out o }) rfl ?_ hag
    show e ∉ o.apply s.exps
    cases o with
    | add f =>
      have hne : f ≠ e := by
        rintro rfl
        have := hN i g hg
        simp [pend, hcur] at this
      simp only [Op.apply]
      split
      · exact hq.1
      · simp [hq.1, Ne.symm hne]
    | del f => simp [Op.apply, hq.1]
  | ret o hc hcur => exact upd (g' := { g with cur := .idle }) rfl hq.1 hag
  | send k hc hcur =>
    exact upd (g' := { g with cur := if k.isSome then .awaiting else .idle }) rfl hq.1 hag
  | lockMu hc hcur he => exact upd (g' := { g with cur := .inMu }) rfl hq.1 hag
  | unlockMu hc hcur => exact upd (g' := { g with cur := .idle }) rfl hq.1 hag
  | tick n hl => exact upd (g' := { g with loop := some (.lockMu n) }) rfl hq.1 (by simp [ahead])
  | take l rest hl hn =>
    refine upd (g' := { g with loop := some l }) rfl hq.1 ?_
    rcases hn with ⟨w, rfl⟩ | ⟨j, n, rfl⟩ <;> simp [ahead]
  | answer j rest hl => exact rep (s'' := s) j hq
  | tickMu n l hl hmu hn =>
    refine upd (g' := { g with loop := some l }) rfl hq.1 ?_
    rcases hn with rfl | ⟨n, rfl⟩ <;> simp [ahead]
  | tickEnd hl => exact upd (g' := { g with loop := some .select }) rfl hq.1 (by simp [ahead])
  | handled w hl => exact upd (g' := { g with loop := some .select }) rfl hq.1 (by simp [ahead])
  | handledReply w j hl => exact rep j (upd (g' := { g with loop := some .select }) rfl hq.1 (by simp [ahead]))
  | begin src n order hl he ho =>
    refine upd (g' := { g with loop := some (.range src n order) }) rfl hq.1 ?_
    show e ∉ order
    exact fun h => hq.1 (ho.mem_iff.mp h)
  | done src n hl =>
    refine upd (g' := { g with loop := some (afterReport src n) }) rfl hq.1 ?_
    cases src <;> cases n <;> simp [ahead, afterReport]
  | enter src n f es calls hl =>
    refine upd (g' := ⟨calls, .idle, some (.call src n es f)⟩) rfl hq.1 ?_
    simpa [ahead, hl] using hag
  | leave src n f es hl hcur hr =>
    refine upd (g' := { g with loop := some (.range src n es) }) rfl hq.1 ?_
    simp only [ahead, hl, List.mem_cons, not_or] at hag
    exact hag.2
  | removed who n hl => exact rep who (upd (g' := { g with loop := some .select }) rfl hq.1 (by simp [ahead]))
  | next who n hl =>
    exact upd (g' := { g with loop := some (.lockE (.unregister who) n) }) rfl hq.1 (by simp [ahead])

/-- Goroutine `i`'s state in a call of its own is changed by nobody else. -/
theorem cur_other {s s' : State} {i j : Nat} {g : G} (ht : T s i g s') (hg : s.gs[i]? = some g) (hj : j ≠ i)
    {x : G} (hx : s.gs[j]? = some x) (hna : x.cur ≠ .awaiting) : s'.gs[j]? = some x := by
  have upd : ∀ {g' : G} {s'' : State}, s''.gs = (s.upd i g' []).gs → s''.gs[j]? = some x := by
    intro g' s'' h1; rw [h1, get_upd hg, if_neg hj]; exact hx
  have rep : ∀ {s'' : State} (k : Nat), s''.gs[j]? = some x → (s''.reply k).gs[j]? = some x := by
    intro s'' k h
    rw [get_reply]
    split
    · rw [h]; simp [replied, hna]
    · exact h
  cases ht with
  | callE o r hc hcur hr => exact upd (g' := { g with todo := r, cur := .wantE o }) rfl
  | callOther c r cur hc hcur hr hn => exact upd (g' := { g with todo := r, cur := cur }) rfl
  | lockE o hc hcur he => exact upd (g' := { g with cur := .inE o }) rfl
  | unlockE o hc hcur => exact upd (g' := { g with cur := .out o }) rfl
  | ret o hc hcur => exact upd (g' := { g with cur := .idle }) rfl
  | send k hc hcur => exact upd (g' := { g with cur := if k.isSome then .awaiting else .idle }) rfl
  | lockMu hc hcur he => exact upd (g' := { g with cur := .inMu }) rfl
  | unlockMu hc hcur => exact upd (g' := { g with cur := .idle }) rfl
  | tick n hl => exact upd (g' := { g with loop := some (.lockMu n) }) rfl
  | take l rest hl hn => exact upd (g' := { g with loop := some l }) rfl
  | answer k rest hl => exact rep (s'' := s) k hx
  | tickMu n l hl hmu hn => exact upd (g' := { g with loop := some l }) rfl
  | tickEnd hl => exact upd (g' := { g with loop := some .select }) rfl
  | handled w hl => exact upd (g' := { g with loop := some .select }) rfl
  | handledReply w k hl => exact rep k (upd (g' := { g with loop := some .select }) rfl)
  | begin src n order hl he ho => exact upd (g' := { g with loop := some (.range src n order) }) rfl
  | done src n hl => exact upd (g' := { g with loop := some (afterReport src n) }) rfl
  | enter src n f es calls hl => exact upd (g' := ⟨calls, .idle, some (.call src n es f)⟩) rfl
  | leave src n f es hl hcur hr => exact upd (g' := { g with loop := some (.range src n es) }) rfl
  | removed who n hl => exact rep who (upd (g' := { g with loop := some .select }) rfl)
  | next who n hl => exact upd (g' := { g with loop := some (.lockE (.unregister who) n) }) rfl

/-- What goroutine `i`'s own step does while it is inside a call on the exporters, before the effect. -/
theorem cur_own {s s' : State} {i : Nat} {g : G} (hi : View.ReportConc.Inv s) (ht : T s i g s') (hg : s.gs[i]? = some g) {op : Op}
    (hcur : g.cur = .wantE op ∨ g.cur = .inE op) :
    (∃ x, s'.gs[i]? = some x ∧ x.cur = .inE op) ∨
    (g.cur = .inE op ∧ s'.gs = (s.upd i { g with cur := .out op } []).gs ∧ s'.exps = op.apply s.exps) := by
  have hW := hi.wf i g hg
  have noloop : ∀ {l : Loop}, g.loop = some l → (∀ src n es e, l ≠ .call src n es e) → False := by
    intro l hl hn
    have := hW l hl
    have hidle : g.cur = .idle := by
      cases l with
      | call src n es e => exact absurd rfl (hn src n es e)
      | _ => exact this.1
    rcases hcur with h | h <;> rw [hidle] at h <;> cases h
  cases ht with
  | callE o r hc h hr => rcases hcur with h' | h' <;> rw [h] at h' <;> cases h'
  | callOther c r cur hc h hr hn => rcases hcur with h' | h' <;> rw [h] at h' <;> cases h'
  | lockE o hc h he =>
    rcases hcur with h' | h' <;> rw [h] at h' <;> cases h'
    refine Or.inl ⟨{ g with cur := .inE op }, ?_, rfl⟩
    show (s.upd i _ []).gs[i]? = _
    rw [get_upd hg, if_pos rfl]
  | unlockE o hc h =>
    rcases hcur with h' | h' <;> rw [h] at h' <;> cases h'
    exact Or.inr ⟨h, rfl, rfl⟩
  | ret o hc h => rcases hcur with h' | h' <;> rw [h] at h' <;> cases h'
  | send k hc h => rcases hcur with h' | h' <;> rw [h] at h' <;> cases h'
  | lockMu hc h he => rcases hcur with h' | h' <;> rw [h] at h' <;> cases h'
  | unlockMu hc h => rcases hcur with h' | h' <;> rw [h] at h' <;> cases h'
  | tick n hl => exact (noloop hl (by simp)).elim
  | take l rest hl hn => exact (noloop hl (by simp)).elim
  | answer k rest hl => exact (noloop hl (by simp)).elim
  | tickMu n l hl hmu hn => exact (noloop hl (by simp)).elim
  | tickEnd hl => exact (noloop hl (by simp)).elim
  | handled w hl => exact (noloop hl (by simp)).elim
  | handledReply w k hl => exact (noloop hl (by simp)).elim
  | begin src n order hl he ho => exact (noloop hl (by simp)).elim
  | done src n hl => exact (noloop hl (by simp)).elim
  | enter src n f es calls hl => exact (noloop hl (by simp)).elim
  | leave src n f es hl h hr => rcases hcur with h' | h' <;> rw [h] at h' <;> cases h'
  | removed who n hl => exact (noloop hl (by simp)).elim
  | next who n hl => exact (noloop hl (by simp)).elim

/-- Before its effect the call is in progress; from its effect on, `R` holds. -/
def Until (i : Nat) (op : Op) (R : State → Prop) (s : State) : Prop :=
  (∃ (g : G), s.gs[i]? = some g ∧ (g.cur = .wantE op ∨ g.cur = .inE op)) ∨ R s

theorem until_T {i : Nat} {op : Op} {R : State → Prop} {s s' : State} {j : Nat} {g : G} (hi : View.ReportConc.Inv s)
    (hu : Until i op R s) (hg : s.gs[j]? = some g) (ht : T s j g s')
    (hR : R s → R s')
    (heff : ∀ g, s.gs[i]? = some g → g.cur = .inE op → s'.gs = (s.upd i { g with cur := .out op } []).gs →
      s'.exps = op.apply s.exps → R s') : Until i op R s' := by
  rcases hu with ⟨x, hx, hcur⟩ | hr
  · by_cases hij : i = j
    · subst hij
      rw [hg] at hx; cases hx
      rcases cur_own hi ht hg hcur with ⟨y, hy, hyc⟩ | ⟨h1, h2, h3⟩
      · exact Or.inl ⟨y, hy, Or.inr hyc⟩
      · exact Or.inr (heff g hg h1 h2 h3)
    · refine Or.inl ⟨x, cur_other ht hg hij hx ?_, hcur⟩
      rcases hcur with h | h <;> rw [h] <;> simp
  · exact Or.inr (hR hr)

/-- The step that makes a call event. -/
theorem called_step {s s' : State} {a : Action} (h : step s a = some s') {i : Nat} {op : Op}
    (ht : s'.trace = s.trace ++ [.called i op]) :
    ∃ (g : G), s'.gs[i]? = some g ∧ g.cur = .wantE op := by
  obtain ⟨g, hg, hT⟩ := step_T h
  cases hT with
  | callE o r hc hcur hr =>
    have hev : [Ev.called a.g o] = [Ev.called i op] := List.append_cancel_left ht
    simp only [List.cons.injEq, Ev.called.injEq, and_true] at hev
    obtain ⟨rfl, rfl⟩ := hev
    exact ⟨_, by rw [get_upd hg, if_pos rfl], rfl⟩
  | ret o hc hcur => exact absurd (List.append_cancel_left ht) (by simp)
  | begin src n order hl he ho => exact absurd (List.append_cancel_left ht) (by simp)
  | done src n hl => exact absurd (List.append_cancel_left ht) (by simp)
  | enter src n f es calls hl => exact absurd (List.append_cancel_left ht) (by simp)
  | leave src n f es hl hcur hr => exact absurd (List.append_cancel_left ht) (by simp)
  | answer j rest hl =>
    have := congrArg List.length ht; simp [State.reply] at this
  | _ => exact absurd (List.append_cancel_left ht) (by simp)

/-- The step that makes a return event. -/
theorem returned_step {s s' : State} {a : Action} (h : step s a = some s') {i : Nat} {op : Op}
    (ht : s'.trace = s.trace ++ [.returned i op]) :
    ∃ (g : G), s.gs[i]? = some g ∧ g.cur = .out op := by
  obtain ⟨g, hg, hT⟩ := step_T h
  cases hT with
  | ret o hc hcur =>
    have hev : [Ev.returned a.g o] = [Ev.returned i op] := List.append_cancel_left ht
    simp only [List.cons.injEq, Ev.returned.injEq, and_true] at hev
    obtain ⟨rfl, rfl⟩ := hev
    exact ⟨g, hg, hcur⟩
  | answer j rest hl =>
    have := congrArg List.length ht; simp [State.reply] at this
  | _ => exact absurd (List.append_cancel_left ht) (by simp)

/-- From the call to the return of an operation on the exporters: if no conflicting call is in
progress at the call, and none is made before the return, then the effect of the operation is there
at the return. -/
theorem effect_at_return {cap : Nat} {progs : List (List Call)} {loops : Nat} {as : List Action} {s : State}
    (h : exec (init cap progs loops) as = some s) {t0 t1 t2 : List Ev} {g : Nat} {op op' : Op}
    (R : State → Prop)
    (ht : s.trace = t0 ++ [.called g op] ++ t1 ++ [.returned g op] ++ t2)
    (h0 : ∀ i, t0.count (.called i op') = t0.count (.returned i op'))
    (h1 : ∀ i, .called i op' ∉ t1) (hne : op ≠ op')
    (hR : ∀ s s' i g, View.ReportConc.Inv s → NoOp op' s → s.gs[i]? = some g → T s i g s' → R s → R s')
    (heff : ∀ s s' g', View.ReportConc.Inv s → s.gs[g]? = some g' → g'.cur = .inE op →
      s'.gs = (s.upd g { g' with cur := .out op } []).gs → s'.exps = op.apply s.exps → R s') :
    ∃ as2 s3, exec s3 as2 = some s ∧ Inv s3 ∧ NoOp op' s3 ∧ R s3 ∧ s.trace = s3.trace ++ t2 := by
  obtain ⟨as1, bs1, s0, rfl, e1, e2, e3, e4⟩ := exec_split h t0 (u2 := [.called g op] ++ t1 ++ [.returned g op] ++ t2)
    (by rw [ht]; simp [init])
  have e3 : s0.trace = t0 := by rw [e3]; rfl
  have hN0 : NoOp op' s0 := noOp_of_matched (matched_exec e1) (by rw [e3]; exact h0)
  have hi0 := inv_exec (inv_init cap progs loops) e1
  have noOpSeg : ∀ {s s' : State} {as : List Action} {u : List Ev}, View.ReportConc.Inv s → NoOp op' s → exec s as = some s' →
      s'.trace = s.trace ++ u → (∀ ev ∈ u, ∀ j, ev ≠ .called j op') → NoOp op' s' := by
    intro s s' as u hi hN he htr hq
    refine exec_inv (P := NoOp op') (Q := fun ev => ∀ j, ev ≠ .called j op')
      (fun s i g s' evs hi hP hg hT htr hQ => noOp_T hP hg hT htr (fun j hj => hQ _ hj j rfl)) hi hN he htr hq
  obtain ⟨cs1, a, cs2, s1, s2, rfl, f1, f2, f3, f4, f5, f6⟩ := exec_next (ev := .called g op)
    (u := t1 ++ [.returned g op] ++ t2) e2 (by rw [e4]; simp)
  have hi1 := inv_exec hi0 f1
  have hi2 := inv_step hi1 f3
  have hN1 : NoOp op' s1 := noOpSeg (u := []) hi0 hN0 f1 (by rw [f2]; simp) (by simp)
  have hN2 : NoOp op' s2 := by
    obtain ⟨g1, hg1, hT1⟩ := step_T f3
    refine noOp_T hN1 hg1 hT1 f4 ?_
    intro j hj
    simp only [List.mem_singleton, Ev.called.injEq] at hj
    exact hne hj.2.symm
  obtain ⟨g2, hg2, hg2c⟩ := called_step f3 f4
  obtain ⟨ds1, ds2, s3, rfl, d1, d2, d3, d4⟩ := exec_split f5 t1 (u2 := [.returned g op] ++ t2) (by rw [f6]; simp)
  have hseg : NoOp op' s3 ∧ Until g op R s3 := by
    refine exec_inv (P := fun s => NoOp op' s ∧ Until g op R s) (Q := fun ev => ∀ j, ev ≠ .called j op') ?_
      hi2 ⟨hN2, Or.inl ⟨g2, hg2, Or.inl hg2c⟩⟩ d1 d3 (by rintro ev hev j rfl; exact h1 j hev)
    intro s i g s' evs hi hP hg hT htr hQ
    refine ⟨noOp_T hP.1 hg hT htr (fun j hj => hQ _ hj j rfl), ?_⟩
    exact until_T hi hP.2 hg hT (hR s s' i g hi hP.1 hg hT) (fun g' hg' hc h5 h6 => heff s s' g' hi hg' hc h5 h6)
  have hi3 := inv_exec hi2 d1
  obtain ⟨ks1, b, ks2, s4, s5, rfl, k1, k2, k3, k4, k5, k6⟩ := exec_next (ev := .returned g op) (u := t2) d2 (by rw [d4]; simp)
  have hi4 := inv_exec hi3 k1
  have hseg4 : NoOp op' s4 ∧ Until g op R s4 := by
    refine exec_inv (P := fun s => NoOp op' s ∧ Until g op R s) (Q := fun ev => ∀ j, ev ≠ .called j op') ?_
      hi3 hseg k1 (u := []) (by rw [k2]; simp) (by simp)
    intro s i g s' evs hi hP hg hT htr hQ
    refine ⟨noOp_T hP.1 hg hT htr (fun j hj => hQ _ hj j rfl), ?_⟩
    exact until_T hi hP.2 hg hT (hR s s' i g hi hP.1 hg hT) (fun g' hg' hc h5 h6 => heff s s' g' hi hg' hc h5 h6)
  obtain ⟨g4, hg4, hg4c⟩ := returned_step k3 k4
  have hR4 : R s4 := by
    rcases hseg4.2 with ⟨x, hx, hc⟩ | hr
    · rw [hg4] at hx; cases hx
      rcases hc with h | h <;> rw [hg4c] at h <;> cases h
    · exact hr
  obtain ⟨g5, hg5, hT5⟩ := step_T k3
  refine ⟨ks2, s5, k5, inv_step hi4 k3, noOp_T hseg4.1 hg5 hT5 k4 (by simp), hR _ _ _ _ hi4 hseg4.1 hg5 hT5 hR4, k6⟩

/-- C61. Once `UnregisterExporter(e)` has returned, `e` is not being called and is not called any
more, unless a `RegisterExporter(e)` was in progress when it was called or is called later: whatever
the goroutines and exporters do, in every schedule. -/
theorem unregistered_exporter_not_called (cap : Nat) (progs : List (List Call)) (loops : Nat)
    (as : List Action) (s : State) (h : exec (init cap progs loops) as = some s)
    (t0 t1 t2 : List Ev) (g e : Nat)
    (ht : s.trace = t0 ++ [.called g (.del e)] ++ t1 ++ [.returned g (.del e)] ++ t2)
    (h0 : ∀ i, t0.count (.called i (.add e)) = t0.count (.returned i (.add e)))
    (h1 : ∀ i, .called i (.add e) ∉ t1) (h2 : ∀ i, .called i (.add e) ∉ t2) :
    ∀ i, .exportBegin i e ∉ t2 ∧ .exportEnd i e ∉ t2 := by
  obtain ⟨as2, s3, e1, hi, hN, hq, htr⟩ := effect_at_return h (Quiet e) ht h0 h1 (by simp)
    (fun s s' i g hi hN hg hT hq => quiet_T hN hq hg hT)
    (by
      intro s s' g' hi hg' hc h5 h6
      have hh : holdsE g' = true := by simp [holdsE, hc, Cur.isInE]
      refine ⟨by rw [h6]; simp [Op.apply], ?_⟩
      intro j x hx
      rw [h5, get_upd hg'] at hx
      have none_ahead : ∀ {j : Nat} {x : G}, s.gs[j]? = some x → x.loop.any Loop.hasE = false := by
        intro j x hy
        cases hl : x.loop.any Loop.hasE with
        | false => rfl
        | true =>
          have := hi.uniqueE hy hg' (by simp [holdsE, hl]) hh
          subst this
          rw [hg'] at hy; cases hy
          cases hloop : g'.loop with
          | none => rw [hloop] at hl; cases hl
          | some l =>
            have hw := hi.wf j g' hg' l hloop
            cases l with
            | call src n es f => simp [hc, Cur.isInE] at hw
            | _ => rw [hc] at hw; cases hw.1
      split at hx
      · cases hx
        
        have : ahead { g' with cur := .out (.del e) } = ahead g' := ahead_loop rfl
        rw [this, ahead_nil (none_ahead hg')]; simp
      · rw [ahead_nil (none_ahead hx)]; simp)
  have hP := exec_inv (P := fun s => NoOp (.add e) s ∧ Quiet e s ∧
      ∀ i, .exportBegin i e ∉ s.trace.drop s3.trace.length ∧ .exportEnd i e ∉ s.trace.drop s3.trace.length)
    (Q := fun ev => ∀ j, ev ≠ .called j (.add e))
    (by
      intro s i g s' evs hi ⟨hN, hq, hev⟩ hg hT htr hQ
      refine ⟨noOp_T hN hg hT htr (fun j hj => hQ _ hj j rfl), quiet_T hN hq hg hT, ?_⟩
      have hag := hq.2 i g hg
      intro k
      have key : .exportBegin k e ∉ evs ∧ .exportEnd k e ∉ evs := by
        have canc : ∀ {a : List Ev}, s'.trace = s.trace ++ a → evs = a :=
          fun h => List.append_cancel_left (htr.symm.trans h)
        cases hT with
        | enter src n f es calls hl =>
          rw [canc rfl]
          simp only [ahead, hl, List.mem_cons, not_or] at hag
          simp; exact fun _ => hag.1
        | leave src n f es hl hcur hr =>
          rw [canc rfl]
          simp only [ahead, hl, List.mem_cons, not_or] at hag
          simp; exact fun _ => hag.1
        | answer j rest hl => rw [canc (a := []) (by simp [State.reply])]; simp
        | _ => rw [canc rfl]; simp
      rw [htr, List.drop_append]
      simp only [List.mem_append, not_or]
      exact ⟨⟨(hev k).1, fun hc => key.1 (List.mem_of_mem_drop hc)⟩,
        ⟨(hev k).2, fun hc => key.2 (List.mem_of_mem_drop hc)⟩⟩)
    hi ⟨hN, hq, by simp⟩ e1 htr (by rintro ev hev j rfl; exact h2 j hev)
  intro i
  have := hP.2.2 i
  rw [htr, List.drop_left] at this
  exact this

/-! ## After `RegisterExporter` has returned -/

theorem mem_exps_T {s s' : State} {i : Nat} {g : G} {e : Nat} (hN : NoOp (.del e) s)
    (he : e ∈ s.exps) (hg : s.gs[i]? = some g) (ht : T s i g s') : e ∈ s'.exps := by
  cases ht with
  | unlockE o hc hcur =>
    show e ∈ o.apply s.exps
    cases o with
    | add f =>
      simp only [Op.apply]
      split
      · exact he
      · simp [he]
    | del f =>
      have hne : f ≠ e := by
        rintro rfl
        have := hN i g hg
        simp [pend, hcur] at this
      simp [Op.apply, he, Ne.symm hne]
  | _ => exact he

/-- The step that makes a begin-of-report event. -/
theorem reportBegin_step {s s' : State} {a : Action} (h : step s a = some s') {i : Nat}
    (ht : s'.trace = s.trace ++ [.reportBegin i]) :
    ∃ (g : G) (src : Src) (n : Nat) (es : List Nat), s'.gs[i]? = some g ∧ g.loop = some (.range src n es) ∧
      es.Perm s.exps := by
  obtain ⟨g, hg, hT⟩ := step_T h
  cases hT with
  | begin src n order hl he ho =>
    have hev : [Ev.reportBegin a.g] = [Ev.reportBegin i] := List.append_cancel_left ht
    simp only [List.cons.injEq, Ev.reportBegin.injEq, and_true] at hev
    subst hev
    exact ⟨_, src, n, order, by
      show (s.upd a.g _ [.reportBegin a.g]).gs[a.g]? = _
      rw [get_upd hg, if_pos rfl], rfl, ho⟩
  | answer j rest hl =>
    have := congrArg List.length ht; simp [State.reply] at this
  | _ => exact absurd (List.append_cancel_left ht) (by simp)

theorem reportEnd_step {s s' : State} {a : Action} (h : step s a = some s') {i : Nat}
    (ht : s'.trace = s.trace ++ [.reportEnd i]) :
    ∃ (g : G) (src : Src) (n : Nat), s.gs[i]? = some g ∧ g.loop = some (.range src n []) := by
  obtain ⟨g, hg, hT⟩ := step_T h
  cases hT with
  | done src n hl =>
    have hev : [Ev.reportEnd a.g] = [Ev.reportEnd i] := List.append_cancel_left ht
    simp only [List.cons.injEq, Ev.reportEnd.injEq, and_true] at hev
    subst hev
    exact ⟨g, src, n, hg, hl⟩
  | answer j rest hl =>
    have := congrArg List.length ht; simp [State.reply] at this
  | _ => exact absurd (List.append_cancel_left ht) (by simp)

/-- The exporters a report still has to call. -/
def rest (g : G) : Option (List Nat) :=
  match g.loop with
  | some (.range _ _ es) => some es
  | some (.call _ _ es _) => some es
  | _ => none

/-- During a report: what it has called of `e` and what it still has to is one call in all. -/
def OneCall (i e k : Nat) (s : State) : Prop :=
  ∃ (g : G) (es : List Nat), s.gs[i]? = some g ∧ rest g = some es ∧
    (s.trace.drop k).count (.exportBegin i e) + es.count e = 1

theorem oneCall_T {s s' : State} {i j e k : Nat} {g : G} (hk : k ≤ s.trace.length) (h : OneCall i e k s)
    (hg : s.gs[j]? = some g) (ht : T s j g s') {evs : List Ev} (htr : s'.trace = s.trace ++ evs)
    (hQ : .reportEnd i ∉ evs) : OneCall i e k s' := by
  obtain ⟨x, es, hx, hr, hc⟩ := h
  have canc : ∀ {a : List Ev}, s'.trace = s.trace ++ a → evs = a :=
    fun h => List.append_cancel_left (htr.symm.trans h)
  have hcount : (s'.trace.drop k).count (.exportBegin i e) =
      (s.trace.drop k).count (.exportBegin i e) + evs.count (.exportBegin i e) := by
    rw [htr, List.drop_append_of_le_length hk, List.count_append]
  -- steps that leave this goroutine's loop and make no such event
  have keep : ∀ {y : G}, s'.gs[i]? = some y → y.loop = x.loop → .exportBegin i e ∉ evs → OneCall i e k s' := by
    intro y hy hl hev
    refine ⟨y, es, hy, by unfold rest at *; rw [hl]; exact hr, ?_⟩
    rw [hcount, List.count_eq_zero.mpr hev, Nat.add_zero]; exact hc
  have updO : ∀ {g' : G} {l : List Ev}, s'.gs = (s.upd j g' l).gs → (j = i → g'.loop = g.loop) →
      .exportBegin i e ∉ evs → OneCall i e k s' := by
    intro g' l h1 h2 hev
    by_cases hij : i = j
    · subst hij
      rw [hg] at hx; cases hx
      exact keep (y := g') (by rw [h1, get_upd hg, if_pos rfl]) (h2 rfl) hev
    · exact keep (y := x) (by rw [h1, get_upd hg, if_neg hij]; exact hx) rfl hev
  have repO : ∀ {g' : G} {l : List Ev} (m : Nat), s'.gs = ((s.upd j g' l).reply m).gs → (j = i → g'.loop = g.loop) →
      .exportBegin i e ∉ evs → OneCall i e k s' := by
    intro g' l m h1 h2 hev
    have : ∃ y, (s.upd j g' l).gs[i]? = some y ∧ y.loop = x.loop := by
      by_cases hij : i = j
      · subst hij
        rw [hg] at hx; cases hx
        exact ⟨g', by rw [get_upd hg, if_pos rfl], h2 rfl⟩
      · exact ⟨x, by rw [get_upd hg, if_neg hij]; exact hx, rfl⟩
    obtain ⟨y, hy, hyl⟩ := this
    by_cases hmi : m = i
    · exact keep (y := replied y) (by rw [h1, get_reply, if_pos hmi, hy]; rfl) (by rw [replied_loop, hyl]) hev
    · exact keep (y := y) (by rw [h1, get_reply, if_neg hmi, hy]) hyl hev
  have notmine : ∀ {l : Loop}, g.loop = some l → rest g = none → j = i → False := by
    intro l hl hn hji
    subst hji
    rw [hg] at hx; cases hx
    rw [hn] at hr; cases hr
  cases ht with
  | callE o r hcl hcur hrr =>
    exact updO (g' := { g with todo := r, cur := .wantE o }) (l := []) rfl (fun _ => rfl) (by rw [canc rfl]; simp)
  | callOther c r cur hcl hcur hrr hn =>
    exact updO (g' := { g with todo := r, cur := cur }) (l := []) rfl (fun _ => rfl) (by rw [canc rfl]; simp)
  | lockE o hcl hcur he =>
    exact updO (g' := { g with cur := .inE o }) (l := []) rfl (fun _ => rfl) (by rw [canc rfl]; simp)
  | unlockE o hcl hcur =>
    exact updO (g' := { g with cur := .out o }) (l := []) rfl (fun _ => rfl) (by rw [canc rfl]; simp)
  | ret o hcl hcur =>
    exact updO (g' := { g with cur := .idle }) (l := []) rfl (fun _ => rfl) (by rw [canc rfl]; simp)
  | send q hcl hcur =>
    exact updO (g' := { g with cur := if q.isSome then .awaiting else .idle }) (l := []) rfl (fun _ => rfl)
      (by rw [canc rfl]; simp)
  | lockMu hcl hcur he =>
    exact updO (g' := { g with cur := .inMu }) (l := []) rfl (fun _ => rfl) (by rw [canc rfl]; simp)
  | unlockMu hcl hcur =>
    exact updO (g' := { g with cur := .idle }) (l := []) rfl (fun _ => rfl) (by rw [canc rfl]; simp)
  | tick n hl =>
    exact updO (g' := { g with loop := some (.lockMu n) }) (l := []) rfl
      (fun hj => (notmine hl (by simp [rest, hl]) hj).elim) (by rw [canc rfl]; simp)
  | take l rs hl hn =>
    exact updO (g' := { g with loop := some l }) (l := []) rfl
      (fun hj => (notmine hl (by simp [rest, hl]) hj).elim) (by rw [canc rfl]; simp)
  | answer m rs hl =>
    have hev : evs = [] := canc (a := []) (by simp [State.reply])
    by_cases hmi : m = i
    · exact keep (y := replied x) (by show (s.reply m).gs[i]? = _; rw [get_reply, if_pos hmi, hx]; rfl)
        (replied_loop x) (by rw [hev]; simp)
    · exact keep (y := x) (by show (s.reply m).gs[i]? = _; rw [get_reply, if_neg hmi, hx]) rfl (by rw [hev]; simp)
  | tickMu n l hl hmu hn =>
    exact updO (g' := { g with loop := some l }) (l := []) rfl
      (fun hj => (notmine hl (by simp [rest, hl]) hj).elim) (by rw [canc rfl]; simp)
  | tickEnd hl =>
    exact updO (g' := { g with loop := some .select }) (l := []) rfl
      (fun hj => (notmine hl (by simp [rest, hl]) hj).elim) (by rw [canc rfl]; simp)
  | handled w hl =>
    exact updO (g' := { g with loop := some .select }) (l := []) rfl
      (fun hj => (notmine hl (by simp [rest, hl]) hj).elim) (by rw [canc rfl]; simp)
  | handledReply w m hl =>
    exact repO (g' := { g with loop := some .select }) (l := []) m rfl
      (fun hj => (notmine hl (by simp [rest, hl]) hj).elim) (by rw [canc rfl]; simp)
  | begin src n order hl he ho =>
    exact updO (g' := { g with loop := some (.range src n order) }) (l := []) rfl
      (fun hj => (notmine hl (by simp [rest, hl]) hj).elim) (by rw [canc rfl]; simp)
  | done src n hl =>
    have hev : evs = [.reportEnd j] := canc rfl
    have hji : j ≠ i := by rintro rfl; exact hQ (by rw [hev]; simp)
    exact updO (g' := { g with loop := some (afterReport src n) }) (l := []) rfl
      (fun hj => absurd hj hji) (by rw [hev]; simp)
  | enter src n f fs calls hl =>
    have hev : evs = [.exportBegin j f] := canc rfl
    by_cases hji : i = j
    · subst hji
      rw [hg] at hx; cases hx
      have hes : es = f :: fs := by simp only [rest, hl, Option.some.injEq] at hr; exact hr.symm
      subst hes
      refine ⟨⟨calls, .idle, some (.call src n fs f)⟩, fs, by rw [get_upd hg, if_pos rfl], rfl, ?_⟩
      rw [hcount, hev]
      rw [List.count_cons] at hc
      by_cases hfe : f = e
      · subst hfe; simp at hc ⊢; omega
      · have : ¬ (Ev.exportBegin i f == Ev.exportBegin i e) = true := by simp [hfe]
        rw [List.count_cons, if_neg this]
        simp [hfe] at hc ⊢; exact hc
    · exact updO (g' := ⟨calls, .idle, some (.call src n fs f)⟩) (l := []) rfl (fun h => absurd h.symm hji)
        (by rw [hev]; simp; exact fun h => absurd h hji)
  | leave src n f fs hl hcur hrr =>
    have hev : evs = [.exportEnd j f] := canc rfl
    by_cases hji : i = j
    · subst hji
      rw [hg] at hx; cases hx
      have hes : es = fs := by simp only [rest, hl, Option.some.injEq] at hr; exact hr.symm
      subst hes
      refine ⟨{ g with loop := some (.range src n es) }, es, by rw [get_upd hg, if_pos rfl], rfl, ?_⟩
      rw [hcount, hev]; simpa using hc
    · exact updO (g' := { g with loop := some (.range src n fs) }) (l := []) rfl (fun h => absurd h.symm hji)
        (by rw [hev]; simp)
  | removed who n hl =>
    exact repO (g' := { g with loop := some .select }) (l := []) who rfl
      (fun hj => (notmine hl (by simp [rest, hl]) hj).elim) (by rw [canc rfl]; simp)
  | next who n hl =>
    exact updO (g' := { g with loop := some (.lockE (.unregister who) n) }) (l := []) rfl
      (fun hj => (notmine hl (by simp [rest, hl]) hj).elim) (by rw [canc rfl]; simp)

/-- C61. Every report of a view that begins after `RegisterExporter(e)` has returned calls `e` exactly
once before it ends, unless an `UnregisterExporter(e)` was in progress when `RegisterExporter(e)` was
called or was called before the report began. One that is called during the report does not
interfere with it. -/
theorem registered_exporter_called (cap : Nat) (progs : List (List Call)) (loops : Nat)
    (as : List Action) (s : State) (h : exec (init cap progs loops) as = some s)
    (t0 t1 t2 t3 t4 : List Ev) (g e i : Nat)
    (ht : s.trace = t0 ++ [.called g (.add e)] ++ t1 ++ [.returned g (.add e)] ++
      (t2 ++ [.reportBegin i] ++ t3 ++ [.reportEnd i] ++ t4))
    (h0 : ∀ j, t0.count (.called j (.del e)) = t0.count (.returned j (.del e)))
    (h1 : ∀ j, .called j (.del e) ∉ t1) (h2 : ∀ j, .called j (.del e) ∉ t2)
    (h3 : .reportEnd i ∉ t3) :
    t3.count (.exportBegin i e) = 1 := by
  obtain ⟨as2, s3, e1, hi, hN, hq, htr⟩ := effect_at_return h (fun s => e ∈ s.exps) ht h0 h1 (by simp)
    (fun s s' i g hi hN hg hT hq => mem_exps_T hN hq hg hT)
    (by
      intro s s' g' hi hg' hc h5 h6
      rw [h6]
      simp only [Op.apply]
      split
      · assumption
      · simp)
  obtain ⟨bs1, bs2, s4, rfl, f1, f2, f3, f4⟩ := exec_split e1 t2 (u2 := [.reportBegin i] ++ t3 ++ [.reportEnd i] ++ t4)
    (by rw [htr]; simp)
  have segP : ∀ {s s' : State} {as : List Action} {u : List Ev}, View.ReportConc.Inv s → NoOp (.del e) s → e ∈ s.exps →
      exec s as = some s' → s'.trace = s.trace ++ u → (∀ j, .called j (.del e) ∉ u) →
      NoOp (.del e) s' ∧ e ∈ s'.exps := by
    intro s s' as u hi hN hm he htr hq
    refine exec_inv (P := fun s => NoOp (.del e) s ∧ e ∈ s.exps) (Q := fun ev => ∀ j, ev ≠ .called j (.del e))
      (fun s i g s' evs hi hP hg hT htr hQ => ⟨noOp_T hP.1 hg hT htr (fun j hj => hQ _ hj j rfl),
        mem_exps_T hP.1 hP.2 hg hT⟩) hi ⟨hN, hm⟩ he htr (by rintro ev hev j rfl; exact hq j hev)
  have hi4 := inv_exec hi f1
  obtain ⟨hN4, hm4⟩ := segP hi hN hq f1 f3 h2
  obtain ⟨cs1, a, cs2, s5, s6, rfl, k1, k2, k3, k4, k5, k6⟩ := exec_next (ev := .reportBegin i)
    (u := t3 ++ [.reportEnd i] ++ t4) f2 (by rw [f4]; simp)
  have hi5 := inv_exec hi4 k1
  obtain ⟨hN5, hm5⟩ := segP (u := []) hi4 hN4 hm4 k1 (by rw [k2]; simp) (by simp)
  have hi6 := inv_step hi5 k3
  obtain ⟨g6, src, n, es, hg6, hl6, hperm⟩ := reportBegin_step k3 k4
  have hone : OneCall i e s6.trace.length s6 := by
    refine ⟨g6, es, hg6, by simp [rest, hl6], ?_⟩
    rw [List.drop_length, hperm.count_eq, hi5.nodup.count, if_pos hm5]
    simp
  obtain ⟨ds1, ds2, s7, rfl, d1, d2, d3, d4⟩ := exec_split k5 t3 (u2 := [.reportEnd i] ++ t4) (by rw [k6]; simp)
  have segO : ∀ {s s' : State} {as : List Action} {u : List Ev}, View.ReportConc.Inv s → s6.trace.length ≤ s.trace.length →
      OneCall i e s6.trace.length s →
      exec s as = some s' → s'.trace = s.trace ++ u → .reportEnd i ∉ u → OneCall i e s6.trace.length s' := by
    intro s s' as u hi hlen hm he htr hq
    have := exec_inv (P := fun s => s6.trace.length ≤ s.trace.length ∧ OneCall i e s6.trace.length s)
      (Q := fun ev => ev ≠ .reportEnd i)
      (fun s i g s' evs hi hP hg hT htr hQ => ⟨by rw [htr]; simp; omega,
        oneCall_T hP.1 hP.2 hg hT htr (fun hj => hQ _ hj rfl)⟩) hi ⟨hlen, hm⟩ he htr
      (by rintro ev hev rfl; exact hq hev)
    exact this.2
  have hone7 := segO hi6 (Nat.le_refl _) hone d1 d3 h3
  have hi7 := inv_exec hi6 d1
  obtain ⟨ks1, b, ks2, s8, s9, rfl, l1, l2, l3, l4, l5, l6⟩ := exec_next (ev := .reportEnd i) (u := t4) d2 (by rw [d4]; simp)
  obtain ⟨x, es', hx, hr, hc⟩ := segO (u := []) hi7 (by rw [d3]; simp) hone7 l1 (by rw [l2]; simp) (by simp)
  obtain ⟨y, src', n', hy, hyl⟩ := reportEnd_step l3 l4
  rw [hx] at hy; cases hy
  have : es' = [] := by simp only [rest, hyl, Option.some.injEq] at hr; exact hr.symm
  subst this
  rw [l2, d3, List.drop_left] at hc
  simpa using hc

/-! ## Exporters that call the meter -/

theorem T_cap {s s' : State} {i : Nat} {g : G} (ht : T s i g s') : s'.cap = s.cap := by
  cases ht <;> rfl

theorem step_cap {s s' : State} {a : Action} (h : step s a = some s') : s'.cap = s.cap := by
  obtain ⟨g, _, hT⟩ := step_T h
  exact T_cap hT

/-- Goroutine `i` is inside `ExportView`, waiting for the lock its own report holds. -/
def Stuck (i : Nat) (op : Op) (s : State) : Prop :=
  ∃ (g : G) (src : Src) (n : Nat) (es : List Nat) (e : Nat), s.gs[i]? = some g ∧
    g.loop = some (.call src n es e) ∧ g.cur = .wantE op

theorem Stuck.emu {i : Nat} {op : Op} {s : State} (hi : View.ReportConc.Inv s) (h : Stuck i op s) : s.emu = some i := by
  obtain ⟨g, src, n, es, e, h1, h2, _⟩ := h
  exact (hi.e i g h1).mp (by simp [holdsE, h2, Loop.hasE])

theorem stuck_T {s s' : State} {i j : Nat} {g : G} {op : Op} (hi : View.ReportConc.Inv s) (hs : Stuck i op s)
    (hg : s.gs[j]? = some g) (ht : T s j g s') : Stuck i op s' := by
  have hemu := hs.emu hi
  obtain ⟨x, src, n, es, e, h1, h2, h3⟩ := hs
  by_cases hij : i = j
  · subst hij
    rw [hg] at h1; cases h1
    exfalso
    cases ht with
    | lockE o hc hcur he => rw [hemu] at he; cases he
    | callE o r hc hcur hr => rw [h3] at hcur; cases hcur
    | callOther c r cur hc hcur hr hn => rw [h3] at hcur; cases hcur
    | unlockE o hc hcur => rw [h3] at hcur; cases hcur
    | ret o hc hcur => rw [h3] at hcur; cases hcur
    | send k hc hcur => rw [h3] at hcur; cases hcur
    | lockMu hc hcur he => rw [h3] at hcur; cases hcur
    | unlockMu hc hcur => rw [h3] at hcur; cases hcur
    | leave src n f es hl hcur hr => rw [h3] at hcur; cases hcur
    | tick n hl => rw [h2] at hl; cases hl
    | take l rest hl hn => rw [h2] at hl; cases hl
    | answer j rest hl => rw [h2] at hl; cases hl
    | tickMu n l hl hmu hn => rw [h2] at hl; cases hl
    | tickEnd hl => rw [h2] at hl; cases hl
    | handled w hl => rw [h2] at hl; cases hl
    | handledReply w j hl => rw [h2] at hl; cases hl
    | begin src n order hl he ho => rw [h2] at hl; cases hl
    | done src n hl => rw [h2] at hl; cases hl
    | enter src n e es calls hl => rw [h2] at hl; cases hl
    | removed who n hl => rw [h2] at hl; cases hl
    | next who n hl => rw [h2] at hl; cases hl
  · exact ⟨x, src, n, es, e, cur_other ht hg hij h1 (by rw [h3]; simp), h2, h3⟩

/-- While somebody holds the lock for good, a waiting call keeps waiting. -/
theorem wait_T {s s' : State} {i j k : Nat} {g : G} {op : Op} (he : s.emu = some k)
    (hw : ∃ x : G, s.gs[i]? = some x ∧ x.cur = .wantE op) (hi : View.ReportConc.Inv s)
    (hg : s.gs[j]? = some g) (ht : T s j g s') : ∃ x : G, s'.gs[i]? = some x ∧ x.cur = .wantE op := by
  obtain ⟨x, h1, h3⟩ := hw
  by_cases hij : i = j
  · subst hij
    rw [hg] at h1; cases h1
    rcases cur_own hi ht hg (Or.inl h3) with ⟨y, hy, hyc⟩ | ⟨h4, _, _⟩
    · exfalso
      cases ht with
      | lockE o hc hcur h => rw [he] at h; cases h
      | callE o r hc hcur hr => rw [h3] at hcur; cases hcur
      | callOther c r cur hc hcur hr hn => rw [h3] at hcur; cases hcur
      | unlockE o hc hcur => rw [h3] at hcur; cases hcur
      | ret o hc hcur => rw [h3] at hcur; cases hcur
      | send k hc hcur => rw [h3] at hcur; cases hcur
      | lockMu hc hcur h => rw [h3] at hcur; cases hcur
      | unlockMu hc hcur => rw [h3] at hcur; cases hcur
      | leave src n f es hl hcur hr => rw [h3] at hcur; cases hcur
      | tick n hl => have := (hi.wf i g hg _ hl).1; rw [h3] at this; cases this
      | take l rest hl hn => have := (hi.wf i g hg _ hl).1; rw [h3] at this; cases this
      | answer j rest hl => have := (hi.wf i g hg _ hl).1; rw [h3] at this; cases this
      | tickMu n l hl hmu hn => have := (hi.wf i g hg _ hl).1; rw [h3] at this; cases this
      | tickEnd hl => have := (hi.wf i g hg _ hl).1; rw [h3] at this; cases this
      | handled w hl => have := (hi.wf i g hg _ hl).1; rw [h3] at this; cases this
      | handledReply w j hl => have := (hi.wf i g hg _ hl).1; rw [h3] at this; cases this
      | begin src n order hl he ho => have := (hi.wf i g hg _ hl).1; rw [h3] at this; cases this
      | done src n hl => have := (hi.wf i g hg _ hl).1; rw [h3] at this; cases this
      | enter src n e es calls hl => have := (hi.wf i g hg _ hl).1; rw [h3] at this; cases this
      | removed who n hl => have := (hi.wf i g hg _ hl).1; rw [h3] at this; cases this
      | next who n hl => have := (hi.wf i g hg _ hl).1; rw [h3] at this; cases this
    · rw [h3] at h4; cases h4
  · exact ⟨x, cur_other ht hg hij h1 (by rw [h3]; simp), h3⟩

/-- Events of a step while the lock is held for good. -/
theorem stuck_events {s s' : State} {i j : Nat} {g : G} {op : Op} (hi : View.ReportConc.Inv s) (hs : Stuck i op s)
    (hg : s.gs[j]? = some g) (ht : T s j g s') {evs : List Ev} (htr : s'.trace = s.trace ++ evs) :
    ∀ ev ∈ evs, (∃ k o, ev = .called k o) ∨ (∃ k o, ev = .returned k o ∧
      ∃ x : G, s.gs[k]? = some x ∧ x.cur = .out o) := by
  have hemu := hs.emu hi
  have canc : ∀ {a : List Ev}, s'.trace = s.trace ++ a → evs = a :=
    fun h => List.append_cancel_left (htr.symm.trans h)
  have mine : ∀ {l : Loop}, g.loop = some l → l.hasE = true → ∃ src n es e, l = .call src n es e ∧ g.cur = .wantE op := by
    intro l hl hh
    have := hi.e j g hg |>.mp (by simp [holdsE, hl, hh])
    rw [hemu] at this; cases this
    obtain ⟨x, src, n, es, e, h1, h2, h3⟩ := hs
    rw [hg] at h1; cases h1
    rw [hl] at h2; cases h2
    exact ⟨_, _, _, _, rfl, h3⟩
  cases ht with
  | callE o r hc hcur hr => rw [canc rfl]; simp
  | ret o hc hcur =>
    rw [canc rfl]
    intro ev hev
    rw [List.mem_singleton] at hev
    exact Or.inr ⟨j, o, hev, g, hg, hcur⟩
  | begin src n order hl he ho => rw [hemu] at he; cases he
  | done src n hl => obtain ⟨_, _, _, _, h, _⟩ := mine hl rfl; cases h
  | enter src n f es calls hl => obtain ⟨_, _, _, _, h, _⟩ := mine hl rfl; cases h
  | leave src n f es hl hcur hr =>
    obtain ⟨_, _, _, _, _, h⟩ := mine hl rfl; rw [hcur] at h; cases h
  | answer j rest hl => rw [canc (a := []) (by simp [State.reply])]; simp
  | _ => rw [canc rfl]; simp

theorem Mon.run_exporting {i e : Nat} : ∀ {u : List Ev} {m : Mon}, Mon.run (.exporting i e) u = some m →
    .exportEnd i e ∉ u → m = .exporting i e := by
  intro u
  induction u with
  | nil => intro m h _; simp only [Mon.run, Option.some.injEq] at h; exact h.symm
  | cons ev u ih =>
    intro m h hn
    simp only [List.mem_cons, not_or] at hn
    cases ev with
    | called k o => exact ih h hn.2
    | returned k o => exact ih h hn.2
    | reportBegin k => cases h
    | reportEnd k => cases h
    | exportBegin k f => cases h
    | exportEnd k f =>
      simp only [Mon.run, Mon.next] at h
      split at h
      · next hc => exact absurd (by rw [hc.1, hc.2]) hn.1
      · cases h

theorem mon_exec {cap : Nat} {progs : List (List Call)} {loops : Nat} {as : List Action} {s : State}
    (h : exec (init cap progs loops) as = some s) : ∃ m, Mon.run .free s.trace = some m ∧ RelMon s m :=
  exec_inv (P := fun s => ∃ m, Mon.run .free s.trace = some m ∧ RelMon s m) (Q := fun _ => True)
    (by
      intro s i g s' evs hi ⟨m, h1, h2⟩ hg hT htr _
      obtain ⟨m', h3, h4⟩ := relMon_T hi hg hT htr h2
      exact ⟨m', by rw [htr, Mon.run_append, h1]; exact h3, h4⟩)
    (inv_init cap progs loops) ⟨.free, rfl, by
      intro i g hg
      have hm := List.mem_of_getElem? hg
      simp only [init, List.mem_append, List.mem_map, List.mem_replicate] at hm
      rcases hm with ⟨p, _, rfl⟩ | ⟨_, rfl⟩ <;> rfl⟩ h (u := s.trace) (by simp [init]) (fun _ _ => trivial)

theorem Mon.next_exportBegin {m m' : Mon} {i e : Nat} (h : m.next (.exportBegin i e) = some m') :
    m' = .exporting i e := by
  cases m with
  | free => cases h
  | report k =>
    simp only [Mon.next] at h
    split at h
    · next hk => subst hk; exact (Option.some.inj h).symm
    · cases h
  | exporting k f => cases h

/-- C61, a limit. An exporter that calls `RegisterExporter` or `UnregisterExporter` from `ExportView`
stops the meter's exporters for good: in every continuation of every schedule that call does not
return, no `ExportView` returns or begins, no report begins or ends, and no later call of
`RegisterExporter` or `UnregisterExporter`, by whatever goroutine, returns. -/
theorem reentrant_register_never_returns (cap : Nat) (progs : List (List Call)) (loops : Nat)
    (as : List Action) (s : State) (h : exec (init cap progs loops) as = some s)
    (t0 t1 t2 : List Ev) (i e : Nat) (op : Op)
    (ht : s.trace = t0 ++ [.exportBegin i e] ++ t1 ++ [.called i op] ++ t2)
    (h1 : .exportEnd i e ∉ t1) :
    .returned i op ∉ t2 ∧
    (∀ j f, .exportBegin j f ∉ t2 ∧ .exportEnd j f ∉ t2 ∧ .reportBegin j ∉ t2 ∧ .reportEnd j ∉ t2) ∧
    (∀ u v j o, t2 = u ++ [.called j o] ++ v → .returned j o ∉ v) := by
  obtain ⟨as1, bs1, s0, rfl, e1, e2, e3, e4⟩ := exec_split h (t0 ++ [.exportBegin i e] ++ t1)
    (u2 := [.called i op] ++ t2) (by rw [ht]; simp [init])
  have e3 : s0.trace = t0 ++ [.exportBegin i e] ++ t1 := by rw [e3]; rfl
  obtain ⟨cs1, a, cs2, s1, s2, rfl, f1, f2, f3, f4, f5, f6⟩ := exec_next (ev := .called i op) (u := t2) e2 (by rw [e4]; simp)
  have hx1 : exec (init cap progs loops) (as1 ++ cs1 ++ [a]) = some s2 := by
    rw [exec_append, exec_append, e1]
    simp only [Option.bind_some, f1]
    simp [exec, f3]
  have hi2 := inv_exec (inv_init cap progs loops) hx1
  obtain ⟨m, hm, hrel⟩ := mon_exec hx1
  have hms : m = .exporting i e := by
    rw [f4, f2, e3, List.append_assoc, Mon.run_append, Mon.run_append] at hm
    cases hm0 : Mon.run .free t0 with
    | none => rw [hm0] at hm; cases hm
    | some m0 =>
      rw [hm0] at hm
      simp only [Option.bind_some] at hm
      cases hm1 : m0.next (.exportBegin i e) with
      | none => rw [show Mon.run m0 [.exportBegin i e] = none by simp [Mon.run, hm1]] at hm; cases hm
      | some m1 =>
        rw [show Mon.run m0 [.exportBegin i e] = some m1 by simp [Mon.run, hm1]] at hm
        have := Mon.next_exportBegin hm1
        subst this
        exact Mon.run_exporting hm (by simp [h1])
  subst hms
  obtain ⟨g2, hg2, hg2c⟩ := called_step f3 f4
  obtain ⟨g2', src, n, es, hg2', hl2⟩ := hrel
  rw [hg2] at hg2'; cases hg2'
  have hst : Stuck i op s2 := ⟨g2, src, n, es, e, hg2, hl2, hg2c⟩
  -- the events of a segment from a stuck state
  have seg : ∀ {s s' : State} {as : List Action} {u : List Ev}, View.ReportConc.Inv s → Stuck i op s →
      exec s as = some s' → s'.trace = s.trace ++ u → Stuck i op s' ∧
      (∀ j f, .exportBegin j f ∉ u ∧ .exportEnd j f ∉ u ∧ .reportBegin j ∉ u ∧ .reportEnd j ∉ u) := by
    intro s s' as u hi hs he htr
    have := exec_inv (P := fun x => Stuck i op x ∧ ∀ j f, .exportBegin j f ∉ x.trace.drop s.trace.length ∧
        .exportEnd j f ∉ x.trace.drop s.trace.length ∧ .reportBegin j ∉ x.trace.drop s.trace.length ∧
        .reportEnd j ∉ x.trace.drop s.trace.length) (Q := fun _ => True)
      (by
        intro x k g x' evs hi hP hg hT htr _
        refine ⟨stuck_T hi hP.1 hg hT, ?_⟩
        intro j f
        have hev := stuck_events hi hP.1 hg hT htr
        have hno : ∀ ev, ev ∈ evs.drop (s.trace.length - x.trace.length) →
            (∃ k o, ev = .called k o) ∨ (∃ k o, ev = .returned k o) := by
          intro ev h
          rcases hev ev (List.mem_of_mem_drop h) with h | ⟨k, o, h, _⟩
          · exact Or.inl h
          · exact Or.inr ⟨k, o, h⟩
        rw [htr, List.drop_append]
        simp only [List.mem_append, not_or]
        refine ⟨⟨(hP.2 j f).1, ?_⟩, ⟨(hP.2 j f).2.1, ?_⟩, ⟨(hP.2 j f).2.2.1, ?_⟩, ⟨(hP.2 j f).2.2.2, ?_⟩⟩ <;>
          · intro h; rcases hno _ h with ⟨_, _, h⟩ | ⟨_, _, h⟩ <;> cases h)
      hi ⟨hs, by simp⟩ he htr (fun _ _ => trivial)
    rw [htr, List.drop_left] at this
    exact this
  -- a waiting call does not return
  have wait : ∀ {s s' : State} {as : List Action} {u : List Ev} {j : Nat} {o : Op}, View.ReportConc.Inv s →
      Stuck i op s → (∃ x : G, s.gs[j]? = some x ∧ x.cur = .wantE o) →
      exec s as = some s' → s'.trace = s.trace ++ u → .returned j o ∉ u := by
    intro s s' as u j o hi hs hw he htr
    have := exec_inv (P := fun x => Stuck i op x ∧ (∃ y : G, x.gs[j]? = some y ∧ y.cur = .wantE o) ∧
        .returned j o ∉ x.trace.drop s.trace.length) (Q := fun _ => True)
      (by
        intro x k g x' evs hi hP hg hT htr _
        refine ⟨stuck_T hi hP.1 hg hT, wait_T (hP.1.emu hi) hP.2.1 hi hg hT, ?_⟩
        have hev := stuck_events hi hP.1 hg hT htr
        rw [htr, List.drop_append]
        simp only [List.mem_append, not_or]
        refine ⟨hP.2.2, ?_⟩
        intro h
        rcases hev _ (List.mem_of_mem_drop h) with ⟨_, _, h⟩ | ⟨k, o', h, y, hy, hyc⟩
        · cases h
        · cases h
          obtain ⟨y', hy', hyc'⟩ := hP.2.1
          rw [hy] at hy'; cases hy'
          rw [hyc] at hyc'; cases hyc')
      hi ⟨hs, hw, by simp⟩ he htr (fun _ _ => trivial)
    have := this.2.2
    rwa [htr, List.drop_left] at this
  refine ⟨wait hi2 hst ⟨g2, hg2, hg2c⟩ f5 f6, (seg hi2 hst f5 f6).2, ?_⟩
  intro u v j o huv
  obtain ⟨ds1, ds2, s3, rfl, d1, d2, d3, d4⟩ := exec_split f5 u (u2 := [.called j o] ++ v) (by rw [f6, huv]; simp)
  obtain ⟨ks1, b, ks2, s4, s5, rfl, k1, k2, k3, k4, k5, k6⟩ := exec_next (ev := .called j o) (u := v) d2 (by rw [d4]; simp)
  have hi3 := inv_exec hi2 d1
  have hi4 := inv_exec hi3 k1
  have hst3 := (seg hi2 hst d1 d3).1
  have hst4 := (seg (u := []) hi3 hst3 k1 (by rw [k2]; simp)).1
  obtain ⟨g5, hg5, hT5⟩ := step_T k3
  exact wait (inv_step hi4 k3) (stuck_T hi4 hst4 hg5 hT5) (called_step k3 k4) k5 k6

/-- A goroutine inside `ExportView` can only take a step of its call. -/
theorem own_step_call {s s' : State} {i : Nat} {g : G} (ht : T s i g s') {src : Src} {n : Nat} {es : List Nat} {e : Nat}
    (hl : g.loop = some (.call src n es e)) (hcur : g.cur ≠ .idle) :
    (∃ o, g.cur = .wantE o ∧ s.emu = none) ∨ (∃ o, g.cur = .inE o) ∨ (∃ o, g.cur = .out o) ∨
    (∃ k, g.cur = .sending k ∧ s' = { s.upd i { g with cur := if k.isSome then .awaiting else .idle } [] with
      chan := s.chan ++ [(i, k)] }) ∨ (g.cur = .wantMu ∧ s.mu = none) ∨ g.cur = .inMu := by
  cases ht with
  | callE o r hc h hr => exact absurd h hcur
  | callOther c r cur hc h hr hn => exact absurd h hcur
  | lockE o hc h he => exact Or.inl ⟨o, h, he⟩
  | unlockE o hc h => exact Or.inr (Or.inl ⟨o, h⟩)
  | ret o hc h => exact Or.inr (Or.inr (Or.inl ⟨o, h⟩))
  | send k hc h => exact Or.inr (Or.inr (Or.inr (Or.inl ⟨k, h, rfl⟩)))
  | lockMu hc h he => exact Or.inr (Or.inr (Or.inr (Or.inr (Or.inl ⟨h, he⟩))))
  | unlockMu hc h => exact Or.inr (Or.inr (Or.inr (Or.inr (Or.inr h))))
  | leave src n f es hl h hr => exact absurd h hcur
  | tick n h => rw [hl] at h; cases h
  | take l rest h hn => rw [hl] at h; cases h
  | answer j rest h => rw [hl] at h; cases h
  | tickMu n l h hmu hn => rw [hl] at h; cases h
  | tickEnd h => rw [hl] at h; cases h
  | handled w h => rw [hl] at h; cases h
  | handledReply w j h => rw [hl] at h; cases h
  | begin src n order h he ho => rw [hl] at h; cases h
  | done src n h => rw [hl] at h; cases h
  | enter src n e es calls h => rw [hl] at h; cases h
  | removed who n h => rw [hl] at h; cases h
  | next who n h => rw [hl] at h; cases h

/-- C61, a limit. An exporter that calls `Read` while it is called for a tick waits for ever: the
goroutine is where it was after every continuation of every schedule. -/
theorem reentrant_read_never_returns (cap : Nat) (progs : List (List Call)) (loops : Nat)
    (as bs : List Action) (s s' : State) (h : exec (init cap progs loops) as = some s)
    (i n e : Nat) (es : List Nat) (g : G) (hg : s.gs[i]? = some g) (hl : g.loop = some (.call .tick n es e))
    (hc : g.cur = .wantMu) (h' : exec s bs = some s') : s'.gs[i]? = some g := by
  obtain ⟨u, hu⟩ := exec_trace h'
  refine exec_inv (P := fun s => s.gs[i]? = some g) (Q := fun _ => True) ?_
    (inv_exec (inv_init cap progs loops) h) hg h' hu (fun _ _ => trivial)
  intro s j x s' evs hi hP hx hT _ _
  have hmu := (hi.m i g hP).mp (by simp [holdsMu, hl, Loop.hasMu])
  by_cases hij : i = j
  · subst hij
    rw [hx] at hP; cases hP
    exfalso
    rcases own_step_call hT hl (by rw [hc]; simp) with ⟨o, h1, _⟩ | ⟨o, h1⟩ | ⟨o, h1⟩ | ⟨k, h1, _⟩ | ⟨_, h1⟩ | h1
    · rw [hc] at h1; cases h1
    · rw [hc] at h1; cases h1
    · rw [hc] at h1; cases h1
    · rw [hc] at h1; cases h1
    · rw [hmu] at h1; cases h1
    · rw [hc] at h1; cases h1
  · exact cur_other hT hx hij hP (by rw [hc]; simp)

/-- The only loop is the one inside `ExportView`. -/
def OnlyLoop (i : Nat) (s : State) : Prop := ∀ (j : Nat) (g : G), s.gs[j]? = some g → j ≠ i → g.loop = none

theorem onlyLoop_T {s s' : State} {i j : Nat} {g : G} (h : OnlyLoop i s) (hg : s.gs[j]? = some g) (ht : T s j g s') :
    OnlyLoop i s' := by
  have upd : ∀ {g' : G} {s'' : State}, s''.gs = (s.upd j g' []).gs → (j ≠ i → g'.loop = none) → OnlyLoop i s'' := by
    intro g' s'' h1 h2 k x hx hk
    rw [h1, get_upd hg] at hx
    split at hx
    · next hkj => subst hkj; cases hx; exact h2 hk
    · exact h k x hx hk
  have rep : ∀ {s'' : State} (m : Nat), OnlyLoop i s'' → OnlyLoop i (s''.reply m) := by
    intro s'' m h k x hx hk
    obtain ⟨g0, h1, rfl | rfl⟩ := get_reply_some hx
    · exact h k _ h1 hk
    · rw [replied_loop]; exact h k _ h1 hk
  have mine : j ≠ i → g.loop = none := h j g hg
  have no : ∀ {l : Loop} {P : Prop}, g.loop = some l → j ≠ i → P := by
    intro l P hl hj; rw [mine hj] at hl; cases hl
  cases ht with
  | callE o r hc hcur hr => exact upd (g' := { g with todo := r, cur := .wantE o }) rfl mine
  | callOther c r cur hc hcur hr hn => exact upd (g' := { g with todo := r, cur := cur }) rfl mine
  | lockE o hc hcur he => exact upd (g' := { g with cur := .inE o }) rfl mine
  | unlockE o hc hcur => exact upd (g' := { g with cur := .out o }) rfl mine
  | ret o hc hcur => exact upd (g' := { g with cur := .idle }) rfl mine
  | send k hc hcur => exact upd (g' := { g with cur := if k.isSome then .awaiting else .idle }) rfl mine
  | lockMu hc hcur he => exact upd (g' := { g with cur := .inMu }) rfl mine
  | unlockMu hc hcur => exact upd (g' := { g with cur := .idle }) rfl mine
  | tick n hl => exact upd (g' := { g with loop := some (.lockMu n) }) rfl (no hl)
  | take l rest hl hn => exact upd (g' := { g with loop := some l }) rfl (no hl)
  | answer k rest hl => exact rep (s'' := s) k h
  | tickMu n l hl hmu hn => exact upd (g' := { g with loop := some l }) rfl (no hl)
  | tickEnd hl => exact upd (g' := { g with loop := some .select }) rfl (no hl)
  | handled w hl => exact upd (g' := { g with loop := some .select }) rfl (no hl)
  | handledReply w k hl => exact rep k (upd (g' := { g with loop := some .select }) rfl (no hl))
  | begin src n order hl he ho => exact upd (g' := { g with loop := some (.range src n order) }) rfl (no hl)
  | done src n hl => exact upd (g' := { g with loop := some (afterReport src n) }) rfl (no hl)
  | enter src n f es calls hl => exact upd (g' := ⟨calls, .idle, some (.call src n es f)⟩) rfl (no hl)
  | leave src n f es hl hcur hr => exact upd (g' := { g with loop := some (.range src n es) }) rfl (no hl)
  | removed who n hl => exact rep who (upd (g' := { g with loop := some .select }) rfl (no hl))
  | next who n hl => exact upd (g' := { g with loop := some (.lockE (.unregister who) n) }) rfl (no hl)

theorem onlyLoop_init (cap : Nat) (progs : List (List Call)) : OnlyLoop progs.length (init cap progs 1) := by
  intro j g hg hj
  simp only [init] at hg
  by_cases h : j < progs.length
  · rw [List.getElem?_append_left (by simpa using h)] at hg
    simp only [List.getElem?_map, Option.map_eq_some_iff] at hg
    obtain ⟨p, _, rfl⟩ := hg; rfl
  · rw [List.getElem?_append_right (by simpa using h)] at hg
    have := List.getElem?_eq_some_iff.mp hg
    obtain ⟨hlt, _⟩ := this
    simp at hlt
    omega

theorem onlyLoop_exec {cap : Nat} {progs : List (List Call)} {as : List Action} {s : State}
    (h : exec (init cap progs 1) as = some s) : OnlyLoop progs.length s :=
  exec_inv (P := OnlyLoop progs.length) (Q := fun _ => True)
    (fun _ _ _ _ _ _ hP hg hT _ _ => onlyLoop_T hP hg hT) (inv_init cap progs 1) (onlyLoop_init cap progs) h
    (u := s.trace) (by simp [init]) (fun _ _ => trivial)

/-- A client's step answers nobody and takes nothing off the channel. -/
theorem client_T {s s' : State} {i j : Nat} {g x : G} (ht : T s j g s') (hg : s.gs[j]? = some g) (hl : g.loop = none)
    (hij : i ≠ j) (hx : s.gs[i]? = some x) : s'.gs[i]? = some x ∧ s.chan.length ≤ s'.chan.length := by
  have upd : ∀ {g' : G} {s'' : State}, s''.gs = (s.upd j g' []).gs → s''.gs[i]? = some x := by
    intro g' s'' h1; rw [h1, get_upd hg, if_neg hij]; exact hx
  cases ht with
  | callE o r hc hcur hr => exact ⟨upd (g' := { g with todo := r, cur := .wantE o }) rfl, Nat.le_refl _⟩
  | callOther c r cur hc hcur hr hn => exact ⟨upd (g' := { g with todo := r, cur := cur }) rfl, Nat.le_refl _⟩
  | lockE o hc hcur he => exact ⟨upd (g' := { g with cur := .inE o }) rfl, Nat.le_refl _⟩
  | unlockE o hc hcur => exact ⟨upd (g' := { g with cur := .out o }) rfl, Nat.le_refl _⟩
  | ret o hc hcur => exact ⟨upd (g' := { g with cur := .idle }) rfl, Nat.le_refl _⟩
  | send k hc hcur =>
    exact ⟨upd (g' := { g with cur := if k.isSome then .awaiting else .idle }) rfl, by simp⟩
  | lockMu hc hcur he => exact ⟨upd (g' := { g with cur := .inMu }) rfl, Nat.le_refl _⟩
  | unlockMu hc hcur => exact ⟨upd (g' := { g with cur := .idle }) rfl, Nat.le_refl _⟩
  | tick n h => rw [hl] at h; cases h
  | take l rest h hn => rw [hl] at h; cases h
  | answer j rest h => rw [hl] at h; cases h
  | tickMu n l h hmu hn => rw [hl] at h; cases h
  | tickEnd h => rw [hl] at h; cases h
  | handled w h => rw [hl] at h; cases h
  | handledReply w j h => rw [hl] at h; cases h
  | begin src n order h he ho => rw [hl] at h; cases h
  | done src n h => rw [hl] at h; cases h
  | enter src n e es calls h => rw [hl] at h; cases h
  | leave src n e es h _ _ => rw [hl] at h; cases h
  | removed who n h => rw [hl] at h; cases h
  | next who n h => rw [hl] at h; cases h

/-- C61, a limit. On a meter started once, an exporter that calls `Register`, `Unregister`, `Find`,
`RetrieveData` or `SetReportingPeriod` from `ExportView` waits for ever: the loop that would reply is
the one that waits. -/
theorem reentrant_command_never_returns (cap : Nat) (progs : List (List Call))
    (as bs : List Action) (s s' : State) (h : exec (init cap progs 1) as = some s)
    (i n e : Nat) (src : Src) (es : List Nat) (g : G) (k : Kind)
    (hg : s.gs[i]? = some g) (hl : g.loop = some (.call src n es e))
    (hc : g.cur = .sending (some k)) (h' : exec s bs = some s') :
    s'.gs[i]? = some g ∨ s'.gs[i]? = some { g with cur := .awaiting } := by
  have hon := onlyLoop_exec h
  have hin : i = progs.length := by
    by_contra hne
    have := hon i g hg hne
    rw [hl] at this; cases this
  subst hin
  obtain ⟨u, hu⟩ := exec_trace h'
  refine (exec_inv (P := fun s => OnlyLoop progs.length s ∧ (s.gs[progs.length]? = some g ∨
      s.gs[progs.length]? = some { g with cur := .awaiting })) (Q := fun _ => True) ?_
    (inv_exec (inv_init cap progs 1) h) ⟨hon, Or.inl hg⟩ h' hu (fun _ _ => trivial)).2
  intro s j x s' evs hi hP hx hT _ _
  refine ⟨onlyLoop_T hP.1 hx hT, ?_⟩
  by_cases hij : progs.length = j
  · subst hij
    rcases hP.2 with h1 | h1
    · rw [hx] at h1; cases h1
      rcases own_step_call hT hl (by rw [hc]; simp) with ⟨o, h1, _⟩ | ⟨o, h1⟩ | ⟨o, h1⟩ | ⟨k', h1, h2⟩ | ⟨h1, _⟩ | h1
      · rw [hc] at h1; cases h1
      · rw [hc] at h1; cases h1
      · rw [hc] at h1; cases h1
      · rw [hc] at h1; cases h1
        right
        rw [h2]
        show (s.upd _ _ []).gs[_]? = _
        rw [get_upd hx, if_pos rfl]; rfl
      · rw [hc] at h1; cases h1
      · rw [hc] at h1; cases h1
    · rw [hx] at h1; cases h1
      exfalso
      rcases own_step_call (g := { g with cur := .awaiting }) hT hl (by simp) with
        ⟨o, h1, _⟩ | ⟨o, h1⟩ | ⟨o, h1⟩ | ⟨k', h1, h2⟩ | ⟨h1, _⟩ | h1 <;> cases h1
  · have hxl := hP.1 j x hx (fun h => hij h.symm)
    rcases hP.2 with h1 | h1
    · exact Or.inl (client_T hT hx hxl hij h1).1
    · exact Or.inr (client_T hT hx hxl hij h1).1

/-- C61, a limit. On a meter started once, an exporter that records a measurement from `ExportView`
while the command channel is full waits for ever. -/
theorem reentrant_record_never_returns (cap : Nat) (progs : List (List Call))
    (as bs : List Action) (s s' : State) (h : exec (init cap progs 1) as = some s)
    (i n e : Nat) (src : Src) (es : List Nat) (g : G)
    (hg : s.gs[i]? = some g) (hl : g.loop = some (.call src n es e))
    (hc : g.cur = .sending none) (hfull : s.chan.length = s.cap) (h' : exec s bs = some s') :
    s'.gs[i]? = some g := by
  have hon := onlyLoop_exec h
  have hin : i = progs.length := by
    by_contra hne
    have := hon i g hg hne
    rw [hl] at this; cases this
  subst hin
  have key : OnlyLoop progs.length s ∧ s.gs[progs.length]? = some g ∧ s.cap ≤ s.chan.length :=
    ⟨hon, hg, by omega⟩
  clear hon hg hfull h
  suffices OnlyLoop progs.length s' ∧ s'.gs[progs.length]? = some g ∧ s'.cap ≤ s'.chan.length from this.2.1
  induction bs generalizing s with
  | nil => cases h'; exact key
  | cons a bs ih =>
    simp only [exec] at h'
    cases h1 : step s a with
    | none => rw [h1] at h'; cases h'
    | some s1 =>
      rw [h1] at h'
      refine ih s1 h' ?_
      obtain ⟨x, hx, hT⟩ := step_T h1
      obtain ⟨k1, k2, k3⟩ := key
      refine ⟨onlyLoop_T k1 hx hT, ?_⟩
      by_cases hij : progs.length = a.g
      · exfalso
        rw [← hij] at hx
        rw [k2] at hx; cases hx
        unfold step at h1
        rw [← hij, k2] at h1
        simp only [hl, stepLoop, hc] at h1
        simp only [reduceCtorEq, false_and, if_false, stepCall, hc] at h1
        rw [if_neg (by omega)] at h1
        cases h1
      · have hxl := k1 a.g x hx (fun h => hij h.symm)
        obtain ⟨k4, k5⟩ := client_T hT hx hxl hij k2
        refine ⟨k4, ?_⟩
        rw [step_cap h1]; omega

/-! ## Exporters that do not call the meter -/

/-- A worker loop makes no calls. -/
def Plain (s : State) : Prop :=
  ∀ (i : Nat) (g : G) (l : Loop), s.gs[i]? = some g → g.loop = some l → g.cur = .idle ∧ g.todo = []

/-- A schedule in which `ExportView` makes no calls on the meter. -/
def Reach (s s' : State) : Prop := ∃ as : List Action, (∀ a ∈ as, a.calls = []) ∧ exec s as = some s'

theorem Reach.refl (s : State) : Reach s s := ⟨[], by simp, rfl⟩

theorem Reach.trans {a b c : State} (h1 : Reach a b) (h2 : Reach b c) : Reach a c := by
  obtain ⟨as, h3, h4⟩ := h1
  obtain ⟨bs, h5, h6⟩ := h2
  refine ⟨as ++ bs, ?_, by rw [exec_append, h4]; exact h6⟩
  intro x hx
  rcases List.mem_append.mp hx with h | h
  · exact h3 x h
  · exact h5 x h

theorem Reach.one {s s' : State} {a : Action} (hc : a.calls = []) (h : step s a = some s') : Reach s s' :=
  ⟨[a], by simpa using hc, by simp [exec, h]⟩

theorem Reach.call {s s' : State} {i : Nat} {g : G} (hg : s.gs[i]? = some g) (hl : g.loop = none)
    (h : stepCall s i g = some s') : Reach s s' :=
  Reach.one (a := ⟨i, none, [], []⟩) rfl (by unfold step; rw [hg]; simp only [hl]; exact h)

theorem Reach.loop {s s' : State} {i : Nat} {g : G} {l : Loop} (order : List Nat) (hg : s.gs[i]? = some g)
    (hl : g.loop = some l) (h : stepLoop s i g ⟨i, none, order, []⟩ l = some s') : Reach s s' :=
  Reach.one (a := ⟨i, none, order, []⟩) rfl (by unfold step; rw [hg]; simp only [hl]; exact h)

theorem plain_step {s s' : State} {a : Action} (hp : Plain s) (hc : a.calls = []) (h : step s a = some s') :
    Plain s' := by
  have hT : ∃ g, s.gs[a.g]? = some g ∧ T s a.g g s' := step_T h
  obtain ⟨g, hg, hT⟩ := hT
  have upd : ∀ {g' : G} {s'' : State}, s''.gs = (s.upd a.g g' []).gs →
      (∀ l, g'.loop = some l → g'.cur = .idle ∧ g'.todo = []) → Plain s'' := by
    intro g' s'' h1 h2 j x l hx hl
    rw [h1, get_upd hg] at hx
    split at hx
    · cases hx; exact h2 l hl
    · exact hp j x l hx hl
  have rep : ∀ {s'' : State} (k : Nat), Plain s'' → Plain (s''.reply k) := by
    intro s'' k h j x l hx hl
    obtain ⟨g0, h1, rfl | rfl⟩ := get_reply_some hx
    · exact h j _ l h1 hl
    · rw [replied_loop] at hl
      have := h j _ l h1 hl
      simp [replied, this.1, this.2]
  have hpg := fun l => hp a.g g l hg
  cases hT with
  | callE o r hcl hcur hr =>
    refine upd (g' := { g with todo := r, cur := .wantE o }) rfl ?_
    intro l hl; have := (hpg l hl).2; rw [hr] at this; cases this
  | callOther c r cur hcl hcur hr hn =>
    refine upd (g' := { g with todo := r, cur := cur }) rfl ?_
    intro l hl; have := (hpg l hl).2; rw [hr] at this; cases this
  | lockE o hcl hcur he =>
    refine upd (g' := { g with cur := .inE o }) rfl ?_
    intro l hl; have := (hpg l hl).1; rw [hcur] at this; cases this
  | unlockE o hcl hcur =>
    refine upd (g' := { g with cur := .out o }) rfl ?_
    intro l hl; have := (hpg l hl).1; rw [hcur] at this; cases this
  | ret o hcl hcur =>
    refine upd (g' := { g with cur := .idle }) rfl ?_
    intro l hl; have := (hpg l hl).1; rw [hcur] at this; cases this
  | send k hcl hcur =>
    refine upd (g' := { g with cur := if k.isSome then .awaiting else .idle }) rfl ?_
    intro l hl; have := (hpg l hl).1; rw [hcur] at this; cases this
  | lockMu hcl hcur he =>
    refine upd (g' := { g with cur := .inMu }) rfl ?_
    intro l hl; have := (hpg l hl).1; rw [hcur] at this; cases this
  | unlockMu hcl hcur =>
    refine upd (g' := { g with cur := .idle }) rfl ?_
    intro l hl; have := (hpg l hl).1; rw [hcur] at this; cases this
  | tick n hl => exact upd (g' := { g with loop := some (.lockMu n) }) rfl (fun _ _ => hpg _ hl)
  | take l rest hl hn => exact upd (g' := { g with loop := some l }) rfl (fun _ _ => hpg _ hl)
  | answer j rest hl => exact rep (s'' := s) j hp
  | tickMu n l hl hmu hn => exact upd (g' := { g with loop := some l }) rfl (fun _ _ => hpg _ hl)
  | tickEnd hl => exact upd (g' := { g with loop := some .select }) rfl (fun _ _ => hpg _ hl)
  | handled w hl => exact upd (g' := { g with loop := some .select }) rfl (fun _ _ => hpg _ hl)
  | handledReply w j hl => exact rep j (upd (g' := { g with loop := some .select }) rfl (fun _ _ => hpg _ hl))
  | begin src n order hl he ho =>
    exact upd (g' := { g with loop := some (.range src n order) }) rfl (fun _ _ => hpg _ hl)
  | done src n hl => exact upd (g' := { g with loop := some (afterReport src n) }) rfl (fun _ _ => hpg _ hl)
  | enter src n f es calls hl =>
    have hcalls : calls = [] := by
      unfold step at h
      rw [hg] at h
      simp only [hl, stepLoop, Option.some.injEq] at h
      have h1 := congrArg (fun s : State => s.gs[a.g]?) h
      simp only [get_upd hg, if_pos] at h1
      simp only [Option.some.injEq, G.mk.injEq] at h1
      rw [← h1.1, hc]
    subst hcalls
    exact upd (g' := ⟨[], .idle, some (.call src n es f)⟩) rfl (fun _ _ => ⟨rfl, rfl⟩)
  | leave src n f es hl hcur hr => exact upd (g' := { g with loop := some (.range src n es) }) rfl (fun _ _ => ⟨hcur, hr⟩)
  | removed who n hl => exact rep who (upd (g' := { g with loop := some .select }) rfl (fun _ _ => hpg _ hl))
  | next who n hl =>
    exact upd (g' := { g with loop := some (.lockE (.unregister who) n) }) rfl (fun _ _ => hpg _ hl)

theorem plain_reach {s s' : State} (hp : Plain s) (h : Reach s s') : Plain s' := by
  obtain ⟨as, h1, h2⟩ := h
  induction as generalizing s with
  | nil => cases h2; exact hp
  | cons a as ih =>
    simp only [exec] at h2
    cases h3 : step s a with
    | none => rw [h3] at h2; cases h2
    | some s1 =>
      rw [h3] at h2
      exact ih (plain_step hp (h1 a (by simp)) h3) (fun b hb => h1 b (by simp [hb])) h2

theorem plain_init (cap : Nat) (progs : List (List Call)) (loops : Nat) : Plain (init cap progs loops) := by
  intro i g l hg hl
  have hm := List.mem_of_getElem? hg
  simp only [init, List.mem_append, List.mem_map, List.mem_replicate] at hm
  rcases hm with ⟨p, _, rfl⟩ | ⟨_, rfl⟩
  · cases hl
  · exact ⟨rfl, rfl⟩

/-- A report in progress can be completed. -/
theorem finish_range (es : List Nat) : ∀ {s : State} {i : Nat} {g : G} {src : Src} {n : Nat}, s.gs[i]? = some g →
    g.cur = .idle → g.todo = [] → g.loop = some (.range src n es) →
    ∃ s', Reach s s' ∧ s'.emu = none ∧ s'.mu = s.mu ∧ s'.gs[i]? = some { g with loop := some (afterReport src n) } := by
  induction es with
  | nil =>
    intro s i g src n hg h1 h2 hl
    refine ⟨_, Reach.loop [] hg hl rfl, rfl, rfl, ?_⟩
    show (s.upd i _ [.reportEnd i]).gs[i]? = _
    rw [get_upd hg, if_pos rfl]
  | cons e es ih =>
    intro s i g src n hg h1 h2 hl
    let s1 := s.upd i ⟨[], .idle, some (.call src n es e)⟩ [.exportBegin i e]
    have hs1 : Reach s s1 := Reach.loop [] hg hl rfl
    have hg1 : s1.gs[i]? = some ⟨[], .idle, some (.call src n es e)⟩ := by
      show (s.upd i _ _).gs[i]? = _
      rw [get_upd hg, if_pos rfl]
    let s2 := s1.upd i ⟨[], .idle, some (.range src n es)⟩ [.exportEnd i e]
    have hs2 : Reach s1 s2 := Reach.loop [] hg1 rfl (by simp [stepLoop, s2])
    have hg2 : s2.gs[i]? = some ⟨[], .idle, some (.range src n es)⟩ := by
      show (s1.upd i _ _).gs[i]? = _
      rw [get_upd hg1, if_pos rfl]
    obtain ⟨s', h3, h4, h5, h6⟩ := ih hg2 rfl rfl rfl
    refine ⟨s', (hs1.trans hs2).trans h3, h4, by rw [h5]; rfl, ?_⟩
    rw [h6, h1, h2]

theorem inv_reach {s s' : State} (hi : View.ReportConc.Inv s) (h : Reach s s') : View.ReportConc.Inv s' := by
  obtain ⟨as, _, h2⟩ := h
  exact inv_exec hi h2

/-- The exporters' lock can be freed. -/
theorem free_E {s : State} (hi : View.ReportConc.Inv s) (hp : Plain s) : ∃ s', Reach s s' ∧ s'.emu = none := by
  cases he : s.emu with
  | none => exact ⟨s, Reach.refl s, he⟩
  | some i =>
    have hlt := hi.el i he
    obtain ⟨g, hg⟩ : ∃ g, s.gs[i]? = some g := ⟨_, List.getElem?_eq_getElem hlt⟩
    have hh := (hi.e i g hg).mpr he
    cases hl : g.loop with
    | none =>
      have hc : g.cur.isInE = true := by simpa [holdsE, hl] using hh
      cases hcur : g.cur with
      | inE op =>
        let s1 : State := { s.upd i { g with cur := .out op } [] with emu := none, exps := op.apply s.exps }
        exact ⟨s1, Reach.call hg hl (by unfold stepCall; rw [hcur]), rfl⟩
      | _ => rw [hcur] at hc; cases hc
    | some l =>
      obtain ⟨h1, h2⟩ := hp i g l hg hl
      have hE : l.hasE = true := by simpa [holdsE, hl, h1, Cur.isInE] using hh
      cases l with
      | range src n es =>
        obtain ⟨s', h3, h4, _⟩ := finish_range es hg h1 h2 hl
        exact ⟨s', h3, h4⟩
      | call src n es e =>
        let s2 := s.upd i { g with loop := some (.range src n es) } [.exportEnd i e]
        have hs2 : Reach s s2 := Reach.loop [] hg hl (if_pos ⟨h1, h2⟩)
        have hg2 : s2.gs[i]? = some { g with loop := some (.range src n es) } := by
          show (s.upd i _ _).gs[i]? = _
          rw [get_upd hg, if_pos rfl]
        obtain ⟨s', h3, h4, _⟩ := finish_range es hg2 h1 h2 rfl
        exact ⟨s', hs2.trans h3, h4⟩
      | _ => cases hE

/-- A tick can report its remaining views and release `w.mu`. -/
theorem finish_tick (n : Nat) : ∀ {s : State} {i : Nat} {g : G}, s.emu = none → s.gs[i]? = some g →
    g.cur = .idle → g.todo = [] → g.loop = some (.lockE .tick n) → ∃ s', Reach s s' ∧ s'.emu = none ∧ s'.mu = none := by
  induction n with
  | zero =>
    intro s i g he hg h1 h2 hl
    let s1 : State := { s.upd i { g with loop := some (.range .tick 0 s.exps) } [.reportBegin i] with emu := some i }
    have hs1 : Reach s s1 := Reach.loop s.exps hg hl (if_pos ⟨he, List.Perm.refl _⟩)
    have hg1 : s1.gs[i]? = some { g with loop := some (.range .tick 0 s.exps) } := by
      show (s.upd i _ [.reportBegin i]).gs[i]? = _
      rw [get_upd hg, if_pos rfl]
    obtain ⟨s2, h3, h4, h5, h6⟩ := finish_range s.exps hg1 h1 h2 rfl
    exact ⟨_, (hs1.trans h3).trans (Reach.loop [] h6 rfl rfl), h4, rfl⟩
  | succ n ih =>
    intro s i g he hg h1 h2 hl
    let s1 : State := { s.upd i { g with loop := some (.range .tick (n + 1) s.exps) } [.reportBegin i] with emu := some i }
    have hs1 : Reach s s1 := Reach.loop s.exps hg hl (if_pos ⟨he, List.Perm.refl _⟩)
    have hg1 : s1.gs[i]? = some { g with loop := some (.range .tick (n + 1) s.exps) } := by
      show (s.upd i _ [.reportBegin i]).gs[i]? = _
      rw [get_upd hg, if_pos rfl]
    obtain ⟨s2, h3, h4, h5, h6⟩ := finish_range s.exps hg1 h1 h2 rfl
    obtain ⟨s', h7, h8⟩ := ih h4 h6 h1 h2 rfl
    exact ⟨s', (hs1.trans h3).trans h7, h8⟩

/-- Both locks can be freed. -/
theorem free_both {s : State} (hi : View.ReportConc.Inv s) (hp : Plain s) :
    ∃ s', Reach s s' ∧ s'.emu = none ∧ s'.mu = none := by
  obtain ⟨s1, hr, he⟩ := free_E hi hp
  have hi1 := inv_reach hi hr
  have hp1 := plain_reach hp hr
  suffices ∃ s', Reach s1 s' ∧ s'.emu = none ∧ s'.mu = none by
    obtain ⟨s', h1, h2⟩ := this
    exact ⟨s', hr.trans h1, h2⟩
  cases hm : s1.mu with
  | none => exact ⟨s1, Reach.refl _, he, hm⟩
  | some i =>
    have hlt := hi1.ml i hm
    obtain ⟨g, hg⟩ : ∃ g, s1.gs[i]? = some g := ⟨_, List.getElem?_eq_getElem hlt⟩
    have hh := (hi1.m i g hg).mpr hm
    have hnE : holdsE g ≠ true := fun h => by have := (hi1.e i g hg).mp h; rw [he] at this; cases this
    cases hl : g.loop with
    | none =>
      have hc : g.cur = .inMu := by simpa [holdsMu, hl] using hh
      let s2 : State := { s1.upd i { g with cur := .idle } [] with mu := none }
      exact ⟨s2, Reach.call hg hl (by unfold stepCall; rw [hc]), he, rfl⟩
    | some l =>
      obtain ⟨h1, h2⟩ := hp1 i g l hg hl
      have hM : l.hasMu = true := by simpa [holdsMu, hl, h1] using hh
      cases l with
      | unlockMu =>
        exact ⟨_, Reach.loop [] hg hl rfl, he, rfl⟩
      | lockE src n =>
        cases src with
        | tick => exact finish_tick n he hg h1 h2 hl
        | unregister w => cases hM
      | range src n es => exact absurd (by simp [holdsE, hl, Loop.hasE]) hnE
      | call src n es e => exact absurd (by simp [holdsE, hl, Loop.hasE]) hnE
      | _ => cases hM

theorem reach_matched {cap : Nat} {progs : List (List Call)} {loops : Nat} {s s' : State}
    (h : Reach (init cap progs loops) s) (h' : Reach s s') : Matched s' := by
  obtain ⟨as, _, h1⟩ := h.trans h'
  exact matched_exec h1

/-- C61. If the exporters make no calls on the meter there is no deadlock: whatever has happened, the
system can go on so that every report in progress ends, both locks are free, and a call of
`RegisterExporter` or `UnregisterExporter` that has not returned returns. -/
theorem no_deadlock (cap : Nat) (progs : List (List Call)) (loops : Nat) (s : State)
    (h : Reach (init cap progs loops) s) :
    (∃ s', Reach s s' ∧ s'.emu = none ∧ s'.mu = none ∧ Mon.run .free s'.trace = some .free) ∧
    ∀ i op, s.trace.count (.returned i op) < s.trace.count (.called i op) →
      ∃ s', Reach s s' ∧ s.trace.count (.returned i op) < s'.trace.count (.returned i op) := by
  have hi : View.ReportConc.Inv s := inv_reach (inv_init cap progs loops) h
  have hp : Plain s := plain_reach (plain_init cap progs loops) h
  obtain ⟨s1, hr, he, hm⟩ := free_both hi hp
  have hi1 := inv_reach hi hr
  have hp1 := plain_reach hp hr
  constructor
  · refine ⟨s1, hr, he, hm, ?_⟩
    obtain ⟨as, _, h1⟩ := h.trans hr
    obtain ⟨m, h2, h3⟩ := mon_exec h1
    rw [h2, relMon_free hi1 he h3]
  · intro i op hpend
    have hM1 : Matched s1 := reach_matched h hr
    obtain ⟨as, _, hx⟩ := hr
    obtain ⟨evs, htr⟩ := exec_trace hx
    have hr : Reach s s1 := ⟨as, ‹_›, hx⟩
    by_cases hlt : s.trace.count (.returned i op) < s1.trace.count (.returned i op)
    · exact ⟨s1, hr, hlt⟩
    · have hle : s.trace.count (.returned i op) ≤ s1.trace.count (.returned i op) := by
        rw [htr, List.count_append]; omega
      have hle' : s.trace.count (.called i op) ≤ s1.trace.count (.called i op) := by
        rw [htr, List.count_append]; omega
      have hpn := hM1 i op
      have h1 : 0 < pendN s1 i op := by omega
      cases hg : s1.gs[i]? with
      | none => simp [pendN, hg] at h1
      | some g =>
        have hpg : pend op g = true := by
          cases hb : pend op g with
          | true => rfl
          | false => simp [pendN, hg, hb] at h1
        have hnidle : g.cur ≠ .idle := by
          intro hc; simp [pend, hc] at hpg
        have hl : g.loop = none := by
          cases hl : g.loop with
          | none => rfl
          | some l => exact absurd (hp1 i g l hg hl).1 hnidle
        have finish : ∀ {s2 : State}, Reach s s2 → s2.trace = s1.trace → s2.gs[i]? = some { g with cur := .out op } →
            ∃ s', Reach s s' ∧ s.trace.count (.returned i op) < s'.trace.count (.returned i op) := by
          intro s2 hr2 ht2 hg2
          refine ⟨s2.upd i { g with cur := .idle } [.returned i op],
            hr2.trans (Reach.call hg2 hl rfl), ?_⟩
          show _ < (s2.trace ++ [_]).count _
          rw [ht2, List.count_append]
          simp; omega
        simp only [pend, decide_eq_true_eq] at hpg
        rcases hpg with hc | hc | hc
        · let s2 : State := { s1.upd i { g with cur := .inE op } [] with emu := some i }
          have hs2 : Reach s1 s2 := Reach.call hg hl (by unfold stepCall; rw [hc]; exact if_pos he)
          have hg2 : s2.gs[i]? = some { g with cur := .inE op } := by
            show (s1.upd i _ []).gs[i]? = _
            rw [get_upd hg, if_pos rfl]
          let s3 : State := { s2.upd i { g with cur := .out op } [] with emu := none, exps := op.apply s2.exps }
          have hs3 : Reach s2 s3 := Reach.call hg2 hl rfl
          have hg3 : s3.gs[i]? = some { g with cur := .out op } := by
            show (s2.upd i _ []).gs[i]? = _
            rw [get_upd hg2, if_pos rfl]
          exact finish ((hr.trans hs2).trans hs3) (by simp [s3, s2, State.upd]) hg3
        · exfalso
          have := (hi1.e i g hg).mp (by simp [holdsE, hc, Cur.isInE])
          rw [he] at this; cases this
        · exact finish hr rfl (by rw [hg, ← hc])

/-! ## Examples -/

/-- Goroutine `g` takes a step. -/
private def go (g : Nat) : Action := ⟨g, none, [], []⟩
private def tick (g n : Nat) : Action := ⟨g, some n, [], []⟩
private def ranging (g : Nat) (order : List Nat) : Action := ⟨g, none, order, []⟩
private def exporting (g : Nat) (calls : List Call) : Action := ⟨g, none, [], calls⟩

private def traceOf (o : Option State) : Option (List Ev) := o.map State.trace

/-- Goroutine 0 registers exporters 7 and 8 and later unregisters 7; goroutine 1 unregisters a view;
goroutines 2 and 3 are loops. The `UnregisterExporter` begins while a report runs and waits for it. -/
private def sched : List Action :=
  [go 0, go 0, go 0, go 0, go 0, go 0, go 0, go 0,    -- both registered
   go 1, go 1,                                        -- Unregister sent
   tick 2 2, go 2, ranging 2 [8, 7], exporting 2 [],  -- loop 2 reports on a tick
   go 3,                                              -- loop 3 takes the Unregister
   go 0,                                              -- UnregisterExporter(7) called
   go 2, exporting 2 [], go 2, go 2,                  -- the report ends
   go 0, go 0, go 0,                                  -- UnregisterExporter(7) returns
   ranging 3 [8], exporting 3 [], go 3, go 3,         -- report for the Unregister
   ranging 2 [8], exporting 2 [], go 2, go 2, go 2]   -- the second view of the tick

/-- A schedule with two loops, two exporters and overlapping calls: `exports_serial` speaks about it. -/
example : traceOf (exec (init 1 [[.exporter (.add 7), .exporter (.add 8), .exporter (.del 7)],
      [.command (.unregister 1)]] 2) sched) =
    some ([.called 0 (.add 7), .returned 0 (.add 7), .called 0 (.add 8), .returned 0 (.add 8),
      .reportBegin 2, .exportBegin 2 8] ++ [.called 0 (.del 7)] ++
      [.exportEnd 2 8, .exportBegin 2 7, .exportEnd 2 7, .reportEnd 2] ++ [.returned 0 (.del 7)] ++
      [.reportBegin 3, .exportBegin 3 8, .exportEnd 3 8, .reportEnd 3,
       .reportBegin 2, .exportBegin 2 8, .exportEnd 2 8, .reportEnd 2]) := by decide +kernel

/-- The hypotheses of `unregistered_exporter_not_called` hold of that schedule, and exporter 8 shows
that reports go on. -/
example : ∃ s, exec (init 1 [[.exporter (.add 7), .exporter (.add 8), .exporter (.del 7)],
      [.command (.unregister 1)]] 2) sched = some s ∧
    ∃ t0 t1 t2, s.trace = t0 ++ [.called 0 (.del 7)] ++ t1 ++ [.returned 0 (.del 7)] ++ t2 ∧
      (∀ i, t0.count (.called i (.add 7)) = t0.count (.returned i (.add 7))) ∧
      (∀ i, .called i (.add 7) ∉ t1) ∧ (∀ i, .called i (.add 7) ∉ t2) ∧ .exportBegin 2 8 ∈ t2 := by
  refine ⟨_, rfl, [.called 0 (.add 7), .returned 0 (.add 7), .called 0 (.add 8), .returned 0 (.add 8),
      .reportBegin 2, .exportBegin 2 8], [.exportEnd 2 8, .exportBegin 2 7, .exportEnd 2 7, .reportEnd 2],
      [.reportBegin 3, .exportBegin 3 8, .exportEnd 3 8, .reportEnd 3,
       .reportBegin 2, .exportBegin 2 8, .exportEnd 2 8, .reportEnd 2], by decide +kernel, ?_, by simp, by simp, by simp⟩
  intro i
  by_cases hi : 0 = i <;> simp [hi]

/-- The hypotheses of `registered_exporter_called` hold of it for exporter 8 and the tick's first report. -/
example : ∃ s, exec (init 1 [[.exporter (.add 7), .exporter (.add 8), .exporter (.del 7)],
      [.command (.unregister 1)]] 2) sched = some s ∧
    ∃ t0 t1 t2 t3 t4, s.trace = t0 ++ [.called 0 (.add 8)] ++ t1 ++ [.returned 0 (.add 8)] ++
      (t2 ++ [.reportBegin 2] ++ t3 ++ [.reportEnd 2] ++ t4) ∧
      (∀ i, t0.count (.called i (.del 8)) = t0.count (.returned i (.del 8))) ∧
      (∀ i, .called i (.del 8) ∉ t1) ∧ (∀ i, .called i (.del 8) ∉ t2) ∧ .reportEnd 2 ∉ t3 := by
  refine ⟨_, rfl, [.called 0 (.add 7), .returned 0 (.add 7)], [], [],
      [.exportBegin 2 8, .called 0 (.del 7), .exportEnd 2 8, .exportBegin 2 7, .exportEnd 2 7],
      [.returned 0 (.del 7), .reportBegin 3, .exportBegin 3 8, .exportEnd 3 8, .reportEnd 3,
       .reportBegin 2, .exportBegin 2 8, .exportEnd 2 8, .reportEnd 2], by decide +kernel, ?_, by simp, by simp, by simp⟩
  intro i
  simp

/-- An exporter unregisters itself from `ExportView`: the hypotheses of
`reentrant_register_never_returns`. -/
example : traceOf (exec (init 1 [[.exporter (.add 7)]] 1)
      [go 0, go 0, go 0, go 0, tick 1 1, go 1, ranging 1 [7], exporting 1 [.exporter (.del 7)], go 1]) =
    some ([.called 0 (.add 7), .returned 0 (.add 7), .reportBegin 1] ++ [.exportBegin 1 7] ++ [] ++
      [.called 1 (.del 7)] ++ []) := by decide +kernel

/-- An exporter calls `Read` on a tick; one calls `Find`; one records with the channel full. -/
example : ((exec (init 1 [[.exporter (.add 7)]] 1)
      [go 0, go 0, go 0, go 0, tick 1 1, go 1, ranging 1 [7], exporting 1 [.read], go 1]).bind
      fun s => s.gs[1]?) = some ⟨[], .wantMu, some (.call .tick 0 [] 7)⟩ := by decide +kernel

example : ((exec (init 1 [[.exporter (.add 7)]] 1)
      [go 0, go 0, go 0, go 0, tick 1 1, go 1, ranging 1 [7], exporting 1 [.command .plain], go 1]).bind
      fun s => s.gs[1]?) = some ⟨[], .sending (some .plain), some (.call .tick 0 [] 7)⟩ := by decide +kernel

example : ((exec (init 1 [[.exporter (.add 7), .record]] 1)
      [go 0, go 0, go 0, go 0, go 0, tick 1 1, go 0, go 1, ranging 1 [7], exporting 1 [.record], go 1]).bind
      fun s => (s.gs[1]?).map fun g => (g, s.chan.length, s.cap)) =
    some (⟨[], .sending none, some (.call .tick 0 [] 7)⟩, 1, 1) := by decide +kernel

/-- `no_deadlock`: a schedule in which exporters make no calls, with a call that has not returned. -/
example : ∃ s, Reach (init 1 [[.exporter (.add 7), .exporter (.del 7)]] 1) s ∧
    s.trace.count (.returned 0 (.del 7)) < s.trace.count (.called 0 (.del 7)) := by
  refine ⟨_, ⟨[go 0, go 0, go 0, go 0, tick 1 1, go 1, ranging 1 [7], go 0], by decide, rfl⟩, by decide +kernel⟩

end Verif.Props.ReportConc
