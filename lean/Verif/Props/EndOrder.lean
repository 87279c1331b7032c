import Verif.Props.EndConc
import Mathlib.Tactic.ByContra

/-!
# C71: registering and unregistering exporters takes effect when the call returns
-/

namespace Verif.Props.EndOrder
open Verif Verif.Trace.EndConc Verif.Props.EndConc

/-! ## Specification -/

/-- Goroutine `t` calls something, or something it called returns. -/
def mark (t : Nat) : Ev → Prop
  | .called u _ => u = t
  | .returned u _ => u = t
  | .regReturned u _ _ => u = t
  | _ => False

/-- After the events, goroutine `t` is inside the call `c`: it made the call, and has neither returned
nor called anything since. -/
def Inside (t : Nat) (c : Call) (evs : List Ev) : Prop :=
  ∃ p1 p2, evs = p1 ++ .called t c :: p2 ∧ ∀ ev ∈ p2, ¬ mark t ev

/-! ## Invariant -/

def regCall (a : Bool) (e : Exporter) : Call := if a then .register e else .unregister e
def regEv (t : Nat) (a : Bool) (e : Exporter) : Ev := if a then .added t e else .removed t e

/-- Inside the registration, and the new map is stored. -/
def Stored (t : Nat) (a : Bool) (e : Exporter) (evs : List Ev) : Prop :=
  ∃ p1 p2, evs = p1 ++ .called t (regCall a e) :: p2 ∧ (∀ ev ∈ p2, ¬ mark t ev) ∧ regEv t a e ∈ p2

/-- Inside an End that has looked. -/
def Looked (t i : Nat) (evs : List Ev) : Prop :=
  ∃ p1 p2, evs = p1 ++ .called t (.endSpan i) :: p2 ∧ (∀ ev ∈ p2, ¬ mark t ev) ∧ .loaded i ∈ p2

/-- What has happened before an event. -/
def Pre (p : List Ev) : Ev → Prop
  | .added t e => Inside t (.register e) p
  | .removed t e => Inside t (.unregister e) p
  | .loaded i => .loaded i ∉ p ∧ ∃ t, Inside t (.endSpan i) p
  | .exported _ i => ∃ t, Looked t i p
  | .regReturned t a e => Stored t a e p
  | .returned t i => Inside t (.endSpan i) p
  | _ => True

def At (t : Nat) (evs : List Ev) : PC → Prop
  | .idle => True
  | .fast i => Inside t (.endSpan i) evs
  | .lock i => Inside t (.endSpan i) evs
  | .check i => Inside t (.endSpan i) evs
  | .load i => Inside t (.endSpan i) evs
  | .data i _ _ => Looked t i evs
  | .exporting i _ => Looked t i evs
  | .setDone i => Inside t (.endSpan i) evs
  | .unlock i => Inside t (.endSpan i) evs
  | .regLock a e => Inside t (regCall a e) evs
  | .regLoad a e => Inside t (regCall a e) evs
  | .regStore a e _ => Inside t (regCall a e) evs
  | .regUnlock a e => Stored t a e evs

def Legal (evs : List Ev) : Prop := ∀ p ev q, evs = p ++ ev :: q → Pre p ev

structure Ord (st : St) : Prop where
  legal : Legal st.evs
  pcs : ∀ t, At t st.evs (st.pc t)

theorem Inside.snoc {t : Nat} {c : Call} {evs : List Ev} {ev : Ev} (h : Inside t c evs) (hm : ¬ mark t ev) :
    Inside t c (evs ++ [ev]) := by
  obtain ⟨p1, p2, rfl, h2⟩ := h
  refine ⟨p1, p2 ++ [ev], by simp, fun x hx => ?_⟩
  rcases List.mem_append.1 hx with hx | hx
  · exact h2 x hx
  · rw [List.mem_singleton.1 hx]; exact hm

theorem Stored.snoc {t : Nat} {a : Bool} {e : Exporter} {evs : List Ev} {ev : Ev} (h : Stored t a e evs)
    (hm : ¬ mark t ev) : Stored t a e (evs ++ [ev]) := by
  obtain ⟨p1, p2, rfl, h2, h3⟩ := h
  refine ⟨p1, p2 ++ [ev], by simp, fun x hx => ?_, by simp [h3]⟩
  rcases List.mem_append.1 hx with hx | hx
  · exact h2 x hx
  · rw [List.mem_singleton.1 hx]; exact hm

theorem Looked.inside {t i : Nat} {evs : List Ev} (h : Looked t i evs) : Inside t (.endSpan i) evs := by
  obtain ⟨p1, p2, h1, h2, _⟩ := h
  exact ⟨p1, p2, h1, h2⟩

theorem Looked.snoc {t i : Nat} {evs : List Ev} {ev : Ev} (h : Looked t i evs) (hm : ¬ mark t ev) :
    Looked t i (evs ++ [ev]) := by
  obtain ⟨p1, p2, rfl, h2, h3⟩ := h
  refine ⟨p1, p2 ++ [ev], by simp, fun x hx => ?_, by simp [h3]⟩
  rcases List.mem_append.1 hx with hx | hx
  · exact h2 x hx
  · rw [List.mem_singleton.1 hx]; exact hm

theorem Inside.looked {t i : Nat} {evs : List Ev} (h : Inside t (.endSpan i) evs) : Looked t i (evs ++ [.loaded i]) := by
  obtain ⟨p1, p2, rfl, h2⟩ := h
  refine ⟨p1, p2 ++ [.loaded i], by simp, fun x hx => ?_, by simp⟩
  rcases List.mem_append.1 hx with hx | hx
  · exact h2 x hx
  · rw [List.mem_singleton.1 hx]; exact id

theorem not_loaded {i : Nat} : ∀ {evs : List Ev}, before i evs = none → .loaded i ∉ evs
  | [], _ => by simp
  | ev :: evs, h => by
    simp only [before] at h
    by_cases he : ev = .loaded i
    · rw [if_pos he] at h; cases h
    · rw [if_neg he, Option.map_eq_none_iff] at h
      intro hm
      rcases List.mem_cons.1 hm with hm | hm
      · exact he hm.symm
      · exact not_loaded h hm

theorem inside_called (t : Nat) (c : Call) (evs : List Ev) : Inside t c (evs ++ [.called t c]) :=
  ⟨evs, [], rfl, by simp⟩

theorem At.snoc {t : Nat} {p : PC} {evs : List Ev} {ev : Ev} (h : At t evs p) (hm : ¬ mark t ev) :
    At t (evs ++ [ev]) p := by
  cases p with
  | idle => trivial
  | regUnlock a e => exact Stored.snoc h hm
  | data i _ _ => exact Looked.snoc h hm
  | exporting i _ => exact Looked.snoc h hm
  | _ => exact Inside.snoc h hm

theorem Legal.snoc {evs : List Ev} {ev : Ev} (h : Legal evs) (hp : Pre evs ev) : Legal (evs ++ [ev]) := by
  intro p x q he
  rcases List.eq_nil_or_concat q with rfl | ⟨q', y, rfl⟩
  · have := List.append_inj' he rfl
    obtain ⟨rfl, h2⟩ := this
    cases h2
    exact hp
  · have : evs ++ [ev] = (p ++ x :: q') ++ [y] := by simpa using he
    obtain ⟨h1, _⟩ := List.append_inj' this rfl
    exact h p x q' h1

/-- A step without an event. -/
theorem ord_quiet {st st' : St} (h : Ord st) (t : Nat) (p1 : PC) (hpc : st'.pc = upd st.pc t p1) (he : st'.evs = st.evs)
    (hp : At t st.evs p1) : Ord st' := by
  refine ⟨by rw [he]; exact h.legal, fun u => ?_⟩
  rw [hpc, he]
  by_cases hu : u = t
  · simp only [upd, hu, if_true]; exact hp
  · simp only [upd, hu, if_false]; exact h.pcs u

/-- A step with an event of goroutine `t`. -/
theorem ord_event {st st' : St} (h : Ord st) (t : Nat) (p1 : PC) (ev : Ev) (hpc : st'.pc = upd st.pc t p1)
    (he : st'.evs = st.evs ++ [ev]) (hev : ∀ u, u ≠ t → ¬ mark u ev) (hpre : Pre st.evs ev)
    (hp : At t (st.evs ++ [ev]) p1) : Ord st' := by
  refine ⟨by rw [he]; exact h.legal.snoc hpre, fun u => ?_⟩
  rw [hpc, he]
  by_cases hu : u = t
  · simp only [upd, hu, if_true]; exact hp
  · simp only [upd, hu, if_false]; exact (h.pcs u).snoc (hev u hu)

theorem ord_step {sp : Spans} {st st' : St} (hi : EndConc.Inv sp st) (h : Ord st) (t c : Nat) (hs : step sp st t c = some st') : Ord st' := by
  have hp := h.pcs t
  unfold step at hs
  cases hpc : st.pc t with
  | idle =>
    simp only [hpc] at hs
    cases ht : st.todo t with
    | nil => simp [ht] at hs
    | cons call rest =>
      have hcall : ∀ u, u ≠ t → ¬ mark u (Ev.called t call) := fun u hu hm => hu hm.symm
      cases call with
      | endSpan i =>
        by_cases hr : sp.recording i = true
        · simp only [ht, hr, Bool.not_true, Bool.false_eq_true, if_false, Option.some.injEq] at hs
          rw [← hs]
          exact ord_event h t (.fast i) _ rfl rfl hcall trivial (inside_called _ _ _)
        · simp only [ht, hr, Bool.not_false, if_true, Option.some.injEq] at hs
          rw [← hs]
          have h1 : Ord { st with evs := st.evs ++ [.called t (.endSpan i)], pc := upd st.pc t (.fast i) } :=
            ord_event h t (.fast i) _ rfl rfl hcall trivial (inside_called _ _ _)
          refine ord_event h1 t .idle (.returned t i) ?_ rfl (fun u hu hm => hu hm.symm) (inside_called _ _ _) trivial
          funext u; simp only [upd]; split <;> rfl
      | register e =>
        simp only [ht, Option.some.injEq] at hs
        rw [← hs]
        exact ord_event h t (.regLock true e) _ rfl rfl hcall trivial (inside_called _ _ _)
      | unregister e =>
        simp only [ht, Option.some.injEq] at hs
        rw [← hs]
        exact ord_event h t (.regLock false e) _ rfl rfl hcall trivial (inside_called _ _ _)
  | fast i =>
    rw [hpc] at hp
    simp only [hpc] at hs
    by_cases hd : st.done i = true
    · simp only [hd, if_true, Option.some.injEq] at hs
      rw [← hs]
      exact ord_event h t .idle (.returned t i) rfl rfl (fun u hu hm => hu hm.symm) hp trivial
    · simp only [hd, Bool.false_eq_true, if_false, Option.some.injEq] at hs
      rw [← hs]
      exact ord_quiet h t (.lock i) rfl rfl hp
  | lock i =>
    rw [hpc] at hp
    simp only [hpc] at hs
    cases ho : st.once i with
    | some _ => simp [ho] at hs
    | none =>
      simp only [ho, Option.some.injEq] at hs
      rw [← hs]
      exact ord_quiet h t (.check i) rfl rfl hp
  | check i =>
    rw [hpc] at hp
    simp only [hpc] at hs
    split at hs <;> cases hs
    · exact ord_quiet h t (.unlock i) rfl rfl hp
    · exact ord_quiet h t (.load i) rfl rfl hp
  | load i =>
    rw [hpc] at hp
    simp only [hpc] at hs
    have hn : .loaded i ∉ st.evs := by
      have hd := hi.pcs t
      rw [hpc] at hd
      exact not_loaded (fresh_of_holder hi ((hi.once t i).1 (by rw [hpc]; rfl)) (by rw [hpc]; simp [past]) hd).1
    split at hs <;> cases hs
    · exact ord_event h t (.data i _ _) (.loaded i) rfl rfl (fun _ _ => id) ⟨hn, t, hp⟩ (Inside.looked hp)
    · exact ord_event h t (.setDone i) (.loaded i) rfl rfl (fun _ _ => id) ⟨hn, t, hp⟩ (Inside.snoc hp id)
  | data i exp must =>
    rw [hpc] at hp
    simp only [hpc] at hs
    by_cases hst : sp.hasStore i = true
    · simp only [hst, if_true, Option.some.injEq] at hs
      rw [← hs]
      exact ord_event h t (.exporting i _) (.finished i) rfl rfl (fun _ _ => id) trivial (Looked.snoc hp id)
    · simp only [hst, Bool.false_eq_true, if_false, Option.some.injEq] at hs
      rw [← hs]
      exact ord_quiet h t (.exporting i _) rfl rfl hp
  | exporting i rem =>
    rw [hpc] at hp
    simp only [hpc] at hs
    cases rem with
    | nil => cases hs; exact ord_quiet h t (.setDone i) rfl rfl (Looked.inside hp)
    | cons x rem =>
      cases he : (x :: rem)[c]? with
      | none => simp [he] at hs
      | some e =>
        simp only [he, Option.some.injEq] at hs
        rw [← hs]
        exact ord_event h t (.exporting i _) (.exported e i) rfl rfl (fun _ _ => id) ⟨t, hp⟩ (Looked.snoc hp id)
  | setDone i =>
    rw [hpc] at hp
    simp only [hpc] at hs; cases hs
    exact ord_quiet h t (.unlock i) rfl rfl hp
  | unlock i =>
    rw [hpc] at hp
    simp only [hpc] at hs; cases hs
    exact ord_event h t .idle (.returned t i) rfl rfl (fun u hu hm => hu hm.symm) hp trivial
  | regLock a e =>
    rw [hpc] at hp
    simp only [hpc] at hs
    cases hm : st.mu with
    | some _ => simp [hm] at hs
    | none =>
      simp only [hm, Option.some.injEq] at hs
      rw [← hs]
      exact ord_quiet h t (.regLoad a e) rfl rfl hp
  | regLoad a e =>
    rw [hpc] at hp
    simp only [hpc] at hs; cases hs
    exact ord_quiet h t (.regStore a e _) rfl rfl hp
  | regStore a e new =>
    rw [hpc] at hp
    simp only [hpc] at hs; cases hs
    obtain ⟨p1, p2, h1, h2⟩ := hp
    refine ord_event h t (.regUnlock a e) (regEv t a e) rfl rfl ?_ ?_ ?_
    · intro u _ hm
      cases a <;> exact hm
    · cases a <;> exact ⟨p1, p2, h1, h2⟩
    · refine ⟨p1, p2 ++ [regEv t a e], by rw [h1]; simp, fun x hx => ?_, by simp⟩
      rcases List.mem_append.1 hx with hx | hx
      · exact h2 x hx
      · rw [List.mem_singleton.1 hx]
        cases a <;> exact id
  | regUnlock a e =>
    rw [hpc] at hp
    simp only [hpc] at hs; cases hs
    exact ord_event h t .idle (.regReturned t a e) rfl rfl (fun u hu hm => hu hm.symm) hp trivial

theorem ord_run (sp : Spans) (sched : List (Nat × Nat)) : ∀ (st st' : St), EndConc.Inv sp st → Ord st → run sp st sched = some st' →
    Ord st' := by
  induction sched with
  | nil => intro st st' _ h hr; cases hr; exact h
  | cons x l ih =>
    intro st st' hi h hr
    obtain ⟨t, c⟩ := x
    simp only [run, Option.bind_eq_some_iff] at hr
    obtain ⟨st1, h1, h2⟩ := hr
    exact ih st1 st' (inv_step hi t c h1) (ord_step hi h t c h1) h2

theorem ord_init (programs : Nat → List Call) : Ord (init programs) := by
  refine ⟨?_, fun _ => trivial⟩
  intro p ev q h
  simp [init] at h

/-! ## From the invariant to the calls -/

/-- The events before the first `End` of span `i` looked, and the rest. -/
theorem before_split {i : Nat} : ∀ {evs p : List Ev}, before i evs = some p → ∃ q, evs = p ++ .loaded i :: q
  | [], p, h => by simp [before] at h
  | ev :: evs, p, h => by
    simp only [before] at h
    by_cases he : ev = .loaded i
    · rw [if_pos he] at h; cases h; exact ⟨evs, by rw [he]; rfl⟩
    · rw [if_neg he] at h
      cases hb : before i evs with
      | none => rw [hb] at h; cases h
      | some p' =>
        rw [hb] at h; cases h
        obtain ⟨q, hq⟩ := before_split hb
        exact ⟨q, by rw [hq]; rfl⟩

/-- A prefix of the events up to `x` in `l ++ x :: r`, if `x` is in neither the first part, reaches into `r`. -/
theorem split_after {α : Type} {x : α} {l r p q : List α} (h : l ++ r = p ++ x :: q) (hx : x ∉ l) :
    ∃ m, p = l ++ m ∧ r = m ++ x :: q := by
  rcases List.append_eq_append_iff.1 h with ⟨m, rfl, h2⟩ | ⟨m, rfl, h2⟩
  · exact ⟨m, rfl, h2⟩
  · cases m with
    | nil => exact ⟨[], by simp, by simpa using h2.symm⟩
    | cons y m =>
      simp only [List.cons_append, List.cons.injEq] at h2
      exact absurd (by rw [h2.1]; simp) hx

theorem split_two {α : Type} {x : α} {l r p q : List α} (h : l ++ r = p ++ x :: q) :
    (∃ k, p = l ++ k ∧ r = k ++ x :: q) ∨ (∃ k, l = p ++ x :: k ∧ q = k ++ r) := by
  rcases List.append_eq_append_iff.1 h with ⟨k, rfl, h2⟩ | ⟨k, rfl, h2⟩
  · exact Or.inl ⟨k, rfl, h2⟩
  · cases k with
    | nil => exact Or.inl ⟨[], by simp, by simpa using h2.symm⟩
    | cons y k =>
      simp only [List.cons_append, List.cons.injEq] at h2
      obtain ⟨rfl, h3⟩ := h2
      exact Or.inr ⟨k, rfl, h3⟩

/-- Being inside a call, seen at an earlier moment: already inside, or the call is made since. -/
theorem Inside.earlier {t : Nat} {c : Call} {p m : List Ev} (h : Inside t c (p ++ m)) :
    Inside t c p ∨ .called t c ∈ m := by
  obtain ⟨p1, p2, h1, h2⟩ := h
  rcases List.append_eq_append_iff.1 h1 with ⟨k, rfl, h4⟩ | ⟨k, rfl, h4⟩
  · exact Or.inr (by rw [h4]; simp)
  · cases k with
    | nil => exact Or.inr (by simp only [List.nil_append] at h4; rw [← h4]; simp)
    | cons y k =>
      simp only [List.cons_append, List.cons.injEq] at h4
      obtain ⟨rfl, rfl⟩ := h4
      exact Or.inl ⟨p1, k, rfl, fun ev hev => h2 ev (List.mem_append_left _ hev)⟩

/-- Without calls of RegisterExporter(e) in progress at a moment or made since, `e` is not added since. -/
theorem not_added {evs p m : List Ev} {e : Exporter} {u : Nat} (hl : Legal evs) (he : evs = p ++ m)
    (hin : ∀ u, ¬ Inside u (.register e) p) (hc : ∀ u, .called u (.register e) ∉ m) : .added u e ∉ m := by
  intro hm
  obtain ⟨m1, m2, rfl⟩ := List.append_of_mem hm
  have := hl (p ++ m1) (.added u e) m2 (by rw [he]; simp)
  rcases Inside.earlier this with h | h
  · exact hin u h
  · exact hc u (List.mem_append_left _ h)

theorem not_removed {evs p m : List Ev} {e : Exporter} {u : Nat} (hl : Legal evs) (he : evs = p ++ m)
    (hin : ∀ u, ¬ Inside u (.unregister e) p) (hc : ∀ u, .called u (.unregister e) ∉ m) : .removed u e ∉ m := by
  intro hm
  obtain ⟨m1, m2, rfl⟩ := List.append_of_mem hm
  have := hl (p ++ m1) (.removed u e) m2 (by rw [he]; simp)
  rcases Inside.earlier this with h | h
  · exact hin u h
  · exact hc u (List.mem_append_left _ h)

theorem registered_append (e : Exporter) (p m : List Ev) (b : Bool) (h : registered e p = b)
    (h1 : ∀ u, .added u e ∈ m → b = true) (h2 : ∀ u, .removed u e ∈ m → b = false) : registered e (p ++ m) = b := by
  induction m using List.reverseRecOn with
  | nil => simpa using h
  | append_singleton m ev ih =>
    have ih := ih (fun u hu => h1 u (List.mem_append_left _ hu)) (fun u hu => h2 u (List.mem_append_left _ hu))
    rw [← List.append_assoc, registered_snoc]
    cases ev with
    | added t x =>
      by_cases hx : x = e
      · subst hx; simp [h1 t (by simp)]
      · simp [hx, ih]
    | removed t x =>
      by_cases hx : x = e
      · subst hx; simp [h2 t (by simp)]
      · simp [hx, ih]
    | _ => exact ih

/-- The last call of a goroutine is one only. -/
theorem last_call {t : Nat} {c c' : Call} {p1 p2 q1 q2 : List Ev} (h : p1 ++ .called t c :: p2 = q1 ++ .called t c' :: q2)
    (hp : ∀ ev ∈ p2, ¬ mark t ev) (hq : ∀ ev ∈ q2, ¬ mark t ev) : p1 = q1 ∧ c = c' ∧ p2 = q2 := by
  rcases List.append_eq_append_iff.1 h with ⟨k, rfl, h4⟩ | ⟨k, rfl, h4⟩
  · cases k with
    | nil => simp at h4; simp [h4]
    | cons y k =>
      simp only [List.cons_append, List.cons.injEq] at h4
      exact absurd rfl (hp (.called t c') (by rw [h4.2]; simp))
  · cases k with
    | nil => simp at h4; simp [h4]
    | cons y k =>
      simp only [List.cons_append, List.cons.injEq] at h4
      exact absurd rfl (hq (.called t c) (by rw [h4.2]; simp))

/-- When a registration returned, its effect is among the events since its call. -/
theorem stored_between {evs p q r : List Ev} {t : Nat} {a : Bool} {e : Exporter} (hl : Legal evs)
    (he : evs = p ++ .called t (regCall a e) :: (q ++ .regReturned t a e :: r)) (hq : ∀ ev ∈ q, ¬ mark t ev) :
    regEv t a e ∈ q := by
  obtain ⟨p1, p2, h1, h2, h3⟩ := hl (p ++ .called t (regCall a e) :: q) (.regReturned t a e) r (by rw [he]; simp)
  obtain ⟨_, _, rfl⟩ := last_call h1 hq h2
  exact h3

/-- The first End of a span looks after it is called. -/
theorem loaded_after {evs l r p : List Ev} {i : Nat} (hl : Legal evs) (he : evs = l ++ r) (hb : before i evs = some p)
    (hcall : ∀ u, .called u (.endSpan i) ∉ l) : ∃ m, p = l ++ m ∧ ∃ s, r = m ++ .loaded i :: s := by
  obtain ⟨q, hq⟩ := before_split hb
  have hnl : .loaded i ∉ l := by
    intro hm
    obtain ⟨l1, l2, rfl⟩ := List.append_of_mem hm
    obtain ⟨_, u, p1, p2, h1, _⟩ := hl l1 (.loaded i) (l2 ++ r) (by rw [he]; simp)
    exact hcall u (by rw [h1]; simp)
  obtain ⟨m, h1, h2⟩ := split_after (he ▸ hq) hnl
  exact ⟨m, h1, q, h2⟩

/-- A span first looked at after UnregisterExporter(e) has returned does not get to `e`, if no RegisterExporter(e)
was in progress when UnregisterExporter was called and none was called before the look. -/
theorem unregistered_then {evs p q m s : List Ev} {t : Nat} {e : Exporter} (hl : Legal evs)
    (hevs : evs = p ++ .called t (.unregister e) :: (q ++ .regReturned t false e :: (m ++ s))) (hq : ∀ ev ∈ q, ¬ mark t ev)
    (hin : ∀ u, ¬ Inside u (.register e) p)
    (hreg : ∀ u, .called u (.register e) ∉ q ++ .regReturned t false e :: m) :
    registered e (p ++ .called t (.unregister e) :: (q ++ .regReturned t false e :: m)) = false := by
  have hin' : regEv t false e ∈ q := stored_between hl hevs hq
  have hna : ∀ u, .added u e ∉ Ev.called t (.unregister e) :: (q ++ .regReturned t false e :: m) := by
    intro u
    refine not_added (evs := p ++ .called t (.unregister e) :: (q ++ .regReturned t false e :: m)) ?_ rfl hin ?_
    · intro a ev b hab
      exact hl a ev (b ++ s) (by rw [hevs]; simpa using congrArg (· ++ s) hab)
    · intro u hu
      rcases List.mem_cons.1 hu with hu | hu
      · cases hu
      · exact hreg u hu
  obtain ⟨q1, q2, rfl⟩ := List.append_of_mem hin'
  have h0 : registered e (p ++ .called t (.unregister e) :: q1 ++ [.removed t e]) = false := by
    rw [registered_snoc]; simp
  have := registered_append e _ (q2 ++ .regReturned t false e :: m) false h0
    (fun u hu => absurd (show Ev.added u e ∈ _ from ?_) (hna u)) (fun _ _ => rfl)
  · rw [show p ++ .called t (.unregister e) :: (q1 ++ regEv t false e :: q2 ++ .regReturned t false e :: m)
        = p ++ .called t (.unregister e) :: q1 ++ [.removed t e] ++ (q2 ++ .regReturned t false e :: m) by simp [regEv]]
    exact this
  · rcases List.mem_append.1 hu with hu | hu
    · simp [hu]
    · rcases List.mem_cons.1 hu with hu | hu
      · cases hu
      · simp [hu]

/-! ## C71 -/

/-- An exporter for which UnregisterExporter has returned gets no span whose End is first called after
that, if no RegisterExporter of it was in progress when UnregisterExporter was called and none was
called later. -/
theorem unregistered_gets_none (sp : Spans) (programs : Nat → List Call) (sched : List (Nat × Nat)) (st : St)
    (hr : run sp (init programs) sched = some st) (t i : Nat) (e : Exporter) (p q r : List Ev)
    (hevs : st.evs = p ++ .called t (.unregister e) :: (q ++ .regReturned t false e :: r)) (hq : ∀ ev ∈ q, ¬ mark t ev)
    (hin : ∀ u, ¬ Inside u (.register e) p)
    (hreg : ∀ u, .called u (.register e) ∉ q ++ .regReturned t false e :: r)
    (hend : ∀ u, .called u (.endSpan i) ∉ p ++ .called t (.unregister e) :: (q ++ [.regReturned t false e])) :
    times e i st.evs = 0 := by
  have ho := ord_run sp sched _ st (inv_init sp programs) (ord_init programs) hr
  obtain ⟨h1, h2⟩ := at_most_once sp programs sched st hr i e
  by_contra hne
  obtain ⟨_, b, hb, hreg'⟩ := h2 (by omega)
  obtain ⟨m, rfl, s, hm⟩ := loaded_after (r := r) ho.legal (by rw [hevs]; simp) hb hend
  have := unregistered_then (evs := st.evs) (m := m) (s := .loaded i :: s) ho.legal (by rw [hevs, hm]) hq hin
    (fun u hu => hreg u (by
      rw [hm]
      rcases List.mem_append.1 hu with hu | hu
      · simp [hu]
      · rcases List.mem_cons.1 hu with hu | hu
        · cases hu
        · simp [hu]))
  simp only [List.append_assoc, List.cons_append, List.nil_append] at hreg'
  rw [this] at hreg'
  cases hreg'

/-- When UnregisterExporter has returned and afterwards every End that was then in progress has returned
too, the exporter is not called any more, whatever spans end later, if no RegisterExporter of it was in
progress when UnregisterExporter was called and none was called later. -/
theorem unregistered_is_quiet (sp : Spans) (programs : Nat → List Call) (sched : List (Nat × Nat)) (st : St)
    (hr : run sp (init programs) sched = some st) (t i : Nat) (e : Exporter) (p q r1 r2 : List Ev)
    (hevs : st.evs = p ++ .called t (.unregister e) :: (q ++ .regReturned t false e :: (r1 ++ r2)))
    (hq : ∀ ev ∈ q, ¬ mark t ev)
    (hin : ∀ u, ¬ Inside u (.register e) p)
    (hreg : ∀ u, .called u (.register e) ∉ q ++ .regReturned t false e :: (r1 ++ r2))
    (hdrain : ∀ u j, Inside u (.endSpan j) (p ++ .called t (.unregister e) :: (q ++ [.regReturned t false e])) →
      .returned u j ∈ r1) :
    .exported e i ∉ r2 := by
  intro hm
  have ho := ord_run sp sched _ st (inv_init sp programs) (ord_init programs) hr
  obtain ⟨h1, h2⟩ := at_most_once sp programs sched st hr i e
  obtain ⟨s1, s2, rfl⟩ := List.append_of_mem hm
  have hpos : 0 < times e i st.evs := List.countP_pos_iff.2 ⟨.exported e i, by rw [hevs]; simp, by simp⟩
  obtain ⟨_, b, hb, hregd⟩ := h2 (by omega)
  -- the goroutine that exports looked before
  obtain ⟨u, c1, c2, hc, hc2, hlook⟩ := ho.legal (p ++ .called t (.unregister e) ::
    (q ++ .regReturned t false e :: (r1 ++ s1))) (.exported e i) s2 (by rw [hevs]; simp)
  obtain ⟨x, y, rfl⟩ := List.append_of_mem hlook
  -- the first look is this one
  obtain ⟨bq, hbq⟩ := before_split hb
  have hb2 : b = c1 ++ .called u (.endSpan i) :: x := by
    have hev : st.evs = (c1 ++ .called u (.endSpan i) :: x) ++ .loaded i :: (y ++ .exported e i :: s2) := by
      rw [hevs, show p ++ .called t (.unregister e) :: (q ++ .regReturned t false e :: (r1 ++ (s1 ++ .exported e i :: s2)))
        = (p ++ .called t (.unregister e) :: (q ++ .regReturned t false e :: (r1 ++ s1))) ++ .exported e i :: s2 by simp, hc]
      simp
    have hn := (ho.legal _ _ _ hev).1
    have hn2 := (ho.legal _ _ _ hbq).1
    obtain ⟨m, hm1, hm2⟩ := split_after (x := Ev.loaded i) (by rw [← hbq]; exact hev.symm) hn
    cases m with
    | nil => rw [hm1, List.append_nil]
    | cons z m =>
      simp only [List.cons_append, List.cons.injEq] at hm2
      exact absurd (by rw [hm1, ← hm2.1]; simp) hn2
  -- the call is made before UnregisterExporter returns, or after
  rw [show p ++ .called t (.unregister e) :: (q ++ .regReturned t false e :: (r1 ++ s1))
    = (p ++ .called t (.unregister e) :: (q ++ [.regReturned t false e])) ++ (r1 ++ s1) by simp] at hc
  rcases split_two hc with ⟨k, hk1, hk2⟩ | ⟨k, hk1, hk2⟩
  · -- after
    have := unregistered_then (evs := st.evs) (m := k ++ .called u (.endSpan i) :: x)
      (s := .loaded i :: (y ++ .exported e i :: s2)) (t := t) ho.legal (by
        rw [hevs]
        have := congrArg (· ++ Ev.exported e i :: s2) hk2
        simp only [List.append_assoc, List.cons_append] at this ⊢
        rw [this]) hq hin (by
        intro v hv
        refine hreg v ?_
        rcases List.mem_append.1 hv with hv | hv
        · simp [hv]
        · rcases List.mem_cons.1 hv with hv | hv
          · cases hv
          · refine List.mem_append_right _ (List.mem_cons_of_mem _ ?_)
            rw [show r1 ++ (s1 ++ Ev.exported e i :: s2) = (r1 ++ s1) ++ Ev.exported e i :: s2 by simp, hk2]
            refine List.mem_append_left _ ?_
            rcases List.mem_append.1 hv with hv | hv
            · simp [hv]
            · rcases List.mem_cons.1 hv with hv | hv
              · cases hv
              · simp [hv])
    rw [hb2, hk1] at hregd
    simp only [List.append_assoc, List.cons_append, List.nil_append] at hregd this
    rw [this] at hregd
    cases hregd
  · -- before
    have := hdrain u i ⟨c1, k, hk1, fun ev hev => hc2 ev (by rw [hk2]; exact List.mem_append_left _ hev)⟩
    exact hc2 (.returned u i) (by rw [hk2]; simp [this]) rfl

/-- An exporter for which RegisterExporter has returned has got every sampled span whose End is first
called after that, exactly once, when such an End has returned, if no UnregisterExporter of it was in
progress when RegisterExporter was called and none was called later. -/
theorem registered_gets_all (sp : Spans) (programs : Nat → List Call) (sched : List (Nat × Nat)) (st : St)
    (hr : run sp (init programs) sched = some st) (t i : Nat) (e : Exporter) (p q r : List Ev)
    (hevs : st.evs = p ++ .called t (.register e) :: (q ++ .regReturned t true e :: r)) (hq : ∀ ev ∈ q, ¬ mark t ev)
    (hin : ∀ u, ¬ Inside u (.unregister e) p)
    (hreg : ∀ u, .called u (.unregister e) ∉ q ++ .regReturned t true e :: r)
    (hend : ∀ u, .called u (.endSpan i) ∉ p ++ .called t (.register e) :: (q ++ [.regReturned t true e]))
    (hrec : sp.recording i = true) (hsmp : sp.sampled i = true) (u : Nat) (hret : .returned u i ∈ st.evs) :
    times e i st.evs = 1 := by
  have ho := ord_run sp sched _ st (inv_init sp programs) (ord_init programs) hr
  obtain ⟨b, hb, ht, _⟩ := exported_when_returned sp programs sched st hr u i hrec hret
  rw [ht e]
  obtain ⟨m, rfl, s, hm⟩ := loaded_after (r := r) ho.legal (by rw [hevs]; simp) hb hend
  have hin' : regEv t true e ∈ q := stored_between ho.legal hevs hq
  have hna : ∀ u, .removed u e ∉ Ev.called t (.register e) :: (q ++ .regReturned t true e :: r) := by
    intro u
    refine not_removed ho.legal hevs hin ?_
    intro u hu
    rcases List.mem_cons.1 hu with hu | hu
    · cases hu
    · exact hreg u hu
  obtain ⟨q1, q2, rfl⟩ := List.append_of_mem hin'
  have h0 : registered e (p ++ .called t (.register e) :: q1 ++ [.added t e]) = true := by
    rw [registered_snoc]; simp
  have := registered_append e _ (q2 ++ .regReturned t true e :: m) true h0 (fun _ _ => rfl)
    (fun u hu => absurd (show Ev.removed u e ∈ _ from ?_) (hna u))
  · rw [show p ++ .called t (.register e) :: (q1 ++ regEv t true e :: q2 ++ [.regReturned t true e]) ++ m
        = p ++ .called t (.register e) :: q1 ++ [.added t e] ++ (q2 ++ .regReturned t true e :: m) by simp [regEv], this]
    simp [hsmp]
  · rw [hm]
    rcases List.mem_append.1 hu with hu | hu
    · simp [hu]
    · rcases List.mem_cons.1 hu with hu | hu
      · cases hu
      · simp [hu]

/-! A concrete run: goroutine 0 registers 7 and 8; goroutines 1 and 2 end span 0, and when the exporters
have been looked up goroutine 3 unregisters 8. When all have returned goroutine 2 ends span 1. -/

def programs0 : Nat → List Call
  | 0 => [.register 7, .register 8]
  | 1 => [.endSpan 0]
  | 2 => [.endSpan 0, .endSpan 1]
  | 3 => [.unregister 8]
  | _ => []

def sched0 : List (Nat × Nat) := demoSched ++ List.replicate 10 (2, 0)

def log0a : List Ev := [.called 0 (.register 7), .added 0 7, .regReturned 0 true 7]
def log0b : List Ev := [.called 0 (.register 8), .added 0 8, .regReturned 0 true 8, .called 1 (.endSpan 0),
  .called 2 (.endSpan 0), .loaded 0]
def log0c : List Ev := [.finished 0, .exported 8 0, .exported 7 0, .returned 2 0, .returned 1 0]
def log0d : List Ev := [.called 2 (.endSpan 1), .loaded 1, .finished 1, .exported 7 1, .returned 2 1]

theorem run0 : ∃ st, run demoSpans (init programs0) sched0 = some st ∧
    st.evs = log0a ++ log0b ++ .called 3 (.unregister 8) :: ([.removed 3 8] ++ .regReturned 3 false 8 :: (log0c ++ log0d)) := by
  have h : (match run demoSpans (init programs0) sched0 with
    | some st => decide (st.evs = log0a ++ log0b ++ .called 3 (.unregister 8) ::
        ([.removed 3 8] ++ .regReturned 3 false 8 :: (log0c ++ log0d)))
    | none => false) = true := by decide +kernel
  cases hr : run demoSpans (init programs0) sched0 with
  | none => rw [hr] at h; cases h
  | some st => rw [hr] at h; exact ⟨st, rfl, of_decide_eq_true h⟩

/-- UnregisterExporter does not wait: an exporter can be called after UnregisterExporter of it has returned, by
an End that was already running. -/
theorem called_after_unregister : ∃ (sp : Spans) (programs : Nat → List Call) (sched : List (Nat × Nat)) (st : St)
    (t i : Nat) (e : Exporter) (p r : List Ev), run sp (init programs) sched = some st ∧
    st.evs = p ++ .regReturned t false e :: r ∧ (∀ u, .called u (.register e) ∉ r) ∧ .exported e i ∈ r := by
  obtain ⟨st, h1, h2⟩ := run0
  exact ⟨demoSpans, programs0, sched0, st, 3, 0, 8, _, _, h1,
    h2.trans (List.append_assoc (log0a ++ log0b) [Ev.called 3 (.unregister 8), .removed 3 8] _).symm,
    by simp [log0c, log0d], by simp [log0c]⟩

theorem not_inside_end {t : Nat} {c : Call} {evs : List Ev} (h : Ev.called t c ∉ evs) : ¬ Inside t c evs := by
  rintro ⟨p1, p2, rfl, _⟩
  simp at h

/-- No registration of 8 is in progress when it is unregistered. -/
theorem none_inside0 (u : Nat) : ¬ Inside u (.register 8) (log0a ++ log0b) := by
  rintro ⟨p1, p2, h1, h2⟩
  have h3 : Ev.called u (.register 8) ∈ log0a ++ log0b := by rw [h1]; simp
  have hu : u = 0 := by simpa [log0a, log0b] using h3
  subst hu
  have h4 : (log0a ++ [.called 0 (.register 8)]) ++ log0b.tail = p1 ++ .called 0 (.register 8) :: p2 := by
    rw [← h1]; rfl
  have := split_two h4
  rcases this with ⟨k, _, hk⟩ | ⟨k, hk, hk2⟩
  · have : Ev.called 0 (.register 8) ∈ log0b.tail := by rw [hk]; simp
    simp [log0b] at this
  · exact h2 (.regReturned 0 true 8) (by rw [hk2]; simp [log0b]) rfl

/-- Span 1 does not get to exporter 8. -/
example : ∃ st, run demoSpans (init programs0) sched0 = some st ∧ times 8 1 st.evs = 0 := by
  obtain ⟨st, h1, h2⟩ := run0
  exact ⟨st, h1, unregistered_gets_none demoSpans programs0 sched0 st h1 3 1 8 (log0a ++ log0b) [.removed 3 8]
    (log0c ++ log0d) h2 (by simp [mark]) none_inside0 (by simp [log0c, log0d]) (by simp [log0a, log0b])⟩

/-- After the Ends of span 0 have returned exporter 8 is not called. -/
example : ∃ st, run demoSpans (init programs0) sched0 = some st ∧ ∀ i, .exported 8 i ∉ log0d := by
  obtain ⟨st, h1, h2⟩ := run0
  refine ⟨st, h1, fun i => unregistered_is_quiet demoSpans programs0 sched0 st h1 3 i 8 (log0a ++ log0b) [.removed 3 8]
    log0c log0d h2 (by simp [mark]) none_inside0 (by simp [log0c, log0d]) ?_⟩
  rintro u j ⟨p1, p2, h3, _⟩
  have h4 : Ev.called u (.endSpan j) ∈ log0a ++ log0b ++ .called 3 (.unregister 8) :: ([.removed 3 8] ++
    [.regReturned 3 false 8]) := by rw [h3]; simp
  have : (u = 1 ∧ j = 0) ∨ (u = 2 ∧ j = 0) := by simpa [log0a, log0b] using h4
  rcases this with ⟨rfl, rfl⟩ | ⟨rfl, rfl⟩ <;> simp [log0c]

/-- Spans 0 and 1 get to exporter 7. -/
example : ∃ st, run demoSpans (init programs0) sched0 = some st ∧ times 7 0 st.evs = 1 ∧ times 7 1 st.evs = 1 := by
  obtain ⟨st, h1, h2⟩ := run0
  have h3 : st.evs = [] ++ .called 0 (.register 7) :: ([.added 0 7] ++ .regReturned 0 true 7 :: (log0b ++
    .called 3 (.unregister 8) :: ([.removed 3 8] ++ .regReturned 3 false 8 :: (log0c ++ log0d)))) := h2
  have h4 : ∀ i u, .returned u i ∈ st.evs → times 7 i st.evs = 1 := fun i u hu =>
    registered_gets_all demoSpans programs0 sched0 st h1 0 i 7 [] [.added 0 7] _ h3 (by simp [mark])
      (fun u => not_inside_end (by simp)) (by simp [log0b, log0c, log0d]) (by simp) rfl rfl u hu
  exact ⟨st, h1, h4 0 2 (by rw [h2]; simp [log0c]), h4 1 2 (by rw [h2]; simp [log0d])⟩

end Verif.Props.EndOrder
