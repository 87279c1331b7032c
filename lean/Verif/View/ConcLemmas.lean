import Verif.View.Conc
import Verif.Props.Recording

/-!
# Invariants of the concurrent system: lemmas
-/

namespace Verif.View.Conc
open Verif Verif.Tag Verif.Stats Verif.View Verif.View.Spec Verif.Props.Rows Verif.Props.Worker
open Verif.Props.Recording (RealMeasurements)

/-! ## Reading a trace -/

/-- The commands sent, in the order the channel accepted them. -/
def sents (t : List Ev) : List (Nat × Cmd) :=
  t.filterMap fun e => match e with
    | .sent i c => some (i, c)
    | _ => none

/-- The commands handled, in order. -/
def handleds (t : List Ev) : List (Nat × Cmd) :=
  t.filterMap fun e => match e with
    | .handled i c _ => some (i, c)
    | _ => none

/-- Events of goroutine `i` itself: its calls, sends and returns. -/
def isOwn (i : Nat) : Ev → Bool
  | .called j _ => decide (j = i)
  | .skipped j _ => decide (j = i)
  | .sent j _ => decide (j = i)
  | .stopped j => decide (j = i)
  | .handled j c _ => decide (j = i) && isSync c

def own (i : Nat) (t : List Ev) : List Ev := t.filter (isOwn i)

theorem sents_append (a b : List Ev) : sents (a ++ b) = sents a ++ sents b := List.filterMap_append
theorem handleds_append (a b : List Ev) : handleds (a ++ b) = handleds a ++ handleds b :=
  List.filterMap_append
theorem own_append (i : Nat) (a b : List Ev) : own i (a ++ b) = own i a ++ own i b :=
  List.filter_append ..

/-- The events a goroutine produces for one complete call. -/
inductive Block (i : Nat) : Call → List Ev → Prop where
  | skip (r : RecordReq) : Block i (.record r) [.called i (.record r), .skipped i r]
  | recorded (now : Int) (r : RecordReq) :
      Block i (.record r) [.called i (.record r), .sent i (.record now r)]
  | sync (now : Int) (call : Call) (c : Cmd) (r : Reply) (hc : call.cmd now = some c)
      (hs : isSync c = true) : Block i call [.called i call, .sent i c, .handled i c r]
  | addExporter (e : Nat) : Block i (.addExporter e) [.called i (.addExporter e)]
  | delExporter (e : Nat) : Block i (.delExporter e) [.called i (.delExporter e)]
  | stop : Block i .stop [.called i .stop, .stopped i]

/-- The events of the call a goroutine is in the middle of. -/
def Partial (i : Nat) : Phase → List Call → List Ev → Prop
  | .idle, cur, evs => cur = [] ∧ evs = []
  | .sending c, cur, evs => ∃ call now, cur = [call] ∧ call.cmd now = some c ∧ evs = [.called i call]
  | .waiting c, cur, evs => ∃ call now, cur = [call] ∧ call.cmd now = some c ∧ isSync c = true ∧
      evs = [.called i call, .sent i c]
  | _, cur, evs => cur = [.stop] ∧ evs = [.called i .stop]

/-- A property of every event of a trace and what came before it. -/
def Hist (P : List Ev → Ev → Prop) (t : List Ev) : Prop := ∀ pre e post, t = pre ++ e :: post → P pre e

theorem Hist.nil (P : List Ev → Ev → Prop) : Hist P [] := by
  intro pre e post h; simp at h

theorem Hist.snoc {P : List Ev → Ev → Prop} {t : List Ev} (h : Hist P t) {e : Ev} (he : P t e) :
    Hist P (t ++ [e]) := by
  intro pre x post hx
  rcases List.eq_nil_or_concat post with rfl | ⟨post', y, rfl⟩
  · have := List.append_inj' hx (by simp)
    simp only [List.cons.injEq, and_true] at this
    obtain ⟨rfl, rfl⟩ := this
    exact he
  · rw [List.concat_eq_append, ← List.cons_append, ← List.append_assoc] at hx
    have := List.append_inj' hx (by simp)
    exact h pre x post' this.1

theorem sents_split (t : List Ev) (a b : List (Nat × Cmd)) (i : Nat) (c : Cmd)
    (h : sents t = a ++ (i, c) :: b) :
    ∃ p q, t = p ++ .sent i c :: q ∧ sents p = a ∧ sents q = b := by
  induction t generalizing a with
  | nil => simp [sents] at h
  | cons e t ih =>
    by_cases he : ∃ j d, e = .sent j d
    · obtain ⟨j, d, rfl⟩ := he
      have h' : (j, d) :: sents t = a ++ (i, c) :: b := h
      cases a with
      | nil =>
        simp only [List.nil_append, List.cons.injEq, Prod.mk.injEq] at h'
        obtain ⟨⟨rfl, rfl⟩, h'⟩ := h'
        exact ⟨[], t, rfl, rfl, h'⟩
      | cons x a =>
        simp only [List.cons_append, List.cons.injEq] at h'
        obtain ⟨rfl, h'⟩ := h'
        obtain ⟨p, q, rfl, h1, h2⟩ := ih a h'
        exact ⟨.sent j d :: p, q, rfl, by rw [← h1]; rfl, h2⟩
    · have h' : sents (e :: t) = sents t := by
        cases e <;> simp_all [sents]
      rw [h'] at h
      obtain ⟨p, q, rfl, h1, h2⟩ := ih a h
      refine ⟨e :: p, q, rfl, ?_, h2⟩
      rw [← h1]; cases e <;> simp_all [sents]

/-! ## Subscriptions only grow -/

theorem subscribe_subs {reg reg' : Measures} {name : Bytes} (h : subscribe reg name = .ok reg') :
    (∃ d, GoMap.get reg' name = some d ∧ d.subs = true) ∧
    ∀ k d, GoMap.get reg k = some d → d.subs = true → ∃ d', GoMap.get reg' k = some d' ∧ d'.subs = true := by
  unfold subscribe at h
  cases hd : GoMap.get reg name with
  | none => rw [hd] at h; simp at h
  | some d =>
    rw [hd] at h
    simp only [Res.ok.injEq] at h
    subst h
    refine ⟨⟨_, GoMap.get_set_same .., rfl⟩, ?_⟩
    intro k e he hs
    rw [GoMap.get_set]
    split
    · exact ⟨_, rfl, rfl⟩
    · exact ⟨e, he, hs⟩

theorem registerAll_subs (vs : List ViewDef) {w : Worker} {reg : Measures} {now : Int}
    {w' : Worker} {reg' : Measures} {errs : List Bytes} (h : w.registerAll reg now vs = .ok (w', reg', errs)) :
    (∀ k d, GoMap.get reg k = some d → d.subs = true → ∃ d', GoMap.get reg' k = some d' ∧ d'.subs = true) ∧
    (errs = [] → ∀ v ∈ vs, ∀ m, v.measure = some m → ∃ d, GoMap.get reg' m.name = some d ∧ d.subs = true) := by
  induction vs generalizing w reg w' reg' errs with
  | nil =>
    simp only [Worker.registerAll, Res.ok.injEq, Prod.mk.injEq] at h
    obtain ⟨_, rfl, _⟩ := h
    exact ⟨fun k d hd hs => ⟨d, hd, hs⟩, by simp⟩
  | cons v vs ih =>
    simp only [Worker.registerAll] at h
    cases ht : w.tryRegisterView v now with
    | panic => rw [ht] at h; simp [Res.bind] at h
    | err => rw [ht] at h; simp [Res.bind] at h
    | ok p =>
      obtain ⟨w1, r⟩ := p
      rw [ht] at h
      simp only [Res.bind] at h
      cases r with
      | none =>
        simp only at h
        cases hr : w1.registerAll reg now vs with
        | panic => rw [hr] at h; simp at h
        | err => rw [hr] at h; simp at h
        | ok q =>
          obtain ⟨w2, reg2, errs2⟩ := q
          rw [hr] at h
          simp only [Res.ok.injEq, Prod.mk.injEq] at h
          obtain ⟨_, rfl, rfl⟩ := h
          exact ⟨(ih hr).1, by simp⟩
      | some a =>
        simp only at h
        cases hm : v.measure with
        | none => rw [hm] at h; simp at h
        | some m =>
          rw [hm] at h
          simp only at h
          cases hs : subscribe reg m.name with
          | panic => rw [hs] at h; simp at h
          | err => rw [hs] at h; simp at h
          | ok reg1 =>
            rw [hs] at h
            simp only at h
            obtain ⟨⟨d0, hd0, hs0⟩, hmono⟩ := subscribe_subs hs
            obtain ⟨h1, h2⟩ := ih h
            refine ⟨fun k d hd hsd => ?_, fun he u hu m' hm' => ?_⟩
            · obtain ⟨d', hd', hs'⟩ := hmono k d hd hsd
              exact h1 k d' hd' hs'
            · simp only [List.mem_cons] at hu
              rcases hu with rfl | hu
              · rw [hm] at hm'; simp only [Option.some.injEq] at hm'; subst hm'
                exact h1 _ d0 hd0 hs0
              · exact h2 he u hu m' hm'

theorem canonicalizeAll_measures {vs vs' : List ViewDef} (h : canonicalizeAll vs = .ok vs') :
    ∀ v ∈ vs, ∃ v' ∈ vs', v'.measure = v.measure := by
  induction vs generalizing vs' with
  | nil => simp
  | cons v vs ih =>
    simp only [canonicalizeAll] at h
    rcases hc : canonicalize v with ⟨v1, _ | e⟩
    · rw [hc] at h
      simp only at h
      rcases hr : canonicalizeAll vs with e | vs1
      · rw [hr] at h; simp at h
      · rw [hr] at h
        simp only [Except.ok.injEq] at h
        subst h
        obtain ⟨m, a, a', h1, h2, _⟩ := canonicalize_ok hc
        intro u hu
        simp only [List.mem_cons] at hu
        rcases hu with rfl | hu
        · exact ⟨v1, by simp, by rw [h1, h2]⟩
        · obtain ⟨v', hv', he⟩ := ih hr u hu
          exact ⟨v', by simp [hv'], he⟩
    · rw [hc] at h; simp at h

theorem bind_eq_ok {α β : Type} {x : Res α} {f : α → Res β} {y : β} (h : x.bind f = .ok y) :
    ∃ a, x = .ok a ∧ f a = .ok y := by
  cases x with
  | ok a => exact ⟨a, rfl, h⟩
  | err => simp [Res.bind] at h
  | panic => simp [Res.bind] at h

theorem handle_subs {w : Worker} {reg : Measures} {c : Cmd} {w' : Worker} {reg' : Measures} {r : Reply}
    {es : List Export} (h : handle w reg c = .ok (w', reg', r, es)) :
    (∀ k d, GoMap.get reg k = some d → d.subs = true → ∃ d', GoMap.get reg' k = some d' ∧ d'.subs = true) ∧
    (∀ now vs, c = .register now vs → r = .registered .ok → ∀ v ∈ vs, ∀ m, v.measure = some m →
      ∃ d, GoMap.get reg' m.name = some d ∧ d.subs = true) := by
  cases c with
  | register now vs =>
    simp only [handle, Worker.register] at h
    cases hc : canonicalizeAll vs with
    | error e =>
      rw [hc] at h
      simp only [Res.bind, Res.ok.injEq, Prod.mk.injEq] at h
      obtain ⟨_, rfl, rfl, _⟩ := h
      exact ⟨fun k d hd hs => ⟨d, hd, hs⟩, fun _ _ _ hr => by simp at hr⟩
    | ok vs' =>
      rw [hc] at h
      simp only at h
      cases hr : w.registerAll reg now vs' with
      | panic => rw [hr] at h; simp [Res.bind] at h
      | err => rw [hr] at h; simp [Res.bind] at h
      | ok q =>
        obtain ⟨w2, reg2, errs⟩ := q
        rw [hr] at h
        simp only [Res.bind, Res.ok.injEq, Prod.mk.injEq] at h
        obtain ⟨_, rfl, rfl, _⟩ := h
        obtain ⟨h1, h2⟩ := registerAll_subs _ hr
        refine ⟨h1, fun now' vs0 he hok v hv m hm => ?_⟩
        simp only [Cmd.register.injEq] at he
        obtain ⟨_, rfl⟩ := he
        obtain ⟨v', hv', hm'⟩ := canonicalizeAll_measures hc v hv
        apply h2 _ v' hv' m (by rw [hm']; exact hm)
        cases errs with
        | nil => rfl
        | cons x xs => simp at hok
  | _ =>
    simp only [handle] at h
    all_goals
      refine ⟨fun k d hd hs => ⟨d, ?_, hs⟩, fun _ _ hc => by simp at hc⟩
      have : reg' = reg := by
        first
        | (simp only [Res.ok.injEq, Prod.mk.injEq] at h; exact h.2.1.symm)
        | (obtain ⟨x, _, hx⟩ := bind_eq_ok h
           simp only [Res.ok.injEq, Prod.mk.injEq] at hx; exact hx.2.1.symm)
      rw [this]; exact hd

end Verif.View.Conc
