import Verif.Metric.ReaderCalls

/-!
# C112: exporters that call the interval reader that calls them
-/

namespace Verif.Props.ReaderCalls
open Verif Verif.Metric.ReaderCalls

/-! ## Specification -/

/-- The mutex of the reader will not be unlocked any more, so that no call of `Start`, `Stop` or `Flush`, by anybody, returns. -/
def Stuck (body : Nat → List Op) (s : St) : Prop := ∀ acts, (run body s acts).mu ≠ none

/-- The exporter has called or is about to call what it must not: -/
inductive Misuse (body : Nat → List Op) (s : St) : Prop
  /-- it was called by `Flush` and calls anything -/
  | inFlush (t : Tid) (op : Op) (td td' : List Op) (r : List Frame) (h : s.stack t = ⟨op :: td, .idle⟩ :: ⟨td', .flushing⟩ :: r)
  /-- the same, a moment before: `Flush` is going to call it -/
  | beforeFlush (t : Tid) (td : List Op) (r : List Frame) (h : s.stack t = ⟨td, .locked .flush⟩ :: r) (hq : s.quit = false) (hb : body s.exports ≠ [])
  /-- it was called for a tick and calls `Stop` -/
  | stop (td : List Op) (r : List Frame) (h : s.stack .loop = ⟨td, .locked .stop⟩ :: r ∨ s.stack .loop = ⟨td, .stopSend⟩ :: r)
  /-- it was called for a tick and calls anything, when another goroutine is in `Stop` -/
  | whileStop (t : Nat) (td : List Op) (r : List Frame) (h : s.stack (.client t) = ⟨td, .locked .stop⟩ :: r ∨ s.stack (.client t) = ⟨td, .stopSend⟩ :: r)
      (op : Op) (td' : List Op) (hl : s.stack .loop = [⟨op :: td', .idle⟩])

/-! ## Invariant -/

/-- Outside of `Stop` the field `quit` says whether there is a goroutine of the reader. -/
def Level (s : St) : Prop := (s.loop = .none ∧ s.quit = false) ∨ ((s.loop = .sel ∨ s.loop = .exporting) ∧ s.quit = true)

/-- Where the goroutine with the mutex is. -/
def At (s : St) : Option Tid → Prop
  | none => Level s
  | some .loop => s.loop = .exporting ∧ s.quit = true ∧ ∃ td pc, s.stack .loop = [⟨td, pc⟩] ∧ (pc = .stopSend ∨ ∃ op, pc = .locked op)
  | some (.client t) => ∃ td, (∃ op, s.stack (.client t) = [⟨td, .locked op⟩] ∧ Level s) ∨
      (s.stack (.client t) = [⟨td, .stopSend⟩] ∧ s.quit = true ∧ (s.loop = .sel ∨ s.loop = .exporting)) ∨
      (s.stack (.client t) = [⟨td, .stopWait⟩] ∧ s.quit = true ∧ (s.loop = .quitting ∨ s.loop = .sendDone)) ∨
      (s.stack (.client t) = [⟨td, .stopClose⟩] ∧ s.quit = true ∧ s.loop = .none) ∨
      ∃ td', s.stack (.client t) = [⟨td', .idle⟩, ⟨td, .flushing⟩] ∧ s.quit = false ∧ s.loop = .none

structure Ok (s : St) : Prop where
  one : s.second = false
  others : ∀ t, s.mu ≠ some (.client t) → ∃ td, s.stack (.client t) = [⟨td, .idle⟩]
  ex : s.mu ≠ some .loop → s.loop = .exporting → ∃ td, s.stack .loop = [⟨td, .idle⟩]
  nex : s.loop ≠ .exporting → s.stack .loop = []
  holder : At s s.mu

theorem ok_new (progs : Nat → List Op) : Ok (new progs) :=
  ⟨rfl, fun t _ => ⟨progs t, rfl⟩, fun _ h => (by cases h), fun _ => rfl, .inl ⟨rfl, rfl⟩⟩

theorem put_same (s : St) (t : Tid) (fs : List Frame) : (s.put t fs).stack t = fs := by simp [St.put]

theorem put_other (s : St) {t u : Tid} (fs : List Frame) (h : u ≠ t) : (s.put t fs).stack u = s.stack u := by simp [St.put, h]

/-- A call returns, with the mutex and the field `quit` as they should be. -/
theorem ok_ret {s : St} (hs : Ok s) {t : Nat} {td : List Op} (hm : s.mu = some (.client t)) {s' : St} (h1 : s'.stack = (s.put (.client t) [⟨td, .idle⟩]).stack)
    (h2 : s'.mu = none) (h3 : s'.second = false) (h4 : s'.loop = s.loop ∨ (s.loop ≠ .exporting ∧ s'.loop ≠ .exporting)) (h5 : Level s') : Ok s' := by
  have hl : s'.stack .loop = s.stack .loop := by rw [h1, put_other _ _ (by simp)]
  refine ⟨h3, fun u _ => ?_, fun _ he => ?_, fun he => ?_, by rw [h2]; exact h5⟩
  · rw [h1]
    by_cases hu : u = t
    · subst hu; exact ⟨td, put_same _ _ _⟩
    · rw [put_other _ _ (by simp [hu])]
      exact hs.others u (by rw [hm]; simpa using fun e => hu e.symm)
  · rw [hl]
    rcases h4 with h4 | h4
    · exact hs.ex (by rw [hm]; simp) (by rw [← h4]; exact he)
    · exact absurd he h4.2
  · rw [hl]
    rcases h4 with h4 | h4
    · exact hs.nex (by rw [← h4]; exact he)
    · exact hs.nex h4.1

/-- The goroutine with the mutex goes on. -/
theorem ok_move {s : St} (hs : Ok s) {t : Nat} {fs : List Frame} (hm : s.mu = none ∨ s.mu = some (.client t)) {s' : St} (h1 : s'.stack = (s.put (.client t) fs).stack)
    (h2 : s'.mu = some (.client t)) (h3 : s'.second = false) (h4 : s'.loop = s.loop ∨ (s.loop ≠ .exporting ∧ s'.loop ≠ .exporting))
    (h5 : At s' (some (.client t))) : Ok s' := by
  have hl : s'.stack .loop = s.stack .loop := by rw [h1, put_other _ _ (by simp)]
  have hn : s.mu ≠ some .loop := by rcases hm with h | h <;> rw [h] <;> simp
  refine ⟨h3, fun u hu => ?_, fun _ he => ?_, fun he => ?_, by rw [h2]; exact h5⟩
  · have hu' : u ≠ t := by rintro rfl; exact hu h2
    rw [h1, put_other _ _ (by simp [hu'])]
    refine hs.others u ?_
    rcases hm with h | h <;> rw [h] <;> simp
    exact fun e => hu' e.symm
  · rw [hl]
    rcases h4 with h4 | h4
    · exact hs.ex hn (by rw [← h4]; exact he)
    · exact absurd he h4.2
  · rw [hl]
    rcases h4 with h4 | h4
    · exact hs.nex (by rw [← h4]; exact he)
    · exact hs.nex h4.1


/-- The exporter called for a tick, or the goroutine of the reader, goes on. -/
theorem ok_loop {s s' : St} (hs : Ok s) {fs : List Frame} (h1 : s'.stack = (s.put .loop fs).stack) (h3 : s'.second = false)
    (hmu : ∀ t, s.mu = some (.client t) → s'.mu = some (.client t)) (hex : s'.mu ≠ some .loop → s'.loop = .exporting → ∃ td, fs = [⟨td, .idle⟩])
    (hnex : s'.loop ≠ .exporting → fs = []) (h5 : At s' s'.mu) : Ok s' := by
  have hl : s'.stack .loop = fs := by rw [h1, put_same]
  refine ⟨h3, fun u hu => ?_, fun hm he => by rw [hl]; exact hex hm he, fun he => by rw [hl]; exact hnex he, h5⟩
  rw [h1, put_other _ _ (by simp)]
  exact hs.others u fun e => hu (hmu u e)

/-- The goroutine of the reader begins or ends an export: nothing changes for the others. -/
theorem at_same {s s' : St} (h : s.loop = .sel ∨ s.loop = .exporting) (h' : s'.loop = .sel ∨ s'.loop = .exporting) (hq : s'.quit = s.quit)
    (hst : ∀ t, s'.stack (.client t) = s.stack (.client t)) {m : Option Tid} (hm : m ≠ some .loop) (ha : At s m) : At s' m := by
  have hlev : Level s → Level s' := by
    rintro (⟨h1, _⟩ | ⟨_, h2⟩)
    · rw [h1] at h; simp at h
    · exact .inr ⟨h', hq.trans h2⟩
  match m, hm with
  | none, _ => exact hlev ha
  | some (.client t), _ =>
    obtain ⟨td, ⟨op, h1, h2⟩ | ⟨h1, h2, _⟩ | ⟨_, _, h3⟩ | ⟨_, _, h3⟩ | ⟨_, _, _, h3⟩⟩ := ha
    · exact ⟨td, .inl ⟨op, by rw [hst]; exact h1, hlev h2⟩⟩
    · exact ⟨td, .inr (.inl ⟨by rw [hst]; exact h1, hq.trans h2, h'⟩)⟩
    · rcases h with h | h <;> rw [h] at h3 <;> simp at h3
    · rcases h with h | h <;> rw [h] at h3 <;> simp at h3
    · rcases h with h | h <;> rw [h] at h3 <;> simp at h3
  | some .loop, hm => exact absurd rfl hm

theorem call_client {body : Nat → List Op} {s s' : St} (hs : Ok s) {t : Nat} (h : call body s (.client t) = some s') : Ok s' := by
  by_cases hm : s.mu = some (.client t)
  · have ha := hs.holder
    rw [hm] at ha
    obtain ⟨td, ⟨op, h1, h2⟩ | ⟨h1, _⟩ | ⟨h1, _⟩ | ⟨h1, h2, h3⟩ | ⟨td', h1, h2, h3⟩⟩ := ha
    · cases op with
      | start i =>
        simp only [call, h1] at h
        split at h
        · cases h; exact ok_ret hs hm rfl rfl hs.one (.inl rfl) h2
        · next hq =>
          simp only [Bool.or_eq_true, not_or, Bool.not_eq_true] at hq
          cases h
          rcases h2 with h2 | h2
          · exact ok_ret hs hm rfl rfl (by simp [St.ret, St.put, hs.one, h2.1]) (.inr ⟨by rw [h2.1]; simp, by simp⟩) (.inr ⟨.inl rfl, rfl⟩)
          · rw [hq.2] at h2; simp at h2
      | stop =>
        simp only [call, h1] at h
        split at h
        · next hq =>
          cases h
          refine ok_move hs (.inr hm) rfl hm hs.one (.inl rfl) ⟨td, .inr (.inl ⟨put_same _ _ _, hq, ?_⟩)⟩
          rcases h2 with h2 | h2
          · rw [hq] at h2; simp at h2
          · exact h2.1
        · cases h; exact ok_ret hs hm rfl rfl hs.one (.inl rfl) h2
      | flush =>
        simp only [call, h1] at h
        split at h
        · cases h; exact ok_ret hs hm rfl rfl hs.one (.inl rfl) h2
        · next hq =>
          cases h
          refine ok_move hs (.inr hm) rfl hm hs.one (.inl rfl) ⟨td, .inr (.inr (.inr (.inr ⟨_, put_same _ _ _, by simpa [St.put] using hq, ?_⟩)))⟩
          rcases h2 with h2 | h2
          · exact h2.1
          · rw [h2.2] at hq; simp at hq
    · simp [call, h1] at h
    · simp [call, h1] at h
    · simp only [call, h1] at h
      cases h
      exact ok_ret hs hm rfl rfl hs.one (.inl rfl) (.inl ⟨h3, rfl⟩)
    · cases td' with
      | nil =>
        simp only [call, h1] at h
        cases h
        exact ok_ret hs hm rfl rfl hs.one (.inl rfl) (.inl ⟨h3, h2⟩)
      | cons op td' => simp [call, h1, hm] at h
  · obtain ⟨td, h1⟩ := hs.others t hm
    cases td with
    | nil => simp [call, h1] at h
    | cons op td =>
      simp only [call, h1] at h
      split at h
      · next hn =>
        cases h
        have ha := hs.holder
        rw [hn] at ha
        exact ok_move hs (.inl hn) rfl rfl hs.one (.inl rfl) ⟨td, .inl ⟨op, put_same _ _ _, ha⟩⟩
      · cases h

theorem call_loop {body : Nat → List Op} {s s' : St} (hs : Ok s) (h : call body s .loop = some s') : Ok s' := by
  have hst : ∀ (fs : List Frame) t, (s.put .loop fs).stack (.client t) = s.stack (.client t) := fun fs t => put_other _ _ (by simp)
  by_cases hm : s.mu = some .loop
  · have ha := hs.holder
    rw [hm] at ha
    obtain ⟨h1, h2, td, pc, h3, rfl | ⟨op, rfl⟩⟩ := ha
    · simp [call, h3] at h
    · have hret : ∀ op f, Ok (s.ret .loop td [] op f) := fun op f =>
        ok_loop hs (fs := [⟨td, .idle⟩]) rfl hs.one (fun t e => by rw [hm] at e; cases e) (fun _ _ => ⟨td, rfl⟩) (fun e => absurd h1 e)
          (.inr ⟨.inr h1, h2⟩)
      cases op with
      | start i =>
        simp only [call, h3, h2, Bool.or_true, if_true] at h
        cases h; exact hret _ _
      | stop =>
        simp only [call, h3, h2, if_true] at h
        cases h
        refine ok_loop hs (fs := [⟨td, .stopSend⟩]) rfl hs.one (fun t e => by rw [hm] at e; cases e) (fun e => absurd hm e) (fun e => absurd h1 e) ?_
        show At _ s.mu
        rw [hm]
        exact ⟨h1, h2, td, _, put_same _ _ _, .inl rfl⟩
      | flush =>
        simp only [call, h3, h2, if_true] at h
        cases h; exact hret _ _
  · by_cases he : s.loop = .exporting
    · obtain ⟨td, h1⟩ := hs.ex hm he
      cases td with
      | nil =>
        simp only [call, h1, if_true] at h
        cases h
        refine ok_loop hs (fs := []) rfl hs.one (fun t e => e) (fun _ e => by cases e) (fun _ => rfl) ?_
        show At _ s.mu
        refine at_same (s := s) (.inr he) ?_ ?_ ?_ hm hs.holder
        · exact .inl rfl
        · rfl
        · exact hst []
      | cons op td =>
        simp only [call, h1] at h
        split at h
        · next hn =>
          cases h
          have ha := hs.holder
          rw [hn] at ha
          refine ok_loop hs (fs := [⟨td, .locked op⟩]) rfl hs.one (fun t e => by rw [hn] at e; cases e) (fun e => absurd rfl e) (fun e => absurd he e) ?_
          refine ⟨he, ?_, td, .locked op, by simp [St.put], .inr ⟨op, rfl⟩⟩
          rcases ha with ha | ha
          · rw [he] at ha; simp at ha
          · exact ha.2
        · cases h
    · simp [call, hs.nex he] at h

theorem ok_step {body : Nat → List Op} {s s' : St} (hs : Ok s) {a : Act} (h : step body s a = some s') : Ok s' := by
  cases a with
  | call t =>
    cases t with
    | client t => exact call_client hs h
    | loop => exact call_loop hs h
  | loop =>
    simp only [step] at h
    split at h
    · next hl =>
      split at h
      · cases h
        have hm : s.mu ≠ some .loop := fun e => by
          have := hs.holder
          rw [e] at this
          rw [this.1] at hl; cases hl
        refine ok_loop hs (fs := [⟨body s.exports, .idle⟩]) rfl hs.one (fun t e => e) (fun _ _ => ⟨_, rfl⟩) (fun e => absurd rfl e) ?_
        show At _ s.mu
        refine at_same (s := s) (.inl hl) ?_ ?_ ?_ hm hs.holder
        · exact .inr rfl
        · rfl
        · intro t; simp [St.put]
      · cases h
    · next hl =>
      cases h
      have ha := hs.holder
      refine ⟨hs.one, hs.others, fun _ e => (by cases e), fun _ => hs.nex (by rw [hl]; simp), ?_⟩
      show At _ s.mu
      match hmu : s.mu with
      | none => rw [hmu] at ha; rcases ha with ha | ha <;> rw [hl] at ha <;> simp at ha
      | some .loop => rw [hmu] at ha; have := ha.1; rw [hl] at this; cases this
      | some (.client t) =>
        rw [hmu] at ha
        obtain ⟨td, ⟨op, _, h2 | h2⟩ | ⟨_, _, h2⟩ | ⟨h1, h2, _⟩ | ⟨_, _, h2⟩ | ⟨_, _, _, h2⟩⟩ := ha
        · rw [hl] at h2; simp at h2
        · rw [hl] at h2; simp at h2
        · rw [hl] at h2; simp at h2
        · exact ⟨td, .inr (.inr (.inl ⟨h1, h2, .inr rfl⟩))⟩
        · rw [hl] at h2; simp at h2
        · rw [hl] at h2; simp at h2
    · cases h
  | sendQuit t =>
    simp only [step] at h
    split at h
    · next td r h1 hl =>
      cases h
      cases t with
      | loop => rw [hs.nex (by rw [hl]; simp)] at h1; cases h1
      | client t =>
        have hm : s.mu = some (.client t) := by
          refine Decidable.byContradiction fun hm => ?_
          obtain ⟨td', h2⟩ := hs.others t hm
          rw [h2] at h1; simp at h1
        have ha := hs.holder
        rw [hm] at ha
        obtain ⟨td', ⟨op, h2, _⟩ | ⟨h2, h3, _⟩ | ⟨h2, _⟩ | ⟨h2, _⟩ | ⟨_, h2, _⟩⟩ := ha <;> rw [h2] at h1 <;> simp at h1
        obtain ⟨rfl, rfl⟩ := h1
        exact ok_move hs (.inr hm) rfl hm hs.one (.inr ⟨by rw [hl]; simp, by simp⟩) ⟨_, .inr (.inr (.inl ⟨put_same _ _ _, h3, .inl rfl⟩))⟩
    · cases h
  | recvDone t =>
    simp only [step] at h
    split at h
    · next td r h1 hl =>
      cases h
      cases t with
      | loop => rw [hs.nex (by rw [hl]; simp)] at h1; cases h1
      | client t =>
        have hm : s.mu = some (.client t) := by
          refine Decidable.byContradiction fun hm => ?_
          obtain ⟨td', h2⟩ := hs.others t hm
          rw [h2] at h1; simp at h1
        have ha := hs.holder
        rw [hm] at ha
        obtain ⟨td', ⟨op, h2, _⟩ | ⟨h2, _⟩ | ⟨h2, h3, _⟩ | ⟨h2, _⟩ | ⟨_, h2, _⟩⟩ := ha <;> rw [h2] at h1 <;> simp at h1
        obtain ⟨rfl, rfl⟩ := h1
        exact ok_move hs (.inr hm) rfl hm hs.one (.inr ⟨by rw [hl]; simp, by simp⟩) ⟨_, .inr (.inr (.inr (.inl ⟨put_same _ _ _, h3, rfl⟩)))⟩
    · cases h
  | tick =>
    simp only [step] at h
    split at h
    · cases h; exact ⟨hs.one, hs.others, hs.ex, hs.nex, hs.holder⟩
    · cases h

theorem ok_run {body : Nat → List Op} : ∀ {acts : List Act} {s : St}, Ok s → Ok (run body s acts)
  | [], _, h => h
  | a :: as, s, h => by
    simp only [run]
    cases hst : step body s a with
    | none => exact ok_run h
    | some s' => exact ok_run (ok_step h hst)

/-! ## Misuse lasts -/

/-- The cases of misuse with where everybody else is. -/
inductive Doomed (body : Nat → List Op) (s : St) : Prop
  | flush (t : Nat) (op : Op) (td td' : List Op) (hm : s.mu = some (.client t)) (h : s.stack (.client t) = [⟨op :: td, .idle⟩, ⟨td', .flushing⟩])
      (hl : s.loop = .none)
  | before (t : Nat) (td : List Op) (hm : s.mu = some (.client t)) (h : s.stack (.client t) = [⟨td, .locked .flush⟩]) (hq : s.quit = false)
      (hb : body s.exports ≠ []) (hl : s.loop = .none)
  | stop (td : List Op) (pc : PC) (hm : s.mu = some .loop) (h : s.stack .loop = [⟨td, pc⟩]) (hp : pc = .locked .stop ∨ pc = .stopSend) (hq : s.quit = true)
      (hl : s.loop = .exporting)
  | whileStop (t : Nat) (td : List Op) (pc : PC) (hm : s.mu = some (.client t)) (h : s.stack (.client t) = [⟨td, pc⟩])
      (hp : pc = .locked .stop ∨ pc = .stopSend) (hq : s.quit = true) (hl : s.loop = .exporting) (op : Op) (td' : List Op)
      (hs : s.stack .loop = [⟨op :: td', .idle⟩])

theorem doomed_of {body : Nat → List Op} {s : St} (hs : Ok s) (h : Misuse body s) : Doomed body s := by
  have ha := hs.holder
  -- only the holder has a frame that is not idle
  have hc : ∀ t f r, s.stack (.client t) = f :: r → (f.pc ≠ .idle ∨ r ≠ []) → s.mu = some (.client t) := by
    intro t f r h1 h2
    refine Decidable.byContradiction fun hm => ?_
    obtain ⟨td, h3⟩ := hs.others t hm
    rw [h3] at h1
    cases h1
    simp at h2
  have hlp : ∀ f r, s.stack .loop = f :: r → r = [] ∧ s.loop = .exporting ∧ (f.pc ≠ .idle → s.mu = some .loop ∧ s.quit = true) := by
    intro f r h1
    have he : s.loop = .exporting := Decidable.byContradiction fun he => by rw [hs.nex he] at h1; cases h1
    by_cases hm : s.mu = some .loop
    · rw [hm] at ha
      obtain ⟨_, h2, td, pc, h3, _⟩ := ha
      rw [h3] at h1; cases h1
      exact ⟨rfl, he, fun _ => ⟨hm, h2⟩⟩
    · obtain ⟨td, h3⟩ := hs.ex hm he
      rw [h3] at h1; cases h1
      exact ⟨rfl, he, fun h => absurd rfl h⟩
  cases h with
  | inFlush t op td td' r h1 =>
    cases t with
    | loop => have := (hlp _ _ h1).1; cases this
    | client t =>
      have hm := hc t _ _ h1 (.inr (by simp))
      rw [hm] at ha
      obtain ⟨x, ⟨o, h2, _⟩ | ⟨h2, _⟩ | ⟨h2, _⟩ | ⟨h2, _⟩ | ⟨_, h2, _, h3⟩⟩ := ha <;> rw [h2] at h1 <;> cases h1
      exact .flush t op td _ hm h2 h3
  | beforeFlush t td r h1 hq hb =>
    cases t with
    | loop => have := ((hlp _ _ h1).2.2 (by simp)).2; rw [hq] at this; cases this
    | client t =>
      have hm := hc t _ _ h1 (.inl (by simp))
      rw [hm] at ha
      obtain ⟨x, ⟨o, h2, h3⟩ | ⟨h2, _⟩ | ⟨h2, _⟩ | ⟨h2, _⟩ | ⟨_, h2, _⟩⟩ := ha <;> rw [h2] at h1 <;> cases h1
      rcases h3 with h3 | h3
      · exact .before t _ hm h2 hq hb h3.1
      · rw [hq] at h3; simp at h3
  | stop td r h1 =>
    rcases h1 with h1 | h1
    · obtain ⟨rfl, h2, h3⟩ := hlp _ _ h1
      obtain ⟨h4, h5⟩ := h3 (by simp)
      exact .stop td _ h4 h1 (.inl rfl) h5 h2
    · obtain ⟨rfl, h2, h3⟩ := hlp _ _ h1
      obtain ⟨h4, h5⟩ := h3 (by simp)
      exact .stop td _ h4 h1 (.inr rfl) h5 h2
  | whileStop t td r h1 op td' h2 =>
    have h3 := (hlp _ _ h2).2.1
    rcases h1 with h1 | h1
    · have hm := hc t _ _ h1 (.inl (by simp))
      rw [hm] at ha
      obtain ⟨x, ⟨o, h4, h5⟩ | ⟨h4, _⟩ | ⟨h4, _⟩ | ⟨h4, _⟩ | ⟨_, h4, _⟩⟩ := ha <;> rw [h4] at h1 <;> cases h1
      rcases h5 with h5 | h5
      · rw [h3] at h5; simp at h5
      · exact .whileStop t _ _ hm h4 (.inl rfl) h5.2 h3 op td' h2
    · have hm := hc t _ _ h1 (.inl (by simp))
      rw [hm] at ha
      obtain ⟨x, ⟨o, h4, _⟩ | ⟨h4, h5, _⟩ | ⟨h4, _⟩ | ⟨h4, _⟩ | ⟨_, h4, _⟩⟩ := ha <;> rw [h4] at h1 <;> cases h1
      exact .whileStop t _ _ hm h4 (.inr rfl) h5 h3 op td' h2

theorem call_none {body : Nat → List Op} {s : St} (hs : Ok s) {u : Nat} (h : s.mu ≠ some (.client u)) (hn : s.mu ≠ none) :
    call body s (.client u) = none := by
  obtain ⟨td, h1⟩ := hs.others u h
  cases td with
  | nil => simp [call, h1]
  | cons op td => simp [call, h1, hn]

/-- Nothing that happens ends the misuse; at most, `Flush` calls the exporter. -/
theorem doomed_step {body : Nat → List Op} {s s' : St} (hs : Ok s) (h : Doomed body s) {a : Act} (hst : step body s a = some s') :
    Doomed body s' ∧ (s'.log = s.log ∨ s'.log = s.log ++ [.flushBegin]) := by
  -- the other goroutines wait
  have hoth : ∀ u, s.mu ≠ some (.client u) → call body s (.client u) = none := fun u hu => by
    refine call_none hs hu ?_
    cases h <;> simp [*]
  cases h with
  | flush t op td td' hm h1 hl =>
    cases a with
    | call u =>
      cases u with
      | loop => simp [step, call, hs.nex (by rw [hl]; simp)] at hst
      | client u =>
        by_cases hu : u = t
        · subst hu; simp [step, call, h1, hm] at hst
        · simp [step, hoth u (by rw [hm]; simpa using fun e => hu e.symm)] at hst
    | loop => simp [step, hl] at hst
    | sendQuit u => simp [step, hl] at hst
    | recvDone u => simp [step, hl] at hst
    | tick => simp [step, hl] at hst
  | before t td hm h1 hq hb hl =>
    cases a with
    | call u =>
      cases u with
      | loop => simp [step, call, hs.nex (by rw [hl]; simp)] at hst
      | client u =>
        by_cases hu : u = t
        · subst hu
          simp only [step, call, h1, hq] at hst
          cases hst
          cases hbe : body s.exports with
          | nil => exact absurd hbe hb
          | cons op l => exact ⟨.flush u op l td hm (by simp [St.put]) hl, .inr rfl⟩
        · simp [step, hoth u (by rw [hm]; simpa using fun e => hu e.symm)] at hst
    | loop => simp [step, hl] at hst
    | sendQuit u => simp [step, hl] at hst
    | recvDone u => simp [step, hl] at hst
    | tick => simp [step, hl] at hst
  | stop td pc hm h1 hp hq hl =>
    cases a with
    | call u =>
      cases u with
      | loop =>
        rcases hp with rfl | rfl
        · simp only [step, call, h1, hq, if_true] at hst
          cases hst
          exact ⟨.stop td _ hm (by simp [St.put]) (.inr rfl) hq hl, .inl rfl⟩
        · simp [step, call, h1] at hst
      | client u => simp [step, hoth u (by rw [hm]; simp)] at hst
    | loop => simp [step, hl] at hst
    | sendQuit u => simp [step, hl] at hst
    | recvDone u => simp [step, hl] at hst
    | tick =>
      simp only [step, hl, or_true, if_true] at hst
      cases hst
      exact ⟨.stop td pc hm h1 hp hq rfl, .inl rfl⟩
  | whileStop t td pc hm h1 hp hq hl op td' h2 =>
    cases a with
    | call u =>
      cases u with
      | loop => simp [step, call, h2, hm] at hst
      | client u =>
        by_cases hu : u = t
        · subst hu
          rcases hp with rfl | rfl
          · simp only [step, call, h1, hq, if_true] at hst
            cases hst
            exact ⟨.whileStop u td _ hm (by simp [St.put]) (.inr rfl) hq hl op td' (by simp [St.put, h2]), .inl rfl⟩
          · simp [step, call, h1] at hst
        · simp [step, hoth u (by rw [hm]; simpa using fun e => hu e.symm)] at hst
    | loop => simp [step, hl] at hst
    | sendQuit u => simp [step, hl] at hst
    | recvDone u => simp [step, hl] at hst
    | tick =>
      simp only [step, hl, or_true, if_true] at hst
      cases hst
      exact ⟨.whileStop t td pc hm h1 hp hq rfl op td' h2, .inl rfl⟩

theorem doomed_run {body : Nat → List Op} : ∀ {acts : List Act} {s : St}, Ok s → Doomed body s →
    Doomed body (run body s acts) ∧ ∃ l, (run body s acts).log = s.log ++ l ∧ ∀ e ∈ l, e = .flushBegin
  | [], s, _, h => ⟨h, [], by simp [run], by simp⟩
  | a :: as, s, hs, h => by
    simp only [run]
    cases hst : step body s a with
    | none => exact doomed_run hs h
    | some s' =>
      obtain ⟨h1, h2⟩ := doomed_step hs h hst
      obtain ⟨h3, l, h4, h5⟩ := doomed_run (acts := as) (ok_step hs hst) h1
      refine ⟨h3, ?_⟩
      rcases h2 with h2 | h2
      · exact ⟨l, by rw [← h2]; exact h4, h5⟩
      · refine ⟨.flushBegin :: l, ?_, ?_⟩
        · show (run body s' as).log = _
          rw [h4, h2]; simp
        · intro e he
          rcases List.mem_cons.mp he with rfl | he
          · rfl
          · exact h5 e he

/-! ## Without misuse the mutex can be unlocked -/

def Frees (body : Nat → List Op) (s : St) : Prop := ∃ acts, (run body s acts).mu = none

theorem frees_step {body : Nat → List Op} {s : St} (a : Act) (hf : Frees body ((step body s a).getD s)) : Frees body s := by
  obtain ⟨acts, h1⟩ := hf
  exact ⟨a :: acts, h1⟩

theorem frees_now {body : Nat → List Op} {s : St} (a : Act) (hm : ((step body s a).getD s).mu = none) : Frees body s :=
  frees_step a ⟨[], hm⟩

theorem frees_close {body : Nat → List Op} {s : St} {t : Tid} {td : List Op} {r : List Frame} (h : s.stack t = ⟨td, .stopClose⟩ :: r) : Frees body s :=
  frees_now (.call t) (by simp [step, call, h, St.ret])

theorem frees_done {body : Nat → List Op} {s : St} {t : Tid} {td : List Op} {r : List Frame} (h : s.stack t = ⟨td, .stopWait⟩ :: r)
    (hl : s.loop = .sendDone) : Frees body s := by
  refine frees_step (.recvDone t) (frees_close (t := t) (td := td) (r := r) ?_)
  simp [step, h, hl, St.put]

theorem frees_wait {body : Nat → List Op} {s : St} {t : Tid} {td : List Op} {r : List Frame} (h : s.stack t = ⟨td, .stopWait⟩ :: r)
    (hl : s.loop = .quitting) : Frees body s := by
  refine frees_step .loop (frees_done (t := t) (td := td) (r := r) ?_ ?_) <;> simp [step, h, hl]

theorem frees_send {body : Nat → List Op} {s : St} {t : Tid} {td : List Op} {r : List Frame} (h : s.stack t = ⟨td, .stopSend⟩ :: r)
    (hl : s.loop = .sel) : Frees body s := by
  refine frees_step (.sendQuit t) (frees_wait (t := t) (td := td) (r := r) ?_ ?_) <;> simp [step, h, hl, St.put]

theorem frees_stop {body : Nat → List Op} {s : St} {t : Nat} {td : List Op} {r : List Frame} (h : s.stack (.client t) = ⟨td, .stopSend⟩ :: r)
    (hl : s.loop = .sel ∨ (s.loop = .exporting ∧ s.stack .loop = [⟨[], .idle⟩])) : Frees body s := by
  rcases hl with hl | ⟨_, h2⟩
  · exact frees_send h hl
  · refine frees_step (.call .loop) (frees_send (t := .client t) (td := td) (r := r) ?_ ?_) <;> simp [step, call, h2, h, St.put]

theorem frees {body : Nat → List Op} {s : St} (hs : Ok s) (h : ¬ Misuse body s) : Frees body s := by
  have ha := hs.holder
  match hm : s.mu with
  | none => exact ⟨[], hm⟩
  | some .loop =>
    rw [hm] at ha
    obtain ⟨h1, h2, td, pc, h3, rfl | ⟨op, rfl⟩⟩ := ha
    · exact absurd (.stop td [] (.inr h3)) h
    · cases op with
      | start i => exact frees_now (.call .loop) (by simp [step, call, St.ret, h3, h2, Bool.or_true])
      | stop => exact absurd (.stop td [] (.inl h3)) h
      | flush => exact frees_now (.call .loop) (by simp [step, call, St.ret, h3, h2])
  | some (.client t) =>
    rw [hm] at ha
    have hloop : (∃ td pc r, s.stack (.client t) = ⟨td, pc⟩ :: r ∧ (pc = .locked .stop ∨ pc = .stopSend)) → (s.loop = .sel ∨ s.loop = .exporting) →
        s.loop = .sel ∨ (s.loop = .exporting ∧ s.stack .loop = [⟨[], .idle⟩]) := by
      rintro ⟨td, pc, r, h1, hp⟩ (h2 | h2)
      · exact .inl h2
      · obtain ⟨td', h3⟩ := hs.ex (by rw [hm]; simp) h2
        cases td' with
        | nil => exact .inr ⟨h2, h3⟩
        | cons op td' =>
          refine absurd (.whileStop t td r ?_ op td' h3) h
          rcases hp with rfl | rfl
          · exact .inl h1
          · exact .inr h1
    obtain ⟨td, ⟨op, h1, h2⟩ | ⟨h1, h2, h3⟩ | ⟨h1, h2, h3⟩ | ⟨h1, h2, h3⟩ | ⟨td', h1, h2, h3⟩⟩ := ha
    · cases op with
      | start i =>
        cases hq : (tooLow i || s.quit) with
        | true => exact frees_now (.call (.client t)) (by simp [step, call, St.ret, h1, hq])
        | false => exact frees_now (.call (.client t)) (by simp [step, call, St.ret, h1, hq])
      | stop =>
        cases hq : s.quit with
        | false => exact frees_now (.call (.client t)) (by simp [step, call, St.ret, h1, hq])
        | true =>
          rcases h2 with h2 | h2
          · rw [hq] at h2; simp at h2
          refine frees_step (.call (.client t)) (frees_stop (t := t) (td := td) (r := []) ?_ ?_)
          · simp [step, call, h1, hq, St.put]
          · have := hloop ⟨td, _, _, h1, .inl rfl⟩ h2.1
            simpa [step, call, h1, hq, St.put] using this
      | flush =>
        cases hq : s.quit with
        | true => exact frees_now (.call (.client t)) (by simp [step, call, St.ret, h1, hq])
        | false =>
          cases hb : body s.exports with
          | cons op l => exact absurd (.beforeFlush (.client t) td [] h1 hq (by rw [hb]; simp)) h
          | nil =>
            refine frees_step (.call (.client t)) (frees_now (.call (.client t)) ?_)
            simp [step, call, h1, hq, hb, St.put, St.ret]
    · exact frees_stop h1 (hloop ⟨td, _, _, h1, .inr rfl⟩ h3)
    · rcases h3 with h3 | h3
      · exact frees_wait h1 h3
      · exact frees_done h1 h3
    · exact frees_close h1
    · cases td' with
      | nil => exact frees_now (.call (.client t)) (by simp [step, call, St.ret, h1])
      | cons op l => exact absurd (.inFlush (.client t) op l td [] h1) h

/-! ## Theorems -/

/-- C112. For all programs, exporters and schedules: the reader is stuck exactly if its exporter is being misused. -/
theorem stuck_iff (body progs : Nat → List Op) (acts : List Act) :
    Stuck body (run body (new progs) acts) ↔ Misuse body (run body (new progs) acts) := by
  have hs : Ok (run body (new progs) acts) := ok_run (ok_new progs)
  constructor
  · intro h
    refine Classical.byContradiction fun hn => ?_
    obtain ⟨more, h1⟩ := frees hs hn
    exact h more h1
  · intro h more he
    have := (doomed_run (acts := more) hs (doomed_of hs h)).1
    cases this <;> simp_all

/-- C112. Once the reader is stuck no call returns and no export ends; at most the `Flush` that is going on calls the exporter. -/
theorem stuck_silent {body progs : Nat → List Op} {acts : List Act} (h : Stuck body (run body (new progs) acts)) (more : List Act) :
    ∃ l, (run body (run body (new progs) acts) more).log = (run body (new progs) acts).log ++ l ∧ ∀ e ∈ l, e = .flushBegin :=
  have hs : Ok (run body (new progs) acts) := ok_run (ok_new progs)
  (doomed_run hs (doomed_of hs ((stuck_iff body progs acts).mp h))).2

/-! ### Who calls what -/

/-- A frame makes only calls of `S`. -/
structure Good (S : Op → Prop) (f : Frame) : Prop where
  todo : ∀ op ∈ f.todo, S op
  locked : ∀ op, f.pc = .locked op → S op
  stop : f.pc = .stopSend → S .stop
  flush : f.pc = .flushing → S .flush

/-- The calls of exporters are of `B`, those of the program at the bottom of `S`. -/
def Stk (B S : Op → Prop) : List Frame → Prop
  | [] => True
  | [f] => Good S f
  | f :: g :: r => Good B f ∧ Stk B S (g :: r)

theorem Stk.top {B S : Op → Prop} {f f' : Frame} {r : List Frame} (h : Stk B S (f :: r)) (hf : ∀ T, Good T f → Good T f') : Stk B S (f' :: r) := by
  cases r with
  | nil => exact hf _ h
  | cons g r => exact ⟨hf _ h.1, h.2⟩

/-- The program and the exporter make only the calls they are written to make. -/
def Only (B C : Op → Prop) (s : St) : Prop := (∀ t, Stk B C (s.stack (.client t))) ∧ Stk B B (s.stack .loop)

theorem Only.put {B C : Op → Prop} {s : St} (h : Only B C s) {t : Tid} {fs : List Frame}
    (hf : ∀ S, Stk B S (s.stack t) → Stk B S fs) {s' : St} (hst : s'.stack = (s.put t fs).stack) : Only B C s' := by
  constructor
  · intro u
    rw [hst]
    by_cases hu : Tid.client u = t
    · subst hu; rw [put_same]; exact hf _ (h.1 u)
    · rw [put_other _ _ hu]; exact h.1 u
  · rw [hst]
    by_cases hu : Tid.loop = t
    · subst hu; rw [put_same]; exact hf _ h.2
    · rw [put_other _ _ hu]; exact h.2

theorem good_idle {S : Op → Prop} {td : List Op} (h : ∀ op ∈ td, S op) : Good S ⟨td, .idle⟩ :=
  ⟨h, fun _ e => (by cases e), fun e => (by cases e), fun e => (by cases e)⟩

theorem only_step {B C : Op → Prop} {body : Nat → List Op} (hb : ∀ n, ∀ op ∈ body n, B op) {s s' : St} (h : Only B C s) {a : Act}
    (hst : step body s a = some s') : Only B C s' := by
  cases a with
  | call t =>
    simp only [step, call] at hst
    split at hst
    · cases hst
    · next td r hs =>
      cases hst
      refine h.put (fun S hS => ?_) rfl
      rw [hs] at hS
      exact hS.2.top fun T hT => good_idle hT.todo
    · next hs =>
      split at hst
      · cases hst; exact h.put (fs := []) (fun S _ => trivial) rfl
      · cases hst
    · next _ op td r hs =>
      split at hst
      · cases hst
        refine h.put (fun S hS => ?_) rfl
        rw [hs] at hS
        exact hS.top fun T hT => ⟨fun o ho => hT.todo o (by simp [ho]), fun o e => (by cases e; exact hT.todo op (by simp)), fun e => (by cases e), fun e => (by cases e)⟩
      · cases hst
    · next td i r hs =>
      have hr : ∀ S, Stk B S (s.stack t) → Stk B S (⟨td, .idle⟩ :: r) := fun S hS => by
        rw [hs] at hS
        exact hS.top fun T hT => good_idle hT.todo
      split at hst <;> cases hst <;> exact h.put hr rfl
    · next td r hs =>
      split at hst <;> cases hst
      · refine h.put (fun S hS => ?_) rfl
        rw [hs] at hS
        exact hS.top fun T hT => ⟨hT.todo, fun o e => (by cases e), fun _ => hT.locked _ rfl, fun e => (by cases e)⟩
      · refine h.put (fun S hS => ?_) rfl
        rw [hs] at hS
        exact hS.top fun T hT => good_idle hT.todo
    · next td r hs =>
      split at hst <;> cases hst
      · refine h.put (fun S hS => ?_) rfl
        rw [hs] at hS
        exact hS.top fun T hT => good_idle hT.todo
      · refine h.put (fun S hS => ?_) rfl
        rw [hs] at hS
        refine ⟨good_idle (hb _), hS.top fun T hT => ⟨hT.todo, fun o e => (by cases e), fun e => (by cases e), fun _ => hT.locked _ rfl⟩⟩
    · next td r hs =>
      cases hst
      refine h.put (fun S hS => ?_) rfl
      rw [hs] at hS
      exact hS.top fun T hT => good_idle hT.todo
    · cases hst
  | loop =>
    simp only [step] at hst
    split at hst
    · split at hst
      · cases hst
        constructor
        · intro u; exact (h.1 u)
        · show Stk B B ((s.put .loop [⟨body s.exports, .idle⟩]).stack .loop)
          rw [put_same]; exact good_idle (hb _)
      · cases hst
    · cases hst; exact h
    · cases hst
  | sendQuit t =>
    simp only [step] at hst
    split at hst
    · next td r hs _ =>
      cases hst
      refine h.put (fun S hS => ?_) rfl
      rw [hs] at hS
      exact hS.top fun T hT => ⟨hT.todo, fun o e => (by cases e), fun e => (by cases e), fun e => (by cases e)⟩
    · cases hst
  | recvDone t =>
    simp only [step] at hst
    split at hst
    · next td r hs _ =>
      cases hst
      refine h.put (fun S hS => ?_) rfl
      rw [hs] at hS
      exact hS.top fun T hT => ⟨hT.todo, fun o e => (by cases e), fun e => (by cases e), fun e => (by cases e)⟩
    · cases hst
  | tick =>
    simp only [step] at hst
    split at hst
    · cases hst; exact h
    · cases hst

theorem only_run {B C : Op → Prop} {body : Nat → List Op} (hb : ∀ n, ∀ op ∈ body n, B op) : ∀ {acts : List Act} {s : St}, Only B C s →
    Only B C (run body s acts)
  | [], _, h => h
  | a :: as, s, h => by
    simp only [run]
    cases hst : step body s a with
    | none => exact only_run hb h
    | some s' => exact only_run hb (only_step hb h hst)

/-- C112, what can be relied on. An exporter may call `Start` and `Flush` of its reader when it is called for a tick, if nobody calls `Flush` or
`Stop`; if it makes no calls everything is allowed. Then the reader is never stuck: the full statement, that an exporter may call all of
the reader's methods, is false (`flush_in_flush`, `stop_in_tick`, `flush_while_stop`). -/
theorem not_stuck_partial {body progs : Nat → List Op} (hb : ∀ n, .stop ∉ body n)
    (hp : (∀ n, body n = []) ∨ ∀ t, .flush ∉ progs t ∧ .stop ∉ progs t) (acts : List Act) : ¬ Stuck body (run body (new progs) acts) := by
  intro h
  have hs : Ok (run body (new progs) acts) := ok_run (ok_new progs)
  have ho : Only (fun op => ∃ n, op ∈ body n) (fun op => ∃ t, op ∈ progs t) (run body (new progs) acts) := by
    refine only_run (fun n op h => ⟨n, h⟩) ⟨fun t => ?_, trivial⟩
    exact good_idle fun op h => ⟨t, h⟩
  have hd := doomed_of hs ((stuck_iff body progs acts).mp h)
  have key : (∃ op n, op ∈ body n) → ((∃ t, Op.flush ∈ progs t) ∨ ∃ t, Op.stop ∈ progs t) → False := by
    rintro ⟨op, n, h1⟩ h2
    rcases hp with hp | hp
    · rw [hp n] at h1; cases h1
    · rcases h2 with ⟨t, h2⟩ | ⟨t, h2⟩
      · exact (hp t).1 h2
      · exact (hp t).2 h2
  cases hd with
  | flush t op td td' _ h1 _ =>
    have := ho.1 t
    rw [h1] at this
    obtain ⟨n, hn⟩ := this.1.todo op (by simp)
    exact key ⟨op, n, hn⟩ (.inl (this.2.flush rfl))
  | before t td _ h1 _ hb' _ =>
    have := ho.1 t
    rw [h1] at this
    obtain ⟨op, hop⟩ := List.exists_mem_of_ne_nil _ hb'
    exact key ⟨op, _, hop⟩ (.inl (this.locked _ rfl))
  | stop td pc _ h1 hpc _ _ =>
    have := ho.2
    rw [h1] at this
    rcases hpc with rfl | rfl
    · obtain ⟨n, hn⟩ := this.locked _ rfl; exact hb n hn
    · obtain ⟨n, hn⟩ := this.stop rfl; exact hb n hn
  | whileStop t td pc _ h1 hpc _ _ op td' h2 =>
    have h3 := ho.1 t
    rw [h1] at h3
    have h4 := ho.2
    rw [h2] at h4
    obtain ⟨n, hn⟩ := h4.todo op (by simp)
    refine key ⟨op, n, hn⟩ (.inr ?_)
    rcases hpc with rfl | rfl
    · exact h3.locked _ rfl
    · exact h3.stop rfl

/-- What the calls of an exporter that is called for a tick come to. -/
def TickCall : Ev → Prop
  | .returned .loop op failed => op ≠ .stop ∧ ∀ i, op = .start i → failed = true
  | _ => True

theorem tick_step {body : Nat → List Op} {s s' : St} (hs : Ok s) {a : Act} (hst : step body s a = some s') (h : ∀ e ∈ s.log, TickCall e) :
    ∀ e ∈ s'.log, TickCall e := by
  have add : ∀ l : List Ev, (∀ e ∈ l, TickCall e) → ∀ e ∈ s.log ++ l, TickCall e := fun l hl e he => by
    rcases List.mem_append.mp he with he | he
    · exact h e he
    · exact hl e he
  have hl : ∀ f r, s.stack .loop = f :: r → f.pc ≠ .idle → s.quit = true ∧ r = [] ∧ (f.pc = .stopSend ∨ ∃ op, f.pc = .locked op) := by
    intro f r h1 h2
    have he : s.loop = .exporting := Decidable.byContradiction fun he => by rw [hs.nex he] at h1; cases h1
    by_cases hm : s.mu = some .loop
    · have ha := hs.holder
      rw [hm] at ha
      obtain ⟨_, h3, td, pc, h4, h5⟩ := ha
      rw [h4] at h1; cases h1
      exact ⟨h3, rfl, h5⟩
    · obtain ⟨td, h3⟩ := hs.ex hm he
      rw [h3] at h1; cases h1
      exact absurd rfl h2
  have single : ∀ t op f, (t = .loop → op ≠ .stop ∧ ∀ i, op = .start i → f = true) → ∀ e ∈ [Ev.returned t op f], TickCall e := by
    intro t op f ht e he
    simp only [List.mem_singleton] at he
    subst he
    cases t with
    | client t => trivial
    | loop => exact ht rfl
  cases a with
  | call t =>
    simp only [step, call] at hst
    split at hst
    · cases hst
    · next td r hs' =>
      cases hst
      refine add _ fun e he => ?_
      simp only [List.mem_cons, List.not_mem_nil, or_false] at he
      rcases he with rfl | rfl
      · trivial
      · cases t with
        | client t => trivial
        | loop => exact ⟨by simp, fun i e => (by cases e)⟩
    · split at hst
      · cases hst; exact add _ fun e he => by simp only [List.mem_singleton] at he; subst he; trivial
      · cases hst
    · split at hst
      · cases hst; exact h
      · cases hst
    · next td i r hs' =>
      split at hst
      · cases hst; exact add _ (single _ _ _ fun _ => ⟨by simp, fun _ _ => rfl⟩)
      · next hq =>
        cases hst
        refine add _ (single _ _ _ fun ht => ?_)
        subst ht
        have := (hl _ _ hs' (by simp)).1
        simp [this] at hq
    · next td r hs' =>
      split at hst
      · cases hst; exact h
      · next hq =>
        cases hst
        refine add _ (single _ _ _ fun ht => ?_)
        subst ht
        exact absurd (hl _ _ hs' (by simp)).1 hq
    · split at hst
      · cases hst; exact add _ (single _ _ _ fun ht => ⟨by simp, fun i e => (by cases e)⟩)
      · cases hst; exact add _ fun e he => by simp only [List.mem_singleton] at he; subst he; trivial
    · next td r hs' =>
      cases hst
      refine add _ (single _ _ _ fun ht => ?_)
      subst ht
      rcases (hl _ _ hs' (by simp)).2.2 with e | ⟨_, e⟩ <;> cases e
    · cases hst
  | loop =>
    simp only [step] at hst
    split at hst
    · split at hst
      · cases hst; exact add _ fun e he => by simp only [List.mem_singleton] at he; subst he; trivial
      · cases hst
    · cases hst; exact h
    · cases hst
  | sendQuit t =>
    simp only [step] at hst
    split at hst
    · cases hst; exact h
    · cases hst
  | recvDone t =>
    simp only [step] at hst
    split at hst
    · cases hst; exact h
    · cases hst
  | tick =>
    simp only [step] at hst
    split at hst
    · cases hst; exact h
    · cases hst

theorem tick_run {body : Nat → List Op} : ∀ {acts : List Act} {s : St}, Ok s → (∀ e ∈ s.log, TickCall e) → ∀ e ∈ (run body s acts).log, TickCall e
  | [], _, _, h => h
  | a :: as, s, hs, h => by
    simp only [run]
    cases hst : step body s a with
    | none => exact tick_run hs h
    | some s' => exact tick_run (ok_step hs hst) (tick_step hs hst h)

/-- C112. A call that an exporter makes when it is called for a tick, if it returns, is not `Stop`, and if it is `Start` it fails. -/
theorem tick_calls (body progs : Nat → List Op) (acts : List Act) {op : Op} {failed : Bool}
    (h : .returned .loop op failed ∈ (run body (new progs) acts).log) : op ≠ .stop ∧ ∀ i, op = .start i → failed = true :=
  tick_run (ok_new progs) (fun _ h => by cases h) _ h

/-! ## Examples -/

def one (ops : List Op) : Nat → List Op
  | 0 => ops
  | _ => []

/-- Called by `Flush`, the exporter calls `Flush`: nobody can use the reader any more. -/
theorem flush_in_flush : Stuck (fun _ => [.flush]) (run (fun _ => [.flush]) (new (one [.flush])) [.call (.client 0), .call (.client 0)]) :=
  (stuck_iff _ _ _).mpr (.inFlush (.client 0) .flush [] [] [] rfl)

/-- Called for a tick, the exporter calls `Stop`. -/
theorem stop_in_tick : Stuck (fun _ => [.stop]) (run (fun _ => [.stop]) (new (one [.start 0]))
    [.call (.client 0), .call (.client 0), .tick, .loop, .call .loop]) :=
  (stuck_iff _ _ _).mpr (.stop [] [] (.inl rfl))

/-- Called for a tick, the exporter calls `Flush`, which would do nothing; but another goroutine has called `Stop`, which waits for the exporter
with the mutex locked. -/
theorem flush_while_stop : Stuck (fun _ => [.flush]) (run (fun _ => [.flush]) (new (one [.start 0, .stop]))
    [.call (.client 0), .call (.client 0), .tick, .loop, .call (.client 0)]) :=
  (stuck_iff _ _ _).mpr (.whileStop 0 [] [] (.inl rfl) .flush [] rfl)

/-- Without the other goroutine it does nothing, and the exports go on. -/
example : (run (fun _ => [.flush, .start 0]) (new (one [.start 0])) [.call (.client 0), .call (.client 0), .tick, .loop, .call .loop, .call .loop,
    .call .loop, .call .loop, .call .loop, .tick, .loop]).log =
    [.returned (.client 0) (.start 0) false, .exportBegin, .returned .loop .flush false, .returned .loop (.start 0) true, .exportEnd, .exportBegin] := by
  decide +kernel

/-- Such a program meets the hypotheses of `not_stuck_partial`. -/
example : (∀ n : Nat, Op.stop ∉ (fun _ : Nat => [Op.flush, .start 0]) n) ∧ ∀ t, Op.flush ∉ one [.start 0] t ∧ Op.stop ∉ one [.start 0] t := by
  refine ⟨by simp, fun t => ?_⟩
  cases t <;> simp [one]

/-- An exporter that makes no calls, with `Stop`, `Flush` and `Start` again. -/
example : (run (fun _ => []) (new (one [.start 0, .stop, .flush, .start 0])) ([.call (.client 0), .call (.client 0), .call (.client 0), .call (.client 0),
    .sendQuit (.client 0), .loop, .recvDone (.client 0)] ++ List.replicate 6 (.call (.client 0)))).log =
    [.returned (.client 0) (.start 0) false, .returned (.client 0) .stop false, .flushBegin, .flushEnd, .returned (.client 0) .flush false,
      .returned (.client 0) (.start 0) false] := by
  decide +kernel

end Verif.Props.ReaderCalls
