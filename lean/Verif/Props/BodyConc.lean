import Verif.Http.BodyConc

/-!
# C117: response bodies used by several goroutines

The specification is in terms of what can be seen: the bytes that Reads took (`gots`), the export of the span, the recorded statistics, and the
returns of `Read` with `io.EOF` and of `Close`, in the order in which they happen in any schedule of any number of goroutines.
-/

namespace Verif.Http.BodyConc
open Verif

/-! ## Specification -/

/-- The bytes taken from the body, one number for each Read, in order. -/
def gots (log : List Ev) : List Nat := log.filterMap fun
  | .got _ n _ => some n
  | _ => none

/-- The statistics are recorded. -/
def isStats : Ev → Bool
  | .stats _ _ => true
  | _ => false

/-- The program is told that the body is over: `Read` returns `io.EOF`, or `Close` returns. -/
def isOver : Ev → Bool
  | .eof _ => true
  | .closed _ => true
  | _ => false

/-- Only goroutine `r` reads. -/
def OneReader (r : Nat) (l : List Act) : Prop := ∀ g n e, Act.read g n e ∈ l → g = r

/-! ## Invariant -/

/-- The goroutine runs the function of the span's `sync.Once`. -/
def inSpan : Ph → Bool
  | .rEnding _ => true
  | .cEnding => true
  | _ => false

/-- The goroutine runs the function of the tracker's `sync.Once`. -/
def inStats : Ph → Bool
  | .rRec => true
  | .cRec => true
  | _ => false

/-- The goroutine has returned from `End`. -/
def pastSpan : Ph → Bool
  | .rAdd _ e => e
  | .rStore _ e _ => e
  | .rStats => true
  | .rRec => true
  | .rRet => true
  | .cClose => true
  | _ => false

/-- The goroutine has returned from `end`. -/
def pastStats : Ph → Bool
  | .rRet => true
  | .cEnd => true
  | .cEnding => true
  | .cClose => true
  | _ => false

/-- The bytes that the goroutine has taken and not yet added. -/
def pend : Ph → Nat
  | .rEnd n => n
  | .rEnding n => n
  | .rAdd n _ => n
  | .rStore n _ _ => n
  | _ => 0

/-- What holds of one goroutine. -/
def Loc (span stats : Once) (g : Nat) (p : Ph) : Prop :=
  (inSpan p = true ↔ span = .busy g) ∧ (inStats p = true ↔ stats = .busy g) ∧ (pastSpan p = true → span = .done) ∧
    (pastStats p = true → stats = .done)

/-- What holds of the `sync.Once`s. -/
structure Inv (st : St) : Prop where
  loc : ∀ (g : Nat) p, st.ths[g]? = some p → Loc st.span st.stats g p
  span : ∀ g, st.span = .busy g → g < st.ths.length
  stats : ∀ g, st.stats = .busy g → g < st.ths.length
  finish : st.log.count .finish = (decide (st.span = .done)).toNat
  recorded : st.log.countP isStats = (decide (st.stats = .done)).toNat

theorem all_set {ths : List Ph} {g : Nat} {p0 p : Ph} (h : ths[g]? = some p0) {Q : Nat → Ph → Prop} (hg : Q g p)
    (ho : ∀ (g' : Nat) p', g' ≠ g → ths[g']? = some p' → Q g' p') : ∀ (g' : Nat) p', (ths.set g p)[g']? = some p' → Q g' p' := by
  intro g' p' h'
  by_cases hn : g' = g
  · subst hn
    have hl : g' < ths.length := by
      rcases Nat.lt_or_ge g' ths.length with h1 | h1
      · exact h1
      · rw [List.getElem?_eq_none h1] at h; cases h
    rw [List.getElem?_set_self hl] at h'
    cases h'
    exact hg
  · rw [List.getElem?_set_ne (Ne.symm hn)] at h'
    exact ho g' p' hn h'

theorem lt_of {ths : List Ph} {g : Nat} {p : Ph} (h : ths[g]? = some p) : g < ths.length := by
  rcases Nat.lt_or_ge g ths.length with h1 | h1
  · exact h1
  · rw [List.getElem?_eq_none h1] at h; cases h

theorem inv_init (k : Nat) : Inv (St.init k) := by
  refine ⟨?_, (by intro g h; cases h), (by intro g h; cases h), rfl, rfl⟩
  intro g p h
  have hp : p = .idle := by
    have := List.mem_of_getElem? h
    exact (List.mem_replicate.mp this).2
  subst hp
  simp [Loc, St.init, inSpan, inStats, pastSpan, pastStats]

theorem inv_go (st : St) (h : Inv st) (g : Nat) (p : Ph) (hp : st.ths[g]? = some p) : Inv (go st g p) := by
  have hl := lt_of hp
  have hg := h.loc g p hp
  have hf := h.finish
  have hr := h.recorded
  cases p with
  | idle => exact h
  | rEnd n =>
    cases hs : st.span with
    | busy b => simp only [go, hs]; exact h
    | new =>
      simp only [go, hs, St.at]
      refine ⟨all_set hp ?_ ?_, ?_, ?_, ?_, hr⟩
      · simp_all [Loc, inSpan, inStats, pastSpan, pastStats]
      · intro g' p' hn hp'
        have := h.loc g' p' hp'
        cases p' <;> simp_all [Loc, inSpan, inStats, pastSpan, pastStats] <;> omega
      · intro b hb; cases hb; simpa using hl
      · intro b hb; simpa using h.stats b hb
      · simpa [hs] using hf
    | done =>
      rw [show go st g (.rEnd n) = st.at g (.rAdd n true) by simp only [go, hs]]
      simp only [St.at]
      refine ⟨all_set hp ?_ ?_, ?_, ?_, ?_, hr⟩
      · simp_all [Loc, inSpan, inStats, pastSpan, pastStats]
      · intro g' p' hn hp'; exact h.loc g' p' hp'
      · intro b hb; simpa using h.span b hb
      · intro b hb; simpa using h.stats b hb
      · exact hf
  | rEnding n =>
    have hs : st.span = .busy g := (hg.1).mp rfl
    simp only [go, St.at, St.say]
    refine ⟨all_set hp ?_ ?_, ?_, ?_, ?_, ?_⟩
    · simp_all [Loc, inSpan, inStats, pastSpan, pastStats]
    · intro g' p' hn hp'
      have := h.loc g' p' hp'
      cases p' <;> simp_all [Loc, inSpan, inStats, pastSpan, pastStats] <;> omega
    · intro b hb; cases hb
    · intro b hb; simpa using h.stats b hb
    · simp [hf, hs]
    · simpa [isStats, List.countP_append] using hr
  | rAdd n e =>
    simp only [go, St.at]
    refine ⟨all_set hp ?_ ?_, ?_, ?_, hf, hr⟩
    · simp_all [Loc, inSpan, inStats, pastSpan, pastStats]
    · intro g' p' hn hp'; exact h.loc g' p' hp'
    · intro b hb; simpa using h.span b hb
    · intro b hb; simpa using h.stats b hb
  | rStore n e v =>
    simp only [go, St.at]
    refine ⟨all_set hp ?_ ?_, ?_, ?_, hf, hr⟩
    · cases e <;> simp_all [Loc, inSpan, inStats, pastSpan, pastStats]
    · intro g' p' hn hp'; exact h.loc g' p' hp'
    · intro b hb; simpa using h.span b hb
    · intro b hb; simpa using h.stats b hb
  | rStats =>
    cases hs : st.stats with
    | busy b => simp only [go, hs]; exact h
    | new =>
      simp only [go, hs, St.at]
      refine ⟨all_set hp ?_ ?_, ?_, ?_, hf, ?_⟩
      · simp_all [Loc, inSpan, inStats, pastSpan, pastStats]
      · intro g' p' hn hp'
        have := h.loc g' p' hp'
        cases p' <;> simp_all [Loc, inSpan, inStats, pastSpan, pastStats] <;> omega
      · intro b hb; simpa using h.span b hb
      · intro b hb; cases hb; simpa using hl
      · simpa [hs] using hr
    | done =>
      rw [show go st g (.rStats) = st.at g (.rRet) by simp only [go, hs]]
      simp only [St.at]
      refine ⟨all_set hp ?_ ?_, ?_, ?_, hf, ?_⟩
      · simp_all [Loc, inSpan, inStats, pastSpan, pastStats]
      · intro g' p' hn hp'; exact h.loc g' p' hp'
      · intro b hb; simpa using h.span b hb
      · intro b hb; simpa using h.stats b hb
      · exact hr
  | rRec =>
    have hs : st.stats = .busy g := (hg.2.1).mp rfl
    simp only [go, St.at, St.say]
    refine ⟨all_set hp ?_ ?_, ?_, ?_, ?_, ?_⟩
    · simp_all [Loc, inSpan, inStats, pastSpan, pastStats]
    · intro g' p' hn hp'
      have := h.loc g' p' hp'
      cases p' <;> simp_all [Loc, inSpan, inStats, pastSpan, pastStats] <;> omega
    · intro b hb; simpa using h.span b hb
    · intro b hb; cases hb
    · simpa using hf
    · rw [List.countP_append, hr, hs]; rfl
  | rRet =>
    simp only [go, St.at, St.say]
    refine ⟨all_set hp ?_ ?_, ?_, ?_, ?_, ?_⟩
    · simp_all [Loc, inSpan, inStats, pastSpan, pastStats]
    · intro g' p' hn hp'; exact h.loc g' p' hp'
    · intro b hb; simpa using h.span b hb
    · intro b hb; simpa using h.stats b hb
    · simpa using hf
    · simpa [isStats, List.countP_append] using hr
  | cStats =>
    cases hs : st.stats with
    | busy b => simp only [go, hs]; exact h
    | new =>
      simp only [go, hs, St.at]
      refine ⟨all_set hp ?_ ?_, ?_, ?_, hf, ?_⟩
      · simp_all [Loc, inSpan, inStats, pastSpan, pastStats]
      · intro g' p' hn hp'
        have := h.loc g' p' hp'
        cases p' <;> simp_all [Loc, inSpan, inStats, pastSpan, pastStats] <;> omega
      · intro b hb; simpa using h.span b hb
      · intro b hb; cases hb; simpa using hl
      · simpa [hs] using hr
    | done =>
      rw [show go st g (.cStats) = st.at g (.cEnd) by simp only [go, hs]]
      simp only [St.at]
      refine ⟨all_set hp ?_ ?_, ?_, ?_, hf, ?_⟩
      · simp_all [Loc, inSpan, inStats, pastSpan, pastStats]
      · intro g' p' hn hp'; exact h.loc g' p' hp'
      · intro b hb; simpa using h.span b hb
      · intro b hb; simpa using h.stats b hb
      · exact hr
  | cRec =>
    have hs : st.stats = .busy g := (hg.2.1).mp rfl
    simp only [go, St.at, St.say]
    refine ⟨all_set hp ?_ ?_, ?_, ?_, ?_, ?_⟩
    · simp_all [Loc, inSpan, inStats, pastSpan, pastStats]
    · intro g' p' hn hp'
      have := h.loc g' p' hp'
      cases p' <;> simp_all [Loc, inSpan, inStats, pastSpan, pastStats] <;> omega
    · intro b hb; simpa using h.span b hb
    · intro b hb; cases hb
    · simpa using hf
    · rw [List.countP_append, hr, hs]; rfl
  | cEnd =>
    cases hs : st.span with
    | busy b => simp only [go, hs]; exact h
    | new =>
      simp only [go, hs, St.at]
      refine ⟨all_set hp ?_ ?_, ?_, ?_, ?_, hr⟩
      · simp_all [Loc, inSpan, inStats, pastSpan, pastStats]
      · intro g' p' hn hp'
        have := h.loc g' p' hp'
        cases p' <;> simp_all [Loc, inSpan, inStats, pastSpan, pastStats] <;> omega
      · intro b hb; cases hb; simpa using hl
      · intro b hb; simpa using h.stats b hb
      · simpa [hs] using hf
    | done =>
      rw [show go st g (.cEnd) = st.at g (.cClose) by simp only [go, hs]]
      simp only [St.at]
      refine ⟨all_set hp ?_ ?_, ?_, ?_, ?_, hr⟩
      · simp_all [Loc, inSpan, inStats, pastSpan, pastStats]
      · intro g' p' hn hp'; exact h.loc g' p' hp'
      · intro b hb; simpa using h.span b hb
      · intro b hb; simpa using h.stats b hb
      · exact hf
  | cEnding =>
    have hs : st.span = .busy g := (hg.1).mp rfl
    simp only [go, St.at, St.say]
    refine ⟨all_set hp ?_ ?_, ?_, ?_, ?_, ?_⟩
    · simp_all [Loc, inSpan, inStats, pastSpan, pastStats]
    · intro g' p' hn hp'
      have := h.loc g' p' hp'
      cases p' <;> simp_all [Loc, inSpan, inStats, pastSpan, pastStats] <;> omega
    · intro b hb; cases hb
    · intro b hb; simpa using h.stats b hb
    · simp [hf, hs]
    · simpa [isStats, List.countP_append] using hr
  | cClose =>
    simp only [go, St.at, St.say]
    refine ⟨all_set hp ?_ ?_, ?_, ?_, ?_, ?_⟩
    · simp_all [Loc, inSpan, inStats, pastSpan, pastStats]
    · intro g' p' hn hp'; exact h.loc g' p' hp'
    · intro b hb; simpa using h.span b hb
    · intro b hb; simpa using h.stats b hb
    · simpa using hf
    · simpa [isStats, List.countP_append] using hr

theorem inv_step (st : St) (h : Inv st) (a : Act) : Inv (step st a) := by
  cases a with
  | go g =>
    cases hp : st.ths[g]? with
    | none => simp only [step, hp]; exact h
    | some p => simp only [step, hp]; exact inv_go st h g p hp
  | close g =>
    by_cases hp : st.ths[g]? = some .idle
    · simp only [step, hp, if_true, St.at, St.say]
      have hg := h.loc g _ hp
      refine ⟨all_set hp ?_ ?_, ?_, ?_, by simpa using h.finish, by simpa [isStats, List.countP_append] using h.recorded⟩
      · simp_all [Loc, inSpan, inStats, pastSpan, pastStats]
      · intro g' p' hn hp'; exact h.loc g' p' hp'
      · intro b hb; simpa using h.span b hb
      · intro b hb; simpa using h.stats b hb
    · simp only [step, hp, if_false]; exact h
  | read g n e =>
    by_cases hp : st.ths[g]? = some .idle
    · simp only [step, hp, if_true, St.at, St.say]
      have hg := h.loc g _ hp
      refine ⟨all_set hp ?_ ?_, ?_, ?_, ?_, ?_⟩
      · cases e <;> simp_all [Loc, inSpan, inStats, pastSpan, pastStats]
      · intro g' p' hn hp'; exact h.loc g' p' hp'
      · intro b hb; simpa using h.span b hb
      · intro b hb; simpa using h.stats b hb
      · simpa using h.finish
      · simpa [isStats, List.countP_append] using h.recorded
    · simp only [step, hp, if_false]; exact h

theorem inv_run (l : List Act) (st : St) (h : Inv st) : Inv (run st l) := by
  induction l generalizing st with
  | nil => exact h
  | cons a l ih => exact ih _ (inv_step st h a)

/-! ## The log -/

/-- Every event is in relation with what was seen before it. -/
def Each (P : List Ev → Ev → Prop) (log : List Ev) : Prop := ∀ pre e post, log = pre ++ e :: post → P pre e

theorem each_nil (P : List Ev → Ev → Prop) : Each P [] := by
  intro pre e post h
  cases pre <;> cases h

theorem each_snoc {P : List Ev → Ev → Prop} {log : List Ev} {e : Ev} (h : Each P log) (he : P log e) : Each P (log ++ [e]) := by
  intro pre x post hx
  rcases List.eq_nil_or_concat post with rfl | ⟨post', y, rfl⟩
  · have := List.append_inj' hx rfl
    obtain ⟨rfl, h2⟩ := this
    cases h2
    exact he
  · have h1 : log ++ [e] = (pre ++ x :: post') ++ [y] := by rw [hx]; simp
    have := List.append_inj' h1 rfl
    exact h pre x post' this.1

theorem step_log (st : St) (h : Inv st) (a : Act) : (step st a).log = st.log ∨ ∃ e, (step st a).log = st.log ++ [e] ∧
    match e with
    | .got g n b => a = .read g n b
    | .closing g => a = .close g
    | .finish => True
    | .stats g n => n = st.size ∧ ∃ p, st.ths[g]? = some p ∧ inStats p = true
    | .eof _ => st.span = .done ∧ st.stats = .done
    | .closed _ => st.span = .done ∧ st.stats = .done := by
  cases a with
  | read g n e =>
    by_cases hp : st.ths[g]? = some .idle
    · right; exact ⟨.got g n e, by simp [step, hp, St.say, St.at], rfl⟩
    · left; simp [step, hp]
  | close g =>
    by_cases hp : st.ths[g]? = some .idle
    · right; exact ⟨.closing g, by simp [step, hp, St.say, St.at], rfl⟩
    · left; simp [step, hp]
  | go g =>
    cases hp : st.ths[g]? with
    | none => left; simp only [step, hp]
    | some p =>
      have hg := h.loc g p hp
      cases p with
      | idle => left; simp only [step, hp, go]
      | rEnd n => left; simp only [step, hp, go]; cases st.span <;> rfl
      | rEnding n => right; exact ⟨.finish, by simp only [step, hp, go]; rfl, trivial⟩
      | rAdd n e => left; simp only [step, hp, go]; rfl
      | rStore n e v => left; simp only [step, hp, go]; rfl
      | rStats => left; simp only [step, hp, go]; cases st.stats <;> rfl
      | rRec => right; exact ⟨.stats g st.size, by simp only [step, hp, go]; rfl, rfl, _, hp, rfl⟩
      | rRet => right; exact ⟨.eof g, by simp only [step, hp, go]; rfl, hg.2.2.1 rfl, hg.2.2.2 rfl⟩
      | cStats => left; simp only [step, hp, go]; cases st.stats <;> rfl
      | cRec => right; exact ⟨.stats g st.size, by simp only [step, hp, go]; rfl, rfl, _, hp, rfl⟩
      | cEnd => left; simp only [step, hp, go]; cases st.span <;> rfl
      | cEnding => right; exact ⟨.finish, by simp only [step, hp, go]; rfl, trivial⟩
      | cClose => right; exact ⟨.closed g, by simp only [step, hp, go]; rfl, hg.2.2.1 rfl, hg.2.2.2 rfl⟩

/-- In any schedule the span is exported at most once and the statistics are recorded at most once. -/
theorem once (k : Nat) (l : List Act) :
    (run (.init k) l).log.count .finish ≤ 1 ∧ (run (.init k) l).log.countP isStats ≤ 1 := by
  have h := inv_run l _ (inv_init k)
  rw [h.finish, h.recorded]
  exact ⟨Bool.toNat_le _, Bool.toNat_le _⟩

/-- When `Close` returns, or `Read` returns `io.EOF`, in any goroutine, the span has been exported and the statistics have been recorded, also if
another goroutine is doing it. -/
theorem over_complete (k : Nat) (l : List Act) (pre : List Ev) (e : Ev) (post : List Ev) (hl : (run (.init k) l).log = pre ++ e :: post)
    (he : isOver e = true) : Ev.finish ∈ pre ∧ ∃ x ∈ pre, isStats x = true := by
  have key : ∀ (l : List Act) (st : St), Inv st →
      Each (fun pre e => isOver e = true → Ev.finish ∈ pre ∧ ∃ x ∈ pre, isStats x = true) st.log →
      Each (fun pre e => isOver e = true → Ev.finish ∈ pre ∧ ∃ x ∈ pre, isStats x = true) (run st l).log := by
    intro l
    induction l with
    | nil => intro st _ h; exact h
    | cons a l ih =>
      intro st hi h
      refine ih _ (inv_step st hi a) ?_
      have done : st.span = .done ∧ st.stats = .done → Ev.finish ∈ st.log ∧ ∃ x ∈ st.log, isStats x = true := by
        intro hd
        have h1 := hi.finish
        have h2 := hi.recorded
        rw [hd.1] at h1
        rw [hd.2] at h2
        refine ⟨List.count_pos_iff.mp (by rw [h1]; decide), List.countP_pos_iff.mp (by rw [h2]; decide)⟩
      rcases step_log st hi a with h1 | ⟨e, h1, h2⟩
      · rw [h1]; exact h
      · rw [h1]
        refine each_snoc h ?_
        intro he
        cases e with
        | got g n b => cases he
        | closing g => cases he
        | finish => cases he
        | stats g n => cases he
        | eof g => exact done h2
        | closed g => exact done h2
  exact key l _ (inv_init k) (each_nil _) pre e post hl he

/-! ## Calls and returns -/

/-- A Read of `g` came to the end of the body. -/
def gotEof (g : Nat) : Ev → Bool
  | .got g' _ e => g' == g && e
  | _ => false

/-- The goroutine is in a Read that came to the end. -/
def inEof : Ph → Bool
  | .rEnd _ => true
  | .rEnding _ => true
  | .rAdd _ e => e
  | .rStore _ e _ => e
  | .rStats => true
  | .rRec => true
  | .rRet => true
  | _ => false

/-- The goroutine is in `Close`. -/
def inClose : Ph → Bool
  | .cStats => true
  | .cRec => true
  | .cEnd => true
  | .cEnding => true
  | .cClose => true
  | _ => false

/-- Calls are returns and those under way. -/
def Paid (log : List Ev) (g : Nat) (p : Ph) : Prop :=
  log.countP (gotEof g) = log.count (.eof g) + (inEof p).toNat ∧ log.count (.closing g) = log.count (.closed g) + (inClose p).toNat

/-- The goroutine that an event is about. -/
def about : Ev → Option Nat
  | .got g _ _ => some g
  | .closing g => some g
  | .eof g => some g
  | .closed g => some g
  | _ => none

theorem paid_other {log : List Ev} {g' : Nat} {p : Ph} (e : Ev) (he : about e ≠ some g') (h : Paid log g' p) : Paid (log ++ [e]) g' p := by
  unfold Paid at *
  cases e <;> simp_all [about, gotEof, List.countP_append]

theorem paid_step (st : St) (h : ∀ (g : Nat) p, st.ths[g]? = some p → Paid st.log g p) (a : Act) :
    ∀ (g : Nat) p, (step st a).ths[g]? = some p → Paid (step st a).log g p := by
  have mv : ∀ (g : Nat) (p q : Ph) (log : List Ev), st.ths[g]? = some p → (∀ g', g' ≠ g → ∀ p', Paid st.log g' p' → Paid log g' p') →
      (Paid st.log g p → Paid log g q) → ∀ (g' : Nat) p', (st.ths.set g q)[g']? = some p' → Paid log g' p' := by
    intro g p q log hp ho hg
    exact all_set hp (hg (h g p hp)) (fun g' p' hn hp' => ho g' hn p' (h g' p' hp'))
  have same : ∀ (g : Nat) (p q : Ph), st.ths[g]? = some p → inEof q = inEof p → inClose q = inClose p →
      ∀ (g' : Nat) p', (st.ths.set g q)[g']? = some p' → Paid st.log g' p' := by
    intro g p q hp h1 h2
    exact mv g p q st.log hp (fun _ _ _ hx => hx) (by unfold Paid; rw [h1, h2]; exact id)
  have quiet : ∀ (g : Nat) (p q : Ph) (e : Ev), st.ths[g]? = some p → about e = none → inEof q = inEof p → inClose q = inClose p →
      ∀ (g' : Nat) p', (st.ths.set g q)[g']? = some p' → Paid (st.log ++ [e]) g' p' := by
    intro g p q e hp he h1 h2
    refine mv g p q _ hp (fun _ _ _ hx => paid_other e (by rw [he]; simp) hx) ?_
    intro hx
    have := paid_other e (by rw [he]; simp) hx
    unfold Paid at this ⊢
    rw [h1, h2]; exact this
  have loud : ∀ (g : Nat) (p q : Ph) (e : Ev), st.ths[g]? = some p → about e = some g → (Paid st.log g p → Paid (st.log ++ [e]) g q) →
      ∀ (g' : Nat) p', (st.ths.set g q)[g']? = some p' → Paid (st.log ++ [e]) g' p' := by
    intro g p q e hp he hx
    exact mv g p q _ hp (fun g' hn _ hy => paid_other e (by rw [he]; simpa using Ne.symm hn) hy) hx
  cases a with
  | read g n e =>
    by_cases hp : st.ths[g]? = some .idle
    · simp only [step, hp, if_true, St.at, St.say]
      exact loud g _ _ (.got g n e) hp rfl (by cases e <;> simp [Paid, gotEof, inEof, inClose, List.countP_append])
    · simp only [step, hp, if_false]; exact h
  | close g =>
    by_cases hp : st.ths[g]? = some .idle
    · simp only [step, hp, if_true, St.at, St.say]
      exact loud g _ _ (.closing g) hp rfl (by simp [Paid, gotEof, inEof, inClose, List.countP_append])
    · simp only [step, hp, if_false]; exact h
  | go g =>
    cases hp : st.ths[g]? with
    | none => simp only [step, hp]; exact h
    | some p =>
      simp only [step, hp]
      cases p with
      | idle => exact h
      | rEnd n =>
        cases hs : st.span with
        | new => simp only [go, hs]; exact same g _ _ hp rfl rfl
        | busy b => simp only [go, hs]; exact h
        | done => simp only [go, hs]; exact same g _ _ hp rfl rfl
      | rEnding n => exact quiet g _ _ .finish hp rfl rfl rfl
      | rAdd n e => exact same g _ _ hp rfl rfl
      | rStore n e v => cases e <;> exact same g _ _ hp rfl rfl
      | rStats =>
        cases hs : st.stats with
        | new => simp only [go, hs]; exact same g _ _ hp rfl rfl
        | busy b => simp only [go, hs]; exact h
        | done => simp only [go, hs]; exact same g _ _ hp rfl rfl
      | rRec => exact quiet g _ _ (.stats g st.size) hp rfl rfl rfl
      | rRet => exact loud g _ _ (.eof g) hp rfl (by simp [Paid, gotEof, inEof, inClose, List.countP_append])
      | cStats =>
        cases hs : st.stats with
        | new => simp only [go, hs]; exact same g _ _ hp rfl rfl
        | busy b => simp only [go, hs]; exact h
        | done => simp only [go, hs]; exact same g _ _ hp rfl rfl
      | cRec => exact quiet g _ _ (.stats g st.size) hp rfl rfl rfl
      | cEnd =>
        cases hs : st.span with
        | new => simp only [go, hs]; exact same g _ _ hp rfl rfl
        | busy b => simp only [go, hs]; exact h
        | done => simp only [go, hs]; exact same g _ _ hp rfl rfl
      | cEnding => exact quiet g _ _ .finish hp rfl rfl rfl
      | cClose => exact loud g _ _ (.closed g) hp rfl (by simp [Paid, gotEof, inEof, inClose, List.countP_append])

/-- A goroutine that is outside the body has returned from each of its calls: as often `io.EOF` as it came to the end of the body, and as often from
`Close` as it called it. With `over_complete`: after a Read that came to the end, or a `Close`, everything is recorded. -/
theorem returned (k : Nat) (l : List Act) (g : Nat) (hp : (run (.init k) l).ths[g]? = some .idle) :
    (run (.init k) l).log.countP (gotEof g) = (run (.init k) l).log.count (.eof g) ∧
    (run (.init k) l).log.count (.closing g) = (run (.init k) l).log.count (.closed g) := by
  have key : ∀ (l : List Act) (st : St), (∀ (g : Nat) p, st.ths[g]? = some p → Paid st.log g p) →
      ∀ (g : Nat) p, (run st l).ths[g]? = some p → Paid (run st l).log g p := by
    intro l
    induction l with
    | nil => intro st h; exact h
    | cons a l ih => intro st h; exact ih _ (paid_step st h a)
  have h0 : ∀ (g : Nat) p, (St.init k).ths[g]? = some p → Paid (St.init k).log g p := by
    intro g p hp
    have := (List.mem_replicate.mp (List.mem_of_getElem? hp)).2
    subst this
    exact ⟨rfl, rfl⟩
  exact key l _ h0 g _ hp

/-- No deadlock: if some goroutine is in a call, then one of the goroutines can take a step. -/
theorem progress (k : Nat) (l : List Act) (g : Nat) (p : Ph) (hp : (run (.init k) l).ths[g]? = some p) (hi : p ≠ .idle) :
    ∃ g', (step (run (.init k) l) (.go g')).ths ≠ (run (.init k) l).ths := by
  have h := inv_run l _ (inv_init k)
  revert h hp
  generalize run (.init k) l = st
  intro hp h
  have move : ∀ (g : Nat) (p q : Ph) (st' : St), st.ths[g]? = some p → go st g p = st' → st'.ths = st.ths.set g q → q ≠ p →
      ∃ g', (step st (.go g')).ths ≠ st.ths := by
    intro g p q st' h1 h2 h3 h4
    refine ⟨g, ?_⟩
    simp only [step, h1, h2, h3]
    intro h5
    have h6 : (st.ths.set g q)[g]? = some q := List.getElem?_set_self (lt_of h1)
    rw [h5, h1] at h6
    cases h6
    exact h4 rfl
  have holdSpan : ∀ b, st.span = .busy b → ∃ g', (step st (.go g')).ths ≠ st.ths := by
    intro b hb
    obtain ⟨q, hq⟩ : ∃ q, st.ths[b]? = some q := ⟨_, List.getElem?_eq_getElem (h.span b hb)⟩
    have hin := ((h.loc b q hq).1).mpr hb
    cases q with
    | rEnding n => exact move b _ (.rAdd n true) _ hq rfl rfl (by simp)
    | cEnding => exact move b _ .cClose _ hq rfl rfl (by simp)
    | _ => cases hin
  have holdStats : ∀ b, st.stats = .busy b → ∃ g', (step st (.go g')).ths ≠ st.ths := by
    intro b hb
    obtain ⟨q, hq⟩ : ∃ q, st.ths[b]? = some q := ⟨_, List.getElem?_eq_getElem (h.stats b hb)⟩
    have hin := ((h.loc b q hq).2.1).mpr hb
    cases q with
    | rRec => exact move b _ .rRet _ hq rfl rfl (by simp)
    | cRec => exact move b _ .cEnd _ hq rfl rfl (by simp)
    | _ => cases hin
  cases p with
  | idle => exact absurd rfl hi
  | rEnd n =>
    cases hs : st.span with
    | new => exact move g _ (.rEnding n) _ hp (by simp only [go, hs]; rfl) rfl (by simp)
    | busy b => exact holdSpan b hs
    | done => exact move g _ (.rAdd n true) (st.at g (.rAdd n true)) hp (by simp only [go, hs]) rfl (by simp)
  | rEnding n => exact move g _ (.rAdd n true) _ hp rfl rfl (by simp)
  | rAdd n e => exact move g _ (.rStore n e st.size) _ hp rfl rfl (by simp)
  | rStore n e v => exact move g _ (if e then .rStats else .idle) _ hp rfl rfl (by cases e <;> simp)
  | rStats =>
    cases hs : st.stats with
    | new => exact move g _ .rRec _ hp (by simp only [go, hs]; rfl) rfl (by simp)
    | busy b => exact holdStats b hs
    | done => exact move g _ .rRet (st.at g .rRet) hp (by simp only [go, hs]) rfl (by simp)
  | rRec => exact move g _ .rRet _ hp rfl rfl (by simp)
  | rRet => exact move g _ .idle _ hp rfl rfl (by simp)
  | cStats =>
    cases hs : st.stats with
    | new => exact move g _ .cRec _ hp (by simp only [go, hs]; rfl) rfl (by simp)
    | busy b => exact holdStats b hs
    | done => exact move g _ .cEnd (st.at g .cEnd) hp (by simp only [go, hs]) rfl (by simp)
  | cRec => exact move g _ .cEnd _ hp rfl rfl (by simp)
  | cEnd =>
    cases hs : st.span with
    | new => exact move g _ .cEnding _ hp (by simp only [go, hs]; rfl) rfl (by simp)
    | busy b => exact holdSpan b hs
    | done => exact move g _ .cClose (st.at g .cClose) hp (by simp only [go, hs]) rfl (by simp)
  | cEnding => exact move g _ .cClose _ hp rfl rfl (by simp)
  | cClose => exact move g _ .idle _ hp rfl rfl (by simp)

/-! ## The size -/

theorem sum_set (ths : List Ph) (g : Nat) (p0 p : Ph) (h : ths[g]? = some p0) :
    ((ths.set g p).map pend).sum + pend p0 = (ths.map pend).sum + pend p := by
  induction ths generalizing g with
  | nil => cases h
  | cons q ths ih =>
    cases g with
    | zero =>
      simp only [List.getElem?_cons_zero] at h
      cases h
      simp only [List.set_cons_zero, List.map_cons, List.sum_cons]
      omega
    | succ g =>
      simp only [List.getElem?_cons_succ] at h
      have := ih g h
      simp only [List.set_cons_succ, List.map_cons, List.sum_cons]
      omega

theorem gots_snoc (log : List Ev) (e : Ev) (h : ∀ g n b, e ≠ .got g n b) : gots (log ++ [e]) = gots log := by
  cases e with
  | got g n b => exact absurd rfl (h g n b)
  | _ => simp [gots]

theorem gots_got (log : List Ev) (g n : Nat) (b : Bool) : gots (log ++ [.got g n b]) = gots log ++ [n] := by simp [gots]

/-- The counted bytes and those still to be added are not more than those taken, whatever is lost. -/
structure Sum (st : St) : Prop where
  size : st.size + (st.ths.map pend).sum ≤ (gots st.log).sum
  load : ∀ (g : Nat) p, st.ths[g]? = some p → ∀ n e v, p = .rStore n e v → v + (st.ths.map pend).sum ≤ (gots st.log).sum

theorem sum_move {st st' : St} {g : Nat} {p q : Ph} (h : Sum st) (hp : st.ths[g]? = some p) (hths : st'.ths = st.ths.set g q)
    (hsize : st'.size = st.size) (hlog : (gots st'.log).sum = (gots st.log).sum) (hq : pend q ≤ pend p)
    (hs : ∀ n e v, q = .rStore n e v → v = st.size) : Sum st' := by
  have h1 := sum_set st.ths g p q hp
  have h2 := h.size
  refine ⟨by rw [hths, hsize, hlog]; omega, ?_⟩
  rw [hths, hlog]
  refine all_set hp ?_ ?_
  · intro n e v hv
    rw [hs n e v hv]
    omega
  · intro g' p' _ hp' n e v hv
    have := h.load g' p' hp' n e v hv
    omega

theorem sum_step (st : St) (h : Sum st) (a : Act) : Sum (step st a) := by
  cases a with
  | read g n e =>
    by_cases hp : st.ths[g]? = some .idle
    · simp only [step, hp, if_true, St.at, St.say]
      have h2 := h.size
      have h1 := sum_set st.ths g _ (if e then Ph.rEnd n else .rAdd n false) hp
      have h3 : pend (if e then Ph.rEnd n else .rAdd n false) = n := by cases e <;> rfl
      have h4 : pend .idle = 0 := rfl
      rw [h3, h4] at h1
      refine ⟨?_, all_set hp ?_ ?_⟩
      · simp only [gots_got, List.sum_append, List.sum_cons, List.sum_nil]; omega
      · intro m b v hv; cases e <;> cases hv
      · intro g' p' _ hp' m b v hv
        have := h.load g' p' hp' m b v hv
        simp only [gots_got, List.sum_append, List.sum_cons, List.sum_nil]; omega
    · simp only [step, hp, if_false]; exact h
  | close g =>
    by_cases hp : st.ths[g]? = some .idle
    · simp only [step, hp, if_true]
      exact sum_move (q := .cStats) h hp rfl rfl (by simp [St.say, St.at, gots]) (by simp [pend]) (by intro n e v hv; cases hv)
    · simp only [step, hp, if_false]; exact h
  | go g =>
    cases hp : st.ths[g]? with
    | none => simp only [step, hp]; exact h
    | some p =>
      simp only [step, hp]
      have gs : ∀ e, (∀ g n b, e ≠ Ev.got g n b) → (gots (st.log ++ [e])).sum = (gots st.log).sum := by
        intro e he; rw [gots_snoc _ _ he]
      cases p with
      | idle => exact h
      | rEnd n =>
        cases hs : st.span with
        | new => simp only [go, hs]; exact sum_move (q := .rEnding n) h hp rfl rfl rfl (by simp [pend]) (by intro n e v hv; cases hv)
        | busy b => simp only [go, hs]; exact h
        | done => simp only [go, hs]; exact sum_move (q := .rAdd n true) h hp rfl rfl rfl (by simp [pend]) (by intro n e v hv; cases hv)
      | rEnding n =>
        exact sum_move (q := .rAdd n true) h hp rfl rfl (gs _ (by intro g n b; simp)) (by simp [pend]) (by intro n e v hv; cases hv)
      | rAdd n e => exact sum_move (q := .rStore n e st.size) h hp rfl rfl rfl (by simp [pend]) (by intro n e v hv; cases hv; rfl)
      | rStore n e v =>
        have h1 := sum_set st.ths g _ (if e then Ph.rStats else .idle) hp
        have h3 : pend (if e then Ph.rStats else .idle) = 0 := by cases e <;> rfl
        have h4 : pend (.rStore n e v) = n := rfl
        have h5 := h.load g _ hp n e v rfl
        rw [h3, h4] at h1
        simp only [go, St.at]
        refine ⟨by simp only; omega, all_set hp ?_ ?_⟩
        · intro m b w hv; cases e <;> cases hv
        · intro g' p' _ hp' m b w hv
          have := h.load g' p' hp' m b w hv
          simp only; omega
      | rStats =>
        cases hs : st.stats with
        | new => simp only [go, hs]; exact sum_move (q := .rRec) h hp rfl rfl rfl (by simp [pend]) (by intro n e v hv; cases hv)
        | busy b => simp only [go, hs]; exact h
        | done => simp only [go, hs]; exact sum_move (q := .rRet) h hp rfl rfl rfl (by simp [pend]) (by intro n e v hv; cases hv)
      | rRec => exact sum_move (q := .rRet) h hp rfl rfl (gs _ (by intro g n b; simp)) (by simp [pend]) (by intro n e v hv; cases hv)
      | rRet => exact sum_move (q := .idle) h hp rfl rfl (gs _ (by intro g n b; simp)) (by simp [pend]) (by intro n e v hv; cases hv)
      | cStats =>
        cases hs : st.stats with
        | new => simp only [go, hs]; exact sum_move (q := .cRec) h hp rfl rfl rfl (by simp [pend]) (by intro n e v hv; cases hv)
        | busy b => simp only [go, hs]; exact h
        | done => simp only [go, hs]; exact sum_move (q := .cEnd) h hp rfl rfl rfl (by simp [pend]) (by intro n e v hv; cases hv)
      | cRec => exact sum_move (q := .cEnd) h hp rfl rfl (gs _ (by intro g n b; simp)) (by simp [pend]) (by intro n e v hv; cases hv)
      | cEnd =>
        cases hs : st.span with
        | new => simp only [go, hs]; exact sum_move (q := .cEnding) h hp rfl rfl rfl (by simp [pend]) (by intro n e v hv; cases hv)
        | busy b => simp only [go, hs]; exact h
        | done => simp only [go, hs]; exact sum_move (q := .cClose) h hp rfl rfl rfl (by simp [pend]) (by intro n e v hv; cases hv)
      | cEnding => exact sum_move (q := .cClose) h hp rfl rfl (gs _ (by intro g n b; simp)) (by simp [pend]) (by intro n e v hv; cases hv)
      | cClose => exact sum_move (q := .idle) h hp rfl rfl (gs _ (by intro g n b; simp)) (by simp [pend]) (by intro n e v hv; cases hv)

theorem sum_init (k : Nat) : Sum (.init k) := by
  have h : ((List.replicate k Ph.idle).map pend).sum = 0 := by induction k <;> simp_all [List.replicate_succ, pend]
  refine ⟨by simp only [St.init, h]; exact Nat.zero_le _, ?_⟩
  intro g p hp n e v hv
  have := (List.mem_replicate.mp (List.mem_of_getElem? hp)).2
  rw [hv] at this
  cases this

/-- Whoever reads, the recorded response bytes are never more than the bytes taken from the body by then. -/
theorem size_le (k : Nat) (l : List Act) (pre : List Ev) (g n : Nat) (post : List Ev)
    (hl : (run (.init k) l).log = pre ++ .stats g n :: post) : n ≤ (gots pre).sum := by
  have key : ∀ (l : List Act) (st : St), Inv st → Sum st → Each (fun pre e => ∀ g n, e = .stats g n → n ≤ (gots pre).sum) st.log →
      Each (fun pre e => ∀ g n, e = .stats g n → n ≤ (gots pre).sum) (run st l).log := by
    intro l
    induction l with
    | nil => intro st _ _ h; exact h
    | cons a l ih =>
      intro st hi hs h
      refine ih _ (inv_step st hi a) (sum_step st hs a) ?_
      rcases step_log st hi a with h1 | ⟨e, h1, h2⟩
      · rw [h1]; exact h
      · rw [h1]
        refine each_snoc h ?_
        intro g n he
        subst he
        have := hs.size
        have := h2.1
        omega
  exact key l _ (inv_init k) (sum_init k) (each_nil _) pre _ post hl g n rfl

/-- The goroutine has taken bytes and not yet added them. -/
def reading : Ph → Bool
  | .rEnd _ => true
  | .rEnding _ => true
  | .rAdd _ _ => true
  | .rStore _ _ _ => true
  | _ => false

/-- What holds of a goroutine when only `r` reads. -/
def Mine (r : Nat) (size : Nat) (log : List Ev) (g : Nat) (p : Ph) : Prop :=
  (g ≠ r → reading p = false) ∧
  (g = r → if reading p then size + pend p = (gots log).sum ∧ (gots log).getLast? = some (pend p) else size = (gots log).sum) ∧
  (∀ n e v, p = .rStore n e v → v = size)

/-- What holds when only `r` reads. -/
structure One (r : Nat) (st : St) : Prop where
  mine : ∀ (g : Nat) p, st.ths[g]? = some p → Mine r st.size st.log g p
  none : st.ths[r]? = none → st.size = (gots st.log).sum

theorem one_move {r : Nat} {st st' : St} {g : Nat} {p q : Ph} (h : One r st) (hp : st.ths[g]? = some p) (hths : st'.ths = st.ths.set g q)
    (hsize : st'.size = st.size) (hlog : gots st'.log = gots st.log) (hr : reading q = reading p) (hq : pend q = pend p)
    (hs : ∀ n e v, q = .rStore n e v → v = st.size) : One r st' := by
  refine ⟨?_, ?_⟩
  · rw [hths, hsize]
    refine all_set hp ?_ ?_
    · have := h.mine g p hp
      refine ⟨by rw [hr]; exact this.1, by rw [hr, hq, hlog]; exact this.2.1, hs⟩
    · intro g' p' _ hp'
      have := h.mine g' p' hp'
      refine ⟨this.1, by rw [hlog]; exact this.2.1, this.2.2⟩
  · rw [hths, hsize, hlog]
    intro hn
    refine h.none ?_
    rw [List.getElem?_eq_none_iff] at hn ⊢
    simpa using hn

theorem one_step (r : Nat) (st : St) (h : One r st) (a : Act) (ha : ∀ g n e, a = .read g n e → g = r) : One r (step st a) := by
  cases a with
  | read g n e =>
    have hgr := ha g n e rfl
    subst hgr
    by_cases hp : st.ths[g]? = some .idle
    · simp only [step, hp, if_true, St.at, St.say]
      have h0 : st.size = (gots st.log).sum := by
        have := (h.mine g _ hp).2.1 rfl
        simpa [reading] using this
      refine ⟨all_set hp ?_ ?_, ?_⟩
      · refine ⟨fun hn => absurd rfl hn, ?_, ?_⟩
        · intro _
          rw [gots_got, h0]
          cases e <;> simp [reading, pend]
        · intro m b v hv; cases e <;> cases hv
      · intro g' p' hn hp'
        have := h.mine g' p' hp'
        exact ⟨this.1, fun hc => absurd hc hn, this.2.2⟩
      · intro hn
        rw [List.getElem?_eq_none_iff] at hn
        have := lt_of hp
        simp only [List.length_set] at hn
        omega
    · simp only [step, hp, if_false]; exact h
  | close g =>
    by_cases hp : st.ths[g]? = some .idle
    · simp only [step, hp, if_true]
      exact one_move (q := .cStats) h hp rfl rfl (by simp [St.say, St.at, gots]) rfl rfl (by intro n e v hv; cases hv)
    · simp only [step, hp, if_false]; exact h
  | go g =>
    cases hp : st.ths[g]? with
    | none => simp only [step, hp]; exact h
    | some p =>
      simp only [step, hp]
      have gs : ∀ e, (∀ g n b, e ≠ Ev.got g n b) → gots (st.log ++ [e]) = gots st.log := fun e he => gots_snoc _ _ he
      cases p with
      | idle => exact h
      | rEnd n =>
        cases hs : st.span with
        | new => simp only [go, hs]; exact one_move (q := .rEnding n) h hp rfl rfl rfl rfl rfl (by intro n e v hv; cases hv)
        | busy b => simp only [go, hs]; exact h
        | done => simp only [go, hs]; exact one_move (q := .rAdd n true) h hp rfl rfl rfl rfl rfl (by intro n e v hv; cases hv)
      | rEnding n => exact one_move (q := .rAdd n true) h hp rfl rfl (gs _ (by intro g n b; simp)) rfl rfl (by intro n e v hv; cases hv)
      | rAdd n e => exact one_move (q := .rStore n e st.size) h hp rfl rfl rfl rfl rfl (by intro n e v hv; cases hv; rfl)
      | rStore n e v =>
        have hm := h.mine g _ hp
        have hgr : g = r := by
          by_cases hc : g = r
          · exact hc
          · have := hm.1 hc; cases this
        subst hgr
        have h1 := hm.2.1 rfl
        have h2 := hm.2.2 n e v rfl
        simp only [reading, pend, if_true] at h1
        simp only [go, St.at]
        refine ⟨all_set hp ?_ ?_, ?_⟩
        · refine ⟨fun hn => absurd rfl hn, ?_, ?_⟩
          · intro _
            have h3 : reading (if e then Ph.rStats else .idle) = false := by cases e <;> rfl
            rw [h3]
            simp only [Bool.false_eq_true, if_false]
            omega
          · intro m b w hv; cases e <;> cases hv
        · intro g' p' hn hp'
          have := h.mine g' p' hp'
          refine ⟨this.1, fun hc => absurd hc hn, ?_⟩
          intro m b w hv
          have h4 := this.1 hn
          rw [hv] at h4
          cases h4
        · intro hn
          rw [List.getElem?_eq_none_iff] at hn
          have := lt_of hp
          simp only [List.length_set] at hn
          omega
      | rStats =>
        cases hs : st.stats with
        | new => simp only [go, hs]; exact one_move (q := .rRec) h hp rfl rfl rfl rfl rfl (by intro n e v hv; cases hv)
        | busy b => simp only [go, hs]; exact h
        | done => simp only [go, hs]; exact one_move (q := .rRet) h hp rfl rfl rfl rfl rfl (by intro n e v hv; cases hv)
      | rRec => exact one_move (q := .rRet) h hp rfl rfl (gs _ (by intro g n b; simp)) rfl rfl (by intro n e v hv; cases hv)
      | rRet => exact one_move (q := .idle) h hp rfl rfl (gs _ (by intro g n b; simp)) rfl rfl (by intro n e v hv; cases hv)
      | cStats =>
        cases hs : st.stats with
        | new => simp only [go, hs]; exact one_move (q := .cRec) h hp rfl rfl rfl rfl rfl (by intro n e v hv; cases hv)
        | busy b => simp only [go, hs]; exact h
        | done => simp only [go, hs]; exact one_move (q := .cEnd) h hp rfl rfl rfl rfl rfl (by intro n e v hv; cases hv)
      | cRec => exact one_move (q := .cEnd) h hp rfl rfl (gs _ (by intro g n b; simp)) rfl rfl (by intro n e v hv; cases hv)
      | cEnd =>
        cases hs : st.span with
        | new => simp only [go, hs]; exact one_move (q := .cEnding) h hp rfl rfl rfl rfl rfl (by intro n e v hv; cases hv)
        | busy b => simp only [go, hs]; exact h
        | done => simp only [go, hs]; exact one_move (q := .cClose) h hp rfl rfl rfl rfl rfl (by intro n e v hv; cases hv)
      | cEnding => exact one_move (q := .cClose) h hp rfl rfl (gs _ (by intro g n b; simp)) rfl rfl (by intro n e v hv; cases hv)
      | cClose => exact one_move (q := .idle) h hp rfl rfl (gs _ (by intro g n b; simp)) rfl rfl (by intro n e v hv; cases hv)

theorem one_init (r k : Nat) : One r (.init k) := by
  refine ⟨?_, fun _ => rfl⟩
  intro g p hp
  have := (List.mem_replicate.mp (List.mem_of_getElem? hp)).2
  subst this
  exact ⟨fun _ => rfl, fun _ => rfl, by intro n e v hv; cases hv⟩

/-- The size, when one goroutine reads and any number close: what is recorded by the reader itself, at the end of the body or when it closes it, is
the number of bytes taken from the body; what another goroutine records is that, or that without the bytes of the last Read. -/
theorem size_partial (k : Nat) (r : Nat) (l : List Act) (hr : OneReader r l) (pre : List Ev) (g n : Nat) (post : List Ev)
    (hl : (run (.init k) l).log = pre ++ .stats g n :: post) : n = (gots pre).sum ∨ g ≠ r ∧ n = (gots pre).dropLast.sum := by
  have key : ∀ (l : List Act) (st : St), OneReader r l → Inv st → One r st →
      Each (fun pre e => ∀ g n, e = .stats g n → n = (gots pre).sum ∨ g ≠ r ∧ n = (gots pre).dropLast.sum) st.log →
      Each (fun pre e => ∀ g n, e = .stats g n → n = (gots pre).sum ∨ g ≠ r ∧ n = (gots pre).dropLast.sum) (run st l).log := by
    intro l
    induction l with
    | nil => intro st _ _ _ h; exact h
    | cons a l ih =>
      intro st hl hi hs h
      refine ih _ (fun g n e hm => hl g n e (List.mem_cons_of_mem _ hm)) (inv_step st hi a)
        (one_step r st hs a (fun g n e ha => hl g n e (by rw [ha]; exact List.mem_cons_self))) ?_
      rcases step_log st hi a with h1 | ⟨e, h1, h2⟩
      · rw [h1]; exact h
      · rw [h1]
        refine each_snoc h ?_
        intro g n he
        subst he
        obtain ⟨hn, p, hp, hin⟩ := h2
        cases hq : st.ths[r]? with
        | none => left; rw [hn]; exact hs.none hq
        | some q =>
          have hm := (hs.mine r q hq).2.1 rfl
          cases hrd : reading q with
          | false =>
            rw [hrd] at hm
            left; rw [hn]; simpa using hm
          | true =>
            rw [hrd] at hm
            simp only [if_true] at hm
            right
            refine ⟨?_, ?_⟩
            · intro hgr
              subst hgr
              rw [hp] at hq
              cases hq
              cases p <;> simp [inStats, reading] at hin hrd
            · obtain ⟨ys, hys⟩ := List.getLast?_eq_some_iff.mp hm.2
              have h3 := hm.1
              rw [hys] at h3 ⊢
              rw [List.dropLast_concat]
              simp only [List.sum_append, List.sum_cons, List.sum_nil] at h3
              omega
  exact key l _ hr (inv_init k) (one_init r k) (each_nil _) pre _ post hl g n rfl

/-- One goroutine reads to the end of the body while another closes it. -/
def demo : List Act := [.read 0 5 false, .go 0, .go 0, .read 0 7 true, .close 1, .go 1, .go 0, .go 1, .go 0, .go 1, .go 0, .go 0, .go 0, .go 0, .go 0, .go 1]

example : OneReader 0 demo := by
  intro g n e h
  simp [demo] at h
  omega

/-- A body that is closed while it is read: the bytes of the Read under way are not counted, though the program gets them. -/
theorem close_during_read : (run (.init 2) demo).log = [.got 0 5 false, .got 0 7 true, .closing 1, .stats 1 5, .finish, .eof 0, .closed 1] := by decide

/-- Two goroutines that read: the bytes of one are lost, though both Reads have returned when the body is closed. -/
theorem two_readers : (run (.init 2) [.read 0 5 false, .read 1 7 false, .go 0, .go 1, .go 0, .go 1, .close 0, .go 0, .go 0]).log
    = [.got 0 5 false, .got 1 7 false, .closing 0, .stats 0 7] := by decide

/-- The claim, that what is recorded is what was taken, is false. -/
theorem size_fails : ¬ ∀ (k : Nat) (l : List Act) (pre : List Ev) (g n : Nat) (post : List Ev),
    (run (.init k) l).log = pre ++ .stats g n :: post → n = (gots pre).sum := by
  intro h
  have := h 2 demo [.got 0 5 false, .got 0 7 true, .closing 1] 1 5 _ close_during_read
  revert this
  decide

/-- A goroutine that waits: `Close` does not return while another goroutine records. -/
example : (run (.init 2) [.read 0 5 true, .go 0, .go 0, .go 0, .go 0, .go 0, .close 1, .go 1, .go 1, .go 1]).log = [.got 0 5 true, .finish, .closing 1] := by decide
example : (run (.init 2) [.read 0 5 true, .go 0, .go 0, .go 0, .go 0, .go 0, .close 1, .go 1]).ths = [.rRec, .cStats] := by decide

end Verif.Http.BodyConc
