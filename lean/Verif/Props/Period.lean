import Mathlib.Tactic.Ring
import Verif.View.Period
import Mathlib.Tactic.Linarith
import Mathlib.Data.List.Nodup

/-!
# C89: a meter reports at the period that was set
-/

namespace Verif.Props.Period
open Verif Verif.View.Period

/-! ## Specification -/

/-- The period a duration stands for: ten seconds if it is not positive. -/
def effective (d : Int) : Int := if 0 < d then d else 10000000000

/-- The times at which reports began. -/
def reports (l : List (Int × Ev)) : List Int := (l.filter fun e => decide (e.2 = .report)).map Prod.fst

/-- `SetReportingPeriod` of goroutine `j` has been called and has not returned. -/
def Inside (j : Nat) (l : List (Int × Ev)) : Prop :=
  ∃ a τ d b, l = a ++ (τ, .called j d) :: b ∧ ∀ τ', (τ', Ev.returned j) ∉ b

/-- No call of `SetReportingPeriod`. -/
def NoCalls (l : List (Int × Ev)) : Prop := ∀ e ∈ l, ∀ j d, e.2 ≠ .called j d

/-- Nothing waits and no tick is missed: time passes only while the loop has nothing to do, and not past the next tick. -/
def Prompt (s : St) : List Move → Prop
  | [] => True
  | m :: ms => (∀ δ, m = .advance δ → s.loop = .select ∧ s.chan = [] ∧ s.ticker.pending = false ∧ s.now + δ ≤ s.ticker.next) ∧
      ∀ s', step s m = some s' → Prompt s' ms

/-! ## Logs -/

theorem reports_append (a b : List (Int × Ev)) : reports (a ++ b) = reports a ++ reports b := by
  simp [reports]

/-- What a step adds to the log. -/
def adds (s : St) : Move → List (Int × Ev)
  | .call who d => [(s.now, .called who d)]
  | .takeTick => [(s.now, .report)]
  | .finish => match s.loop with
    | .reply who => [(s.now, .returned who)]
    | _ => []
  | _ => []

theorem step_log {s s' : St} {m : Move} (h : step s m = some s') : s'.log = s.log ++ adds s m := by
  cases m with
  | advance δ => simp only [step, Option.some.injEq] at h; subst h; simp [adds]
  | fire => simp only [step, Option.map_eq_some_iff] at h; obtain ⟨_, _, rfl⟩ := h; simp [adds]
  | call who d => simp only [step] at h; split at h <;> simp at h; subst h; simp [adds]
  | send who =>
    simp only [step] at h
    split at h <;> try simp at h
    obtain ⟨_, rfl⟩ := h; simp [adds, St.setClient]
  | command => simp only [step] at h; split at h <;> simp at h; subst h; simp [adds]
  | takeCommand => simp only [step] at h; split at h <;> simp at h; subst h; simp [adds]
  | takeTick => simp only [step] at h; split at h <;> simp at h; subst h; simp [adds]
  | finish =>
    simp only [step, finish] at h
    split at h
    · simp at h
    · rename_i hl; simp at h; subst h; simp [adds, hl]
    · rename_i hl; simp at h; subst h; simp [adds, hl]
    · rename_i hl; split at h <;> simp at h; subst h; simp [adds, hl]
    · rename_i hl; simp at h; subst h; simp [adds, hl]

theorem adds_le (s : St) (m : Move) : adds s m = [] ∨ ∃ e, adds s m = [e] := by
  cases m <;> simp [adds]
  split <;> simp

theorem run_append {s : St} {a b : List Move} : run s (a ++ b) = (run s a).bind fun s' => run s' b := by
  induction a generalizing s with
  | nil => rfl
  | cons m ms ih =>
    simp only [List.cons_append, run]
    cases step s m with
    | none => rfl
    | some s' => exact ih

theorem run_log {s s' : St} {ms : List Move} (h : run s ms = some s') : ∃ l, s'.log = s.log ++ l := by
  induction ms generalizing s with
  | nil => simp only [run, Option.some.injEq] at h; subst h; exact ⟨[], by simp⟩
  | cons m ms ih =>
    simp only [run] at h
    cases hs : step s m with
    | none => simp [hs] at h
    | some s1 =>
      rw [hs] at h
      obtain ⟨l, hl⟩ := ih h
      exact ⟨adds s m ++ l, by rw [hl, step_log hs, List.append_assoc]⟩

/-- The run up to an event of the log. -/
theorem run_split {s st : St} {ms : List Move} (h : run s ms = some st) {e : Int × Ev} {p l : List (Int × Ev)}
    (hl : st.log = s.log ++ p ++ e :: l) :
    ∃ m1 m m2 s1 s2, ms = m1 ++ m :: m2 ∧ run s m1 = some s1 ∧ s1.log = s.log ++ p ∧ step s1 m = some s2 ∧
      adds s1 m = [e] ∧ run s2 m2 = some st := by
  induction ms generalizing s p with
  | nil =>
    simp only [run, Option.some.injEq] at h
    subst h
    have := congrArg List.length hl
    simp at this
  | cons m ms ih =>
    simp only [run] at h
    cases hs : step s m with
    | none => simp [hs] at h
    | some s1 =>
      rw [hs] at h
      simp only [Option.bind_some] at h
      obtain ⟨l', hl'⟩ := run_log h
      have hlog := step_log hs
      rcases adds_le s m with ha | ⟨e', ha⟩
      · obtain ⟨m1, m', m2, t1, t2, rfl, h1, h2, h3, h4, h5⟩ := ih (p := p) h (by rw [hl, hlog, ha]; simp)
        exact ⟨m :: m1, m', m2, t1, t2, rfl, by simp [run, hs, h1], by rw [h2, hlog, ha]; simp, h3, h4, h5⟩
      · cases p with
        | nil =>
          refine ⟨[], m, ms, s, s1, rfl, rfl, by simp, hs, ?_, h⟩
          rw [hl', hlog, ha] at hl
          simp at hl
          rw [ha, hl.1]
        | cons x p =>
          have hx : x = e' := by
            rw [hl', hlog, ha] at hl
            simp at hl
            exact hl.1.symm
          subst hx
          obtain ⟨m1, m', m2, t1, t2, rfl, h1, h2, h3, h4, h5⟩ := ih (p := p) h (by rw [hl, hlog, ha]; simp)
          exact ⟨m :: m1, m', m2, t1, t2, rfl, by simp [run, hs, h1], by rw [h2, hlog, ha]; simp, h3, h4, h5⟩

/-! ## Who is in a call -/

def setOf : Cmd → Option (Nat × Int)
  | .set who d => some (who, d)
  | .other => none

/-- The requests that have not been handled. -/
def sets (s : St) : List (Nat × Int) :=
  (match s.loop with
    | .handling c => (setOf c).toList
    | _ => []) ++ s.chan.filterMap setOf

def replyTo (s : St) : List Nat :=
  match s.loop with
  | .reply who => [who]
  | _ => []

/-- The goroutines inside a call, and their requests. -/
structure Known (s : St) : Prop where
  inside : ∀ j, s.cl j ≠ .idle ↔ Inside j s.log
  once : (replyTo s ++ (sets s).map Prod.fst).Nodup
  waits : ∀ j, j ∈ replyTo s ++ (sets s).map Prod.fst ↔ s.cl j = .waiting

theorem inside_nil (j : Nat) : ¬ Inside j [] := by
  rintro ⟨a, τ, d, b, h, _⟩
  simp at h

theorem inside_called (j : Nat) (l : List (Int × Ev)) (τ : Int) (i : Nat) (d : Int) :
    Inside j (l ++ [(τ, .called i d)]) ↔ j = i ∨ Inside j l := by
  constructor
  · rintro ⟨a, τ', d', b, h, hb⟩
    rcases List.eq_nil_or_concat b with rfl | ⟨b', x, rfl⟩
    · have := (List.append_inj' h rfl).2
      simp at this
      exact .inl this.2.1.symm
    · rw [List.concat_eq_append, ← List.cons_append, ← List.append_assoc] at h
      have h1 := List.append_inj' h rfl
      exact .inr ⟨a, τ', d', b', h1.1, fun t ht => hb t (by simp [ht])⟩
  · rintro (rfl | ⟨a, τ', d', b, rfl, hb⟩)
    · exact ⟨l, τ, d, [], rfl, by simp⟩
    · exact ⟨a, τ', d', b ++ [(τ, .called i d)], by simp, by simpa using hb⟩

theorem inside_report (j : Nat) (l : List (Int × Ev)) (τ : Int) : Inside j (l ++ [(τ, .report)]) ↔ Inside j l := by
  constructor
  · rintro ⟨a, τ', d', b, h, hb⟩
    rcases List.eq_nil_or_concat b with rfl | ⟨b', x, rfl⟩
    · have := (List.append_inj' h rfl).2
      simp at this
    · rw [List.concat_eq_append, ← List.cons_append, ← List.append_assoc] at h
      have h1 := List.append_inj' h rfl
      exact ⟨a, τ', d', b', h1.1, fun t ht => hb t (by simp [ht])⟩
  · rintro ⟨a, τ', d', b, rfl, hb⟩
    exact ⟨a, τ', d', b ++ [(τ, .report)], by simp, by simpa using hb⟩

theorem inside_returned (j : Nat) (l : List (Int × Ev)) (τ : Int) (i : Nat) :
    Inside j (l ++ [(τ, .returned i)]) ↔ j ≠ i ∧ Inside j l := by
  constructor
  · rintro ⟨a, τ', d', b, h, hb⟩
    rcases List.eq_nil_or_concat b with rfl | ⟨b', x, rfl⟩
    · have := (List.append_inj' h rfl).2
      simp at this
    · rw [List.concat_eq_append, ← List.cons_append, ← List.append_assoc] at h
      have h1 := List.append_inj' h rfl
      have hx : x = (τ, .returned i) := by simpa using h1.2.symm
      subst hx
      refine ⟨fun hji => hb τ (by simp [hji]), a, τ', d', b', h1.1, fun t ht => hb t (by simp [ht])⟩
  · rintro ⟨hji, a, τ', d', b, rfl, hb⟩
    exact ⟨a, τ', d', b ++ [(τ, .returned i)], by simp, by simpa [hji] using hb⟩

theorem known_init (t0 : Int) (cap : Nat) : Known (init t0 cap) := by
  refine ⟨fun j => ?_, ?_, fun j => ?_⟩
  · simp [init, inside_nil]
  · simp [init, sets, replyTo]
  · simp [init, sets, replyTo]

theorem known_step {s s' : St} {m : Move} (hk : Known s) (h : step s m = some s') : Known s' := by
  obtain ⟨h1, h2, h3⟩ := hk
  cases m with
  | advance δ => simp only [step, Option.some.injEq] at h; subst h; exact ⟨h1, h2, h3⟩
  | fire => simp only [step, Option.map_eq_some_iff] at h; obtain ⟨_, _, rfl⟩ := h; exact ⟨h1, h2, h3⟩
  | call who d =>
    simp only [step] at h
    split at h <;> simp at h
    rename_i hw
    subst h
    refine ⟨fun j => ?_, h2, fun j => ?_⟩
    · show (if j = who then Client.sending d else s.cl j) ≠ .idle ↔ Inside j (s.log ++ [(s.now, .called who d)])
      rw [inside_called, ← h1 j]
      by_cases hj : j = who <;> simp [hj]
    · show j ∈ replyTo s ++ (sets s).map Prod.fst ↔ (if j = who then Client.sending d else s.cl j) = .waiting
      rw [h3 j]
      by_cases hj : j = who <;> simp [hj, hw]
  | send who =>
    simp only [step] at h
    split at h <;> try simp at h
    rename_i d hw
    obtain ⟨_, rfl⟩ := h
    have hs : sets { s.setClient who .waiting with chan := s.chan ++ [.set who d] } = sets s ++ [(who, d)] := by
      simp only [sets, St.setClient, List.filterMap_append]
      rw [List.append_assoc]
      rfl
    have hn : who ∉ replyTo s ++ (sets s).map Prod.fst := by rw [h3 who, hw]; simp
    refine ⟨fun j => ?_, ?_, fun j => ?_⟩
    · show (if j = who then Client.waiting else s.cl j) ≠ .idle ↔ Inside j s.log
      rw [← h1 j]
      by_cases hj : j = who <;> simp [hj, hw]
    · rw [hs]
      show (replyTo s ++ (sets s ++ [(who, d)]).map Prod.fst).Nodup
      rw [List.map_append, ← List.append_assoc]
      exact List.Nodup.append h2 (by simp) (by simpa using hn)
    · rw [hs]
      show j ∈ replyTo s ++ (sets s ++ [(who, d)]).map Prod.fst ↔ (if j = who then Client.waiting else s.cl j) = .waiting
      rw [List.map_append, ← List.append_assoc, List.mem_append, h3 j]
      by_cases hj : j = who <;> simp [hj]
  | command =>
    simp only [step] at h
    split at h <;> simp at h
    subst h
    have hs : sets { s with chan := s.chan ++ [.other] } = sets s := by
      simp [sets, List.filterMap_append, setOf]
    exact ⟨h1, by rw [hs]; exact h2, fun j => by rw [hs]; exact h3 j⟩
  | takeCommand =>
    simp only [step] at h
    split at h <;> simp at h
    rename_i c cs hl hc
    subst h
    have hs : sets { s with loop := .handling c, chan := cs } = sets s := by
      simp only [sets, hl, hc, List.filterMap_cons]
      cases setOf c <;> simp
    have hr : replyTo s = [] := by simp [replyTo, hl]
    have hr' : replyTo { s with loop := .handling c, chan := cs } = [] := rfl
    rw [hr] at h2 h3
    exact ⟨h1, by rw [hs, hr']; exact h2, fun j => by rw [hs, hr']; exact h3 j⟩
  | takeTick =>
    simp only [step] at h
    split at h <;> simp at h
    rename_i hl
    subst h
    have hs : ∀ tk l, sets { s with loop := .reporting, ticker := tk, log := l } = sets s := by
      intro tk l; simp [sets, hl.1]
    have hr : replyTo s = [] := by simp [replyTo, hl.1]
    rw [hr] at h2 h3
    refine ⟨fun j => ?_, by rw [hs]; exact h2, fun j => by rw [hs]; exact h3 j⟩
    show s.cl j ≠ .idle ↔ Inside j (s.log ++ [(s.now, .report)])
    rw [inside_report, h1]
  | finish =>
    simp only [step, finish] at h
    split at h
    · simp at h
    · rename_i hl
      simp at h; subst h
      have hs : sets { s with loop := .select } = sets s := by simp [sets, hl, setOf]
      have hr : replyTo s = [] := by simp [replyTo, hl]
      rw [hr] at h2 h3
      exact ⟨h1, by rw [hs]; exact h2, fun j => by rw [hs]; exact h3 j⟩
    · rename_i who d hl
      simp at h; subst h
      have hs : ∀ tk, (replyTo { s with ticker := tk, loop := .reply who }) ++
          (sets { s with ticker := tk, loop := .reply who }).map Prod.fst = replyTo s ++ (sets s).map Prod.fst := by
        intro tk; simp [sets, replyTo, hl, setOf]
      exact ⟨h1, by rw [hs]; exact h2, fun j => by rw [hs]; exact h3 j⟩
    · rename_i who hl
      split at h <;> simp at h
      rename_i hw
      subst h
      have hs : ∀ f l, sets { s with cl := f, loop := .select, log := l } = sets s := by
        intro f l; simp [sets, hl]
      have hr : replyTo s = [who] := by simp [replyTo, hl]
      rw [hr] at h2 h3
      have hn : who ∉ (sets s).map Prod.fst := by
        simp only [List.cons_append, List.nil_append, List.nodup_cons] at h2
        exact h2.1
      refine ⟨fun j => ?_, ?_, fun j => ?_⟩
      · show (if j = who then Client.idle else s.cl j) ≠ .idle ↔ Inside j (s.log ++ [(s.now, .returned who)])
        rw [inside_returned, ← h1 j]
        by_cases hj : j = who <;> simp [hj]
      · show (replyTo { s.setClient who .idle with loop := .select, log := _ } ++ _).Nodup
        simp only [St.setClient]
        rw [hs]
        simp only [List.cons_append, List.nil_append, List.nodup_cons] at h2
        exact h2.2
      · simp only [St.setClient]
        rw [hs]
        show j ∈ [] ++ (sets s).map Prod.fst ↔ (if j = who then Client.idle else s.cl j) = .waiting
        by_cases hj : j = who
        · subst hj; simpa using hn
        · rw [if_neg hj, ← h3 j]; simp [hj]
    · rename_i hl
      simp at h; subst h
      have hs : sets { s with loop := .select } = sets s := by simp [sets, hl]
      have hr : replyTo s = [] := by simp [replyTo, hl]
      rw [hr] at h2 h3
      exact ⟨h1, by rw [hs]; exact h2, fun j => by rw [hs]; exact h3 j⟩

theorem known_run {s st : St} {ms : List Move} (hk : Known s) (h : run s ms = some st) : Known st := by
  induction ms generalizing s with
  | nil => simp only [run, Option.some.injEq] at h; exact h ▸ hk
  | cons m ms ih =>
    simp only [run] at h
    cases hs : step s m with
    | none => simp [hs] at h
    | some s1 => rw [hs] at h; exact ih (known_step hk hs) h

/-! ## The ticker -/

def pend (tk : Ticker) : Int := if tk.pending then 1 else 0

/-- Since `τ` the ticker has had the period `p`, and `n` of its ticks were received. -/
structure Ticks (τ p n : Int) (s : St) : Prop where
  period : s.ticker.period = p
  pos : 0 < p
  nonneg : 0 ≤ n
  next : τ + (n + pend s.ticker + 1) * p ≤ s.ticker.next
  now : 1 ≤ n + pend s.ticker → τ + (n + pend s.ticker) * p ≤ s.now

/-- Since a tick was received at `R`, `n` others were. -/
structure Burst (R p n : Int) (s : St) : Prop where
  period : s.ticker.period = p
  pos : 0 < p
  nonneg : 0 ≤ n
  since : R ≤ s.now
  next : 1 ≤ n + pend s.ticker → R + (n + pend s.ticker - 1) * p < s.ticker.next
  now : 2 ≤ n + pend s.ticker → R + (n + pend s.ticker - 2) * p < s.now

/-- The step that changes the ticker for a new one. -/
def Resets (s : St) (m : Move) : Prop := m = .finish ∧ ∃ who d, s.loop = .handling (.set who d)

/-- What a step that does not make a new ticker does to ticker and time. -/
theorem ticker_step {s s' : St} {m : Move} (h : step s m = some s') (hn : ¬ Resets s m) :
    (s'.ticker = s.ticker ∧ s.now ≤ s'.now ∧ reports (adds s m) = []) ∨
    (s.ticker.next ≤ s.now ∧ s'.now = s.now ∧ reports (adds s m) = [] ∧
      s'.ticker = ⟨s.ticker.period, s.ticker.next + s.ticker.period * (1 + (s.now - s.ticker.next) / s.ticker.period), true⟩) ∨
    (s.ticker.pending = true ∧ s'.now = s.now ∧ s'.ticker = { s.ticker with pending := false } ∧ reports (adds s m) = [s.now]) := by
  cases m with
  | advance δ => simp only [step, Option.some.injEq] at h; subst h; left; simp [adds, reports]
  | fire =>
    simp only [step, Option.map_eq_some_iff] at h
    obtain ⟨tk, htk, rfl⟩ := h
    unfold Ticker.fire at htk
    split at htk <;> simp at htk
    rename_i hlt
    right; left
    exact ⟨by omega, rfl, rfl, htk.symm⟩
  | call who d => simp only [step] at h; split at h <;> simp at h; subst h; left; simp [adds, reports, St.setClient]
  | send who =>
    simp only [step] at h
    split at h <;> try simp at h
    obtain ⟨_, rfl⟩ := h; left; simp [adds, St.setClient, reports]
  | command => simp only [step] at h; split at h <;> simp at h; subst h; left; simp [adds, reports]
  | takeCommand => simp only [step] at h; split at h <;> simp at h; subst h; left; simp [adds, reports]
  | takeTick =>
    simp only [step] at h; split at h <;> simp at h
    rename_i hl
    subst h
    right; right
    exact ⟨hl.2, rfl, rfl, rfl⟩
  | finish =>
    simp only [step, finish] at h
    split at h
    · simp at h
    · rename_i hl; simp at h; subst h; left; simp [adds, hl, reports]
    · rename_i who d hl; exact absurd ⟨rfl, who, d, hl⟩ hn
    · rename_i hl; split at h <;> simp at h; subst h; left; simp [adds, hl, reports, St.setClient]
    · rename_i hl; simp at h; subst h; left; simp [adds, hl, reports]

theorem pend_cases (tk : Ticker) : (tk.pending = true ∧ pend tk = 1) ∨ (tk.pending = false ∧ pend tk = 0) := by
  unfold pend
  cases tk.pending <;> simp

theorem grid {a now p : Int} (hp : 0 < p) (h : a ≤ now) :
    a + p ≤ a + p * (1 + (now - a) / p) ∧ now < a + p * (1 + (now - a) / p) := by
  have h1 : 0 ≤ (now - a) / p := Int.ediv_nonneg (by omega) (by omega)
  have h2 : 0 ≤ p * ((now - a) / p) := Int.mul_nonneg (by omega) h1
  have h3 := Int.mul_ediv_add_emod (now - a) p
  have h4 := Int.emod_lt_of_pos (now - a) hp
  rw [Int.mul_add]
  constructor <;> omega

theorem ticks_step {τ p n : Int} {s s' : St} {m : Move} (ht : Ticks τ p n s) (h : step s m = some s') (hn : ¬ Resets s m) :
    Ticks τ p (n + (reports (adds s m)).length) s' ∧ ∀ R ∈ reports (adds s m), τ + (n + 1) * p ≤ R := by
  obtain ⟨h1, h2, h3, h4, h5⟩ := ht
  rcases ticker_step h hn with ⟨e1, e2, e3⟩ | ⟨e1, e2, e3, e4⟩ | ⟨e1, e2, e3, e4⟩
  · rw [e3]
    refine ⟨⟨by rw [e1]; exact h1, h2, by simpa using h3, by simpa [e1] using h4, ?_⟩, by simp⟩
    intro h
    have := h5 (by simpa [e1] using h)
    simp only [e1, List.length_nil, Nat.cast_zero, add_zero]
    omega
  · rw [e3]
    obtain ⟨g1, g2⟩ := grid (a := s.ticker.next) (now := s.now) h2 e1
    have hp' : pend s'.ticker = 1 := by rw [e4]; rfl
    have hnx : s'.ticker.next = s.ticker.next + p * (1 + (s.now - s.ticker.next) / p) := by rw [e4, h1]
    refine ⟨⟨by rw [e4]; exact h1, h2, by simpa using h3, ?_, ?_⟩, by simp⟩
    · rw [hnx, hp']
      simp only [List.length_nil, Nat.cast_zero, add_zero]
      rcases pend_cases s.ticker with ⟨_, hq⟩ | ⟨_, hq⟩ <;> rw [hq] at h4 <;> nlinarith
    · intro _
      rw [hp', e2]
      simp only [List.length_nil, Nat.cast_zero, add_zero]
      rcases pend_cases s.ticker with ⟨_, hq⟩ | ⟨_, hq⟩
      · rw [hq] at h5; exact h5 (by omega)
      · rw [hq] at h4; nlinarith
  · rw [e4]
    have hq : pend s.ticker = 1 := by simp [pend, e1]
    have hq' : pend s'.ticker = 0 := by rw [e3]; rfl
    rw [hq] at h4 h5
    refine ⟨⟨by rw [e3]; exact h1, h2, by simp; omega, ?_, ?_⟩, ?_⟩
    · rw [hq', e3]; simp only [List.length_singleton, Nat.cast_one, add_zero]; exact h4
    · intro _; rw [hq', e2]; simp only [List.length_singleton, Nat.cast_one, add_zero]; exact h5 (by omega)
    · intro R hR
      simp at hR
      subst hR
      exact h5 (by omega)

theorem burst_step {R p n : Int} {s s' : St} {m : Move} (ht : Burst R p n s) (h : step s m = some s') (hn : ¬ Resets s m) :
    Burst R p (n + (reports (adds s m)).length) s' ∧ ∀ R' ∈ reports (adds s m), 1 ≤ n → R + (n - 1) * p < R' := by
  obtain ⟨h1, h2, h3, h4, h5, h6⟩ := ht
  rcases ticker_step h hn with ⟨e1, e2, e3⟩ | ⟨e1, e2, e3, e4⟩ | ⟨e1, e2, e3, e4⟩
  · rw [e3]
    refine ⟨⟨by rw [e1]; exact h1, h2, by simpa using h3, by omega, by simpa [e1] using h5, ?_⟩, by simp⟩
    intro h
    have := h6 (by simpa [e1] using h)
    simp only [e1, List.length_nil, Nat.cast_zero, add_zero]
    omega
  · rw [e3]
    obtain ⟨g1, g2⟩ := grid (a := s.ticker.next) (now := s.now) h2 e1
    have hp' : pend s'.ticker = 1 := by rw [e4]; rfl
    have hnx : s'.ticker.next = s.ticker.next + p * (1 + (s.now - s.ticker.next) / p) := by rw [e4, h1]
    refine ⟨⟨by rw [e4]; exact h1, h2, by simpa using h3, by omega, ?_, ?_⟩, by simp⟩
    · intro _
      rw [hnx, hp']
      simp only [List.length_nil, Nat.cast_zero, add_zero]
      rcases pend_cases s.ticker with ⟨_, hq⟩ | ⟨_, hq⟩ <;> rw [hq] at h5
      · have := h5 (by omega); nlinarith
      · by_cases h0 : n = 0
        · subst h0; simp; omega
        · have := h5 (by omega); nlinarith
    · intro h'
      rw [hp', e2] at *
      simp only [List.length_nil, Nat.cast_zero, add_zero] at h' ⊢
      rcases pend_cases s.ticker with ⟨_, hq⟩ | ⟨_, hq⟩
      · rw [hq] at h6; exact h6 h'
      · rw [hq] at h5
        have := h5 (by omega)
        nlinarith
  · rw [e4]
    have hq : pend s.ticker = 1 := by simp [pend, e1]
    have hq' : pend s'.ticker = 0 := by rw [e3]; rfl
    rw [hq] at h5 h6
    refine ⟨⟨by rw [e3]; exact h1, h2, by simp; omega, by omega, ?_, ?_⟩, ?_⟩
    · intro _; rw [hq', e3]; simp only [List.length_singleton, Nat.cast_one, add_zero]; exact h5 (by omega)
    · intro hh
      rw [hq', e2] at *
      simp only [List.length_singleton, Nat.cast_one, add_zero] at hh ⊢
      exact h6 hh
    · intro R' hR hn1
      simp at hR
      subst hR
      have := h6 (by omega)
      rw [show n + 1 - 2 = n - 1 by omega] at this
      exact this

/-! ## While nobody sets the period -/

theorem known_quiet {s : St} (hk : Known s) (hi : ∀ j, s.cl j = .idle) : sets s = [] ∧ replyTo s = [] := by
  have hno : ∀ j, j ∉ replyTo s ++ (sets s).map Prod.fst := by
    intro j hj
    rw [hk.waits j, hi j] at hj
    simp at hj
  have := List.eq_nil_iff_forall_not_mem.2 hno
  rw [List.append_eq_nil_iff] at this
  exact ⟨by simpa using this.2, this.1⟩

theorem sets_resets {s : St} {who : Nat} {d : Int} (h : s.loop = .handling (.set who d)) : (who, d) ∈ sets s := by
  simp [sets, h, setOf]

theorem idle_step {s s' : St} {m : Move} (hk : Known s) (hi : ∀ j, s.cl j = .idle) (h : step s m = some s')
    (hc : NoCalls (adds s m)) : (∀ j, s'.cl j = .idle) ∧ ¬ Resets s m := by
  obtain ⟨hs, hr⟩ := known_quiet hk hi
  refine ⟨?_, ?_⟩
  · cases m with
    | advance δ => simp only [step, Option.some.injEq] at h; subst h; exact hi
    | fire => simp only [step, Option.map_eq_some_iff] at h; obtain ⟨_, _, rfl⟩ := h; exact hi
    | call who d => exact absurd rfl (hc (s.now, .called who d) (by simp [adds]) who d)
    | send who => simp [step, hi who] at h
    | command => simp only [step] at h; split at h <;> simp at h; subst h; exact hi
    | takeCommand => simp only [step] at h; split at h <;> simp at h; subst h; exact hi
    | takeTick => simp only [step] at h; split at h <;> simp at h; subst h; exact hi
    | finish =>
      simp only [step, finish] at h
      split at h
      · simp at h
      · simp at h; subst h; exact hi
      · simp at h; subst h; exact hi
      · rename_i who hl; simp [replyTo, hl] at hr
      · simp at h; subst h; exact hi
  · rintro ⟨_, who, d, hl⟩
    have := sets_resets hl
    rw [hs] at this
    simp at this

theorem noCalls_append {a b : List (Int × Ev)} (h : NoCalls (a ++ b)) : NoCalls a ∧ NoCalls b :=
  ⟨fun e he => h e (by simp [he]), fun e he => h e (by simp [he])⟩

theorem log_cut {s s1 st : St} {m : Move} {ms : List Move} {l : List (Int × Ev)} (hs : step s m = some s1)
    (h : run s1 ms = some st) (hl : st.log = s.log ++ l) : ∃ l', l = adds s m ++ l' ∧ st.log = s1.log ++ l' := by
  obtain ⟨l', hl'⟩ := run_log h
  refine ⟨l', ?_, hl'⟩
  rw [hl', step_log hs, List.append_assoc] at hl
  exact (List.append_cancel_left hl).symm

theorem idle_run {s st : St} {ms : List Move} {l : List (Int × Ev)} (hk : Known s) (hi : ∀ j, s.cl j = .idle)
    (h : run s ms = some st) (hl : st.log = s.log ++ l) (hc : NoCalls l) : ∀ j, st.cl j = .idle := by
  induction ms generalizing s l with
  | nil => simp only [run, Option.some.injEq] at h; exact h ▸ hi
  | cons m ms ih =>
    simp only [run] at h
    cases hs : step s m with
    | none => simp [hs] at h
    | some s1 =>
      rw [hs] at h
      obtain ⟨l', rfl, hl1⟩ := log_cut hs h hl
      obtain ⟨hc1, hc2⟩ := noCalls_append hc
      exact ih (known_step hk hs) (idle_step hk hi hs hc1).1 h hl1 hc2

theorem ticks_run {τ p n : Int} {s st : St} {ms : List Move} {l : List (Int × Ev)} (hk : Known s) (hi : ∀ j, s.cl j = .idle)
    (ht : Ticks τ p n s) (h : run s ms = some st) (hl : st.log = s.log ++ l) (hc : NoCalls l) :
    Ticks τ p (n + (reports l).length) st ∧ ∀ (k : Nat) R, (reports l)[k]? = some R → τ + (n + k + 1) * p ≤ R := by
  induction ms generalizing s l n with
  | nil =>
    simp only [run, Option.some.injEq] at h
    subst h
    have : l = [] := by simpa using hl
    subst this
    exact ⟨by simpa [reports] using ht, by simp [reports]⟩
  | cons m ms ih =>
    simp only [run] at h
    cases hs : step s m with
    | none => simp [hs] at h
    | some s1 =>
      rw [hs] at h
      obtain ⟨l', rfl, hl1⟩ := log_cut hs h hl
      obtain ⟨hc1, hc2⟩ := noCalls_append hc
      obtain ⟨hi1, hr⟩ := idle_step hk hi hs hc1
      obtain ⟨ht1, hrep⟩ := ticks_step ht hs hr
      obtain ⟨g1, g2⟩ := ih (known_step hk hs) hi1 ht1 h hl1 hc2
      rw [reports_append]
      refine ⟨by rw [List.length_append, Nat.cast_add, ← add_assoc]; exact g1, fun k R hk' => ?_⟩
      by_cases hlt : k < (reports (adds s m)).length
      · rw [List.getElem?_append_left hlt] at hk'
        have hle : (reports (adds s m)).length ≤ 1 := by
          rcases adds_le s m with h0 | ⟨e, h0⟩ <;> rw [h0]
          · simp [reports]
          · exact (List.length_map (as := [e].filter _) Prod.fst).le.trans (List.length_filter_le _ _)
        have hk0 : k = 0 := by omega
        subst hk0
        simpa using hrep R (List.mem_of_getElem? hk')
      · rw [List.getElem?_append_right (by omega)] at hk'
        have := g2 _ R hk'
        rw [show n + ((reports (adds s m)).length : Int) + ((k - (reports (adds s m)).length : Nat) : Int) + 1 = n + k + 1 by
          omega] at this
        exact this

theorem burst_run {R p n : Int} {s st : St} {ms : List Move} {l : List (Int × Ev)} (hk : Known s) (hi : ∀ j, s.cl j = .idle)
    (ht : Burst R p n s) (h : run s ms = some st) (hl : st.log = s.log ++ l) (hc : NoCalls l) :
    ∀ (k : Nat) R', (reports l)[k]? = some R' → 1 ≤ n + k → R + (n + k - 1) * p < R' := by
  induction ms generalizing s l n with
  | nil =>
    simp only [run, Option.some.injEq] at h
    subst h
    have : l = [] := by simpa using hl
    subst this
    simp [reports]
  | cons m ms ih =>
    simp only [run] at h
    cases hs : step s m with
    | none => simp [hs] at h
    | some s1 =>
      rw [hs] at h
      obtain ⟨l', rfl, hl1⟩ := log_cut hs h hl
      obtain ⟨hc1, hc2⟩ := noCalls_append hc
      obtain ⟨hi1, hr⟩ := idle_step hk hi hs hc1
      obtain ⟨ht1, hrep⟩ := burst_step ht hs hr
      have g2 := ih (known_step hk hs) hi1 ht1 h hl1 hc2
      rw [reports_append]
      intro k R' hk' hge
      by_cases hlt : k < (reports (adds s m)).length
      · rw [List.getElem?_append_left hlt] at hk'
        have hle : (reports (adds s m)).length ≤ 1 := by
          rcases adds_le s m with h0 | ⟨e, h0⟩ <;> rw [h0]
          · simp [reports]
          · exact (List.length_map (as := [e].filter _) Prod.fst).le.trans (List.length_filter_le _ _)
        have hk0 : k = 0 := by omega
        subst hk0
        simpa using hrep R' (List.mem_of_getElem? hk') (by simpa using hge)
      · rw [List.getElem?_append_right (by omega)] at hk'
        have := g2 _ R' hk' (by omega)
        rw [show n + ((reports (adds s m)).length : Int) + ((k - (reports (adds s m)).length : Nat) : Int) - 1 = n + k - 1 by
          omega] at this
        exact this

/-- The place of a report in the log. -/
theorem report_place {l : List (Int × Ev)} {k : Nat} {R : Int} (h : (reports l)[k]? = some R) :
    ∃ l1 l2, l = l1 ++ (R, .report) :: l2 ∧ (reports l1).length = k := by
  induction l generalizing k with
  | nil => simp [reports] at h
  | cons e l ih =>
    by_cases he : e.2 = .report
    · have hc : reports (e :: l) = e.1 :: reports l := by simp [reports, he]
      rw [hc] at h
      cases k with
      | zero =>
        simp at h
        exact ⟨[], l, by rw [← h, ← he]; rfl, rfl⟩
      | succ k =>
        obtain ⟨l1, l2, rfl, h2⟩ := ih (by simpa using h)
        exact ⟨e :: l1, l2, rfl, by simp [reports, he] at h2 ⊢; exact h2⟩
    · have hc : reports (e :: l) = reports l := by simp [reports, he]
      rw [hc] at h
      obtain ⟨l1, l2, rfl, h2⟩ := ih h
      exact ⟨e :: l1, l2, rfl, by simp [reports, he] at h2 ⊢; exact h2⟩

/-- Between two reports. -/
theorem apart {τ p n : Int} {s st : St} {ms : List Move} {l : List (Int × Ev)} (hk : Known s) (hi : ∀ j, s.cl j = .idle)
    (ht : Ticks τ p n s) (h : run s ms = some st) (hl : st.log = s.log ++ l) (hc : NoCalls l) {k m : Nat} {R R' : Int}
    (h1 : (reports l)[k]? = some R) (h2 : (reports l)[k + m]? = some R') (hm : 2 ≤ m) : R + (m - 2) * p < R' := by
  obtain ⟨l1, l2, rfl, hk1⟩ := report_place h1
  rw [← List.append_assoc] at hl
  obtain ⟨m1, mv, m2, s1, s2, rfl, hr1, hl1, hst, had, hr2⟩ := run_split h hl
  obtain ⟨hc1, hc2⟩ := noCalls_append hc
  have hk1' := known_run hk hr1
  have hi1 := idle_run hk hi hr1 hl1 hc1
  have ht1 := (ticks_run hk hi ht hr1 hl1 hc1).1
  have hi2 := (idle_step hk1' hi1 hst (by rw [had]; exact (noCalls_append (a := [_]) hc2).1)).1
  have hl2 : s2.log = s1.log ++ [(R, .report)] := by rw [step_log hst, had]
  have hmv : mv = .takeTick := by
    cases mv <;> simp [adds] at had
    · rfl
    · split at had <;> simp at had
  subst hmv
  have hb : Burst R p 0 s2 := by
    simp only [step] at hst
    split at hst <;> simp at hst
    simp [adds] at had
    subst hst
    exact ⟨ht1.period, ht1.pos, le_refl _, had.ge, by simp [pend], by simp [pend]⟩
  have hlast : st.log = s2.log ++ l2 := by rw [hl, hl2, hl1]; simp
  have := burst_run (known_step hk1' hst) hi2 hb hr2 hlast (noCalls_append (a := [_]) hc2).2 (m - 1) R' (by
    rw [reports_append] at h2
    rw [List.getElem?_append_right (by omega), hk1] at h2
    have : reports ((R, Ev.report) :: l2) = R :: reports l2 := by simp [reports]
    rw [this, show k + m - k = (m - 1) + 1 by omega, List.getElem?_cons_succ] at h2
    exact h2) (by omega)
  rw [show (0 : Int) + ((m - 1 : Nat) : Int) - 1 = m - 2 by omega] at this
  exact this

/-! ## One call of `SetReportingPeriod` -/

/-- Only goroutine `i` is in a call, with `d`, and what the handler has made satisfies `Q`. -/
structure Stage (i : Nat) (d : Int) (Q : St → Prop) (s : St) : Prop where
  others : ∀ j, j ≠ i → s.cl j = .idle
  sending : ∀ e, s.cl i = .sending e → e = d
  given : ∀ x ∈ sets s, x.2 = d
  made : replyTo s ≠ [] → Q s

theorem replyTo_ne {s : St} : replyTo s ≠ [] ↔ ∃ who, s.loop = .reply who := by
  unfold replyTo
  split <;> simp_all

theorem stage_step {i : Nat} {d : Int} {Q : St → Prop} {s s' : St} {m : Move} (hst : Stage i d Q s)
    (h : step s m = some s') (hc : NoCalls (adds s m)) (hret : ∀ who, s.loop = .reply who → m ≠ .finish)
    (hreset : ∀ who, s.loop = .handling (.set who d) → m = .finish → Q s')
    (hkeep : Q s → (∃ who, s.loop = .reply who) → Q s') : Stage i d Q s' := by
  obtain ⟨h1, h2, h3, h4⟩ := hst
  cases m with
  | advance δ =>
    simp only [step, Option.some.injEq] at h; subst h
    exact ⟨h1, h2, h3, fun hr => hkeep (h4 hr) (replyTo_ne.1 hr)⟩
  | fire =>
    simp only [step, Option.map_eq_some_iff] at h; obtain ⟨_, _, rfl⟩ := h
    exact ⟨h1, h2, h3, fun hr => hkeep (h4 hr) (replyTo_ne.1 hr)⟩
  | call who d => exact absurd rfl (hc (s.now, .called who d) (by simp [adds]) who d)
  | send who =>
    simp only [step] at h
    split at h <;> try simp at h
    rename_i e hw
    obtain ⟨_, rfl⟩ := h
    have hwi : who = i := by
      by_contra hne
      rw [h1 who hne] at hw
      simp at hw
    subst hwi
    have hs : sets { s.setClient who .waiting with chan := s.chan ++ [.set who e] } = sets s ++ [(who, e)] := by
      simp only [sets, St.setClient, List.filterMap_append]
      rw [List.append_assoc]
      rfl
    refine ⟨fun j hj => ?_, fun e' he => ?_, fun x hx => ?_, fun hr => hkeep (h4 hr) (replyTo_ne.1 hr)⟩
    · show (if j = who then Client.waiting else s.cl j) = .idle
      rw [if_neg hj]; exact h1 j hj
    · simp [St.setClient] at he
    · rw [hs, List.mem_append] at hx
      rcases hx with hx | hx
      · exact h3 x hx
      · simp at hx; subst hx; exact h2 e hw
  | command =>
    simp only [step] at h
    split at h <;> simp at h
    subst h
    have hs : sets { s with chan := s.chan ++ [.other] } = sets s := by
      simp [sets, List.filterMap_append, setOf]
    exact ⟨h1, h2, by rw [hs]; exact h3, fun hr => hkeep (h4 hr) (replyTo_ne.1 hr)⟩
  | takeCommand =>
    simp only [step] at h
    split at h <;> simp at h
    rename_i c cs hl hc
    subst h
    have hs : sets { s with loop := .handling c, chan := cs } = sets s := by
      simp only [sets, hl, hc, List.filterMap_cons]
      cases setOf c <;> simp
    exact ⟨h1, h2, by rw [hs]; exact h3, fun hr => absurd rfl hr⟩
  | takeTick =>
    simp only [step] at h
    split at h <;> simp at h
    rename_i hl
    subst h
    have hs : ∀ tk l, sets { s with loop := .reporting, ticker := tk, log := l } = sets s := by
      intro tk l; simp [sets, hl.1]
    exact ⟨h1, h2, by rw [hs]; exact h3, fun hr => absurd rfl hr⟩
  | finish =>
    simp only [step, finish] at h
    split at h
    · simp at h
    · rename_i hl
      simp at h; subst h
      have hs : sets { s with loop := .select } = sets s := by simp [sets, hl, setOf]
      exact ⟨h1, h2, by rw [hs]; exact h3, fun hr => absurd rfl hr⟩
    · rename_i who e hl
      have he : e = d := h3 (who, e) (sets_resets hl)
      subst he
      have hq := hreset who hl rfl
      simp at h; subst h
      refine ⟨h1, h2, fun x hx => h3 x ?_, fun _ => hq⟩
      simp only [sets] at hx ⊢
      rw [List.mem_append] at hx ⊢
      rcases hx with hx | hx
      · simp at hx
      · exact .inr hx
    · rename_i who hl
      exact absurd rfl (hret who hl)
    · rename_i hl
      simp at h; subst h
      have hs : sets { s with loop := .select } = sets s := by simp [sets, hl]
      exact ⟨h1, h2, by rw [hs]; exact h3, fun hr => absurd rfl hr⟩

theorem now_le {s s' : St} {m : Move} (h : step s m = some s') : s.now ≤ s'.now := by
  by_cases hr : Resets s m
  · obtain ⟨rfl, who, d, hl⟩ := hr
    simp [step, finish, hl] at h
    subst h; exact le_refl _
  · rcases ticker_step h hr with ⟨_, h, _⟩ | ⟨_, h, _, _⟩ | ⟨_, h, _, _⟩ <;> omega

theorem resetTicker_eq (now d : Int) : resetTicker now d = ⟨effective d, now + effective d, false⟩ := by
  unfold resetTicker effective newTicker defaultReportingDuration
  by_cases h : d ≤ 0
  · rw [if_pos h, if_neg (by omega)]; rfl
  · rw [if_neg h, if_pos (by omega)]

theorem effective_pos (d : Int) : 0 < effective d := by
  unfold effective; split <;> omega

theorem ticks_new {s : St} {now p : Int} (hp : 0 < p) (h : s.ticker = ⟨p, now + p, false⟩) : Ticks now p 0 s := by
  refine ⟨by rw [h], hp, le_refl _, by rw [h]; simp [pend], by rw [h]; simp [pend]⟩

/-- What `Q` is when nothing is known of the schedule. -/
def Made (τc p : Int) (s : St) : Prop := ∃ τ, τc ≤ τ ∧ τ ≤ s.now ∧ Ticks τ p 0 s

/-- The goroutine's call, up to its return. -/
theorem stage_run {i : Nat} {d τc : Int} {s st : St} {ms : List Move} {l : List (Int × Ev)} (hk : Known s) (hnow : τc ≤ s.now)
    (hs : Stage i d (Made τc (effective d)) s ∨ ∀ j, s.cl j = .idle) (h : run s ms = some st) (hl : st.log = s.log ++ l)
    (hc : NoCalls l) : Stage i d (Made τc (effective d)) st ∨ ∀ j, st.cl j = .idle := by
  induction ms generalizing s l with
  | nil => simp only [run, Option.some.injEq] at h; exact h ▸ hs
  | cons m ms ih =>
    simp only [run] at h
    cases hm : step s m with
    | none => simp [hm] at h
    | some s1 =>
      rw [hm] at h
      obtain ⟨l', rfl, hl1⟩ := log_cut hm h hl
      obtain ⟨hc1, hc2⟩ := noCalls_append hc
      have hle := now_le hm
      refine ih (known_step hk hm) (by omega) ?_ h hl1 hc2
      rcases hs with hs | hs
      · by_cases hret : ∃ who, s.loop = .reply who ∧ m = .finish
        · obtain ⟨who, hlp, rfl⟩ := hret
          right
          simp only [step, finish, hlp] at hm
          split at hm <;> simp at hm
          rename_i hw
          have : who = i := by
            by_contra hne
            rw [hs.others who hne] at hw
            simp at hw
          subst this
          subst hm
          intro j
          show (if j = who then Client.idle else s.cl j) = .idle
          by_cases hj : j = who
          · rw [if_pos hj]
          · rw [if_neg hj]; exact hs.others j hj
        · left
          refine stage_step hs hm hc1 (fun who h1 h2 => hret ⟨who, h1, h2⟩) ?_ ?_
          · rintro who hlp rfl
            simp [step, finish, hlp] at hm
            subst hm
            exact ⟨s.now, hnow, le_refl _, ticks_new (effective_pos d) (resetTicker_eq _ _)⟩
          · rintro ⟨τ, h1, h2, h3⟩ ⟨who, hlp⟩
            refine ⟨τ, h1, by omega, ?_⟩
            have hnr : ¬ Resets s m := by rintro ⟨_, w, e, hw⟩; rw [hlp] at hw; simp at hw
            have hrep : reports (adds s m) = [] := by
              cases m <;> simp [adds, reports]
              · simp [step, hlp] at hm
              · simp [hlp]
            have := (ticks_step h3 hm hnr).1
            rw [hrep] at this
            simpa using this
      · exact .inr (idle_step hk hs hm hc1).1

/-- **C89.** After a call of `SetReportingPeriod(d)` has returned, the `k`-th report comes no earlier than `k` periods after
the call, and of any `m + 1` reports the last comes more than `m - 2` periods after the first, if the goroutines that set
the period do so one after the other, and until one does so again. -/
theorem not_too_often {t0 : Int} {cap : Nat} {ms : List Move} {st : St} (h : run (init t0 cap) ms = some st)
    {a b c : List (Int × Ev)} {i : Nat} {d τc τr : Int}
    (hl : st.log = a ++ (τc, .called i d) :: (b ++ (τr, .returned i) :: c))
    (ha : ∀ j, ¬ Inside j a) (hb : NoCalls b) (hc : NoCalls c) :
    (∀ (k : Nat) R, (reports c)[k]? = some R → τc + (k + 1) * effective d ≤ R) ∧
    ∀ (k m : Nat) R R', (reports c)[k]? = some R → (reports c)[k + m]? = some R' → 2 ≤ m → R + (m - 2) * effective d < R' := by
  obtain ⟨m1, mv, m2, s1, s2, rfl, hr1, hl1, hst, had, hr2⟩ := run_split h (by simpa [init] using hl)
  have hk1 := known_run (known_init t0 cap) hr1
  have hl1 : s1.log = a := by simpa [init] using hl1
  have hi1 : ∀ j, s1.cl j = .idle := by
    intro j
    by_contra hne
    exact ha j (hl1 ▸ (hk1.inside j).1 hne)
  obtain ⟨hs1, hq1⟩ := known_quiet hk1 hi1
  have hmv : mv = .call i d ∧ s1.now = τc := by
    cases mv with
    | call who e => simp [adds] at had; simp [had]
    | takeTick => simp [adds] at had
    | finish => simp only [adds] at had; split at had <;> simp at had
    | _ => simp [adds] at had
  obtain ⟨rfl, hτ⟩ := hmv
  have hk2 := known_step hk1 hst
  have hl2 : s2.log = a ++ [(τc, .called i d)] := by rw [step_log hst, had, hl1]
  have hstage : Stage i d (Made τc (effective d)) s2 := by
    simp only [step] at hst
    split at hst <;> simp at hst
    subst hst
    refine ⟨fun j hj => ?_, fun e he => ?_, fun x hx => ?_, fun hr => ?_⟩
    · show (if j = i then Client.sending d else s1.cl j) = .idle
      rw [if_neg hj]; exact hi1 j
    · simpa [St.setClient] using he.symm
    · have : x ∈ sets s1 := hx
      rw [hs1] at this; simp at this
    · exact absurd hq1 hr
  have hn2 : τc ≤ s2.now := by have := now_le hst; omega
  obtain ⟨m3, mv, m4, s3, s4, rfl, hr3, hl3, hst3, had3, hr4⟩ := run_split (p := b) (e := (τr, .returned i)) (l := c) hr2 (by rw [hl, hl2]; simp)
  have hk3 := known_run hk2 hr3
  have hJ := stage_run hk2 hn2 (.inl hstage) hr3 hl3 hb
  have hmv : mv = .finish ∧ s3.loop = .reply i := by
    cases mv with
    | finish =>
      simp only [adds] at had3
      split at had3 <;> simp at had3
      rename_i who hlp
      exact ⟨rfl, by rw [hlp, had3.2]⟩
    | _ => simp [adds] at had3
  obtain ⟨rfl, hlp⟩ := hmv
  rcases hJ with hJ | hJ
  · obtain ⟨τ, hτ1, _, htk⟩ := hJ.made (replyTo_ne.2 ⟨i, hlp⟩)
    have hnr : ¬ Resets s3 .finish := by rintro ⟨_, w, e, hw⟩; rw [hlp] at hw; simp at hw
    have htk4 := (ticks_step htk hst3 hnr).1
    rw [had3] at htk4
    have htk4 : Ticks τ (effective d) 0 s4 := by simpa [reports] using htk4
    have hi4 : ∀ j, s4.cl j = .idle := by
      simp only [step, finish, hlp] at hst3
      split at hst3 <;> simp at hst3
      subst hst3
      intro j
      show (if j = i then Client.idle else s3.cl j) = .idle
      by_cases hj : j = i
      · rw [if_pos hj]
      · rw [if_neg hj]; exact hJ.others j hj
    have hk4 := known_step hk3 hst3
    have hl4 : st.log = s4.log ++ c := by rw [hl, step_log hst3, had3, hl3, hl2]; simp
    refine ⟨fun k R hk' => ?_, fun k m R R' h1 h2 hm => apart hk4 hi4 htk4 hr4 hl4 hc h1 h2 hm⟩
    have := (ticks_run hk4 hi4 htk4 hr4 hl4 hc).2 k R hk'
    simp only [zero_add] at this
    omega
  · exact absurd (known_quiet hk3 hJ).2 (replyTo_ne.2 ⟨i, hlp⟩)

/-- **C89.** A meter whose period was not set reports at most every ten seconds in the same sense. -/
theorem default_period {t0 : Int} {cap : Nat} {ms : List Move} {st : St} (h : run (init t0 cap) ms = some st)
    (hc : NoCalls st.log) :
    (∀ (k : Nat) R, (reports st.log)[k]? = some R → t0 + (k + 1) * 10000000000 ≤ R) ∧
    ∀ (k m : Nat) R R', (reports st.log)[k]? = some R → (reports st.log)[k + m]? = some R' → 2 ≤ m →
      R + (m - 2) * 10000000000 < R' := by
  have hk := known_init t0 cap
  have hi : ∀ j, (init t0 cap).cl j = .idle := fun _ => rfl
  have ht : Ticks t0 10000000000 0 (init t0 cap) := ticks_new (by decide) rfl
  have hl : st.log = (init t0 cap).log ++ st.log := by simp [init]
  refine ⟨fun k R hk' => ?_, fun k m R R' h1 h2 hm => apart hk hi ht h hl hc h1 h2 hm⟩
  have := (ticks_run hk hi ht h hl hc).2 k R hk'
  simpa using this

/-! ## A meter that is not kept waiting -/

theorem prompt_append {s s1 : St} {a b : List Move} (hp : Prompt s (a ++ b)) (h : run s a = some s1) :
    Prompt s a ∧ Prompt s1 b := by
  induction a generalizing s with
  | nil => simp only [run, Option.some.injEq] at h; subst h; exact ⟨trivial, hp⟩
  | cons m ms ih =>
    simp only [run] at h
    cases hs : step s m with
    | none => simp [hs] at h
    | some s2 =>
      rw [hs] at h
      obtain ⟨h1, h2⟩ := hp
      obtain ⟨h3, h4⟩ := ih (h2 s2 hs) h
      refine ⟨⟨h1, fun s' hs' => ?_⟩, h4⟩
      have : s' = s2 := Option.some.inj (hs'.symm.trans hs)
      exact this ▸ h3

/-- Of the ticks since `τ`, `n` have been received, each when it was due. -/
structure Exact (τ p n : Int) (s : St) : Prop where
  period : s.ticker.period = p
  pos : 0 < p
  due : (s.ticker.pending = false ∧ s.ticker.next = τ + (n + 1) * p ∧ s.now ≤ s.ticker.next) ∨
    (s.ticker.pending = true ∧ s.now = τ + (n + 1) * p ∧ s.ticker.next = τ + (n + 2) * p)

theorem now_same {s s' : St} {m : Move} (h : step s m = some s') :
    s'.now = s.now ∨ ∃ δ : Nat, m = .advance δ ∧ s' = { s with now := s.now + δ } := by
  by_cases hr : Resets s m
  · obtain ⟨rfl, who, d, hl⟩ := hr
    simp [step, finish, hl] at h
    subst h; exact .inl rfl
  · cases m with
    | advance δ => simp only [step, Option.some.injEq] at h; exact .inr ⟨δ, rfl, h.symm⟩
    | fire => simp only [step, Option.map_eq_some_iff] at h; obtain ⟨_, _, rfl⟩ := h; exact .inl rfl
    | call who d => simp only [step] at h; split at h <;> simp at h; subst h; exact .inl rfl
    | send who =>
      simp only [step] at h
      split at h <;> try simp at h
      obtain ⟨_, rfl⟩ := h; exact .inl rfl
    | command => simp only [step] at h; split at h <;> simp at h; subst h; exact .inl rfl
    | takeCommand => simp only [step] at h; split at h <;> simp at h; subst h; exact .inl rfl
    | takeTick => simp only [step] at h; split at h <;> simp at h; subst h; exact .inl rfl
    | finish =>
      simp only [step, finish] at h
      split at h
      · simp at h
      · simp at h; subst h; exact .inl rfl
      · simp at h; subst h; exact .inl rfl
      · split at h <;> simp at h; subst h; exact .inl rfl
      · simp at h; subst h; exact .inl rfl

theorem exact_step {τ p n : Int} {s s' : St} {m : Move} {ms : List Move} (he : Exact τ p n s) (h : step s m = some s')
    (hn : ¬ Resets s m) (hp : Prompt s (m :: ms)) :
    (reports (adds s m) = [] ∧ Exact τ p n s') ∨ (reports (adds s m) = [τ + (n + 1) * p] ∧ Exact τ p (n + 1) s') := by
  obtain ⟨h1, h2, h3⟩ := he
  rcases now_same h with hnow | ⟨δ, rfl, rfl⟩
  · rcases ticker_step h hn with ⟨e1, e2, e3⟩ | ⟨e1, e2, e3, e4⟩ | ⟨e1, e2, e3, e4⟩
    · left
      refine ⟨e3, by rw [e1]; exact h1, h2, ?_⟩
      rw [e1, hnow]
      exact h3
    · left
      rcases h3 with ⟨g1, g2, g3⟩ | ⟨g1, g2, g3⟩
      · have heq : s.now = s.ticker.next := by omega
        refine ⟨e3, by rw [e4]; exact h1, h2, .inr ⟨by rw [e4], by omega, ?_⟩⟩
        rw [e4, h1]
        show s.ticker.next + p * (1 + (s.now - s.ticker.next) / p) = _
        rw [heq, Int.sub_self, Int.zero_ediv, g2]
        ring
      · exfalso
        nlinarith
    · right
      rcases h3 with ⟨g1, g2, g3⟩ | ⟨g1, g2, g3⟩
      · rw [g1] at e1; simp at e1
      · refine ⟨by rw [e4, g2], by rw [e3]; exact h1, h2, .inl ⟨by rw [e3], ?_, ?_⟩⟩
        · rw [e3]
          show s.ticker.next = _
          rw [g3]; ring
        · rw [e3, e2]
          show s.now ≤ s.ticker.next
          nlinarith
  · left
    obtain ⟨_, _, g1, g2⟩ := hp.1 δ rfl
    refine ⟨rfl, h1, h2, ?_⟩
    rcases h3 with ⟨k1, k2, k3⟩ | ⟨k1, k2, k3⟩
    · exact .inl ⟨k1, k2, g2⟩
    · rw [g1] at k1; simp at k1

theorem exact_run {τ p : Int} {n : Nat} {s st : St} {ms : List Move} {l : List (Int × Ev)} (hk : Known s)
    (hi : ∀ j, s.cl j = .idle) (he : Exact τ p n s) (h : run s ms = some st) (hp : Prompt s ms)
    (hl : st.log = s.log ++ l) (hc : NoCalls l) :
    ∃ k : Nat, reports l = (List.range k).map (fun j : Nat => τ + ((n + j : Nat) + 1 : Int) * p) ∧ Exact τ p (n + k : Nat) st := by
  induction ms generalizing s l n with
  | nil =>
    simp only [run, Option.some.injEq] at h
    subst h
    have : l = [] := by simpa using hl
    subst this
    exact ⟨0, by simp [reports], by simpa using he⟩
  | cons m ms ih =>
    simp only [run] at h
    cases hs : step s m with
    | none => simp [hs] at h
    | some s1 =>
      rw [hs] at h
      obtain ⟨l', rfl, hl1⟩ := log_cut hs h hl
      obtain ⟨hc1, hc2⟩ := noCalls_append hc
      obtain ⟨hi1, hr⟩ := idle_step hk hi hs hc1
      rcases exact_step he hs hr hp with ⟨h1, h2⟩ | ⟨h1, h2⟩
      · obtain ⟨k, g1, g2⟩ := ih (known_step hk hs) hi1 h2 h (hp.2 s1 hs) hl1 hc2
        exact ⟨k, by rw [reports_append, h1, g1]; rfl, g2⟩
      · have h2 : Exact τ p ((n + 1 : Nat) : Int) s1 := by simpa using h2
        obtain ⟨k, g1, g2⟩ := ih (known_step hk hs) hi1 h2 h (hp.2 s1 hs) hl1 hc2
        refine ⟨k + 1, ?_, by rw [show n + (k + 1) = n + 1 + k by omega]; exact g2⟩
        rw [reports_append, h1, g1, List.range_succ_eq_map, List.map_cons, List.map_map]
        simp only [List.singleton_append, Nat.add_zero]
        congr 1
        apply List.map_congr_left
        intro j _
        simp only [Function.comp]
        congr 2
        omega

theorem exact_new {s : St} {p : Int} (hp : 0 < p) (h : s.ticker = ⟨p, s.now + p, false⟩) : Exact s.now p 0 s := by
  refine ⟨by rw [h], hp, .inl ⟨by rw [h], by rw [h]; simp, by rw [h]; simp; omega⟩⟩

/-- The goroutine's call when nothing waits: the ticker is made at the time of the return. -/
theorem stage_prompt {i : Nat} {d : Int} {s st : St} {ms : List Move} {l : List (Int × Ev)} (hk : Known s)
    (hs : Stage i d (fun s => s.ticker = ⟨effective d, s.now + effective d, false⟩) s ∨ ∀ j, s.cl j = .idle)
    (h : run s ms = some st) (hp : Prompt s ms) (hl : st.log = s.log ++ l) (hc : NoCalls l) :
    Stage i d (fun s => s.ticker = ⟨effective d, s.now + effective d, false⟩) st ∨ ∀ j, st.cl j = .idle := by
  induction ms generalizing s l with
  | nil => simp only [run, Option.some.injEq] at h; exact h ▸ hs
  | cons m ms ih =>
    simp only [run] at h
    cases hm : step s m with
    | none => simp [hm] at h
    | some s1 =>
      rw [hm] at h
      obtain ⟨l', rfl, hl1⟩ := log_cut hm h hl
      obtain ⟨hc1, hc2⟩ := noCalls_append hc
      refine ih (known_step hk hm) ?_ h (hp.2 s1 hm) hl1 hc2
      rcases hs with hs | hs
      · by_cases hret : ∃ who, s.loop = .reply who ∧ m = .finish
        · obtain ⟨who, hlp, rfl⟩ := hret
          right
          simp only [step, finish, hlp] at hm
          split at hm <;> simp at hm
          rename_i hw
          have : who = i := by
            by_contra hne
            rw [hs.others who hne] at hw
            simp at hw
          subst this
          subst hm
          intro j
          show (if j = who then Client.idle else s.cl j) = .idle
          by_cases hj : j = who
          · rw [if_pos hj]
          · rw [if_neg hj]; exact hs.others j hj
        · left
          refine stage_step hs hm hc1 (fun who h1 h2 => hret ⟨who, h1, h2⟩) ?_ ?_
          · rintro who hlp rfl
            simp [step, finish, hlp] at hm
            subst hm
            exact resetTicker_eq _ _
          · rintro hq ⟨who, hlp⟩
            have hnr : ¬ Resets s m := by rintro ⟨_, w, e, hw⟩; rw [hlp] at hw; simp at hw
            have hpos := effective_pos d
            rcases now_same hm with hnow | ⟨δ, rfl, _⟩
            · rcases ticker_step hm hnr with ⟨e1, _, _⟩ | ⟨e1, _, _, _⟩ | ⟨e1, _, _, _⟩
              · rw [e1, hnow]; exact hq
              · rw [hq] at e1; simp at e1; omega
              · rw [hq] at e1; simp at e1
            · have := (hp.1 δ rfl).1
              rw [hlp] at this; simp at this
      · exact .inr (idle_step hk hs hm hc1).1

/-- **C89.** After `SetReportingPeriod(d)` has returned at `τr`, a meter that is not kept waiting reports at `τr` plus one, two,
three and more periods, and none of these reports is missing, until the period is set again. -/
theorem on_time {t0 : Int} {cap : Nat} {ms : List Move} {st : St} (h : run (init t0 cap) ms = some st)
    (hp : Prompt (init t0 cap) ms) {a b c : List (Int × Ev)} {i : Nat} {d τc τr : Int}
    (hl : st.log = a ++ (τc, .called i d) :: (b ++ (τr, .returned i) :: c))
    (ha : ∀ j, ¬ Inside j a) (hb : NoCalls b) (hc : NoCalls c) :
    ∃ n : Nat, reports c = (List.range n).map (fun j : Nat => τr + (j + 1) * effective d) ∧
      st.now ≤ τr + (n + 1) * effective d := by
  obtain ⟨m1, mv, m2, s1, s2, rfl, hr1, hl1, hst, had, hr2⟩ := run_split h (by simpa [init] using hl)
  have hk1 := known_run (known_init t0 cap) hr1
  have hp1 := (prompt_append hp hr1).2
  have hl1 : s1.log = a := by simpa [init] using hl1
  have hi1 : ∀ j, s1.cl j = .idle := by
    intro j
    by_contra hne
    exact ha j (hl1 ▸ (hk1.inside j).1 hne)
  obtain ⟨hs1, hq1⟩ := known_quiet hk1 hi1
  have hmv : mv = .call i d ∧ s1.now = τc := by
    cases mv with
    | call who e => simp [adds] at had; simp [had]
    | takeTick => simp [adds] at had
    | finish => simp only [adds] at had; split at had <;> simp at had
    | _ => simp [adds] at had
  obtain ⟨rfl, hτ⟩ := hmv
  have hk2 := known_step hk1 hst
  have hp2 := hp1.2 s2 hst
  have hl2 : s2.log = a ++ [(τc, .called i d)] := by rw [step_log hst, had, hl1]
  have hstage : Stage i d (fun s => s.ticker = ⟨effective d, s.now + effective d, false⟩) s2 := by
    simp only [step] at hst
    split at hst <;> simp at hst
    subst hst
    refine ⟨fun j hj => ?_, fun e he => ?_, fun x hx => ?_, fun hr => ?_⟩
    · show (if j = i then Client.sending d else s1.cl j) = .idle
      rw [if_neg hj]; exact hi1 j
    · simpa [St.setClient] using he.symm
    · have : x ∈ sets s1 := hx
      rw [hs1] at this; simp at this
    · exact absurd hq1 hr
  obtain ⟨m3, mv, m4, s3, s4, rfl, hr3, hl3, hst3, had3, hr4⟩ :=
    run_split (p := b) (e := (τr, .returned i)) (l := c) hr2 (by rw [hl, hl2]; simp)
  have hk3 := known_run hk2 hr3
  obtain ⟨hp3, hp3'⟩ := prompt_append hp2 hr3
  have hp4 := hp3'.2 s4 hst3
  have hJ := stage_prompt hk2 (.inl hstage) hr3 hp3 hl3 hb
  have hmv : mv = .finish ∧ s3.loop = .reply i ∧ s3.now = τr := by
    cases mv with
    | finish =>
      simp only [adds] at had3
      split at had3 <;> simp at had3
      rename_i who hlp
      exact ⟨rfl, by rw [hlp, had3.2], had3.1⟩
    | _ => simp [adds] at had3
  obtain ⟨rfl, hlp, hτr⟩ := hmv
  rcases hJ with hJ | hJ
  · have htk := hJ.made (replyTo_ne.2 ⟨i, hlp⟩)
    have h4 : (∀ j, s4.cl j = .idle) ∧ s4.ticker = s3.ticker ∧ s4.now = s3.now := by
      simp only [step, finish, hlp] at hst3
      split at hst3 <;> simp at hst3
      subst hst3
      refine ⟨fun j => ?_, rfl, rfl⟩
      show (if j = i then Client.idle else s3.cl j) = .idle
      by_cases hj : j = i
      · rw [if_pos hj]
      · rw [if_neg hj]; exact hJ.others j hj
    obtain ⟨hi4, htk4, hnow4⟩ := h4
    have hk4 := known_step hk3 hst3
    have hl4 : st.log = s4.log ++ c := by rw [hl, step_log hst3, had3, hl3, hl2]; simp
    have he : Exact s4.now (effective d) ((0 : Nat) : Int) s4 := by
      simpa using exact_new (effective_pos d) (by rw [htk4, hnow4]; exact htk)
    obtain ⟨n, g1, g2⟩ := exact_run hk4 hi4 he hr4 hp4 hl4 hc
    rw [hnow4, hτr] at g1 g2
    refine ⟨n, ?_, ?_⟩
    · rw [g1]; simp
    · rcases g2.due with ⟨_, q1, q2⟩ | ⟨_, q1, _⟩
      · simp only [Nat.zero_add] at q1; omega
      · simp only [Nat.zero_add] at q1; omega
  · exact absurd (known_quiet hk3 hJ).2 (replyTo_ne.2 ⟨i, hlp⟩)

/-- **C89.** A meter whose period was not set reports every ten seconds since it was made. -/
theorem default_on_time {t0 : Int} {cap : Nat} {ms : List Move} {st : St} (h : run (init t0 cap) ms = some st)
    (hp : Prompt (init t0 cap) ms) (hc : NoCalls st.log) :
    ∃ n : Nat, reports st.log = (List.range n).map (fun j : Nat => t0 + (j + 1) * 10000000000) ∧
      st.now ≤ t0 + (n + 1) * 10000000000 := by
  have he : Exact t0 10000000000 ((0 : Nat) : Int) (init t0 cap) :=
    exact_new (s := init t0 cap) (by decide) rfl
  obtain ⟨n, g1, g2⟩ := exact_run (l := st.log) (known_init t0 cap) (fun _ => rfl) he h hp (by simp [init]) hc
  refine ⟨n, by rw [g1]; simp, ?_⟩
  rcases g2.due with ⟨_, q1, q2⟩ | ⟨_, q1, _⟩
  · simp only [Nat.zero_add] at q1; omega
  · simp only [Nat.zero_add] at q1; omega

/-- **C89.** Whatever goes on, when a tick is due and the period is not just being set, a report can follow by steps of the ticker and the loop alone. -/
theorem report_follows {t0 : Int} {cap : Nat} {ms : List Move} {st : St} (h : run (init t0 cap) ms = some st)
    (hset : ∀ who d, st.loop ≠ .handling (.set who d)) (hdue : st.ticker.next ≤ st.now) :
    ∃ more st', more.length ≤ 3 ∧ (∀ m ∈ more, m = .fire ∨ m = .finish ∨ m = .takeTick) ∧ run st more = some st' ∧
      reports st'.log = reports st.log ++ [st.now] := by
  have hk := known_run (known_init t0 cap) h
  have hidle : ∃ more s1, more.length ≤ 1 ∧ (∀ m ∈ more, m = .finish) ∧ run st more = some s1 ∧ s1.loop = .select ∧
      s1.ticker = st.ticker ∧ s1.now = st.now ∧ reports s1.log = reports st.log := by
    cases hl : st.loop with
    | select => exact ⟨[], st, by simp, by simp, rfl, hl, rfl, rfl, rfl⟩
    | handling c =>
      cases c with
      | set who d => exact absurd hl (hset who d)
      | other => exact ⟨[.finish], { st with loop := .select }, by simp, by simp, by simp [run, step, finish, hl], rfl, rfl, rfl, rfl⟩
    | reply who =>
      have hw : st.cl who = .waiting := (hk.waits who).1 (by simp [replyTo, hl])
      exact ⟨[.finish], { st.setClient who .idle with loop := .select, log := st.log ++ [(st.now, .returned who)] },
        by simp, by simp, by simp [run, step, finish, hl, hw], rfl, rfl, rfl, by rw [reports_append]; simp [reports]⟩
    | reporting => exact ⟨[.finish], { st with loop := .select }, by simp, by simp, by simp [run, step, finish, hl], rfl, rfl, rfl, rfl⟩
  obtain ⟨more, s1, h1, h2, h3, h4, h5, h6, h7⟩ := hidle
  have hf : ∃ s2, run s1 [.fire, .takeTick] = some s2 ∧ reports s2.log = reports s1.log ++ [s1.now] := by
    have hd : ¬ s1.now < s1.ticker.next := by rw [h5, h6]; omega
    exact ⟨_, by simp only [run, step, Ticker.fire, if_neg hd, Option.map_some, Option.bind_some, h4, and_self, if_true]; rfl,
      by rw [reports_append]; rfl⟩
  obtain ⟨s2, g1, g2⟩ := hf
  refine ⟨more ++ [.fire, .takeTick], s2, by simp; omega, ?_, by rw [run_append, h3]; exact g1, by rw [g2, h7, h6]⟩
  intro m hm
  rw [List.mem_append] at hm
  rcases hm with hm | hm
  · exact .inr (.inl (h2 m hm))
  · simp at hm; rcases hm with rfl | rfl <;> simp

/-! ## Examples -/

/-- A goroutine sets five seconds at time 3 s; reports at 8 s and 13 s. -/
def exampleMoves : List Move :=
  [.advance 3000000000, .call 7 5000000000, .send 7, .takeCommand, .finish, .finish, .advance 5000000000, .fire, .takeTick,
   .finish, .advance 5000000000, .fire, .takeTick, .finish, .advance 1]

/-- The loop is busy for 12 s after the period was set: the tick of 8 s is received at 15 s, that of 18 s at 18 s. -/
def exampleLate : List Move :=
  [.advance 3000000000, .call 7 5000000000, .send 7, .takeCommand, .finish, .finish, .command, .takeCommand,
   .advance 5000000000, .fire, .advance 7000000000, .fire, .finish, .takeTick, .finish, .advance 3000000000, .fire, .takeTick]

def logOf (o : Option St) : Option (Int × List (Int × Ev)) := o.map fun s => (s.now, s.log)

theorem example_run : logOf (run (init 0 2) exampleMoves) = some (13000000001,
    [(3000000000, .called 7 5000000000), (3000000000, .returned 7), (8000000000, .report), (13000000000, .report)]) := by
  decide +kernel

theorem example_late : logOf (run (init 0 2) exampleLate) = some (18000000000,
    [(3000000000, .called 7 5000000000), (3000000000, .returned 7), (15000000000, .report), (18000000000, .report)]) := by
  decide +kernel

theorem example_prompt : Prompt (init 0 2) exampleMoves := by
  simp [Prompt, exampleMoves, init, step, finish, newTicker, resetTicker, defaultReportingDuration, Ticker.fire, St.setClient]

/-- Non-vacuity of `on_time` and `not_too_often`: the run above. -/
example : ∃ st, run (init 0 2) exampleMoves = some st ∧ ∃ n : Nat,
    [8000000000, 13000000000] = (List.range n).map (fun j : Nat => (3000000000 : Int) + (j + 1) * 5000000000) ∧
    st.now ≤ 3000000000 + (n + 1) * 5000000000 := by
  have h := example_run
  obtain ⟨st, hst, he⟩ := Option.map_eq_some_iff.1 (show (run (init 0 2) exampleMoves).map (fun s => (s.now, s.log)) = _ from h)
  have hl := (Prod.mk.injEq .. ▸ he).2
  have hin : ∀ j, ¬ Inside j [] := by rintro j ⟨a, τ, d, b, h, _⟩; simp at h
  refine ⟨st, hst, ?_⟩
  exact on_time (a := []) (b := []) (i := 7) (τc := 3000000000) (τr := 3000000000) (d := 5000000000)
    (c := [(8000000000, .report), (13000000000, .report)]) hst example_prompt (by rw [hl]; rfl) hin
    (by simp [NoCalls]) (by simp [NoCalls])

/-- Non-vacuity of `default_on_time` and `default_period`: a report at 10 s. -/
example : logOf (run (init 0 2) [.advance 10000000000, .fire, .takeTick, .finish]) = some (10000000000, [(10000000000, .report)]) ∧
    Prompt (init 0 2) [.advance 10000000000, .fire, .takeTick, .finish] :=
  ⟨by decide +kernel, by simp [Prompt, init, step, finish, newTicker, defaultReportingDuration, Ticker.fire]⟩

/-- Non-vacuity of `report_follows`: a tick is due while another command is handled. -/
example : (run (init 0 2) [.command, .takeCommand, .advance 10000000005]).any (fun s =>
    decide (s.ticker.next ≤ s.now) && decide (s.loop = .handling .other)) = true := by
  decide +kernel

end Verif.Props.Period
