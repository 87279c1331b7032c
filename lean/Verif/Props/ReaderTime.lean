import Verif.Metric.ReaderTime
import Verif.Props.Reader
import Mathlib.Tactic.Ring
import Mathlib.Tactic.Linarith

/-!
# C96: an interval reader exports at its interval
-/

namespace Verif.Props.ReaderTime
open Verif Verif.Metric Verif.Metric.ReaderTime
open Verif.Metric.Reader (Ev Act Op GPC CPC Ticker)
open Verif.Props.Reader (Inv inv_step inv_new live Running)

/-! ## Specification -/

/-- The time between exports: the interval, or one minute. -/
def effective (i : Int) : Int := if i = 0 then 60000000000 else i

/-- The times at which periodic exports began. -/
def exports (l : List Stamp) : List Int := (l.filter fun e => decide (e.ev = .exportBegin)).map Stamp.time

def NoStart (l : List Stamp) : Prop := ∀ e ∈ l, e.ev ≠ .started

/-- No tick is kept waiting: while the reader is running time passes only when no tick waits to be received, and not past
the next tick. -/
def Prompt (x : St) : List Move → Prop
  | [] => True
  | m :: ms => (∀ δ, m = .advance δ → x.s.quit.isSome = true →
        (∀ tk, x.s.tickers[x.s.timer]? = some tk → tk.pending = false) ∧ x.now + δ ≤ x.next x.s.timer) ∧
      ∀ x', step x m = some x' → Prompt x' ms

/-! ## Logs -/

theorem exports_append (a b : List Stamp) : exports (a ++ b) = exports a ++ exports b := by simp [exports]

/-- What a step of the reader adds. -/
theorem reader_log {s s' : Reader.St} {a : Act} (h : Reader.step s a = some s') :
    s'.log = s.log ∨ ∃ e, s'.log = s.log ++ [e] := by
  cases a with
  | client t =>
    simp only [Reader.step, Reader.clientStep] at h
    split at h
    · split at h
      · cases h
      · split at h <;> cases h; exact .inl rfl
    · cases h
      unfold Reader.doStart
      split
      · exact .inl rfl
      · split
        · exact .inl rfl
        · exact .inr ⟨_, rfl⟩
    · split at h <;> cases h
      · exact .inr ⟨_, rfl⟩
      · exact .inl rfl
    · split at h <;> cases h
      · exact .inl rfl
      · exact .inr ⟨_, rfl⟩
    · split at h <;> cases h; exact .inl rfl
    · split at h <;> cases h; exact .inl rfl
    · split at h
      · cases h; exact .inl rfl
      · split at h <;> cases h
        · exact .inl rfl
        · exact .inr ⟨_, rfl⟩
    · cases h; exact .inr ⟨_, rfl⟩
  | reader i =>
    simp only [Reader.step, Reader.readerStep] at h
    split at h
    · cases h
    · cases h; exact .inl rfl
    · split at h
      · cases h; exact .inr ⟨_, rfl⟩
      · split at h
        · split at h <;> cases h; exact .inl rfl
        · cases h
    · cases h; exact .inr ⟨_, rfl⟩
    · split at h <;> cases h <;> exact .inl rfl
    · split at h <;> cases h; exact .inl rfl
    · cases h
  | quitSync t i =>
    simp only [Reader.step] at h
    split at h
    · split at h <;> cases h; exact .inl rfl
    · cases h
  | doneSync t i =>
    simp only [Reader.step] at h
    split at h
    · split at h <;> cases h; exact .inl rfl
    · cases h
  | tick k =>
    simp only [Reader.step] at h
    split at h
    · cases h; exact .inr ⟨_, rfl⟩
    · cases h

/-- What a step adds. -/
def adds (x x' : St) : List Stamp := x'.log.drop x.log.length

theorem step_log {x x' : St} {m : Move} (h : step x m = some x') : x'.log = x.log ++ adds x x' := by
  cases m with
  | advance δ => simp only [step, Option.some.injEq] at h; subst h; simp [adds]
  | act a =>
    simp only [step] at h
    split at h
    · simp only [Option.map_eq_some_iff] at h
      obtain ⟨s', _, rfl⟩ := h
      simp [adds]
    · cases h

/-- The log has what the reader's has. -/
theorem step_evs {x x' : St} {m : Move} (hl : x.log.map Stamp.ev = x.s.log) (h : step x m = some x') :
    x'.log.map Stamp.ev = x'.s.log := by
  cases m with
  | advance δ => simp only [step, Option.some.injEq] at h; subst h; exact hl
  | act a =>
    simp only [step] at h
    split at h
    · simp only [Option.map_eq_some_iff] at h
      obtain ⟨s', hs, rfl⟩ := h
      simp only [List.map_append, hl, List.map_map, Function.comp_def, List.map_id']
      rcases reader_log hs with e | ⟨v, e⟩ <;> simp [e]
    · cases h

/-- What a step does to the reader's ticker. -/
inductive Change (x x' : St) : Prop
  /-- `Start` makes a new one. -/
  | started (i : Int) (hi : i = 0 ∨ 1000000000 ≤ i) (hl : adds x x' = [⟨x.now, .started, i⟩]) (hn : x'.now = x.now)
      (ht : x'.s.tickers[x'.s.timer]? = some ⟨effective i, true, false⟩) (hx : x'.next x'.s.timer = x.now + effective i)
  /-- It ticks. -/
  | fire (tk : Ticker) (hd : x.next x.s.timer ≤ x.now) (ht : x.s.tickers[x.s.timer]? = some tk) (hm : x'.s.timer = x.s.timer)
      (ht' : x'.s.tickers[x.s.timer]? = some ⟨tk.period, tk.active, true⟩)
      (hx : x'.next x.s.timer = x.next x.s.timer + tk.period * (1 + (x.now - x.next x.s.timer) / tk.period))
      (hn : x'.now = x.now) (hl : exports (adds x x') = []) (hs : NoStart (adds x x'))
  /-- A tick is received. -/
  | take (tk : Ticker) (ht : x.s.tickers[x.s.timer]? = some tk) (hp : tk.pending = true) (hm : x'.s.timer = x.s.timer)
      (ht' : x'.s.tickers[x.s.timer]? = some ⟨tk.period, tk.active, false⟩) (hx : x'.next x.s.timer = x.next x.s.timer)
      (hn : x'.now = x.now) (hl : exports (adds x x') = [x.now]) (hq : x.s.quit.isSome = true) (hs : NoStart (adds x x'))
  /-- Neither. -/
  | same (hm : x'.s.timer = x.s.timer) (ht : ∀ tk, x.s.tickers[x.s.timer]? = some tk →
        ∃ tk', x'.s.tickers[x.s.timer]? = some tk' ∧ tk'.period = tk.period ∧ tk'.pending = tk.pending)
      (hx : ∀ tk, x.s.tickers[x.s.timer]? = some tk → x'.next x.s.timer = x.next x.s.timer)
      (hn : x.now ≤ x'.now) (hl : exports (adds x x') = []) (hs : NoStart (adds x x'))

theorem change {x x' : St} {m : Move} (h : Inv x.s) (hs : step x m = some x') : Change x x' := by
  cases m with
  | advance δ =>
    simp only [step, Option.some.injEq] at hs
    subst hs
    exact .same rfl (fun tk ht => ⟨tk, ht, rfl, rfl⟩) (fun _ _ => rfl) (by simp) (by simp [adds, exports]) (by simp [adds, NoStart])
  | act a =>
    simp only [step] at hs
    split at hs
    case isFalse => cases hs
    case isTrue hdue =>
    simp only [Option.map_eq_some_iff] at hs
    obtain ⟨s', hs, rfl⟩ := hs
    -- a step that leaves the tickers
    have keep : ∀ (n : Nat → Int) (l : List Stamp), (∀ j, a ≠ .tick j) → s'.timer = x.s.timer → s'.tickers = x.s.tickers →
        (s'.log = x.s.log ∨ ∃ e, s'.log = x.s.log ++ [e] ∧ e ≠ .exportBegin ∧ e ≠ .started) →
        Change x ⟨s', x.now, nexts x a s', x.log ++ (s'.log.drop x.s.log.length).map fun e => ⟨x.now, e, interval x.s a⟩⟩ := by
      intro _ _ ha h1 h2 h3
      refine .same h1 (fun tk ht => ⟨tk, by rw [h2]; exact ht, rfl, rfl⟩) (fun tk ht => ?_) (by simp) ?_ ?_
      · simp only [nexts, ht]
      · rcases h3 with e | ⟨v, e, hv, _⟩ <;> simp [adds, e, exports, *]
      · rcases h3 with e | ⟨v, e, _, hv⟩ <;> simp [adds, e, NoStart, *]
    have keep := keep (fun _ => 0) []
    cases a with
    | client t =>
      have keep := keep (by simp)
      simp only [Reader.step, Reader.clientStep] at hs
      split at hs
      · split at hs
        · cases hs
        · split at hs <;> cases hs; exact keep rfl rfl (.inl rfl)
      · rename_i i hpc
        cases hs
        unfold Reader.doStart at keep ⊢
        split
        · rw [if_pos (by assumption)] at keep; exact keep rfl rfl (.inl rfl)
        · rename_i hi
          rw [if_neg hi] at keep
          cases hq : x.s.quit with
          | some q => rw [hq] at keep; exact keep rfl rfl (.inl rfl)
          | none =>
            have he : Reader.reportingInterval i = effective i := by
              simp only [Reader.reportingInterval, effective, Reader.second]
              split <;> simp_all
            refine .started i ?_ ?_ rfl ?_ ?_
            · simp only [Reader.second] at hi; omega
            · simp [adds, interval, hpc]
            · simp [he]
            · simp [nexts, he]
      · split at hs <;> cases hs
        · exact keep rfl rfl (.inr ⟨_, rfl, by decide, by decide⟩)
        · exact keep rfl rfl (.inl rfl)
      · split at hs <;> cases hs
        · exact keep rfl rfl (.inl rfl)
        · exact keep rfl rfl (.inr ⟨_, rfl, by decide, by decide⟩)
      · split at hs <;> cases hs; exact keep rfl rfl (.inl rfl)
      · split at hs <;> cases hs; exact keep rfl rfl (.inl rfl)
      · split at hs
        · cases hs; exact keep rfl rfl (.inl rfl)
        · split at hs <;> cases hs
          · exact keep rfl rfl (.inl rfl)
          · exact keep rfl rfl (.inr ⟨_, rfl, by decide, by decide⟩)
      · cases hs; exact keep rfl rfl (.inr ⟨_, rfl, by decide, by decide⟩)
    | reader i =>
      have keep := keep (by simp)
      simp only [Reader.step, Reader.readerStep] at hs
      split at hs
      · cases hs
      · cases hs; exact keep rfl rfl (.inl rfl)
      · rename_i q k hg
        obtain ⟨l, q', _, _, _, hq, _, hr⟩ := live h hg (by simp)
        have hk : k = x.s.timer := by
          rcases hr with (hr | hr | hr) | hr | hr <;> first | (cases hr; rfl) | cases hr
        subst hk
        split at hs
        · rename_i d a' htk
          cases hs
          have hlt := Reader.getElem?_lt htk
          refine .take _ htk rfl rfl ?_ ?_ rfl ?_ (by rw [hq]; rfl) ?_
          · simp [hlt]
          · simp [nexts, htk]
          · simp [adds, exports]
          · simp [adds, NoStart]
        · split at hs
          · split at hs <;> cases hs; exact keep rfl rfl (.inl rfl)
          · cases hs
      · cases hs; exact keep rfl rfl (.inr ⟨_, rfl, by decide, by decide⟩)
      · split at hs
        · rename_i d b p htk
          cases hs
          have hlt := Reader.getElem?_lt htk
          refine .same rfl (fun tk ht => ?_) (fun tk ht => ?_) (by simp) (by simp [adds, exports]) (by simp [adds, NoStart])
          · rw [htk] at ht; cases ht
            exact ⟨⟨d, false, p⟩, List.getElem?_set_self hlt, rfl, rfl⟩
          · simp [nexts, ht]
        · cases hs; exact keep rfl rfl (.inl rfl)
      · split at hs <;> cases hs; exact keep rfl rfl (.inl rfl)
      · cases hs
    | quitSync t i =>
      have keep := keep (by simp)
      simp only [Reader.step] at hs
      split at hs
      · split at hs <;> cases hs; exact keep rfl rfl (.inl rfl)
      · cases hs
    | doneSync t i =>
      have keep := keep (by simp)
      simp only [Reader.step] at hs
      split at hs
      · split at hs <;> cases hs; exact keep rfl rfl (.inl rfl)
      · cases hs
    | tick k =>
      simp only [Reader.step] at hs
      split at hs
      case h_2 => cases hs
      rename_i d p htk
      cases hs
      have hlt := Reader.getElem?_lt htk
      by_cases hk : k = x.s.timer
      · subst hk
        refine .fire _ (by simpa [due] using hdue) htk rfl ?_ ?_ rfl (by simp [adds, exports]) (by simp [adds, NoStart])
        · simp [hlt]
        · simp [nexts, htk]
      · refine .same rfl (fun tk ht => ⟨tk, ?_, rfl, rfl⟩) (fun tk ht => ?_) (by simp) (by simp [adds, exports]) (by simp [adds, NoStart])
        · simp only [List.getElem?_set_ne hk]; exact ht
        · simp [nexts, ht, hk]

theorem inv_time {x x' : St} {m : Move} (h : Inv x.s) (hs : step x m = some x') : Inv x'.s := by
  cases m with
  | advance δ => simp only [step, Option.some.injEq] at hs; subst hs; exact h
  | act a =>
    simp only [step] at hs
    split at hs
    · simp only [Option.map_eq_some_iff] at hs
      obtain ⟨s', hs, rfl⟩ := hs
      exact inv_step h a hs
    · cases hs

theorem adds_le {x x' : St} {m : Move} (h : step x m = some x') : adds x x' = [] ∨ ∃ e, adds x x' = [e] := by
  cases m with
  | advance δ => simp only [step, Option.some.injEq] at h; subst h; simp [adds]
  | act a =>
    simp only [step] at h
    split at h
    · simp only [Option.map_eq_some_iff] at h
      obtain ⟨s', hs, rfl⟩ := h
      rcases reader_log hs with e | ⟨v, e⟩ <;> simp [adds, e]
    · cases h

theorem run_append {x : St} {a b : List Move} : run x (a ++ b) = (run x a).bind fun x' => run x' b := by
  induction a generalizing x with
  | nil => rfl
  | cons m ms ih =>
    simp only [List.cons_append, run]
    cases step x m with
    | none => rfl
    | some x' => exact ih

theorem run_log {x x' : St} {ms : List Move} (h : run x ms = some x') : ∃ l, x'.log = x.log ++ l := by
  induction ms generalizing x with
  | nil => simp only [run, Option.some.injEq] at h; subst h; exact ⟨[], by simp⟩
  | cons m ms ih =>
    simp only [run] at h
    cases hs : step x m with
    | none => simp [hs] at h
    | some x1 =>
      rw [hs] at h
      obtain ⟨l, hl⟩ := ih h
      exact ⟨adds x x1 ++ l, by rw [hl, step_log hs, List.append_assoc]⟩

theorem run_inv {x x' : St} {ms : List Move} (hi : Inv x.s) (h : run x ms = some x') : Inv x'.s := by
  induction ms generalizing x with
  | nil => simp only [run, Option.some.injEq] at h; subst h; exact hi
  | cons m ms ih =>
    simp only [run] at h
    cases hs : step x m with
    | none => simp [hs] at h
    | some x1 => rw [hs] at h; exact ih (inv_time hi hs) h

/-- The run up to an event of the log. -/
theorem run_split {x st : St} {ms : List Move} (h : run x ms = some st) {e : Stamp} {p l : List Stamp}
    (hl : st.log = x.log ++ p ++ e :: l) :
    ∃ m1 m m2 x1 x2, ms = m1 ++ m :: m2 ∧ run x m1 = some x1 ∧ x1.log = x.log ++ p ∧ step x1 m = some x2 ∧
      adds x1 x2 = [e] ∧ run x2 m2 = some st := by
  induction ms generalizing x p with
  | nil =>
    simp only [run, Option.some.injEq] at h
    subst h
    have := congrArg List.length hl
    simp at this
  | cons m ms ih =>
    simp only [run] at h
    cases hs : step x m with
    | none => simp [hs] at h
    | some x1 =>
      rw [hs] at h
      simp only [Option.bind_some] at h
      obtain ⟨l', hl'⟩ := run_log h
      have hlog := step_log hs
      rcases adds_le hs with ha | ⟨e', ha⟩
      · obtain ⟨m1, m', m2, t1, t2, rfl, h1, h2, h3, h4, h5⟩ := ih (p := p) h (by rw [hl, hlog, ha]; simp)
        exact ⟨m :: m1, m', m2, t1, t2, rfl, by simp [run, hs, h1], by rw [h2, hlog, ha]; simp, h3, h4, h5⟩
      · cases p with
        | nil =>
          refine ⟨[], m, ms, x, x1, rfl, rfl, by simp, hs, ?_, h⟩
          rw [hl', hlog, ha] at hl
          simp at hl
          rw [ha, hl.1]
        | cons y p =>
          have hx : y = e' := by
            rw [hl', hlog, ha] at hl
            simp at hl
            exact hl.1.symm
          subst hx
          obtain ⟨m1, m', m2, t1, t2, rfl, h1, h2, h3, h4, h5⟩ := ih (p := p) h (by rw [hl, hlog, ha]; simp)
          exact ⟨m :: m1, m', m2, t1, t2, rfl, by simp [run, hs, h1], by rw [h2, hlog, ha]; simp, h3, h4, h5⟩

theorem noStart_append {a b : List Stamp} (h : NoStart (a ++ b)) : NoStart a ∧ NoStart b :=
  ⟨fun e he => h e (by simp [he]), fun e he => h e (by simp [he])⟩

theorem log_cut {x x1 st : St} {m : Move} {ms : List Move} {l : List Stamp} (hs : step x m = some x1)
    (h : run x1 ms = some st) (hl : st.log = x.log ++ l) : ∃ l', l = adds x x1 ++ l' ∧ st.log = x1.log ++ l' := by
  obtain ⟨l', hl'⟩ := run_log h
  refine ⟨l', ?_, hl'⟩
  rw [hl', step_log hs, List.append_assoc] at hl
  exact (List.append_cancel_left hl).symm

/-! ## The ticker -/

/-- The ticker of the reader: its period, whether a tick waits, and the time of the next. -/
def Has (x : St) (p : Int) (w : Bool) (nx : Int) : Prop :=
  ∃ tk, x.s.tickers[x.s.timer]? = some tk ∧ tk.period = p ∧ tk.pending = w ∧ x.next x.s.timer = nx

/-- What a step other than `Start` does to it. -/
theorem has_step {x x' : St} {m : Move} (h : Inv x.s) (hs : step x m = some x') (hn : NoStart (adds x x')) {p nx : Int} {w : Bool}
    (hh : Has x p w nx) :
    (Has x' p w nx ∧ x.now ≤ x'.now ∧ exports (adds x x') = []) ∨
    (nx ≤ x.now ∧ x'.now = x.now ∧ exports (adds x x') = [] ∧ Has x' p true (nx + p * (1 + (x.now - nx) / p))) ∨
    (w = true ∧ x'.now = x.now ∧ Has x' p false nx ∧ exports (adds x x') = [x.now] ∧ x.s.quit.isSome = true) := by
  obtain ⟨tk, t1, rfl, rfl, rfl⟩ := hh
  rcases change h hs with ⟨i, _, hl, _⟩ | ⟨tk', hd, ht, hm, ht', hx, hnow, hl, _⟩ | ⟨tk', ht, hp, hm, ht', hx, hnow, hl, hq, _⟩ |
    ⟨hm, ht, hx, hnow, hl, _⟩
  · rw [hl] at hn
    exact absurd rfl (hn _ (List.mem_singleton.2 rfl))
  · rw [t1] at ht; cases ht
    exact .inr (.inl ⟨hd, hnow, hl, ⟨tk.period, tk.active, true⟩, by rw [hm]; exact ht', rfl, rfl, by rw [hm]; exact hx⟩)
  · rw [t1] at ht; cases ht
    exact .inr (.inr ⟨hp, hnow, ⟨⟨tk.period, tk.active, false⟩, by rw [hm]; exact ht', rfl, rfl, by rw [hm]; exact hx⟩, hl, hq⟩)
  · obtain ⟨tk', k1, k2, k3⟩ := ht tk t1
    exact .inl ⟨⟨tk', by rw [hm]; exact k1, k2, k3, by rw [hm]; exact hx tk t1⟩, hnow, hl⟩

def pend (w : Bool) : Int := if w then 1 else 0

theorem pend_cases (w : Bool) : (w = true ∧ pend w = 1) ∨ (w = false ∧ pend w = 0) := by cases w <;> simp [pend]

/-- Since `τ` the ticker has had the period `p`, and `n` of its ticks were received. -/
def Ticks (τ p n : Int) (x : St) : Prop :=
  ∃ w nx, Has x p w nx ∧ 0 < p ∧ 0 ≤ n ∧ τ + (n + pend w + 1) * p ≤ nx ∧ (1 ≤ n + pend w → τ + (n + pend w) * p ≤ x.now)

/-- Since a tick was received at `R`, `n` others were. -/
def Burst (R p n : Int) (x : St) : Prop :=
  ∃ w nx, Has x p w nx ∧ 0 < p ∧ 0 ≤ n ∧ R ≤ x.now ∧ (1 ≤ n + pend w → R + (n + pend w - 1) * p < nx) ∧
    (2 ≤ n + pend w → R + (n + pend w - 2) * p < x.now)

theorem grid {a now p : Int} (hp : 0 < p) (h : a ≤ now) :
    a + p ≤ a + p * (1 + (now - a) / p) ∧ now < a + p * (1 + (now - a) / p) := by
  have h1 : 0 ≤ (now - a) / p := Int.ediv_nonneg (by omega) (by omega)
  have h2 : 0 ≤ p * ((now - a) / p) := Int.mul_nonneg (by omega) h1
  have h3 := Int.mul_ediv_add_emod (now - a) p
  have h4 := Int.emod_lt_of_pos (now - a) hp
  rw [Int.mul_add]
  constructor <;> omega

theorem ticks_step {τ p n : Int} {x x' : St} {m : Move} (hi : Inv x.s) (ht : Ticks τ p n x) (h : step x m = some x')
    (hn : NoStart (adds x x')) :
    Ticks τ p (n + (exports (adds x x')).length) x' ∧ ∀ R ∈ exports (adds x x'), τ + (n + 1) * p ≤ R := by
  obtain ⟨w, nx, h1, h2, h3, h4, h5⟩ := ht
  rcases has_step hi h hn h1 with ⟨e1, e2, e3⟩ | ⟨e1, e2, e3, e4⟩ | ⟨e1, e2, e3, e4, _⟩
  · rw [e3]
    refine ⟨⟨w, nx, e1, h2, by simpa using h3, by simpa using h4, fun h => ?_⟩, by simp⟩
    have := h5 (by simpa using h)
    simp only [List.length_nil, Nat.cast_zero, add_zero]
    omega
  · rw [e3]
    obtain ⟨g1, g2⟩ := grid h2 e1
    refine ⟨⟨true, _, e4, h2, by simpa using h3, ?_, fun _ => ?_⟩, by simp⟩
    · simp only [List.length_nil, Nat.cast_zero, add_zero, pend, if_true]
      rcases pend_cases w with ⟨_, hq⟩ | ⟨_, hq⟩ <;> rw [hq] at h4 <;> nlinarith
    · rw [e2]
      simp only [List.length_nil, Nat.cast_zero, add_zero, pend, if_true]
      rcases pend_cases w with ⟨_, hq⟩ | ⟨_, hq⟩
      · rw [hq] at h5; exact h5 (by omega)
      · rw [hq] at h4; nlinarith
  · rw [e4]
    subst e1
    simp only [pend, if_true] at h4 h5
    refine ⟨⟨false, nx, e3, h2, by simp; omega, ?_, fun _ => ?_⟩, ?_⟩
    · simpa [pend] using h4
    · rw [e2]
      simpa [pend] using h5 (by omega)
    · intro R hR
      simp at hR
      subst hR
      exact h5 (by omega)

theorem burst_step {R p n : Int} {x x' : St} {m : Move} (hi : Inv x.s) (ht : Burst R p n x) (h : step x m = some x')
    (hn : NoStart (adds x x')) :
    Burst R p (n + (exports (adds x x')).length) x' ∧ ∀ R' ∈ exports (adds x x'), 1 ≤ n → R + (n - 1) * p < R' := by
  obtain ⟨w, nx, h1, h2, h3, h4, h5, h6⟩ := ht
  rcases has_step hi h hn h1 with ⟨e1, e2, e3⟩ | ⟨e1, e2, e3, e4⟩ | ⟨e1, e2, e3, e4, _⟩
  · rw [e3]
    refine ⟨⟨w, nx, e1, h2, by simpa using h3, by omega, by simpa using h5, fun h => ?_⟩, by simp⟩
    have := h6 (by simpa using h)
    simp only [List.length_nil, Nat.cast_zero, add_zero]
    omega
  · rw [e3]
    obtain ⟨g1, g2⟩ := grid h2 e1
    refine ⟨⟨true, _, e4, h2, by simpa using h3, by omega, fun _ => ?_, fun h' => ?_⟩, by simp⟩
    · simp only [List.length_nil, Nat.cast_zero, add_zero, pend, if_true]
      rcases pend_cases w with ⟨_, hq⟩ | ⟨_, hq⟩ <;> rw [hq] at h5
      · have := h5 (by omega); nlinarith
      · by_cases h0 : n = 0
        · subst h0; simp; omega
        · have := h5 (by omega); nlinarith
    · rw [e2]
      simp only [List.length_nil, Nat.cast_zero, add_zero, pend, if_true] at h' ⊢
      rcases pend_cases w with ⟨_, hq⟩ | ⟨_, hq⟩
      · rw [hq] at h6; exact h6 h'
      · rw [hq] at h5
        have := h5 (by omega)
        nlinarith
  · rw [e4]
    subst e1
    simp only [pend, if_true] at h5 h6
    refine ⟨⟨false, nx, e3, h2, by simp; omega, by omega, fun _ => ?_, fun hh => ?_⟩, ?_⟩
    · simpa [pend] using h5 (by omega)
    · rw [e2]
      simp only [pend, List.length_singleton, Nat.cast_one, add_zero] at hh ⊢
      simpa using h6 (by simpa using hh)
    · intro R' hR hn1
      simp at hR
      subst hR
      have := h6 (by omega)
      rw [show n + 1 - 2 = n - 1 by omega] at this
      exact this

theorem adds_exports {x x' : St} {m : Move} (h : step x m = some x') : (exports (adds x x')).length ≤ 1 := by
  rcases adds_le h with h0 | ⟨e, h0⟩ <;> rw [h0]
  · simp [exports]
  · exact (List.length_map (as := [e].filter _) Stamp.time).le.trans (List.length_filter_le _ _)

theorem ticks_run {τ p n : Int} {x st : St} {ms : List Move} {l : List Stamp} (hi : Inv x.s)
    (ht : Ticks τ p n x) (h : run x ms = some st) (hl : st.log = x.log ++ l) (hc : NoStart l) :
    Ticks τ p (n + (exports l).length) st ∧ ∀ (k : Nat) R, (exports l)[k]? = some R → τ + (n + k + 1) * p ≤ R := by
  induction ms generalizing x l n with
  | nil =>
    simp only [run, Option.some.injEq] at h
    subst h
    have : l = [] := by simpa using hl
    subst this
    exact ⟨by simpa [exports] using ht, by simp [exports]⟩
  | cons m ms ih =>
    simp only [run] at h
    cases hs : step x m with
    | none => simp [hs] at h
    | some x1 =>
      rw [hs] at h
      obtain ⟨l', rfl, hl1⟩ := log_cut hs h hl
      obtain ⟨hc1, hc2⟩ := noStart_append hc
      obtain ⟨ht1, hrep⟩ := ticks_step hi ht hs hc1
      obtain ⟨g1, g2⟩ := ih (inv_time hi hs) ht1 h hl1 hc2
      rw [exports_append]
      refine ⟨by rw [List.length_append, Nat.cast_add, ← add_assoc]; exact g1, fun k R hk' => ?_⟩
      by_cases hlt : k < (exports (adds x x1)).length
      · rw [List.getElem?_append_left hlt] at hk'
        have hle := adds_exports hs
        have hk0 : k = 0 := by omega
        subst hk0
        simpa using hrep R (List.mem_of_getElem? hk')
      · rw [List.getElem?_append_right (by omega)] at hk'
        have := g2 _ R hk'
        rw [show n + ((exports (adds x x1)).length : Int) + ((k - (exports (adds x x1)).length : Nat) : Int) + 1 = n + k + 1 by
          omega] at this
        exact this

theorem burst_run {R p n : Int} {x st : St} {ms : List Move} {l : List Stamp} (hi : Inv x.s)
    (ht : Burst R p n x) (h : run x ms = some st) (hl : st.log = x.log ++ l) (hc : NoStart l) :
    ∀ (k : Nat) R', (exports l)[k]? = some R' → 1 ≤ n + k → R + (n + k - 1) * p < R' := by
  induction ms generalizing x l n with
  | nil =>
    simp only [run, Option.some.injEq] at h
    subst h
    have : l = [] := by simpa using hl
    subst this
    simp [exports]
  | cons m ms ih =>
    simp only [run] at h
    cases hs : step x m with
    | none => simp [hs] at h
    | some x1 =>
      rw [hs] at h
      obtain ⟨l', rfl, hl1⟩ := log_cut hs h hl
      obtain ⟨hc1, hc2⟩ := noStart_append hc
      obtain ⟨ht1, hrep⟩ := burst_step hi ht hs hc1
      have g2 := ih (inv_time hi hs) ht1 h hl1 hc2
      rw [exports_append]
      intro k R' hk' hge
      by_cases hlt : k < (exports (adds x x1)).length
      · rw [List.getElem?_append_left hlt] at hk'
        have hle := adds_exports hs
        have hk0 : k = 0 := by omega
        subst hk0
        simpa using hrep R' (List.mem_of_getElem? hk') (by simpa using hge)
      · rw [List.getElem?_append_right (by omega)] at hk'
        have := g2 _ R' hk' (by omega)
        rw [show n + ((exports (adds x x1)).length : Int) + ((k - (exports (adds x x1)).length : Nat) : Int) - 1 = n + k - 1 by
          omega] at this
        exact this

/-- The place of an export in the log. -/
theorem export_place {l : List Stamp} {k : Nat} {R : Int} (h : (exports l)[k]? = some R) :
    ∃ l1 e l2, l = l1 ++ e :: l2 ∧ e.ev = .exportBegin ∧ e.time = R ∧ (exports l1).length = k := by
  induction l generalizing k with
  | nil => simp [exports] at h
  | cons e l ih =>
    by_cases he : e.ev = .exportBegin
    · have hc : exports (e :: l) = e.time :: exports l := by simp [exports, he]
      rw [hc] at h
      cases k with
      | zero =>
        simp at h
        exact ⟨[], e, l, rfl, he, h, rfl⟩
      | succ k =>
        obtain ⟨l1, e', l2, rfl, h2, h3, h4⟩ := ih (by simpa using h)
        exact ⟨e :: l1, e', l2, rfl, h2, h3, by simp [exports, he] at h4 ⊢; exact h4⟩
    · have hc : exports (e :: l) = exports l := by simp [exports, he]
      rw [hc] at h
      obtain ⟨l1, e', l2, rfl, h2, h3, h4⟩ := ih h
      exact ⟨e :: l1, e', l2, rfl, h2, h3, by simp [exports, he] at h4 ⊢; exact h4⟩

/-- Between two exports. -/
theorem apart {τ p n : Int} {x st : St} {ms : List Move} {l : List Stamp} (hi : Inv x.s)
    (ht : Ticks τ p n x) (h : run x ms = some st) (hl : st.log = x.log ++ l) (hc : NoStart l) {k m : Nat} {R R' : Int}
    (h1 : (exports l)[k]? = some R) (h2 : (exports l)[k + m]? = some R') (hm : 2 ≤ m) : R + (m - 2) * p < R' := by
  obtain ⟨l1, e, l2, rfl, he, hR, hk1⟩ := export_place h1
  rw [← List.append_assoc] at hl
  obtain ⟨m1, mv, m2, s1, s2, rfl, hr1, hl1, hst, had, hr2⟩ := run_split h hl
  obtain ⟨hc1, hc2⟩ := noStart_append hc
  have hi1 := run_inv hi hr1
  have ht1 := (ticks_run hi ht hr1 hl1 hc1).1
  have hl2 : s2.log = s1.log ++ [e] := by rw [step_log hst, had]
  have hne := (noStart_append (a := [e]) hc2).1
  have hexp : exports (adds s1 s2) = [R] := by rw [had]; simp [exports, he, hR]
  obtain ⟨w, nx, q1, q2, _⟩ := ht1
  have hb : Burst R p 0 s2 := by
    rcases has_step hi1 hst (by rw [had]; exact hne) q1 with ⟨_, _, e3⟩ | ⟨_, _, e3, _⟩ | ⟨_, e2, e3, e4, _⟩
    · rw [hexp] at e3; cases e3
    · rw [hexp] at e3; cases e3
    · rw [hexp] at e4
      have : R = s1.now := by simpa using e4
      exact ⟨false, nx, e3, q2, le_refl _, by omega, by simp [pend], by simp [pend]⟩
  have hlast : st.log = s2.log ++ l2 := by rw [hl, hl2, hl1]; simp
  have := burst_run (inv_time hi1 hst) hb hr2 hlast (noStart_append (a := [e]) hc2).2 (m - 1) R' (by
    rw [exports_append] at h2
    rw [List.getElem?_append_right (by omega), hk1] at h2
    have : exports (e :: l2) = R :: exports l2 := by simp [exports, he, hR]
    rw [this, show k + m - k = (m - 1) + 1 by omega, List.getElem?_cons_succ] at h2
    exact h2) (by omega)
  rw [show (0 : Int) + ((m - 1 : Nat) : Int) - 1 = m - 2 by omega] at this
  exact this

/-! ## The theorems -/

theorem effective_pos {i : Int} (hi : i = 0 ∨ 1000000000 ≤ i) : 1000000000 ≤ effective i := by
  unfold effective
  split <;> omega

/-- The state when `Start` has succeeded. -/
theorem started_state {x x' : St} {m : Move} (hi : Inv x.s) (hs : step x m = some x') {τ i : Int}
    (ha : adds x x' = [⟨τ, .started, i⟩]) :
    (i = 0 ∨ 1000000000 ≤ i) ∧ x'.now = τ ∧ Has x' (effective i) false (τ + effective i) := by
  have hns : ¬ NoStart (adds x x') := by rw [ha]; exact fun h => h _ (List.mem_singleton.2 rfl) rfl
  rcases change hi hs with ⟨i', hi', hl, hn, ht, hx⟩ | ⟨tk', _, _, _, _, _, _, _, h⟩ | ⟨tk', _, _, _, _, _, _, _, _, h⟩ | ⟨_, _, _, _, _, h⟩
  · rw [hl] at ha
    simp only [List.cons.injEq, Stamp.mk.injEq, and_true, true_and] at ha
    obtain ⟨rfl, rfl⟩ := ha
    exact ⟨hi', hn, _, ht, rfl, rfl, hx⟩
  · exact absurd h hns
  · exact absurd h hns
  · exact absurd h hns

/-- The state after a `Start` in the log, and the rest of the run. -/
theorem at_start {progs : Nat → List Op} {t0 : Int} {ms : List Move} {st : St} (h : run (new progs t0) ms = some st)
    {a c : List Stamp} {τ i : Int} (hl : st.log = a ++ ⟨τ, .started, i⟩ :: c) :
    ∃ m1 m2 x, ms = m1 ++ m2 ∧ run (new progs t0) m1 = some x ∧ run x m2 = some st ∧ Inv x.s ∧ st.log = x.log ++ c ∧ x.now = τ ∧
      (i = 0 ∨ 1000000000 ≤ i) ∧ Has x (effective i) false (τ + effective i) := by
  obtain ⟨m1, m, m2, x1, x2, rfl, h1, h2, h3, h4, h5⟩ := run_split (x := new progs t0) (p := a) h (by simpa [new] using hl)
  have hi : Inv (new progs t0).s := inv_new progs
  have hi1 := run_inv hi h1
  obtain ⟨g1, g2, g3⟩ := started_state hi1 h3 h4
  refine ⟨m1 ++ [m], m2, x2, by simp, by rw [run_append, h1]; simp [run, h3], h5, inv_time hi1 h3, ?_, g2, g1, g3⟩
  rw [hl, step_log h3, h4, h2]
  simp [new]

/-- After `Start` has succeeded the `k`-th periodic export comes no earlier than `k` intervals after it, and of any `m + 1`
exports the last comes more than `m - 2` intervals after the first, until the reader is started again. -/
theorem not_too_often {progs : Nat → List Op} {t0 : Int} {ms : List Move} {st : St} (h : run (new progs t0) ms = some st)
    {a c : List Stamp} {τ i : Int} (hl : st.log = a ++ ⟨τ, .started, i⟩ :: c) (hc : NoStart c) :
    1000000000 ≤ effective i ∧
    (∀ (k : Nat) R, (exports c)[k]? = some R → τ + (k + 1) * effective i ≤ R) ∧
    ∀ (k m : Nat) R R', (exports c)[k]? = some R → (exports c)[k + m]? = some R' → 2 ≤ m → R + (m - 2) * effective i < R' := by
  obtain ⟨m1, m2, x, rfl, h1, h2, hi, hl2, hn, hint, hh⟩ := at_start h hl
  have hp := effective_pos hint
  have ht : Ticks τ (effective i) 0 x := ⟨false, _, hh, by omega, le_refl _, by simp [pend], by simp [pend]⟩
  refine ⟨hp, fun k R hk => ?_, fun k m R R' k1 k2 k3 => apart hi ht h2 hl2 hc k1 k2 k3⟩
  have := (ticks_run hi ht h2 hl2 hc).2 k R hk
  simpa using this

/-! ## A reader that is not kept waiting -/

theorem prompt_append {x x1 : St} {a b : List Move} (hp : Prompt x (a ++ b)) (h : run x a = some x1) : Prompt x1 b := by
  induction a generalizing x with
  | nil => simp only [run, Option.some.injEq] at h; subst h; exact hp
  | cons m ms ih =>
    simp only [run] at h
    cases hs : step x m with
    | none => simp [hs] at h
    | some x2 =>
      rw [hs] at h
      exact ih (hp.2 x2 hs) h

/-- Of the ticks since `τ`, `n` have been received, each when it was due. -/
def Exact (τ p n : Int) (x : St) : Prop :=
  (Has x p false (τ + (n + 1) * p) ∧ x.now ≤ τ + (n + 1) * p) ∨ (Has x p true (τ + (n + 2) * p) ∧ x.now = τ + (n + 1) * p)

theorem Has.unique {x : St} {p p' nx nx' : Int} {w w' : Bool} (h : Has x p w nx) (h' : Has x p' w' nx') :
    p' = p ∧ w' = w ∧ nx' = nx := by
  obtain ⟨tk, a1, a2, a3, a4⟩ := h
  obtain ⟨tk', b1, b2, b3, b4⟩ := h'
  rw [a1] at b1; cases b1
  exact ⟨b2.symm.trans a2, b3.symm.trans a3, b4.symm.trans a4⟩

theorem now_same {x x' : St} {m : Move} (h : step x m = some x') :
    x'.now = x.now ∨ ∃ δ : Nat, m = .advance δ ∧ x' = { x with now := x.now + δ } := by
  cases m with
  | advance δ => simp only [step, Option.some.injEq] at h; exact .inr ⟨δ, rfl, h.symm⟩
  | act a =>
    simp only [step] at h
    split at h
    · simp only [Option.map_eq_some_iff] at h
      obtain ⟨s', _, rfl⟩ := h
      exact .inl rfl
    · cases h

theorem exact_step {τ p n : Int} {x x' : St} {m : Move} {ms : List Move} (hi : Inv x.s) (hpos : 0 < p) (hq : x.s.quit.isSome = true)
    (he : Exact τ p n x) (h : step x m = some x') (hn : NoStart (adds x x')) (hp : Prompt x (m :: ms)) :
    (exports (adds x x') = [] ∧ Exact τ p n x') ∨ (exports (adds x x') = [τ + (n + 1) * p] ∧ Exact τ p (n + 1) x') := by
  rcases now_same h with hnow | ⟨δ, rfl, rfl⟩
  · rcases he with ⟨hh, k⟩ | ⟨hh, k⟩
    · rcases has_step hi h hn hh with ⟨e1, e2, e3⟩ | ⟨e1, e2, e3, e4⟩ | ⟨e1, _⟩
      · exact .inl ⟨e3, .inl ⟨e1, by omega⟩⟩
      · have heq : x.now = τ + (n + 1) * p := by omega
        rw [heq, Int.sub_self, Int.zero_ediv] at e4
        rw [show τ + (n + 1) * p + p * (1 + 0) = τ + (n + 2) * p by ring] at e4
        exact .inl ⟨e3, .inr ⟨e4, by omega⟩⟩
      · cases e1
    · rcases has_step hi h hn hh with ⟨e1, e2, e3⟩ | ⟨e1, e2, e3, e4⟩ | ⟨e1, e2, e3, e4, _⟩
      · exact .inl ⟨e3, .inr ⟨e1, by omega⟩⟩
      · exfalso; nlinarith
      · refine .inr ⟨by rw [e4, k], .inl ⟨?_, ?_⟩⟩
        · rw [show n + 1 + 1 = n + 2 by ring]; exact e3
        · rw [e2, k]; nlinarith
  · left
    obtain ⟨g1, g2⟩ := hp.1 δ rfl hq
    refine ⟨by simp [adds, exports], ?_⟩
    rcases he with ⟨⟨tk, a1, a2, a3, a4⟩, k⟩ | ⟨⟨tk, a1, a2, a3, a4⟩, k⟩
    · exact .inl ⟨⟨tk, a1, a2, a3, a4⟩, by rw [a4] at g2; exact g2⟩
    · rw [g1 tk a1] at a3; cases a3

/-- When the reader is not running nothing is exported, and only `Start` makes it run. -/
theorem off_step {x x' : St} {m : Move} (hi : Inv x.s) (hq : x.s.quit = none) (h : step x m = some x') (hn : NoStart (adds x x')) :
    exports (adds x x') = [] ∧ x'.s.quit = none := by
  constructor
  · rcases change hi h with ⟨i', _, hl, _⟩ | ⟨_, _, _, _, _, _, _, h, _⟩ | ⟨_, _, _, _, _, _, _, _, hq', _⟩ | ⟨_, _, _, _, h, _⟩
    · rw [hl] at hn; exact absurd rfl (hn _ (List.mem_singleton.2 rfl))
    · exact h
    · rw [hq] at hq'; cases hq'
    · exact h
  · cases m with
    | advance δ => simp only [step, Option.some.injEq] at h; subst h; exact hq
    | act a =>
      simp only [step] at h
      split at h
      case isFalse => cases h
      simp only [Option.map_eq_some_iff] at h
      obtain ⟨s', hs, rfl⟩ := h
      have hi' := inv_step hi a hs
      have hl1 := hi.log
      have hl2 := hi'.log
      by_contra hne
      have hs2 : s'.quit.isSome = true := by cases hx : s'.quit with
        | none => exact absurd hx hne
        | some q => rfl
      have r1 := Reader.isRunning_after _ _ _ hl1
      have r2 := Reader.isRunning_after _ _ _ hl2
      simp only at r1 r2
      rw [hs2] at r2
      rw [hq] at r1
      rcases reader_log hs with e | ⟨v, e⟩
      · rw [e, r1] at r2; cases r2
      · have hv : v ≠ .started := by
          have := hn ⟨x.now, v, interval x.s a⟩ (by simp [adds, e])
          exact this
        rw [e] at r2
        simp only [Reader.isRunning, List.foldl_append, List.foldl_cons, List.foldl_nil] at r1 r2
        rw [r1] at r2
        cases v <;> first | exact hv rfl | cases r2

theorem exact_run {τ p : Int} {n : Nat} {x st : St} {ms : List Move} {l : List Stamp} (hi : Inv x.s) (hpos : 0 < p)
    (he : x.s.quit.isSome = true → Exact τ p n x) (h : run x ms = some st) (hp : Prompt x ms)
    (hl : st.log = x.log ++ l) (hc : NoStart l) :
    ∃ k : Nat, exports l = (List.range k).map (fun j : Nat => τ + ((n + j : Nat) + 1 : Int) * p) ∧
      (st.s.quit.isSome = true → Exact τ p (n + k : Nat) st) := by
  induction ms generalizing x l n with
  | nil =>
    simp only [run, Option.some.injEq] at h
    subst h
    have : l = [] := by simpa using hl
    subst this
    exact ⟨0, by simp [exports], by simpa using he⟩
  | cons m ms ih =>
    simp only [run] at h
    cases hs : step x m with
    | none => simp [hs] at h
    | some x1 =>
      rw [hs] at h
      obtain ⟨l', rfl, hl1⟩ := log_cut hs h hl
      obtain ⟨hc1, hc2⟩ := noStart_append hc
      have hi1 := inv_time hi hs
      cases hq : x.s.quit with
      | none =>
        obtain ⟨h1, h2⟩ := off_step hi hq hs hc1
        obtain ⟨k, g1, g2⟩ := ih (n := n) hi1 (by rw [h2]; simp) h (hp.2 x1 hs) hl1 hc2
        exact ⟨k, by rw [exports_append, h1, g1]; rfl, g2⟩
      | some q =>
        have hq' : x.s.quit.isSome = true := by rw [hq]; rfl
        rcases exact_step hi hpos hq' (he hq') hs hc1 hp with ⟨h1, h2⟩ | ⟨h1, h2⟩
        · obtain ⟨k, g1, g2⟩ := ih (n := n) hi1 (fun _ => h2) h (hp.2 x1 hs) hl1 hc2
          exact ⟨k, by rw [exports_append, h1, g1]; rfl, g2⟩
        · have h2 : Exact τ p ((n + 1 : Nat) : Int) x1 := by simpa using h2
          obtain ⟨k, g1, g2⟩ := ih (n := n + 1) hi1 (fun _ => h2) h (hp.2 x1 hs) hl1 hc2
          refine ⟨k + 1, ?_, by rw [show n + (k + 1) = n + 1 + k by omega]; exact g2⟩
          rw [exports_append, h1, g1, List.range_succ_eq_map, List.map_cons, List.map_map]
          simp only [List.singleton_append, Nat.add_zero]
          congr 1
          apply List.map_congr_left
          intro j _
          simp only [Function.comp]
          congr 2
          omega

/-- Whether the reader is running: it was started, and not stopped since. -/
def running (l : List Stamp) : Bool := ((l.filterMap fun e => match e.ev with
  | .started => some true
  | .stopped => some false
  | _ => none).getLast?).getD false

theorem running_is {progs : Nat → List Op} {t0 : Int} {ms : List Move} {st : St} (h : run (new progs t0) ms = some st) :
    running st.log = st.s.quit.isSome := by
  have hev : st.log.map Stamp.ev = st.s.log := by
    suffices ∀ x : St, x.log.map Stamp.ev = x.s.log → run x ms = some st → st.log.map Stamp.ev = st.s.log from this _ rfl h
    clear h
    induction ms with
    | nil => intro x hx h; simp only [run, Option.some.injEq] at h; subst h; exact hx
    | cons m ms ih =>
      intro x hx h
      simp only [run] at h
      cases hs : step x m with
      | none => simp [hs] at h
      | some x1 => rw [hs] at h; exact ih x1 (step_evs hx hs) h
  have hi : Inv st.s := run_inv (inv_new progs) h
  have := Reader.isRunning_after _ _ _ hi.log
  simp only at this
  rw [← this, ← hev]
  generalize st.log = l
  clear hi this hev h
  suffices ∀ b : Bool, (l.map Stamp.ev).foldl (fun b e => match e with
      | .started => true
      | .stopped => false
      | _ => b) b = ((l.filterMap fun e => match e.ev with
      | .started => some true
      | .stopped => some false
      | _ => none).getLast?).getD b from (this false).symm
  induction l with
  | nil => intro b; rfl
  | cons e l ih =>
    intro b
    rw [List.map_cons, List.foldl_cons, ih]
    cases hv : e.ev <;> simp [hv, List.getLast?_cons]

/-- After `Start` has succeeded at `τ`, a reader that is not kept waiting exports at `τ` plus one, two, three … intervals,
as long as it runs, and at no other times. -/
theorem on_time {progs : Nat → List Op} {t0 : Int} {ms : List Move} {st : St} (h : run (new progs t0) ms = some st)
    (hp : Prompt (new progs t0) ms) {a c : List Stamp} {τ i : Int} (hl : st.log = a ++ ⟨τ, .started, i⟩ :: c) (hc : NoStart c) :
    ∃ n : Nat, exports c = (List.range n).map (fun j : Nat => τ + (j + 1) * effective i) ∧
      (running st.log = true → st.now ≤ τ + (n + 1) * effective i) := by
  obtain ⟨m1, m2, x, rfl, h1, h2, hi, hl2, hn, hint, hh⟩ := at_start h hl
  have hpos := effective_pos hint
  have he : Exact τ (effective i) ((0 : Nat) : Int) x := .inl ⟨by simpa using hh, by simp; omega⟩
  obtain ⟨n, g1, g2⟩ := exact_run hi (by omega) (fun _ => he) h2 (prompt_append hp h1) hl2 hc
  refine ⟨n, by rw [g1]; simp, fun hr => ?_⟩
  rw [running_is h] at hr
  rcases g2 hr with ⟨_, k⟩ | ⟨_, k⟩ <;> simp only [Nat.zero_add] at k <;> omega

/-- The events of a run are those of the reader. -/
theorem evs_run {x st : St} {ms : List Move} (hx : x.log.map Stamp.ev = x.s.log) (h : run x ms = some st) :
    st.log.map Stamp.ev = st.s.log := by
  induction ms generalizing x with
  | nil => simp only [run, Option.some.injEq] at h; subst h; exact hx
  | cons m ms ih =>
    simp only [run] at h
    cases hs : step x m with
    | none => simp [hs] at h
    | some x1 => rw [hs] at h; exact ih (step_evs hx hs) h

/-- Without the times it is an execution of the reader of C50, so that all of it holds here. -/
theorem untimed {progs : Nat → List Op} {t0 : Int} {ms : List Move} {st : St} (h : run (new progs t0) ms = some st) :
    ∃ acts, st.s = Reader.run (Reader.new progs) acts ∧ st.log.map Stamp.ev = (Reader.run (Reader.new progs) acts).log := by
  have hev := evs_run (x := new progs t0) rfl h
  suffices hx : ∀ (x : St) acts0, x.s = Reader.run (Reader.new progs) acts0 → run x ms = some st →
      ∃ acts, st.s = Reader.run (Reader.new progs) acts by
    obtain ⟨acts, ha⟩ := hx (new progs t0) [] rfl h
    exact ⟨acts, ha, by rw [hev, ha]⟩
  clear h hev
  induction ms with
  | nil => intro x acts0 hx h; simp only [run, Option.some.injEq] at h; subst h; exact ⟨acts0, hx⟩
  | cons m ms ih =>
    intro x acts0 hx h
    simp only [run] at h
    cases hs : step x m with
    | none => simp [hs] at h
    | some x1 =>
      rw [hs] at h
      cases m with
      | advance δ =>
        simp only [step, Option.some.injEq] at hs
        subst hs
        exact ih { x with now := x.now + δ } acts0 hx h
      | act a =>
        simp only [step] at hs
        split at hs
        case isFalse => cases hs
        simp only [Option.map_eq_some_iff] at hs
        obtain ⟨s', hs, rfl⟩ := hs
        exact ih _ (acts0 ++ [a]) (by simp only [Reader.run, List.foldl_append, List.foldl_cons, List.foldl_nil] at hx ⊢; rw [← hx, hs]; rfl) h

/-- Steps of the reader other than ticks can be made at any time. -/
theorem lift (acts : List Act) (hn : ∀ k, Act.tick k ∉ acts) (x : St) (hx : x.log.map Stamp.ev = x.s.log) :
    ∃ ms st, run x ms = some st ∧ (∀ m ∈ ms, ∃ a ∈ acts, m = .act a) ∧ st.s = Reader.run x.s acts ∧ st.now = x.now ∧
      ∃ l, st.log = x.log ++ l ∧ ∀ e ∈ l, e.time = x.now := by
  induction acts generalizing x with
  | nil => exact ⟨[], x, rfl, by simp, rfl, rfl, [], by simp, by simp⟩
  | cons a acts ih =>
    have hn' : ∀ k, Act.tick k ∉ acts := fun k hk => hn k (List.mem_cons_of_mem _ hk)
    cases hs : Reader.step x.s a with
    | none =>
      obtain ⟨ms, st, h1, h2, h3, h4, h5⟩ := ih hn' x hx
      refine ⟨ms, st, h1, fun m hm => ?_, by rw [h3]; simp [Reader.run, hs], h4, h5⟩
      obtain ⟨b, hb, rfl⟩ := h2 m hm
      exact ⟨b, List.mem_cons_of_mem _ hb, rfl⟩
    | some s' =>
      have hd : due x a = true := by
        cases a with
        | tick k => exact absurd (List.mem_cons_self ..) (hn k)
        | _ => rfl
      have hst : step x (.act a) = some ⟨s', x.now, nexts x a s', x.log ++ (s'.log.drop x.s.log.length).map fun e => ⟨x.now, e, interval x.s a⟩⟩ := by
        simp only [step, hd, hs, if_true, Option.map_some]
      obtain ⟨ms, st, h1, h2, h3, h4, l, h5, h6⟩ := ih hn' _ (step_evs hx hst)
      refine ⟨.act a :: ms, st, by rw [run, hst]; exact h1, fun m hm => ?_, by rw [h3]; simp [Reader.run, hs], h4, _, by rw [h5, List.append_assoc], ?_⟩
      · rcases List.mem_cons.1 hm with rfl | hm
        · exact ⟨a, List.mem_cons_self .., rfl⟩
        · obtain ⟨b, hb, rfl⟩ := h2 m hm
          exact ⟨b, List.mem_cons_of_mem _ hb, rfl⟩
      · intro e he
        rw [List.mem_append] at he
        rcases he with he | he
        · obtain ⟨v, _, rfl⟩ := List.mem_map.1 he; rfl
        · exact h6 e he

theorem exports_at {l : List Stamp} {t : Int} (h : ∀ e ∈ l, e.time = t) :
    exports l = List.replicate ((l.map Stamp.ev).count .exportBegin) t := by
  induction l with
  | nil => rfl
  | cons e l ih =>
    have ih := ih fun e he => h e (List.mem_cons_of_mem _ he)
    have he := h e (List.mem_cons_self ..)
    by_cases hv : e.ev = .exportBegin
    · have : exports (e :: l) = e.time :: exports l := by simp [exports, hv]
      rw [this, ih, he, List.map_cons, hv, List.count_cons_self, List.replicate_succ]
    · have : exports (e :: l) = exports l := by simp [exports, hv]
      rw [this, ih, List.map_cons, List.count_cons_of_ne hv]

/-- While the reader runs and nobody is stopping it, when a tick is due an export can follow at once, by steps of the ticker
and of the reader's goroutine alone. -/
theorem export_follows {progs : Nat → List Op} {t0 : Int} {ms : List Move} {st : St} (h : run (new progs t0) ms = some st)
    (hr : running st.log = true) (hdue : st.next st.s.timer ≤ st.now)
    (hns : ∀ t, (∀ q, (st.s.cl t).pc ≠ .stopSend q) ∧ (∀ d, (st.s.cl t).pc ≠ .stopWait d) ∧ (st.s.cl t).pc ≠ .stopClose) :
    ∃ more st', (∀ m ∈ more, (∃ k, m = .act (.tick k)) ∨ ∃ i, m = .act (.reader i)) ∧ run st more = some st' ∧
      exports st'.log = exports st.log ++ [st.now] := by
  have hev := evs_run (x := new progs t0) rfl h
  obtain ⟨acts, ha, _⟩ := untimed h
  have hrun : Reader.isRunning (Reader.run (Reader.new progs) acts).log = true := by
    have he := Reader.isRunning_after _ _ _ (run_inv (x := new progs t0) (inv_new progs) h).log
    rw [running_is h] at hr
    rw [← ha]
    exact he.trans hr
  obtain ⟨s', h1, h2, i, n, _, h3⟩ := Reader.tick_exports progs acts hrun (by rw [← ha]; exact hns)
  rw [← ha] at h1 h2
  have hst : step st (.act (.tick st.s.timer)) = some ⟨s', st.now, nexts st (.tick st.s.timer) s',
      st.log ++ (s'.log.drop st.s.log.length).map fun e => ⟨st.now, e, interval st.s (.tick st.s.timer)⟩⟩ := by
    simp only [step, due, hdue, decide_true, if_true, h1, Option.map_some]
  have hev' := step_evs hev hst
  obtain ⟨ms', st', g1, g2, g3, g4, l, g5, g6⟩ := lift (List.replicate n (.reader i)) (by simp) _ hev'
  refine ⟨.act (.tick st.s.timer) :: ms', st', ?_, by rw [run, hst]; exact g1, ?_⟩
  · intro m hm
    rcases List.mem_cons.1 hm with rfl | hm
    · exact .inl ⟨_, rfl⟩
    · obtain ⟨b, hb, rfl⟩ := g2 m hm
      exact .inr ⟨i, by rw [(List.mem_replicate.1 hb).2]⟩
  · have hev2 := evs_run hev' g1
    have hl : l.map Stamp.ev = [.exportBegin, .exportEnd] ∨ l.map Stamp.ev = [.exportEnd, .exportBegin, .exportEnd] := by
      rw [g5, List.map_append, hev', g3] at hev2
      simp only at hev2
      rcases h3 with h3 | h3 <;> rw [h3] at hev2
      · exact .inl (List.append_cancel_left hev2)
      · exact .inr (List.append_cancel_left hev2)
    have hexp : exports l = [st.now] := by
      rw [exports_at g6]
      rcases hl with hl | hl <;> rw [hl] <;> rfl
    rw [g5, exports_append, hexp, exports_append]
    simp [exports, h2]

/-! ## Examples -/

/-- Goroutine 0 starts the reader with five seconds at 1 s; exports at 6 s, for two seconds, and at 11 s; at 12 s goroutine 0
stops it and starts it without an interval; an export at 72 s. -/
def demo : List Move := [.advance 1000000000, .act (.client 0), .act (.client 0), .act (.reader 0), .advance 5000000000, .act (.tick 0),
  .act (.reader 0), .advance 2000000000, .act (.reader 0), .act (.reader 0), .advance 3000000000, .act (.tick 0), .act (.reader 0),
  .act (.reader 0), .act (.reader 0), .advance 1000000000, .act (.client 0), .act (.client 0), .act (.quitSync 0 0), .act (.reader 0),
  .act (.doneSync 0 0), .act (.client 0), .act (.client 0), .act (.client 0), .act (.reader 1), .advance 60000000000,
  .act (.tick 1), .act (.reader 1)]

def demoProgs : Nat → List Op := fun t => if t = 0 then [.start 5000000000, .stop, .start 0] else []

theorem demo_log : (run (new demoProgs 0) demo).map (fun x => (x.now, exports x.log, x.log.filter fun e => decide (e.ev = .started))) =
    some (72000000000, [6000000000, 11000000000, 72000000000], [⟨1000000000, .started, 5000000000⟩, ⟨12000000000, .started, 0⟩]) := by
  decide +kernel

/-- A reader whose first export takes twelve seconds: the second follows at once. -/
def demoLate : List Move := [.act (.client 0), .act (.client 0), .act (.reader 0), .advance 5000000000, .act (.tick 0),
  .act (.reader 0), .advance 12000000000, .act (.tick 0), .act (.reader 0), .act (.reader 0), .act (.reader 0), .act (.reader 0), .act (.reader 0),
  .advance 3000000000, .act (.tick 0), .act (.reader 0)]

theorem demo_late : (run (new demoProgs 0) demoLate).map (fun x => (x.now, exports x.log)) =
    some (20000000000, [5000000000, 17000000000, 20000000000]) := by
  decide +kernel

/-- `Prompt`, as a computation. -/
def promptB (x : St) : List Move → Bool
  | [] => true
  | m :: ms => (match m with
      | .advance δ => !x.s.quit.isSome || ((x.s.tickers[x.s.timer]?.map (·.pending)) ≠ some true && decide (x.now + δ ≤ x.next x.s.timer))
      | _ => true) &&
    match step x m with
    | some x' => promptB x' ms
    | none => true

theorem promptB_sound (x : St) (ms : List Move) (h : promptB x ms = true) : Prompt x ms := by
  induction ms generalizing x with
  | nil => trivial
  | cons m ms ih =>
    simp only [promptB, Bool.and_eq_true] at h
    refine ⟨fun δ hm hq => ?_, fun x' hx => ih x' (by rw [hx] at h; exact h.2)⟩
    subst hm
    have h1 := h.1
    simp only [hq, Bool.not_true, Bool.false_or, Bool.and_eq_true, decide_eq_true_eq] at h1
    refine ⟨fun tk ht => ?_, h1.2⟩
    rw [ht] at h1
    simpa using h1.1

/-- The hypotheses of `on_time` and of `not_too_often` hold: the first eleven seconds of `demo`. -/
example : ∃ st c, run (new demoProgs 0) (demo.take 15) = some st ∧ Prompt (new demoProgs 0) (demo.take 15) ∧
    st.log = [] ++ ⟨1000000000, .started, 5000000000⟩ :: c ∧ NoStart c ∧ exports c = [6000000000, 11000000000] ∧ running st.log = true := by
  refine ⟨_, _, rfl, promptB_sound _ _ (by decide +kernel), rfl, ?_, by decide +kernel, by decide +kernel⟩
  unfold NoStart
  decide +kernel

/-- Those of `export_follows`: the tick of 11 s is due. -/
example : ∃ st, run (new demoProgs 0) (demo.take 11) = some st ∧ running st.log = true ∧ st.next st.s.timer ≤ st.now ∧
    ∀ t, (∀ q, (st.s.cl t).pc ≠ .stopSend q) ∧ (∀ d, (st.s.cl t).pc ≠ .stopWait d) ∧ (st.s.cl t).pc ≠ .stopClose := by
  refine ⟨_, rfl, by decide +kernel, by decide +kernel, fun t => ?_⟩
  cases t with
  | zero => exact ⟨(fun q h => by cases h), (fun d h => by cases h), (fun h => by cases h)⟩
  | succ t => exact ⟨(fun q h => by cases h), (fun d h => by cases h), (fun h => by cases h)⟩

end Verif.Props.ReaderTime
