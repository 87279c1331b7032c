import Verif.Metric.Reader
import Mathlib.Data.List.Basic
import Mathlib.Data.List.Perm.Basic
import Mathlib.Tactic.ByContra

/-!
# C50, C51: the interval reader and the producer manager
-/

namespace Verif.Props.Reader
open Verif Verif.Metric Verif.Metric.Reader

/-! ## The specification: what the outside may see -/

/-- What is being exported: nothing, what the ticker asked for, or what `Flush` asked for. -/
inductive Cur where
  | none
  | periodic
  | flush
  deriving DecidableEq

/-- A monitor: whether the reader is started, and what is being exported. -/
structure Mon where
  running : Bool
  cur : Cur
  deriving DecidableEq

/-- What may happen next: the reader is started only if it is not started, is stopped only when nothing is
being exported, exports for the ticker only when started and for `Flush` only when not started, and never
two at a time. -/
def Mon.next (m : Mon) : Ev → Option Mon
  | .started => if m.running then none else some { m with running := true }
  | .stopped => if m.cur = .none then some { m with running := false } else none
  | .tick => some m
  | .exportBegin => if m.running ∧ m.cur = .none then some { m with cur := .periodic } else none
  | .exportEnd => if m.cur = .periodic then some { m with cur := .none } else none
  | .flushBegin => if ¬ m.running ∧ m.cur = .none then some { m with cur := .flush } else none
  | .flushEnd => if m.cur = .flush then some { m with cur := .none } else none

/-- The monitor after some events; `none` if something happened that may not. -/
def Mon.after (m : Mon) : List Ev → Option Mon
  | [] => some m
  | e :: es => (m.next e).bind fun m => m.after es

theorem after_append (m : Mon) (a b : List Ev) : m.after (a ++ b) = (m.after a).bind fun m => m.after b := by
  induction a generalizing m with
  | nil => rfl
  | cons e a ih =>
    simp only [List.cons_append, Mon.after]
    cases m.next e with
    | none => rfl
    | some m' => exact ih m'

/-! ## Invariant -/

/-- A goroutine that has not been told to stop. -/
def Running (q timer : Nat) (g : GPC) : Prop := g = .head ∨ g = .sel (some q) timer ∨ g = .exporting

def AllExited (gs : List GPC) : Prop := ∀ g ∈ gs, g = GPC.exited

/-- The goroutines of the reader, for each place the client that holds the mutex can be at. -/
def Phase (quit : Option Nat) (done timer : Nat) (gs : List GPC) : CPC → Prop
  | .idle | .locked _ => match quit with
    | none => AllExited gs
    | some q => ∃ l g, gs = l ++ [g] ∧ AllExited l ∧ Running q timer g
  | .flushing => quit = none ∧ AllExited gs
  | .stopSend q => quit = some q ∧ ∃ l g, gs = l ++ [g] ∧ AllExited l ∧ Running q timer g
  | .stopWait d => quit.isSome ∧ d = done ∧ ∃ l g, gs = l ++ [g] ∧ AllExited l ∧ (g = .quitting ∨ g = .sendDone done)
  | .stopClose => quit.isSome ∧ AllExited gs

/-- Where the client is that holds the mutex. -/
def owner (s : St) : CPC :=
  match s.mu with
  | none => .idle
  | some t => (s.cl t).pc

/-- What is being exported. -/
def cur (s : St) : Cur :=
  if owner s = .flushing then .flush else if GPC.exporting ∈ s.gs then .periodic else .none

def pendings (ts : List Ticker) : Nat := (ts.filter Ticker.pending).length

structure Inv (s : St) : Prop where
  crashed : s.crashed = false
  mu : ∀ t, (s.cl t).pc ≠ .idle → s.mu = some t
  held : ∀ t, s.mu = some t → (s.cl t).pc ≠ .idle
  phase : Phase s.quit s.done s.timer s.gs (owner s)
  closed : ∀ c ∈ s.closed, c < s.chans
  quit : ∀ q, s.quit = some q → q ∉ s.closed ∧ s.done ∉ s.closed ∧ q ≠ s.done ∧ q < s.chans ∧ s.done < s.chans ∧
    s.timer < s.tickers.length
  log : Mon.after ⟨false, .none⟩ s.log = some ⟨s.quit.isSome, cur s⟩
  ticks : s.log.count .exportBegin + pendings s.tickers ≤ s.log.count .tick

theorem inv_new (progs : Nat → List Op) : Inv (new progs) := by
  refine ⟨rfl, by simp [new], by simp [new], by simp [new, owner, Phase, AllExited], by simp [new], by simp [new], rfl, ?_⟩
  simp [new, pendings]

/-- Where a goroutine that has not exited is. -/
theorem find_live {l : List GPC} {g x : GPC} {i : Nat} (hl : AllExited l) (hx : (l ++ [g])[i]? = some x) (hne : x ≠ .exited) :
    i = l.length ∧ x = g := by
  rcases Nat.lt_trichotomy i l.length with h | h | h
  · rw [List.getElem?_append_left h] at hx
    exact absurd (hl x (List.mem_of_getElem? hx)) hne
  · subst h
    rw [List.getElem?_append_right (Nat.le_refl _), Nat.sub_self] at hx
    exact ⟨rfl, (Option.some.inj hx).symm⟩
  · rw [List.getElem?_append_right (by omega)] at hx
    have : ([g] : List GPC)[i - l.length]? = none := by
      apply List.getElem?_eq_none; simp; omega
    rw [this] at hx; cases hx

theorem set_last (l : List GPC) (g x : GPC) : (l ++ [g]).set l.length x = l ++ [x] := by
  simp

theorem not_exporting {gs : List GPC} (h : AllExited gs) : GPC.exporting ∉ gs := fun hm => by cases h _ hm

theorem mem_last {l : List GPC} {g : GPC} (hl : AllExited l) : GPC.exporting ∈ l ++ [g] ↔ g = .exporting := by
  constructor
  · intro h
    rcases List.mem_append.1 h with h | h
    · cases hl _ h
    · exact (List.mem_singleton.1 h).symm
  · rintro rfl; simp

theorem pendings_set (ts : List Ticker) (k : Nat) (x y : Ticker) (h : ts[k]? = some x) :
    pendings (ts.set k y) + (if x.pending then 1 else 0) = pendings ts + (if y.pending then 1 else 0) := by
  induction ts generalizing k with
  | nil => simp at h
  | cons a ts ih =>
    cases k with
    | zero =>
      simp at h; subst h
      simp only [List.set_cons_zero, pendings, List.filter_cons]
      cases hx : a.pending <;> cases hy : y.pending <;> simp
    | succ k =>
      simp only [List.getElem?_cons_succ] at h
      have := ih k h
      simp only [List.set_cons_succ, pendings, List.filter_cons] at this ⊢
      split
      · simp only [List.length_cons]; omega
      · exact this

/-- A step of the client that holds the mutex which neither returns nor touches the rest. -/
theorem owner_setPC {s : St} {t : Nat} (hm : s.mu = some t) (pc : CPC) : owner (s.setPC t pc) = pc := by
  simp [owner, St.setPC, hm]

theorem setPC_pc (s : St) (t u : Nat) (pc : CPC) : ((s.setPC t pc).cl u).pc = if u = t then pc else (s.cl u).pc := by
  simp only [St.setPC]; split <;> rfl

theorem ret_pc (s : St) (t u : Nat) (b : Bool) : ((s.ret t b).cl u).pc = if u = t then .idle else (s.cl u).pc := by
  simp only [St.ret]; split <;> rfl

theorem owner_of {s : St} (h : Inv s) {t : Nat} {pc : CPC} (hp : (s.cl t).pc = pc) (hne : pc ≠ .idle) :
    s.mu = some t ∧ owner s = pc := by
  have hm := h.mu t (by rw [hp]; exact hne)
  exact ⟨hm, by simp [owner, hm, hp]⟩

theorem mu_setPC {s : St} (h : Inv s) {t : Nat} (hm : s.mu = some t) {pc : CPC} (hpc : pc ≠ .idle) :
    (∀ u, ((s.setPC t pc).cl u).pc ≠ .idle → s.mu = some u) ∧
    (∀ u, s.mu = some u → ((s.setPC t pc).cl u).pc ≠ .idle) := by
  constructor
  · intro u hu
    rw [setPC_pc] at hu
    split at hu
    · rename_i e; rw [e]; exact hm
    · exact h.mu u hu
  · intro u hu
    rw [hm] at hu; cases hu
    rw [setPC_pc, if_pos rfl]; exact hpc

theorem mu_ret {s : St} (h : Inv s) {t : Nat} (hm : s.mu = some t) (b : Bool) :
    (∀ u, ((s.ret t b).cl u).pc ≠ .idle → (none : Option Nat) = some u) := by
  intro u hu
  rw [ret_pc] at hu
  split at hu
  · exact absurd rfl hu
  · rename_i hne
    have := h.mu u hu
    rw [hm] at this
    exact absurd (Option.some.inj this).symm hne

theorem count_snoc (l : List Ev) (e x : Ev) : (l ++ [e]).count x = l.count x + if e = x then 1 else 0 := by
  rw [List.count_append, List.count_singleton]
  simp

theorem after_snoc {s : St} (h : Inv s) (e : Ev) (m : Mon) (hn : Mon.next ⟨s.quit.isSome, cur s⟩ e = some m) :
    Mon.after ⟨false, .none⟩ (s.log ++ [e]) = some m := by
  rw [after_append, h.log]
  simp [Mon.after, hn]

theorem inv_client {s s' : St} (h : Inv s) (t : Nat) (hs : clientStep s t = some s') : Inv s' := by
  unfold clientStep at hs
  cases hp : (s.cl t).pc with
  | idle =>
    simp only [hp] at hs
    cases hprog : (s.cl t).prog with
    | nil => simp [hprog] at hs
    | cons op ops =>
      cases hm : s.mu with
      | some u => simp [hprog, hm] at hs
      | none =>
        simp only [hprog, hm, Option.some.injEq] at hs
        subst hs
        have hidle : ∀ u, (s.cl u).pc = .idle := by
          intro u
          by_contra hne
          rw [h.mu u hne] at hm; cases hm
        have how : owner s = .idle := by simp [owner, hm]
        have how' : owner { s.setPC t (.locked op) with mu := some t } = .locked op := by simp [owner, St.setPC]
        refine ⟨h.crashed, ?_, ?_, ?_, h.closed, h.quit, ?_, h.ticks⟩
        · intro u hu
          by_cases hut : u = t
          · rw [hut]
          · exfalso; apply hu
            show ((s.setPC t (.locked op)).cl u).pc = .idle
            rw [setPC_pc, if_neg hut]; exact hidle u
        · intro u hu
          cases hu
          show ((s.setPC t (.locked op)).cl t).pc ≠ .idle
          rw [setPC_pc, if_pos rfl]; simp
        · rw [how']
          have := h.phase
          rw [how] at this
          exact this
        · have := h.log
          simp only [cur, how] at this
          simp only [cur, how']
          exact this
  | locked op =>
    obtain ⟨hm, how⟩ := owner_of h hp (by simp)
    have hph := h.phase
    rw [how] at hph
    have hcn : owner s ≠ .flushing := by rw [how]; simp
    cases op with
    | start interval =>
      simp only [hp, Option.some.injEq] at hs
      subst hs
      unfold doStart
      have hfail : ∀ b, Inv (s.ret t b) := by
        intro b
        have how' : owner (s.ret t b) = .idle := by simp [owner, St.ret]
        refine ⟨h.crashed, mu_ret h hm b, fun u hu => (by cases hu), ?_, h.closed, h.quit, ?_, h.ticks⟩
        · rw [how']; exact hph
        · have := h.log
          simp only [cur, how] at this
          simp only [cur, how']
          exact this
      split
      · exact hfail _
      · cases hq : s.quit with
        | some q => exact hfail _
        | none =>
          have hex : AllExited s.gs := by simp only [Phase, hq] at hph; exact hph
          have hcur : cur s = .none := by
            unfold cur; rw [if_neg hcn, if_neg (not_exporting hex)]
          dsimp only
          refine ⟨h.crashed, mu_ret h hm _, fun u hu => (by cases hu), ?_, ?_, ?_, ?_, ?_⟩
          · show ∃ l g, s.gs ++ [GPC.head] = l ++ [g] ∧ AllExited l ∧ _
            exact ⟨s.gs, .head, rfl, hex, Or.inl rfl⟩
          · intro c hc
            have := h.closed c hc
            show c < s.chans + 2
            omega
          · intro q' hq'
            simp only [Option.some.injEq] at hq'
            subst hq'
            refine ⟨?_, ?_, by simp, by simp, by simp, by simp⟩
            · intro hc; have := h.closed _ hc; simp at this
            · intro hc; have : s.chans + 1 < s.chans := h.closed _ hc; omega
          · have hc' : cur { s.ret t false with
                timer := s.tickers.length, tickers := s.tickers ++ [⟨reportingInterval interval, true, false⟩], quit := some s.chans,
                done := s.chans + 1, chans := s.chans + 2, gs := s.gs ++ [.head], log := s.log ++ [.started] } = .none := by
              unfold cur
              rw [if_neg (by simp [owner, St.ret]), if_neg]
              rw [mem_last hex]; simp
            rw [hc']
            apply after_snoc h
            rw [hcur, hq]; rfl
          · show (s.log ++ [Ev.started]).count _ + pendings (s.tickers ++ [⟨reportingInterval interval, true, false⟩]) ≤ (s.log ++ [Ev.started]).count _
            rw [count_snoc, count_snoc]
            have := h.ticks
            simp only [pendings, List.filter_append, List.length_append] at this ⊢
            simp
            omega
    | stop =>
      simp only [hp] at hs
      cases hq : s.quit with
      | none =>
        simp only [hq, Option.some.injEq] at hs
        subst hs
        have hex : AllExited s.gs := by simp only [Phase, hq] at hph; exact hph
        have hcur : cur s = .none := by
          unfold cur; rw [if_neg hcn, if_neg (not_exporting hex)]
        refine ⟨h.crashed, mu_ret h hm _, fun u hu => (by cases hu), ?_, h.closed, ?_, ?_, ?_⟩
        · show Phase s.quit _ _ s.gs .idle
          simp only [Phase, hq]; exact hex
        · intro q' hq'; simp only [St.ret] at hq'; rw [hq] at hq'; cases hq'
        · have hc' : cur { s.ret t false with log := s.log ++ [.stopped] } = .none := by
            unfold cur
            rw [if_neg (by simp [owner, St.ret]), if_neg]
            exact not_exporting hex
          rw [hc']
          apply after_snoc h
          simp only [St.ret]
          rw [hcur, hq]; rfl
        · show (s.log ++ [Ev.stopped]).count _ + pendings s.tickers ≤ (s.log ++ [Ev.stopped]).count _
          rw [count_snoc, count_snoc]
          simpa using h.ticks
      | some q =>
        simp only [hq, Option.some.injEq] at hs
        subst hs
        have := mu_setPC h hm (pc := .stopSend q) (by simp)
        refine ⟨h.crashed, this.1, this.2, ?_, h.closed, h.quit, ?_, h.ticks⟩
        · rw [owner_setPC hm]
          simp only [Phase, hq] at hph
          exact ⟨hq, hph⟩
        · have hl := h.log
          simp only [cur, how] at hl
          simp only [cur, owner_setPC hm]
          exact hl
    | flush =>
      simp only [hp] at hs
      cases hq : s.quit with
      | some q =>
        simp only [hq, Option.some.injEq] at hs
        subst hs
        have how' : owner (s.ret t false) = .idle := by simp [owner, St.ret]
        refine ⟨h.crashed, mu_ret h hm _, fun u hu => (by cases hu), ?_, h.closed, h.quit, ?_, h.ticks⟩
        · rw [how']; exact hph
        · have := h.log
          simp only [cur, how] at this
          simp only [cur, how']
          exact this
      | none =>
        simp only [hq, Option.some.injEq] at hs
        subst hs
        have hex : AllExited s.gs := by simp only [Phase, hq] at hph; exact hph
        have hcur : cur s = .none := by
          unfold cur; rw [if_neg hcn, if_neg (not_exporting hex)]
        have := mu_setPC h hm (pc := .flushing) (by simp)
        have how' : owner { s.setPC t .flushing with log := s.log ++ [.flushBegin] } = .flushing := owner_setPC hm _
        refine ⟨h.crashed, this.1, this.2, ?_, h.closed, h.quit, ?_, ?_⟩
        · rw [how']; exact ⟨hq, hex⟩
        · have hc' : cur { s.setPC t .flushing with log := s.log ++ [.flushBegin] } = .flush := by
            unfold cur; rw [if_pos how']
          rw [hc']
          apply after_snoc h
          simp only [St.setPC]
          rw [hcur, hq]; rfl
        · show (s.log ++ [Ev.flushBegin]).count _ + pendings s.tickers ≤ (s.log ++ [Ev.flushBegin]).count _
          rw [count_snoc, count_snoc]
          simpa using h.ticks
  | stopSend q =>
    obtain ⟨hm, how⟩ := owner_of h hp (by simp)
    have hph := h.phase
    rw [how] at hph
    simp only [hp] at hs
    rw [if_neg (h.quit q hph.1).1] at hs
    cases hs
  | stopWait d =>
    obtain ⟨hm, how⟩ := owner_of h hp (by simp)
    have hph := h.phase
    rw [how] at hph
    obtain ⟨h1, h2, _⟩ := hph
    obtain ⟨q, hq⟩ := Option.isSome_iff_exists.1 h1
    simp only [hp] at hs
    rw [if_neg (by rw [h2]; exact (h.quit q hq).2.1)] at hs
    cases hs
  | stopClose =>
    obtain ⟨hm, how⟩ := owner_of h hp (by simp)
    have hph := h.phase
    rw [how] at hph
    obtain ⟨h1, hex⟩ := hph
    obtain ⟨q, hq⟩ := Option.isSome_iff_exists.1 h1
    obtain ⟨q1, q2, q3, q4, q5, q6⟩ := h.quit q hq
    simp only [hp, hq] at hs
    rw [if_neg (by simp [q1, q2, q3])] at hs
    simp only [Option.some.injEq] at hs
    subst hs
    have hcur : cur s = .none := by
      unfold cur; rw [if_neg (by rw [how]; simp), if_neg (not_exporting hex)]
    refine ⟨h.crashed, mu_ret h hm _, fun u hu => (by cases hu), ?_, ?_, ?_, ?_, ?_⟩
    · show Phase none _ _ s.gs .idle
      exact hex
    · intro c hc
      simp only [List.mem_cons] at hc
      rcases hc with rfl | rfl | hc
      · exact q4
      · exact q5
      · exact h.closed c hc
    · intro q' hq'; cases hq'
    · have hc' : cur { s.ret t false with closed := q :: s.done :: s.closed, quit := none, log := s.log ++ [.stopped] } = .none := by
        unfold cur
        rw [if_neg (by simp [owner, St.ret]), if_neg]
        exact not_exporting hex
      rw [hc']
      apply after_snoc h
      rw [hcur]; rfl
    · show (s.log ++ [Ev.stopped]).count _ + pendings s.tickers ≤ (s.log ++ [Ev.stopped]).count _
      rw [count_snoc, count_snoc]
      simpa using h.ticks
  | flushing =>
    obtain ⟨hm, how⟩ := owner_of h hp (by simp)
    have hph := h.phase
    rw [how] at hph
    obtain ⟨hq, hex⟩ := hph
    simp only [hp, Option.some.injEq] at hs
    subst hs
    have hcur : cur s = .flush := by unfold cur; rw [if_pos how]
    refine ⟨h.crashed, mu_ret h hm _, fun u hu => (by cases hu), ?_, h.closed, h.quit, ?_, ?_⟩
    · show Phase s.quit _ _ s.gs .idle
      simp only [Phase, hq]; exact hex
    · have hc' : cur { s.ret t false with log := s.log ++ [.flushEnd] } = .none := by
        unfold cur
        rw [if_neg (by simp [owner, St.ret]), if_neg]
        exact not_exporting hex
      rw [hc']
      apply after_snoc h
      rw [hcur]; rfl
    · show (s.log ++ [Ev.flushEnd]).count _ + pendings s.tickers ≤ (s.log ++ [Ev.flushEnd]).count _
      rw [count_snoc, count_snoc]
      simpa using h.ticks

/-- The goroutine that has not exited. -/
theorem live {s : St} (h : Inv s) {i : Nat} {g : GPC} (hg : s.gs[i]? = some g) (hne : g ≠ .exited) :
    ∃ l q, s.gs = l ++ [g] ∧ i = l.length ∧ AllExited l ∧ s.quit = some q ∧ owner s ≠ .flushing ∧
      (Running q s.timer g ∨ g = .quitting ∨ g = .sendDone s.done) := by
  have hph := h.phase
  have hno : AllExited s.gs → False := fun hex => hne (hex g (List.mem_of_getElem? hg))
  have hyes : ∀ q l g', s.quit = some q → s.gs = l ++ [g'] → AllExited l → owner s ≠ .flushing →
      (Running q s.timer g' ∨ g' = .quitting ∨ g' = .sendDone s.done) →
      ∃ l q, s.gs = l ++ [g] ∧ i = l.length ∧ AllExited l ∧ s.quit = some q ∧ owner s ≠ .flushing ∧
      (Running q s.timer g ∨ g = .quitting ∨ g = .sendDone s.done) := by
    intro q l g' hq he hl ho hr
    rw [he] at hg
    obtain ⟨h1, rfl⟩ := find_live hl hg hne
    exact ⟨l, q, he, h1, hl, hq, ho, hr⟩
  cases ho : owner s with
  | idle =>
    rw [ho] at hph hyes
    cases hq : s.quit with
    | none => simp only [Phase, hq] at hph; exact (hno hph).elim
    | some q =>
      simp only [Phase, hq] at hph
      obtain ⟨l, g', h1, h2, h3⟩ := hph
      exact hq ▸ hyes q l g' hq h1 h2 (by simp) (Or.inl h3)
  | locked op =>
    rw [ho] at hph hyes
    cases hq : s.quit with
    | none => simp only [Phase, hq] at hph; exact (hno hph).elim
    | some q =>
      simp only [Phase, hq] at hph
      obtain ⟨l, g', h1, h2, h3⟩ := hph
      exact hq ▸ hyes q l g' hq h1 h2 (by simp) (Or.inl h3)
  | flushing => rw [ho] at hph; exact (hno hph.2).elim
  | stopClose => rw [ho] at hph; exact (hno hph.2).elim
  | stopSend q =>
    rw [ho] at hph hyes
    obtain ⟨hq, l, g', h1, h2, h3⟩ := hph
    exact hyes q l g' hq h1 h2 (by simp) (Or.inl h3)
  | stopWait d =>
    rw [ho] at hph hyes
    obtain ⟨hq, _, l, g', h1, h2, h3⟩ := hph
    obtain ⟨q, hq⟩ := Option.isSome_iff_exists.1 hq
    exact hyes q l g' hq h1 h2 (by simp) (Or.inr h3)

/-- The phase after a goroutine that was not told to stop has gone on. -/
theorem phase_running {quit : Option Nat} {done timer q : Nat} {l : List GPC} {g g' : GPC} {o : CPC} (hl : AllExited l)
    (hq : quit = some q) (hr : Running q timer g) (hr' : Running q timer g')
    (hp : Phase quit done timer (l ++ [g]) o) : Phase quit done timer (l ++ [g']) o := by
  have hex : AllExited (l ++ [g]) → False := by
    intro hex
    have := hex g (by simp)
    rcases hr with h | h | h <;> rw [this] at h <;> cases h
  cases o with
  | idle => simp only [Phase, hq]; exact ⟨l, g', rfl, hl, hr'⟩
  | locked op => simp only [Phase, hq]; exact ⟨l, g', rfl, hl, hr'⟩
  | flushing => exact (hex hp.2).elim
  | stopClose => exact (hex hp.2).elim
  | stopSend q' =>
    obtain ⟨h1, _⟩ := hp
    have : q' = q := by rw [h1] at hq; exact Option.some.inj hq
    subst this
    exact ⟨h1, l, g', rfl, hl, hr'⟩
  | stopWait d =>
    obtain ⟨_, _, l', g'', h1, h2, h3⟩ := hp
    have := List.append_inj' h1 rfl
    have hg : g = g'' := by simpa using this.2
    exfalso
    rcases hr with h | h | h <;> rcases h3 with h3 | h3 <;> rw [hg, h3] at h <;> cases h

theorem inv_reader {s s' : St} (h : Inv s) (i : Nat) (hs : readerStep s i = some s') : Inv s' := by
  unfold readerStep at hs
  cases hg : s.gs[i]? with
  | none => simp [hg] at hs
  | some g =>
    by_cases hne : g = .exited
    · subst hne; simp [hg] at hs
    obtain ⟨l, q, he, rfl, hl, hq, ho, hr⟩ := live h hg hne
    have hph := h.phase
    rw [he] at hph
    obtain ⟨q1, q2, q3, q4, q5, q6⟩ := h.quit q hq
    cases g with
    | exited => exact absurd rfl hne
    | head =>
      simp only [hg, Option.some.injEq] at hs
      subst hs
      have hset : s.gs.set l.length (.sel s.quit s.timer) = l ++ [.sel s.quit s.timer] := by rw [he, set_last]
      refine ⟨h.crashed, h.mu, h.held, ?_, h.closed, h.quit, ?_, h.ticks⟩
      · show Phase s.quit s.done s.timer (s.gs.set l.length _) (owner s)
        rw [hset]
        exact phase_running hl hq (Or.inl rfl) (Or.inr (Or.inl (by rw [hq]))) hph
      · have hlog := h.log
        have : cur { s with gs := s.gs.set l.length (.sel s.quit s.timer) } = cur s := by
          show (if owner s = .flushing then Cur.flush else if _ ∈ s.gs.set l.length _ then _ else _) = _
          unfold cur
          rw [if_neg ho, if_neg ho, hset, he, if_neg (by rw [mem_last hl]; simp), if_neg (by rw [mem_last hl]; simp)]
        rw [this]; exact hlog
    | sel q' k =>
      have hr' : q' = some q ∧ k = s.timer := by
        rcases hr with (h1 | h1 | h1) | h1 | h1 <;> cases h1
        exact ⟨rfl, rfl⟩
      obtain ⟨rfl, rfl⟩ := hr'
      have hcur : cur s = .none := by
        unfold cur; rw [if_neg ho, he, if_neg (by rw [mem_last hl]; simp)]
      simp only [hg] at hs
      rw [if_neg q1] at hs
      split at hs
      · rename_i d a hk
        simp only [Option.some.injEq] at hs
        subst hs
        have hset : s.gs.set l.length .exporting = l ++ [.exporting] := by rw [he, set_last]
        refine ⟨h.crashed, h.mu, h.held, ?_, h.closed, ?_, ?_, ?_⟩
        · show Phase s.quit s.done s.timer (s.gs.set l.length _) (owner s)
          rw [hset]
          exact phase_running hl hq (Or.inr (Or.inl rfl)) (Or.inr (Or.inr rfl)) hph
        · intro q' hq'
          have := h.quit q' hq'
          simpa using this
        · have : cur { s with tickers := s.tickers.set s.timer ⟨d, a, false⟩, gs := s.gs.set l.length .exporting,
                               log := s.log ++ [.exportBegin] } = .periodic := by
            show (if owner s = .flushing then Cur.flush else if _ ∈ s.gs.set l.length _ then _ else _) = _
            rw [if_neg ho, hset, if_pos (by simp)]
          rw [this]
          apply after_snoc h
          rw [hcur, hq]; rfl
        · show (s.log ++ [Ev.exportBegin]).count _ + pendings (s.tickers.set s.timer ⟨d, a, false⟩) ≤ (s.log ++ [Ev.exportBegin]).count _
          rw [count_snoc, count_snoc]
          have h1 := h.ticks
          have h2 := pendings_set s.tickers s.timer _ ⟨d, a, false⟩ hk
          simp at h2 ⊢
          omega
      · cases hs
    | exporting =>
      have hcur : cur s = .periodic := by
        unfold cur; rw [if_neg ho, he, if_pos (by simp)]
      have hrun : Running q s.timer .exporting := Or.inr (Or.inr rfl)
      simp only [hg, Option.some.injEq] at hs
      subst hs
      have hset : s.gs.set l.length .head = l ++ [.head] := by rw [he, set_last]
      refine ⟨h.crashed, h.mu, h.held, ?_, h.closed, h.quit, ?_, ?_⟩
      · show Phase s.quit s.done s.timer (s.gs.set l.length _) (owner s)
        rw [hset]
        exact phase_running hl hq hrun (Or.inl rfl) hph
      · have : cur { s with gs := s.gs.set l.length .head, log := s.log ++ [.exportEnd] } = .none := by
          show (if owner s = .flushing then Cur.flush else if _ ∈ s.gs.set l.length _ then _ else _) = _
          rw [if_neg ho, hset, if_neg (by rw [mem_last hl]; simp)]
        rw [this]
        apply after_snoc h
        rw [hcur, hq]; rfl
      · show (s.log ++ [Ev.exportEnd]).count _ + pendings s.tickers ≤ (s.log ++ [Ev.exportEnd]).count _
        rw [count_snoc, count_snoc]
        simpa using h.ticks
    | quitting =>
      have hcur : cur s = .none := by
        unfold cur; rw [if_neg ho, he, if_neg (by rw [mem_last hl]; simp)]
      simp only [hg] at hs
      cases hk : s.tickers[s.timer]? with
      | none => rw [List.getElem?_eq_none_iff] at hk; omega
      | some tk =>
        obtain ⟨d, a, p⟩ := tk
        simp only [hk, Option.some.injEq] at hs
        subst hs
        have hset : s.gs.set l.length (.sendDone s.done) = l ++ [.sendDone s.done] := by rw [he, set_last]
        refine ⟨h.crashed, h.mu, h.held, ?_, h.closed, ?_, ?_, ?_⟩
        · show Phase s.quit s.done s.timer (s.gs.set l.length _) (owner s)
          rw [hset]
          have hbad : ∀ q', ¬ Running q' s.timer .quitting := by
            rintro q' (h1 | h1 | h1) <;> cases h1
          have hlast : ∀ {l' g'}, l ++ [GPC.quitting] = l' ++ [g'] → g' = .quitting := by
            intro l' g' h1
            have := List.append_inj' h1 rfl
            simpa using this.2.symm
          cases hoo : owner s with
          | idle =>
            rw [hoo] at hph; simp only [Phase, hq] at hph
            obtain ⟨l', g', h1, h2, h3⟩ := hph
            rw [hlast h1] at h3; exact absurd h3 (hbad _)
          | locked op =>
            rw [hoo] at hph; simp only [Phase, hq] at hph
            obtain ⟨l', g', h1, h2, h3⟩ := hph
            rw [hlast h1] at h3; exact absurd h3 (hbad _)
          | flushing => exact absurd hoo ho
          | stopClose =>
            rw [hoo] at hph
            have := hph.2 .quitting (by simp); cases this
          | stopSend q' =>
            rw [hoo] at hph
            obtain ⟨_, l', g', h1, h2, h3⟩ := hph
            rw [hlast h1] at h3; exact absurd h3 (hbad _)
          | stopWait d =>
            rw [hoo] at hph
            exact ⟨hph.1, hph.2.1, l, _, rfl, hl, Or.inr rfl⟩
        · intro q' hq'
          have := h.quit q' hq'
          simpa using this
        · have : cur { s with tickers := s.tickers.set s.timer ⟨d, false, p⟩, gs := s.gs.set l.length (.sendDone s.done) } = .none := by
            show (if owner s = .flushing then Cur.flush else if _ ∈ s.gs.set l.length _ then _ else _) = _
            rw [if_neg ho, hset, if_neg (by rw [mem_last hl]; simp)]
          rw [this]
          have hlog := h.log
          rw [hcur] at hlog
          exact hlog
        · have h1 := h.ticks
          have h2 := pendings_set s.tickers s.timer _ ⟨d, false, p⟩ hk
          simp at h2 ⊢
          omega
    | sendDone d =>
      have hd : d = s.done := by
        rcases hr with (h1 | h1 | h1) | h1 | h1 <;> cases h1
        rfl
      subst hd
      simp only [hg] at hs
      rw [if_neg q2] at hs
      cases hs

theorem inv_step {s s' : St} (h : Inv s) (a : Act) (hs : step s a = some s') : Inv s' := by
  cases a with
  | client t => exact inv_client h t hs
  | reader i => exact inv_reader h i hs
  | quitSync t i =>
    simp only [step] at hs
    split at hs
    · rename_i q q' k hp hg
      split at hs
      · rename_i hqq
        subst hqq
        simp only [Option.some.injEq] at hs
        subst hs
        obtain ⟨hm, how⟩ := owner_of h hp (by simp)
        obtain ⟨l, q0, he, rfl, hl, hq, ho, hr⟩ := live h hg (by simp)
        have hset : s.gs.set l.length .quitting = l ++ [.quitting] := by rw [he, set_last]
        have hcur : cur s = .none := by
          unfold cur; rw [if_neg ho, he, if_neg (by rw [mem_last hl]; simp)]
        have hmu := mu_setPC h hm (pc := .stopWait s.done) (by simp)
        have how' : owner { s.setPC t (.stopWait s.done) with gs := s.gs.set l.length .quitting } = .stopWait s.done :=
          owner_setPC hm _
        refine ⟨h.crashed, hmu.1, hmu.2, ?_, h.closed, h.quit, ?_, h.ticks⟩
        · rw [how']
          show _ ∧ _ ∧ ∃ l' g', s.gs.set l.length .quitting = l' ++ [g'] ∧ _
          refine ⟨?_, rfl, l, .quitting, hset, hl, Or.inl rfl⟩
          show s.quit.isSome = true
          rw [hq]; rfl
        · have : cur { s.setPC t (.stopWait s.done) with gs := s.gs.set l.length .quitting } = .none := by
            unfold cur
            rw [how', if_neg (by simp)]
            show (if _ ∈ s.gs.set l.length _ then _ else _) = _
            rw [hset, if_neg (by rw [mem_last hl]; simp)]
          rw [this]
          have hlog := h.log
          rw [hcur] at hlog
          exact hlog
      · cases hs
    · cases hs
  | doneSync t i =>
    simp only [step] at hs
    split at hs
    · rename_i d d' hp hg
      split at hs
      · rename_i hdd
        subst hdd
        simp only [Option.some.injEq] at hs
        subst hs
        obtain ⟨hm, how⟩ := owner_of h hp (by simp)
        obtain ⟨l, q0, he, rfl, hl, hq, ho, hr⟩ := live h hg (by simp)
        have hset : s.gs.set l.length .exited = l ++ [.exited] := by rw [he, set_last]
        have hex : AllExited (l ++ [.exited]) := by
          intro g hg'
          rcases List.mem_append.1 hg' with h1 | h1
          · exact hl g h1
          · exact List.mem_singleton.1 h1
        have hcur : cur s = .none := by
          unfold cur; rw [if_neg ho, he, if_neg (by rw [mem_last hl]; simp)]
        have hmu := mu_setPC h hm (pc := .stopClose) (by simp)
        have how' : owner { s.setPC t .stopClose with gs := s.gs.set l.length .exited } = .stopClose := owner_setPC hm _
        refine ⟨h.crashed, hmu.1, hmu.2, ?_, h.closed, h.quit, ?_, h.ticks⟩
        · rw [how']
          refine ⟨?_, ?_⟩
          · show s.quit.isSome = true
            rw [hq]; rfl
          · show AllExited (s.gs.set l.length .exited)
            rw [hset]; exact hex
        · have : cur { s.setPC t .stopClose with gs := s.gs.set l.length .exited } = .none := by
            unfold cur
            rw [how', if_neg (by simp)]
            show (if _ ∈ s.gs.set l.length _ then _ else _) = _
            rw [hset, if_neg (not_exporting hex)]
          rw [this]
          have hlog := h.log
          rw [hcur] at hlog
          exact hlog
      · cases hs
    · cases hs
  | tick k =>
    simp only [step] at hs
    split at hs
    · rename_i d p hk
      simp only [Option.some.injEq] at hs
      subst hs
      refine ⟨h.crashed, h.mu, h.held, h.phase, h.closed, ?_, ?_, ?_⟩
      · intro q' hq'
        have := h.quit q' hq'
        simpa using this
      · apply after_snoc h; rfl
      · show (s.log ++ [Ev.tick]).count _ + pendings (s.tickers.set k ⟨d, true, true⟩) ≤ (s.log ++ [Ev.tick]).count _
        rw [count_snoc, count_snoc]
        have h1 := h.ticks
        have h2 := pendings_set s.tickers k _ ⟨d, true, true⟩ hk
        simp at h2 ⊢
        split at h2 <;> omega
    · cases hs

theorem inv_run (progs : Nat → List Op) (acts : List Act) : Inv (run (new progs) acts) := by
  suffices ∀ s, Inv s → Inv (run s acts) from this _ (inv_new progs)
  induction acts with
  | nil => exact fun s h => h
  | cons a acts ih =>
    intro s h
    apply ih
    show Inv ((step s a).getD s)
    cases hs : step s a with
    | none => exact h
    | some s' => exact inv_step h a hs

/-! ## C50 -/

/-- Whatever the calls, the ticks and the schedule, what is seen from outside follows the rules of `Mon.next`:
the reader is started only when it is not running, nothing is being exported when `Stop` returns, and there
is never more than one export at a time, be it for the ticker or for `Flush`. -/
theorem follows_the_rules (progs : Nat → List Op) (acts : List Act) :
    ∃ m, Mon.after ⟨false, .none⟩ (run (new progs) acts).log = some m :=
  ⟨_, (inv_run progs acts).log⟩

theorem quiet (b : List Ev) (m m' : Mon) (hm : m.running = false) (hc : m.cur ≠ .periodic) (h : m.after b = some m')
    (hs : Ev.started ∉ b) : Ev.exportBegin ∉ b ∧ Ev.exportEnd ∉ b := by
  induction b generalizing m with
  | nil => simp
  | cons e b ih =>
    simp only [Mon.after] at h
    cases hn : m.next e with
    | none => rw [hn] at h; cases h
    | some m1 =>
      rw [hn] at h
      have key : m1.running = false ∧ m1.cur ≠ .periodic ∧ e ≠ .exportBegin ∧ e ≠ .exportEnd := by
        cases e with
        | started => simp at hs
        | stopped =>
          simp only [Mon.next] at hn
          split at hn <;> cases hn
          exact ⟨rfl, hc, by simp, by simp⟩
        | tick => cases hn; exact ⟨hm, hc, by simp, by simp⟩
        | exportBegin => simp [Mon.next, hm] at hn
        | exportEnd => simp [Mon.next, hc] at hn
        | flushBegin =>
          simp only [Mon.next] at hn
          split at hn <;> cases hn
          exact ⟨hm, by simp, by simp, by simp⟩
        | flushEnd =>
          simp only [Mon.next] at hn
          split at hn <;> cases hn
          exact ⟨hm, by simp, by simp, by simp⟩
      obtain ⟨k1, k2, k3, k4⟩ := key
      obtain ⟨i1, i2⟩ := ih m1 k1 k2 h (fun hx => hs (List.mem_cons_of_mem _ hx))
      simp only [List.mem_cons, not_or]
      exact ⟨⟨Ne.symm k3, i1⟩, Ne.symm k4, i2⟩

/-- After `Stop` has returned no periodic export happens, begins or ends, until the reader is started again. -/
theorem quiet_after_stop (progs : Nat → List Op) (acts : List Act) (a b : List Ev)
    (h : (run (new progs) acts).log = a ++ .stopped :: b) (hs : Ev.started ∉ b) :
    Ev.exportBegin ∉ b ∧ Ev.exportEnd ∉ b := by
  obtain ⟨m, hm⟩ := follows_the_rules progs acts
  rw [h, after_append] at hm
  cases ha : Mon.after ⟨false, .none⟩ a with
  | none => rw [ha] at hm; cases hm
  | some m1 =>
    rw [ha] at hm
    simp only [Option.bind_some, Mon.after] at hm
    cases hn : m1.next .stopped with
    | none => rw [hn] at hm; cases hm
    | some m2 =>
      rw [hn] at hm
      simp only [Mon.next] at hn
      split at hn
      · rename_i hc
        cases hn
        exact quiet b _ m rfl (by simp [hc]) hm hs
      · cases hn

/-- There is never more than one goroutine of the reader, and none panics. -/
theorem one_goroutine (progs : Nat → List Op) (acts : List Act) (i j : Nat) (g g' : GPC)
    (hi : (run (new progs) acts).gs[i]? = some g) (hj : (run (new progs) acts).gs[j]? = some g')
    (hg : g ≠ .exited) (hg' : g' ≠ .exited) : i = j := by
  obtain ⟨l, _, h1, h2, h3, _⟩ := live (inv_run progs acts) hi hg
  rw [h1] at hj
  exact h2.trans (find_live h3 hj hg').1.symm

theorem never_panics (progs : Nat → List Op) (acts : List Act) : (run (new progs) acts).crashed = false :=
  (inv_run progs acts).crashed

/-- At most one periodic export for each tick. -/
theorem exports_le_ticks (progs : Nat → List Op) (acts : List Act) :
    (run (new progs) acts).log.count .exportBegin ≤ (run (new progs) acts).log.count .tick := by
  have := (inv_run progs acts).ticks
  omega

/-- Whether the reader is running, from outside. -/
def isRunning (log : List Ev) : Bool :=
  log.foldl (fun b e => match e with
    | .started => true
    | .stopped => false
    | _ => b) false

theorem isRunning_after (log : List Ev) (m m' : Mon) (h : m.after log = some m') :
    log.foldl (fun b e => match e with
    | .started => true
    | .stopped => false
    | _ => b) m.running = m'.running := by
  induction log generalizing m with
  | nil => cases h; rfl
  | cons e log ih =>
    simp only [Mon.after] at h
    cases hn : m.next e with
    | none => rw [hn] at h; cases h
    | some m1 =>
      rw [hn] at h
      rw [List.foldl_cons, ← ih m1 h]
      congr 1
      cases e <;> simp only [Mon.next] at hn <;> first | (split at hn <;> cases hn <;> rfl) | (cases hn; rfl)

/-- `Start` fails exactly if the interval is set and less than a second or the reader is running, and then
it changes nothing; otherwise it starts one goroutine, with a ticker of the interval, or of one minute. -/
theorem start_result (progs : Nat → List Op) (acts : List Act) (t : Nat) (interval : Int)
    (hp : ((run (new progs) acts).cl t).pc = .locked (.start interval)) :
    ∃ s' failed, step (run (new progs) acts) (.client t) = some s' ∧
      (s'.cl t).results = ((run (new progs) acts).cl t).results ++ [failed] ∧ (s'.cl t).pc = .idle ∧
      (failed = true ↔ (interval ≠ 0 ∧ interval < 1000000000) ∨ isRunning (run (new progs) acts).log = true) ∧
      (failed = true → s'.gs = (run (new progs) acts).gs ∧ s'.log = (run (new progs) acts).log ∧
        s'.tickers = (run (new progs) acts).tickers) ∧
      (failed = false → s'.gs.length = (run (new progs) acts).gs.length + 1 ∧
        s'.log = (run (new progs) acts).log ++ [.started] ∧ ∃ tk, s'.tickers[s'.timer]? = some tk ∧ tk.active = true ∧
        tk.pending = false ∧ tk.period = if interval = 0 then 60000000000 else interval) := by
  have h := inv_run progs acts
  have hr : isRunning (run (new progs) acts).log = (run (new progs) acts).quit.isSome := isRunning_after _ _ _ h.log
  generalize run (new progs) acts = s at h hp hr
  have hret : ∀ b, ((s.ret t b).cl t).results = (s.cl t).results ++ [b] ∧ ((s.ret t b).cl t).pc = .idle := by
    intro b; simp [St.ret]
  have hst : step s (.client t) = some (doStart s t interval) := by simp only [step, clientStep, hp]
  rw [hr]
  have hsec : second = 1000000000 := rfl
  by_cases hi : interval ≠ 0 ∧ interval < second
  · have he : doStart s t interval = s.ret t true := by unfold doStart; rw [if_pos hi]
    rw [hsec] at hi
    exact ⟨_, true, hst, by rw [he]; exact (hret true).1, by rw [he]; exact (hret true).2, by simp [hi],
      by rw [he]; simp [St.ret], by simp⟩
  · cases hq : s.quit with
    | some q =>
      have he : doStart s t interval = s.ret t true := by unfold doStart; rw [if_neg hi, hq]
      exact ⟨_, true, hst, by rw [he]; exact (hret true).1, by rw [he]; exact (hret true).2, by simp,
        by rw [he]; simp [St.ret], by simp⟩
    | none =>
      refine ⟨_, false, hst, ?_⟩
      unfold doStart
      rw [if_neg hi, hq]
      rw [hsec] at hi
      refine ⟨(hret false).1, (hret false).2, by simpa using hi, by simp, fun _ => ⟨by simp, by simp, ⟨reportingInterval interval, true, false⟩, ?_, rfl, rfl, ?_⟩⟩
      · simp
      · simp only [reportingInterval, hsec]
        split <;> simp_all

/-- `Stop` does not block for ever: wherever it is, at most six steps (of the goroutine of the reader and
of the caller, and no tick) bring it to its end. -/
theorem stop_can_return (progs : Nat → List Op) (acts : List Act) (t : Nat)
    (hp : (∃ q, ((run (new progs) acts).cl t).pc = .stopSend q) ∨ (∃ d, ((run (new progs) acts).cl t).pc = .stopWait d) ∨
      ((run (new progs) acts).cl t).pc = .stopClose) :
    ∃ more : List Act, more.length ≤ 6 ∧ (∀ k, Act.tick k ∉ more) ∧
      ((run (run (new progs) acts) more).cl t).pc = .idle ∧
      ((run (run (new progs) acts) more).cl t).results = ((run (new progs) acts).cl t).results ++ [false] := by
  have h := inv_run progs acts
  generalize run (new progs) acts = s at h hp
  -- at line 170
  have hclose : ∀ s, Inv s → (s.cl t).pc = .stopClose →
      ((run s [.client t]).cl t).pc = .idle ∧ ((run s [.client t]).cl t).results = (s.cl t).results ++ [false] := by
    intro s h hp
    obtain ⟨hm, how⟩ := owner_of h hp (by simp)
    have hph := h.phase
    rw [how] at hph
    obtain ⟨q, hq⟩ := Option.isSome_iff_exists.1 hph.1
    obtain ⟨q1, q2, q3, _⟩ := h.quit q hq
    have : ¬ (q ∈ s.closed ∨ s.done ∈ s.closed ∨ q = s.done) := by simp [q1, q2, q3]
    simp [run, step, clientStep, hp, hq, this, St.ret]
  -- at line 169, the goroutine at line 151
  have hsend : ∀ s, Inv s → ∀ d, (s.cl t).pc = .stopWait d → ∀ l, s.gs = l ++ [.sendDone s.done] →
      ((run s [.doneSync t l.length, .client t]).cl t).pc = .idle ∧
      ((run s [.doneSync t l.length, .client t]).cl t).results = (s.cl t).results ++ [false] := by
    intro s h d hp l hl
    obtain ⟨hm, how⟩ := owner_of h hp (by simp)
    have hph := h.phase
    rw [how] at hph
    have hd : d = s.done := hph.2.1
    have hst : step s (.doneSync t l.length) = some { s.setPC t .stopClose with gs := s.gs.set l.length .exited } := by
      simp [step, hp, hl, hd]
    have h2 := hclose _ (inv_step h _ hst) (by simp [St.setPC])
    have e : run s [.doneSync t l.length, .client t] = run { s.setPC t .stopClose with gs := s.gs.set l.length .exited } [.client t] := by
      simp [run, hst]
    rw [e]
    refine ⟨h2.1, h2.2.trans ?_⟩
    simp [St.setPC]
  -- at line 169
  have hwait : ∀ s, Inv s → ∀ d, (s.cl t).pc = .stopWait d → ∃ more : List Act, more.length ≤ 3 ∧ (∀ k, Act.tick k ∉ more) ∧
      ((run s more).cl t).pc = .idle ∧ ((run s more).cl t).results = (s.cl t).results ++ [false] := by
    intro s h d hp
    obtain ⟨hm, how⟩ := owner_of h hp (by simp)
    have hph := h.phase
    rw [how] at hph
    obtain ⟨hsome, hd, l, g, hl, hex, hg⟩ := hph
    obtain ⟨q, hq⟩ := Option.isSome_iff_exists.1 hsome
    rcases hg with rfl | rfl
    · have hk := (h.quit q hq).2.2.2.2.2
      have hst : step s (.reader l.length) = some { s with tickers := s.tickers.set s.timer ⟨(s.tickers[s.timer]).period, false, (s.tickers[s.timer]).pending⟩,
                                                           gs := s.gs.set l.length (.sendDone s.done) } := by
        have hgl : s.gs[l.length]? = some .quitting := by rw [hl]; simp
        simp only [step, readerStep, hgl, List.getElem?_eq_getElem hk]
      have h2 := hsend _ (inv_step h _ hst) d hp l (by simp [hl])
      refine ⟨.reader l.length :: [.doneSync t l.length, .client t], by simp, by simp, ?_⟩
      have e : run s (.reader l.length :: [.doneSync t l.length, .client t]) =
          run { s with tickers := s.tickers.set s.timer ⟨(s.tickers[s.timer]).period, false, (s.tickers[s.timer]).pending⟩,
                       gs := s.gs.set l.length (.sendDone s.done) } [.doneSync t l.length, .client t] := by
        simp only [run, List.foldl_cons, hst, Option.getD_some]
      rw [e]
      exact h2
    · exact ⟨[.doneSync t l.length, .client t], by simp, by simp, hsend s h d hp l hl⟩
  -- at line 168, the goroutine in the select
  have hsel : ∀ s, Inv s → ∀ q, (s.cl t).pc = .stopSend q → ∀ l k, s.gs = l ++ [.sel (some q) k] → ∃ more : List Act, more.length ≤ 4 ∧
      (∀ k, Act.tick k ∉ more) ∧
      ((run s more).cl t).pc = .idle ∧ ((run s more).cl t).results = (s.cl t).results ++ [false] := by
    intro s h q hp l k hl
    have hst : step s (.quitSync t l.length) = some { s.setPC t (.stopWait s.done) with gs := s.gs.set l.length .quitting } := by
      simp [step, hp, hl]
    obtain ⟨more, m1, m2, m3, m4⟩ := hwait _ (inv_step h _ hst) s.done (by simp [St.setPC])
    refine ⟨.quitSync t l.length :: more, by simp; omega, by simpa using m2, ?_⟩
    have e : run s (.quitSync t l.length :: more) = run { s.setPC t (.stopWait s.done) with gs := s.gs.set l.length .quitting } more := by
      simp [run, hst]
    rw [e]
    exact ⟨m3, by rw [m4]; simp [St.setPC]⟩
  rcases hp with ⟨q, hp⟩ | ⟨d, hp⟩ | hp
  · obtain ⟨hm, how⟩ := owner_of h hp (by simp)
    have hph := h.phase
    rw [how] at hph
    obtain ⟨hq, l, g, hl, hex, hg⟩ := hph
    have hhead : ∀ s, Inv s → (s.cl t).pc = .stopSend q → s.quit = some q → s.gs = l ++ [.head] → ∃ more : List Act, more.length ≤ 5 ∧
        (∀ k, Act.tick k ∉ more) ∧
        ((run s more).cl t).pc = .idle ∧ ((run s more).cl t).results = (s.cl t).results ++ [false] := by
      intro s h hp hq hl
      have hst : step s (.reader l.length) = some { s with gs := s.gs.set l.length (.sel s.quit s.timer) } := by
        simp [step, readerStep, hl]
      obtain ⟨more, m1, m2, m3, m4⟩ := hsel _ (inv_step h _ hst) q hp l s.timer (by simp [hl, hq])
      refine ⟨.reader l.length :: more, by simp; omega, by simpa using m2, ?_⟩
      have e : run s (.reader l.length :: more) = run { s with gs := s.gs.set l.length (.sel s.quit s.timer) } more := by
        simp [run, hst]
      rw [e]
      exact ⟨m3, m4⟩
    rcases hg with rfl | rfl | rfl
    · obtain ⟨more, m1, m2⟩ := hhead s h hp hq hl
      exact ⟨more, by omega, m2⟩
    · obtain ⟨more, m1, m2⟩ := hsel s h q hp l _ hl
      exact ⟨more, by omega, m2⟩
    · have hst : step s (.reader l.length) = some { s with gs := s.gs.set l.length .head, log := s.log ++ [.exportEnd] } := by
        simp [step, readerStep, hl]
      obtain ⟨more, m1, m2, m3, m4⟩ := hhead _ (inv_step h _ hst) hp hq (by simp [hl])
      refine ⟨.reader l.length :: more, by simp; omega, by simpa using m2, ?_⟩
      have e : run s (.reader l.length :: more) = run { s with gs := s.gs.set l.length .head, log := s.log ++ [.exportEnd] } more := by
        simp [run, hst]
      rw [e]
      exact ⟨m3, m4⟩
  · obtain ⟨more, m1, m2⟩ := hwait s h d hp
    exact ⟨more, by omega, m2⟩
  · exact ⟨[.client t], by simp, by simp, hclose s h hp⟩

/-- The ticker of the goroutine that has not been told to stop is active. -/
def Ticking (s : St) : Prop :=
  ∀ q l g, s.quit = some q → s.gs = l ++ [g] → Running q s.timer g → ∃ tk, s.tickers[s.timer]? = some tk ∧ tk.active = true

theorem getElem?_lt {α : Type} {l : List α} {k : Nat} {x : α} (h : l[k]? = some x) : k < l.length :=
  (List.getElem?_eq_some_iff.mp h).1

theorem ticking_step {s s' : St} (h : Inv s) (ht : Ticking s) (a : Act) (hs : step s a = some s') : Ticking s' := by
  cases a with
  | client t =>
    simp only [step, clientStep] at hs
    have keep : ∀ x : St, x.gs = s.gs → x.timer = s.timer → x.tickers = s.tickers → (x.quit = s.quit ∨ x.quit = none) → Ticking x := by
      intro x h1 h2 h3 h4 q l g hq hg hr
      rw [h1] at hg; rw [h2] at hr ⊢; rw [h3]
      rcases h4 with h4 | h4
      · rw [h4] at hq; exact ht q l g hq hg hr
      · rw [h4] at hq; cases hq
    split at hs
    · split at hs
      · cases hs
      · split at hs
        · cases hs; exact keep _ rfl rfl rfl (.inl rfl)
        · cases hs
    · cases hs
      unfold doStart
      split
      · exact keep _ rfl rfl rfl (.inl rfl)
      · split
        · exact keep _ rfl rfl rfl (.inl rfl)
        · intro q l g hq hg hr
          exact ⟨_, List.getElem?_concat_length, rfl⟩
    · split at hs <;> cases hs <;> exact keep _ rfl rfl rfl (.inl rfl)
    · split at hs <;> cases hs <;> exact keep _ rfl rfl rfl (.inl rfl)
    · split at hs <;> cases hs; exact keep _ rfl rfl rfl (.inl rfl)
    · split at hs <;> cases hs; exact keep _ rfl rfl rfl (.inl rfl)
    · split at hs
      · cases hs; exact keep _ rfl rfl rfl (.inl rfl)
      · split at hs
        · cases hs; exact keep _ rfl rfl rfl (.inl rfl)
        · cases hs; exact keep _ rfl rfl rfl (.inr rfl)
    · cases hs; exact keep _ rfl rfl rfl (.inl rfl)
  | reader i =>
    simp only [step, readerStep] at hs
    cases hg : s.gs[i]? with
    | none => rw [hg] at hs; cases hs
    | some g0 =>
      by_cases he : g0 = .exited
      · subst he; rw [hg] at hs; cases hs
      · obtain ⟨l, q, h1, h2, _, hq, _, hr⟩ := live h hg he
        -- the goroutine was running before
        have old : ∀ q', s.quit = some q' → Running q' s.timer g0 → ∃ tk, s.tickers[s.timer]? = some tk ∧ tk.active = true :=
          fun q' h3 h4 => ht q' l g0 h3 h1 h4
        rw [hg] at hs
        have last : ∀ x l' g', s.gs.set i x = l' ++ [g'] → g' = x := by
          intro x l' g' hx
          rw [h1, h2, set_last] at hx
          have := List.append_inj_right' hx rfl
          simpa using this.symm
        cases g0 with
        | head =>
          cases hs
          intro q' l' g' h3 h4 h5
          exact old q' h3 (.inl rfl)
        | sel q0 k =>
          have hrun : Running q s.timer (.sel q0 k) := by
            rcases hr with h | h | h
            · exact h
            · cases h
            · cases h
          have hk : k = s.timer := by
            rcases hrun with h | h | h <;> cases h
            rfl
          obtain ⟨tk, t1, t2⟩ := old q hq hrun
          subst hk
          simp only [t1] at hs
          obtain ⟨d, a, p⟩ := tk
          simp only at t2
          subst t2
          cases p with
          | true =>
            cases hs
            intro q' l' g' h3 h4 h5
            exact ⟨⟨d, true, false⟩, by simp [getElem?_lt t1], rfl⟩
          | false =>
            simp only at hs
            split at hs
            · split at hs
              · cases hs
                intro q' l' g' h3 h4 h5
                exact ⟨_, t1, rfl⟩
              · cases hs
            · cases hs
        | exporting =>
          cases hs
          intro q' l' g' h3 h4 h5
          exact old q' h3 (.inr (.inr rfl))
        | quitting =>
          simp only at hs
          split at hs
          · cases hs
            intro q' l' g' h3 h4 h5
            rw [last _ l' g' h4] at h5
            rcases h5 with h | h | h <;> cases h
          · cases hs
            intro q' l' g' h3 h4 h5
            exact ht q' l' g' h3 h4 h5
        | sendDone d =>
          simp only at hs
          split at hs
          · cases hs
            intro q' l' g' h3 h4 h5
            exact ht q' l' g' h3 h4 h5
          · cases hs
        | exited => exact absurd rfl he
  | quitSync t i =>
    simp only [step] at hs
    split at hs
    · next q q' k hp hg =>
      split at hs
      · cases hs
        obtain ⟨l, _, h1, h2, _⟩ := live h hg (by simp)
        intro q'' l' g' h3 h4 h5
        have h4 : s.gs.set i .quitting = l' ++ [g'] := h4
        rw [h1, h2, set_last] at h4
        have := List.append_inj_right' h4 rfl
        simp only [List.cons.injEq, and_true] at this
        rw [← this] at h5
        rcases h5 with h | h | h <;> cases h
      · cases hs
    · cases hs
  | doneSync t i =>
    simp only [step] at hs
    split at hs
    · next d d' hp hg =>
      split at hs
      · cases hs
        obtain ⟨l, _, h1, h2, _⟩ := live h hg (by simp)
        intro q'' l' g' h3 h4 h5
        have h4 : s.gs.set i .exited = l' ++ [g'] := h4
        rw [h1, h2, set_last] at h4
        have := List.append_inj_right' h4 rfl
        simp only [List.cons.injEq, and_true] at this
        rw [← this] at h5
        rcases h5 with h | h | h <;> cases h
      · cases hs
    · cases hs
  | tick k =>
    simp only [step] at hs
    split at hs
    · next d p hk =>
      cases hs
      intro q' l' g' h3 h4 h5
      obtain ⟨tk, t1, t2⟩ := ht q' l' g' h3 h4 h5
      simp only
      rw [List.getElem?_set]
      by_cases hkk : k = s.timer
      · subst hkk
        rw [if_pos rfl, if_pos (getElem?_lt hk)]
        exact ⟨_, rfl, rfl⟩
      · rw [if_neg hkk]; exact ⟨tk, t1, t2⟩
    · cases hs

theorem ticking_run (progs : Nat → List Op) (acts : List Act) : Ticking (run (new progs) acts) := by
  suffices ∀ s, Inv s → Ticking s → Ticking (run s acts) from this _ (inv_new progs) (by intro q l g hq; cases hq)
  induction acts with
  | nil => intro s _ h; exact h
  | cons a acts ih =>
    intro s h ht
    simp only [run, List.foldl_cons]
    cases hs : step s a with
    | none => exact ih s h ht
    | some s' => exact ih s' (inv_step h a hs) (ticking_step h ht a hs)

/-- While the reader runs and nobody is stopping it, its ticker can tick, and a tick is followed by an export: the goroutine of the reader
needs no other to finish the export it may be in, and to begin and finish one for the tick. -/
theorem tick_exports (progs : Nat → List Op) (acts : List Act) (hr : isRunning (run (new progs) acts).log = true)
    (hns : ∀ t, (∀ q, ((run (new progs) acts).cl t).pc ≠ .stopSend q) ∧ (∀ d, ((run (new progs) acts).cl t).pc ≠ .stopWait d) ∧
      ((run (new progs) acts).cl t).pc ≠ .stopClose) :
    ∃ s', step (run (new progs) acts) (.tick (run (new progs) acts).timer) = some s' ∧ s'.log = (run (new progs) acts).log ++ [.tick] ∧
      ∃ i n, n ≤ 5 ∧ ((run s' (List.replicate n (.reader i))).log = s'.log ++ [.exportBegin, .exportEnd] ∨
        (run s' (List.replicate n (.reader i))).log = s'.log ++ [.exportEnd, .exportBegin, .exportEnd]) := by
  have h := inv_run progs acts
  have ht := ticking_run progs acts
  have hr' : (run (new progs) acts).quit.isSome = true := (isRunning_after _ _ _ h.log).symm.trans hr
  generalize run (new progs) acts = s at h ht hr' hns
  obtain ⟨q, hq⟩ := Option.isSome_iff_exists.1 hr'
  have hph := h.phase
  have hph : ∃ l g, s.gs = l ++ [g] ∧ AllExited l ∧ Running q s.timer g := by
    unfold owner at hph
    split at hph
    · simp only [Phase, hq] at hph; exact hph
    · next t _ =>
      obtain ⟨n1, n2, n3⟩ := hns t
      cases hp : (s.cl t).pc with
      | idle => simp only [hp, Phase, hq] at hph; exact hph
      | locked op => simp only [hp, Phase, hq] at hph; exact hph
      | stopSend q => exact absurd hp (n1 q)
      | stopWait d => exact absurd hp (n2 d)
      | stopClose => exact absurd hp n3
      | flushing => simp [hp, Phase, hq] at hph
  obtain ⟨l, g, hg, hl, hrun⟩ := hph
  obtain ⟨⟨d, a, p⟩, t1, t2⟩ := ht q l g hq hg hrun
  simp only at t2
  subst t2
  refine ⟨{ s with tickers := s.tickers.set s.timer ⟨d, true, true⟩, log := s.log ++ [.tick] }, by simp only [step, t1], rfl, l.length, ?_⟩
  have hlt := getElem?_lt t1
  rcases hrun with rfl | rfl | rfl
  · exact ⟨3, by omega, .inl (by simp [run, step, readerStep, hg, hlt])⟩
  · exact ⟨2, by omega, .inl (by simp [run, step, readerStep, hg, hlt])⟩
  · exact ⟨4, by omega, .inr (by simp [run, step, readerStep, hg, hlt])⟩

/-- `Flush` exports once if the reader is not running, and does nothing if it is. -/
theorem flush_result (progs : Nat → List Op) (acts : List Act) (t : Nat)
    (hp : ((run (new progs) acts).cl t).pc = .locked .flush) :
    ∃ more, (run (run (new progs) acts) more).log = (run (new progs) acts).log ++
        (if isRunning (run (new progs) acts).log then [] else [.flushBegin, .flushEnd]) ∧
      (∀ a ∈ more, a = .client t) ∧
      ((run (run (new progs) acts) more).cl t).pc = .idle ∧
      ((run (run (new progs) acts) more).cl t).results = ((run (new progs) acts).cl t).results ++ [false] := by
  have h := inv_run progs acts
  have hr : isRunning (run (new progs) acts).log = (run (new progs) acts).quit.isSome := isRunning_after _ _ _ h.log
  generalize run (new progs) acts = s at h hp hr
  rw [hr]
  cases hq : s.quit with
  | some q => exact ⟨[.client t], by simp [run, step, clientStep, hp, hq, St.ret], by simp, by simp [run, step, clientStep, hp, hq, St.ret],
      by simp [run, step, clientStep, hp, hq, St.ret]⟩
  | none => exact ⟨[.client t, .client t], by simp [run, step, clientStep, hp, hq, St.ret, St.setPC], by simp,
      by simp [run, step, clientStep, hp, hq, St.ret, St.setPC], by simp [run, step, clientStep, hp, hq, St.ret, St.setPC]⟩

/-! ## C51 -/

/-- Calls that change the manager. -/
inductive MOp where
  | add (p : Option Producer)
  | delete (p : Option Producer)

/-- The manager after calls, or a panic. -/
def mrun (pm : Manager) : List MOp → Res Manager
  | [] => .ok pm
  | .add p :: ops => (pm.addProducer p).bind fun pm => mrun pm ops
  | .delete p :: ops => (pm.deleteProducer p).bind fun pm => mrun pm ops

/-- Whether a producer is registered: it is if the last call about it was `AddProducer`. -/
def registered (p : Producer) (ops : List MOp) (before : Bool) : Bool :=
  ops.foldl (fun b op => match op with
    | .add q => if q = some p then true else b
    | .delete q => if q = some p then false else b) before

/-- The producers of calls can be keys of a map. -/
def Hashable (ops : List MOp) : Prop :=
  ∀ op ∈ ops, ∀ p, op = .add (some p) ∨ op = .delete (some p) → p.hashable = true

theorem mrun_spec (ops : List MOp) (m : GoMap Producer Unit) (hw : GoMap.WF m) (hh : Hashable ops) :
    ∃ m', mrun ⟨some m⟩ ops = .ok ⟨some m'⟩ ∧ GoMap.WF m' ∧
      ∀ p, p ∈ GoMap.keys m' ↔ registered p ops (decide (p ∈ GoMap.keys m)) = true := by
  induction ops generalizing m with
  | nil => exact ⟨m, rfl, hw, by simp [registered]⟩
  | cons op ops ih =>
    have hh' : Hashable ops := fun o ho => hh o (List.mem_cons_of_mem _ ho)
    cases op with
    | add q =>
      cases q with
      | none =>
        obtain ⟨m', h1, h2, h3⟩ := ih m hw hh'
        exact ⟨m', h1, h2, fun p => by rw [h3 p]; simp [registered]⟩
      | some q =>
        have hq := hh _ (by simp) q (Or.inl rfl)
        obtain ⟨m', h1, h2, h3⟩ := ih (GoMap.set m q ()) (GoMap.WF_set hw _ _) hh'
        refine ⟨m', ?_, h2, fun p => ?_⟩
        · simp only [mrun, Manager.addProducer, hq, if_true, Res.bind]; exact h1
        · rw [h3 p]
          have : decide (p ∈ GoMap.keys (GoMap.set m q ())) = if some q = some p then true else decide (p ∈ GoMap.keys m) := by
            by_cases hpq : q = p
            · subst hpq; simp [GoMap.keys_set_mem]
            · simp [GoMap.keys_set_mem, hpq, Ne.symm hpq]
          rw [this]; rfl
    | delete q =>
      cases q with
      | none =>
        obtain ⟨m', h1, h2, h3⟩ := ih m hw hh'
        exact ⟨m', h1, h2, fun p => by rw [h3 p]; simp [registered]⟩
      | some q =>
        have hq := hh _ (by simp) q (Or.inr rfl)
        obtain ⟨m', h1, h2, h3⟩ := ih (GoMap.del m q) (GoMap.WF_del hw _) hh'
        refine ⟨m', ?_, h2, fun p => ?_⟩
        · simp only [mrun, Manager.deleteProducer, hq, if_true, Res.bind]; exact h1
        · rw [h3 p]
          have : decide (p ∈ GoMap.keys (GoMap.del m q)) = if some q = some p then false else decide (p ∈ GoMap.keys m) := by
            by_cases hpq : q = p
            · subst hpq; simp [GoMap.keys_del_mem]
            · simp [GoMap.keys_del_mem, hpq, Ne.symm hpq]
          rw [this]; rfl

/-- `GetAll` of the global manager returns, in some order, each producer once that was added and not deleted
since. Nil producers are ignored, adding twice is adding once, and deleting removes exactly the producer
given. -/
theorem getAll_registered (ops : List MOp) (hh : Hashable ops) :
    ∃ m, mrun Manager.global ops = .ok ⟨some m⟩ ∧ ∀ order : GoMap Producer Unit, order.Perm m →
      (Manager.getAll ⟨some m⟩ order).Nodup ∧
      ∀ p, p ∈ Manager.getAll ⟨some m⟩ order ↔ registered p ops false = true := by
  obtain ⟨m, h1, h2, h3⟩ := mrun_spec ops [] GoMap.WF_nil hh
  refine ⟨m, h1, fun order ho => ⟨GoMap.WF_perm ho.symm h2, fun p => ?_⟩⟩
  exact ((ho.map Prod.fst).mem_iff (a := p)).trans (h3 p)

/-- Producers that cannot be the key of a map cannot be added, and a manager that does not come from
`GlobalManager` cannot be used: the calls panic. -/
theorem addProducer_panics (m : GoMap Producer Unit) (p : Producer) :
    (p.hashable = false → Manager.addProducer ⟨some m⟩ (some p) = .panic) ∧
    Manager.addProducer ⟨none⟩ (some p) = .panic := by
  constructor
  · intro h; simp [Manager.addProducer, h]
  · rfl

/-- C50: an export collects what every registered producer reads, each once. -/
theorem reads_each_producer_once {M : Type} (ops : List MOp) (hh : Hashable ops) (read : Producer → List M) :
    ∃ m, mrun Manager.global ops = .ok ⟨some m⟩ ∧ ∀ order : GoMap Producer Unit, order.Perm m →
      ∃ ps : List Producer, ps.Nodup ∧ (∀ p, p ∈ ps ↔ registered p ops false = true) ∧
        readAndExport (Manager.getAll ⟨some m⟩ order) read = (ps.map read).flatten := by
  obtain ⟨m, h1, h2⟩ := getAll_registered ops hh
  refine ⟨m, h1, fun order ho => ⟨_, (h2 order ho).1, (h2 order ho).2, ?_⟩⟩
  have : ∀ (l : List Producer) (d : List M), l.foldl (fun data p => data ++ read p) d = d ++ (l.map read).flatten := by
    intro l
    induction l with
    | nil => simp
    | cons p l ih => intro d; simp [ih]
  exact this _ []

/-! ## Cases -/

/-- A goroutine starts the reader, which exports twice, another stops it during the second export and
starts it again; a third flushes. -/
def exProgs : Nat → List Op := fun t =>
  if t = 0 then [.start 0, .stop] else if t = 1 then [.start 5, .start 2000000000, .stop, .stop, .start 0] else [.flush]

def exActs : List Act :=
  [.client 0, .client 0, .reader 0, .tick 0, .reader 0, .client 1, .client 1, .client 1, .client 1, .reader 0,
   .reader 0, .tick 0, .reader 0, .tick 0, .client 1, .client 1, .client 2, .reader 0, .reader 0, .quitSync 1 0, .reader 0,
   .doneSync 1 0, .client 1, .tick 0, .client 2, .client 2, .client 2, .client 1, .client 1, .client 1, .client 1]

example : (run (new exProgs) exActs).log =
    [.started, .tick, .exportBegin, .exportEnd, .tick, .exportBegin, .tick, .exportEnd, .stopped, .flushBegin, .flushEnd,
     .stopped, .started] := by decide +kernel

example : ((run (new exProgs) exActs).cl 1).results = [true, true, false, false, false] ∧
    (run (new exProgs) exActs).gs = [.exited, .head] := by decide +kernel

/-- The hypotheses of `tick_exports`, in the middle of an export. -/
example : isRunning (run (new exProgs) (exActs.take 13)).log = true ∧ (run (new exProgs) (exActs.take 13)).gs = [.exporting] ∧
    ((run (new exProgs) (exActs.take 13)).cl 0).pc = .idle ∧ ((run (new exProgs) (exActs.take 13)).cl 1).pc = .idle := by decide +kernel

/-- The hypotheses of `start_result` and `stop_can_return`. -/
example : ((run (new exProgs) (exActs.take 1)).cl 0).pc = .locked (.start 0) ∧
    ((run (new exProgs) (exActs.take 16)).cl 1).pc = .stopSend 0 := by decide +kernel

example : Hashable [.add (some ⟨1, true⟩), .add none, .add (some ⟨2, true⟩), .add (some ⟨1, true⟩), .delete (some ⟨2, true⟩)] ∧
    registered ⟨1, true⟩ [.add (some ⟨1, true⟩), .add none, .add (some ⟨2, true⟩), .add (some ⟨1, true⟩), .delete (some ⟨2, true⟩)] false = true ∧
    registered ⟨2, true⟩ [.add (some ⟨1, true⟩), .add none, .add (some ⟨2, true⟩), .add (some ⟨1, true⟩), .delete (some ⟨2, true⟩)] false = false := by
  refine ⟨?_, by decide, by decide⟩
  intro op ho p hp
  simp only [List.mem_cons, List.not_mem_nil, or_false] at ho
  rcases ho with rfl | rfl | rfl | rfl | rfl <;> simp at hp <;> rw [← hp]

end Verif.Props.Reader
