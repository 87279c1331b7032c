import Verif.Http.Panics

/-!
# C116: what a panic in the program's hooks leaves behind in the HTTP plugin

The specification is in terms of who panics and what is done with the body: `Counted`, `Started` and `Called` say how far a request gets, `ends`
which calls end a body. The theorems give the number of times each thing is recorded, for every choice and every use of the body.
-/

namespace Verif.Http.Panics
open Verif

/-! ## Specification -/

/-- The request is not a health check and its start options could be had. -/
def Counted (c : Client) : Bool := !c.health && !c.getStartOptions

/-- … and it has a name, and the sampler decided. -/
def Started (c : Client) : Bool := Counted c && !c.formatSpanName && !c.sampler

/-- … and it was prepared: the base transport is called. -/
def Called (c : Client) : Bool := Started c && !c.newClientTrace && !c.propagation

/-- The body is closed. -/
def isClose : Use → Bool
  | .close _ => true
  | _ => false

/-- The body is read to its end or closed. -/
def ends : Use → Bool
  | .eof => true
  | u => isClose u

/-! ## The body -/

theorem body_count (exp : Bool) (us : List Use) (s : S) : (useAll exp s us).evs.count .count = s.evs.count .count := by
  induction us generalizing s with
  | nil => rfl
  | cons u us ih =>
    rw [useAll, ih]
    cases u <;> cases hd : s.spanDone <;> cases ht : s.statsDone <;> cases exp <;> simp [use, endSpan, endStats, S.say, hd, ht]

theorem body_start (exp : Bool) (us : List Use) (s : S) : (useAll exp s us).evs.count .start = s.evs.count .start := by
  induction us generalizing s with
  | nil => rfl
  | cons u us ih =>
    rw [useAll, ih]
    cases u <;> cases hd : s.spanDone <;> cases ht : s.statsDone <;> cases exp <;> simp [use, endSpan, endStats, S.say, hd, ht]

theorem body_finish (exp : Bool) (us : List Use) (s : S) :
    (useAll exp s us).evs.count .finish = s.evs.count .finish + (!s.spanDone && us.any ends).toNat := by
  induction us generalizing s with
  | nil => simp [useAll]
  | cons u us ih =>
    rw [useAll, ih]
    cases u <;> cases hd : s.spanDone <;> cases ht : s.statsDone <;> cases exp <;>
      simp [use, endSpan, endStats, S.say, hd, ht, ends, isClose]

theorem body_stats (exp : Bool) (us : List Use) (s : S) :
    (useAll exp s us).evs.count .stats
      = s.evs.count .stats + (!s.statsDone && (us.any isClose || decide ((exp && !s.spanDone).toNat + 1 ≤ us.count .eof))).toNat := by
  induction us generalizing s with
  | nil => simp [useAll]
  | cons u us ih =>
    rw [useAll, ih]
    cases u <;> cases hd : s.spanDone <;> cases ht : s.statsDone <;> cases exp <;>
      simp [use, endSpan, endStats, S.say, hd, ht, isClose]

theorem body_closed (exp : Bool) (us : List Use) (s : S) :
    (useAll exp s us).evs.count .closed + (exp && !s.spanDone && (us.find? ends).any isClose).toNat
      = s.evs.count .closed + us.countP isClose := by
  induction us generalizing s with
  | nil => simp [useAll]
  | cons u us ih =>
    have h := ih (use exp s u).1
    rw [useAll]
    revert h
    cases u <;> cases hd : s.spanDone <;> cases ht : s.statsDone <;> cases exp <;>
      simp [use, endSpan, endStats, S.say, hd, ht, isClose, ends, List.countP_cons, List.find?_cons] <;> omega

/-! ## Client -/

/-- How far a request gets, and what is recorded by then. -/
theorem client_cases (c : Client) (us : List Use) :
    (Counted c = false ∧ Started c = false ∧ Called c = false ∧ client c us = ⟨[], false, false⟩) ∨
    (Counted c = true ∧ Started c = false ∧ Called c = false ∧ client c us = ⟨[.count], false, false⟩) ∨
    (Counted c = true ∧ Started c = true ∧ Called c = false ∧ client c us = ⟨[.count, .start], false, false⟩) ∨
    (Counted c = true ∧ Started c = true ∧ Called c = true ∧ client c us = match c.base with
      | .panics => ⟨[.count, .start], false, false⟩
      | .nothing => ⟨[.count, .start], false, false⟩
      | .err => if c.exporter then ⟨[.count, .start, .finish], true, false⟩ else ⟨[.count, .start, .finish, .stats], true, true⟩
      | .resp => useAll c.exporter ⟨[.count, .start], false, false⟩ us) := by
  obtain ⟨h, g, f, sa, n, p, b, e⟩ := c
  cases h
  · cases g
    · cases f
      · cases sa
        · cases n
          · cases p
            · cases b <;> cases e <;>
                simp [Counted, Started, Called, client, roundTrip, traceRoundTrip, S.init, S.say, endSpan, endStats]
            · simp [Counted, Started, Called, client, roundTrip, traceRoundTrip, S.init, S.say]
          · simp [Counted, Started, Called, client, roundTrip, traceRoundTrip, S.init, S.say]
        · simp [Counted, Started, Called, client, roundTrip, traceRoundTrip, S.init, S.say]
      · simp [Counted, Started, Called, client, roundTrip, traceRoundTrip, S.init, S.say]
    · simp [Counted, Started, Called, client, roundTrip, S.init]
  · cases b <;> simp [Counted, Started, Called, client, roundTrip, S.init]

/-- A request is counted once, exactly if it is not a health check and `GetStartOptions` returns. -/
theorem counted (c : Client) (us : List Use) : (client c us).evs.count .count = (Counted c).toNat := by
  rcases client_cases c us with ⟨h, _, _, e⟩ | ⟨h, _, _, e⟩ | ⟨h, _, _, e⟩ | ⟨h, _, _, e⟩ <;> rw [e, h]
  · rfl
  · rfl
  · rfl
  · cases c.base
    · rfl
    · cases c.exporter <;> rfl
    · rfl
    · rw [body_count]; rfl

/-- Its span is started once, exactly if moreover `FormatSpanName` and the sampler return. -/
theorem started (c : Client) (us : List Use) : (client c us).evs.count .start = (Started c).toNat := by
  rcases client_cases c us with ⟨_, h, _, e⟩ | ⟨_, h, _, e⟩ | ⟨_, h, _, e⟩ | ⟨_, h, _, e⟩ <;> rw [e, h]
  · rfl
  · rfl
  · rfl
  · cases c.base
    · rfl
    · cases c.exporter <;> rfl
    · rfl
    · rw [body_start]; rfl

/-- The span is ended, once, exactly if moreover `NewClientTrace` and the propagation format return, and the base transport returns an error, or a
response whose body is read to its end or closed. A `Close` or an exporter that panics makes no difference. -/
theorem finished (c : Client) (us : List Use) : (client c us).evs.count .finish
    = (Called c && (c.base == .err || c.base == .resp && us.any ends)).toNat := by
  rcases client_cases c us with ⟨_, _, h, e⟩ | ⟨_, _, h, e⟩ | ⟨_, _, h, e⟩ | ⟨_, _, h, e⟩ <;> rw [e, h]
  · rfl
  · rfl
  · rfl
  · cases c.base
    · rfl
    · cases c.exporter <;> rfl
    · rfl
    · rw [body_finish]
      cases us.any ends <;> rfl

/-- The latency and sizes are recorded, once, exactly if moreover — with exporters that return — as the span is ended; with an exporter that
panics, if the body is closed, or `io.EOF` is read from it twice. -/
theorem completed (c : Client) (us : List Use) : (client c us).evs.count .stats
    = (Called c && (c.base == .err && !c.exporter ||
        c.base == .resp && (us.any isClose || decide (c.exporter.toNat + 1 ≤ us.count .eof)))).toNat := by
  rcases client_cases c us with ⟨_, _, h, e⟩ | ⟨_, _, h, e⟩ | ⟨_, _, h, e⟩ | ⟨_, _, h, e⟩ <;> rw [e, h]
  · rfl
  · rfl
  · rfl
  · cases c.base
    · rfl
    · cases c.exporter <;> rfl
    · rfl
    · rw [body_stats]
      have hb : ((Base.resp == Base.err) = false) := rfl
      have hb' : ((Base.resp == Base.resp) = true) := rfl
      simp only [Bool.not_false, Bool.and_true, Bool.true_and, hb, hb', Bool.false_and, Bool.false_or]
      simp

/-- The body of the base transport is closed as often as the program closes it; but the `Close` in which an exporter panics is not passed on. -/
theorem closed (c : Client) (us : List Use) (hc : Called c = true) (hb : c.base = .resp) :
    (client c us).evs.count .closed + (c.exporter && (us.find? ends).any isClose).toNat = us.countP isClose := by
  rcases client_cases c us with ⟨_, _, h, e⟩ | ⟨_, _, h, e⟩ | ⟨_, _, h, e⟩ | ⟨_, _, h, e⟩
  · rw [h] at hc; cases hc
  · rw [h] at hc; cases hc
  · rw [h] at hc; cases hc
  · rw [e, hb]
    have := body_closed c.exporter us ⟨[.count, .start], false, false⟩
    simpa using this

theorem any_ends (us : List Use) : us.any ends = (us.any isClose || decide (1 ≤ us.count .eof)) := by
  induction us with
  | nil => rfl
  | cons u us ih =>
    simp only [List.any_cons, ih]
    cases u <;> simp [ends, isClose]

/-- A span is left unended exactly if it was started and: `NewClientTrace`, the propagation format or the base transport panics, the base
transport returns nothing, or the body is neither read to its end nor closed. -/
theorem unfinished_iff (c : Client) (us : List Use) :
    (client c us).evs.count .finish < (client c us).evs.count .start ↔
      Started c = true ∧ (c.newClientTrace = true ∨ c.propagation = true ∨ c.base = .panics ∨ c.base = .nothing ∨
        c.base = .resp ∧ ∀ u ∈ us, ends u = false) := by
  rw [finished, started, Called]
  have ha : us.any ends = false ↔ ∀ u ∈ us, ends u = false := by simp
  rw [← ha]
  cases Started c <;> cases c.newClientTrace <;> cases c.propagation <;> cases c.base <;> cases us.any ends <;> decide

/-- The claim, for requests in which nobody panics once counted: a started span is ended and a counted request completed, as soon as the body, if
there is one, is read to its end or closed. -/
theorem balanced_partial (c : Client) (us : List Use)
    (h : c.formatSpanName = false ∧ c.sampler = false ∧ c.newClientTrace = false ∧ c.propagation = false ∧ c.exporter = false)
    (hb : c.base = .err ∨ c.base = .resp ∧ ∃ u ∈ us, ends u = true) :
    (client c us).evs.count .finish = (client c us).evs.count .start ∧ (client c us).evs.count .stats = (client c us).evs.count .count := by
  obtain ⟨h1, h2, h3, h4, h5⟩ := h
  rw [finished, started, completed, counted, Called, Started, h1, h2, h3, h4, h5]
  have he := any_ends us
  rcases hb with hb | ⟨hb, u, hu, hu'⟩
  · rw [hb]; cases Counted c <;> exact ⟨rfl, rfl⟩
  · have ha : us.any ends = true := List.any_eq_true.mpr ⟨u, hu, hu'⟩
    rw [hb, ha]
    rw [ha] at he
    rw [show Bool.toNat false + 1 = 1 from rfl, ← he]
    cases Counted c <;> exact ⟨rfl, rfl⟩

/-- Whoever panics, nothing is recorded twice, and nothing ends that did not start. -/
theorem at_most_once (c : Client) (us : List Use) :
    (client c us).evs.count .finish ≤ (client c us).evs.count .start ∧ (client c us).evs.count .stats ≤ (client c us).evs.count .count ∧
    (client c us).evs.count .start ≤ (client c us).evs.count .count ∧ (client c us).evs.count .count ≤ 1 := by
  rw [finished, started, completed, counted, Called, Started]
  generalize (c.base == .err || c.base == .resp && us.any ends) = x
  generalize (c.base == .err && !c.exporter || c.base == .resp && (us.any isClose || decide (c.exporter.toNat + 1 ≤ us.count .eof))) = y
  cases Counted c <;> cases c.formatSpanName <;> cases c.sampler <;> cases c.newClientTrace <;> cases c.propagation <;> cases x <;>
    cases y <;> decide

/-- A client in which nobody panics. -/
def calm : Client := ⟨false, false, false, false, false, false, .resp, false⟩

/-- A base transport that panics: the request is counted, its span started, and neither is ever ended, whatever follows. -/
theorem base_panics (us : List Use) : (client { calm with base := .panics } us).evs = [.count, .start] := rfl

/-- A client trace that panics: the same. -/
theorem trace_panics (us : List Use) : (client { calm with newClientTrace := true } us).evs = [.count, .start] := rfl

/-- A name that panics: the request is counted and never completed. -/
theorem name_panics (us : List Use) : (client { calm with formatSpanName := true } us).evs = [.count] := rfl

/-- An exporter that panics as the body is closed: the connection is not released, though the program closed the body. -/
theorem exporter_keeps_connection : Ev.closed ∉ (client { calm with exporter := true } [.data, .close false]).evs := by decide

/-- An exporter that panics at the end of the body: the request is counted and not completed. -/
theorem exporter_loses_stats : (client { calm with exporter := true } [.data, .eof]).evs = [.count, .start, .finish] := by decide

/-- The claim without its hypothesis is false. -/
theorem balanced_fails : ¬ ∀ (c : Client) (us : List Use), (client c us).evs.count .finish = (client c us).evs.count .start := by
  intro h
  exact absurd (h { calm with base := .panics } []) (by decide)

example : (client calm [.data, .fail, .readPanics, .close true, .close false]).evs = [.count, .start, .stats, .finish, .closed, .closed] := by decide
example : Called calm = true ∧ ∃ u ∈ [Use.data, .eof], ends u = true := by decide
example : (client { calm with base := .err } []).evs = [.count, .start, .finish, .stats] := by decide

/-! ## Server -/

/-- Someone who is asked before the request is handled panics. -/
def Early (c : Server) : Bool := c.isHealthEndpoint || !c.health && (c.formatSpanName || c.getStartOptions || c.propagation || c.sampler)

/-- The server's requests are recorded exactly so: none of it if someone panics before the handler; otherwise, whether or not the handler or an
exporter panics, the request is counted, completed, and its span, unless it is a health check, started and ended — each once. -/
theorem served (c : Server) (e : Ev) : (serve c).1.evs.count e = match e with
    | .count => (!Early c).toNat
    | .stats => (!Early c).toNat
    | .start => (!Early c && !c.health).toNat
    | .finish => (!Early c && !c.health).toNat
    | .closed => 0 := by
  obtain ⟨i, h, f, g, p, s, ha, x⟩ := c
  cases i
  · cases h
    · cases f
      · cases g
        · cases p
          · cases s <;> cases x <;> cases e <;> decide +revert
          · cases e <;> simp [serve, Early, S.init]
        · cases e <;> simp [serve, Early, S.init]
      · cases e <;> simp [serve, Early, S.init]
    · cases e <;> simp [serve, Early, S.init, S.say, endStats]
  · cases e <;> simp [serve, Early, S.init]

/-- The panic reaches `net/http` exactly if someone panicked: the plugin neither hides one nor adds one. -/
theorem served_panics (c : Server) : (serve c).2 = (Early c || c.handler || !c.health && c.exporter) := by
  obtain ⟨i, h, f, g, p, s, ha, x⟩ := c
  cases i
  · cases h
    · cases f
      · cases g
        · cases p
          · cases s <;> cases x <;> cases ha <;> rfl
          · rfl
        · rfl
      · rfl
    · simp [serve, Early]
  · simp [serve, Early]

/-- The span is the last to end: what the request recorded is complete when an exporter sees it. -/
theorem served_order (c : Server) (h : (serve c).1.evs.count .finish = 1) : (serve c).1.evs = [.start, .count, .stats, .finish] := by
  rw [served] at h
  obtain ⟨i, he, f, g, p, s, ha, x⟩ := c
  cases i <;> cases he <;> cases f <;> cases g <;> cases p <;> cases s <;> first | (simp [Early] at h; done) | (cases x <;> rfl)

example : serve ⟨false, false, false, false, false, false, true, false⟩ = (⟨[.start, .count, .stats, .finish], true, true⟩, true) := by decide
example : serve ⟨false, false, true, false, false, false, true, false⟩ = (⟨[], false, false⟩, true) := by decide

end Verif.Http.Panics
