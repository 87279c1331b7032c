import Verif.Zpages.Tracez
import Verif.Props.Store
import Mathlib.Tactic.IntervalCases

/-!
# C53, C56: the trace pages show what the span store holds
-/

namespace Verif.Props.Tracez
open Verif Verif.Trace Verif.Zpages Verif.Props.Store Verif.Props.Bucket Verif.Props.Spans

/-- How long a finished span took. -/
def duration (sd : SpanData) : Int := sd.endTime - sd.startTime

/-- The span ended in column `k`: its duration is at least the bound left of the column and below the
bound right of it, the bounds being those of the column headers. -/
def InColumn (k : Nat) (sd : SpanData) : Prop :=
  (k = 0 ∧ 0 ≤ duration sd ∧ duration sd < 10000) ∨
  (k = 1 ∧ 10000 ≤ duration sd ∧ duration sd < 100000) ∨
  (k = 2 ∧ 100000 ≤ duration sd ∧ duration sd < 1000000) ∨
  (k = 3 ∧ 1000000 ≤ duration sd ∧ duration sd < 10000000) ∨
  (k = 4 ∧ 10000000 ≤ duration sd ∧ duration sd < 100000000) ∨
  (k = 5 ∧ 100000000 ≤ duration sd ∧ duration sd < 1000000000) ∨
  (k = 6 ∧ 1000000000 ≤ duration sd ∧ duration sd < 10000000000) ∨
  (k = 7 ∧ 10000000000 ≤ duration sd ∧ duration sd < 60000000000) ∨
  (k = 8 ∧ 60000000000 ≤ duration sd)

theorem inColumn_of {x : SpanData} {k : Nat} (h0 : 0 ≤ x.latency) (h : latencyBucket x.latency = k) : InColumn k x := by
  obtain ⟨lo, hi, h1, h2, h3⟩ := (latency_partition x.latency h0 k).mp h
  unfold SpanData.latency at *
  unfold InColumn duration
  match k, h1 with
  | 0, h1 => cases h1; omega
  | 1, h1 => cases h1; omega
  | 2, h1 => cases h1; omega
  | 3, h1 => cases h1; omega
  | 4, h1 => cases h1; omega
  | 5, h1 => cases h1; omega
  | 6, h1 => cases h1; omega
  | 7, h1 => cases h1; omega
  | 8, h1 => cases h1; omega
  | k + 9, h1 => simp [latencyBucketBounds, defaultLatencies] at h1

theorem column_mem {t : Int} {ops : List Op} {st : State} (h : run (State.init t) ops = .ok st) {name : Bytes} {k : Nat}
    {sd : SpanData} (hx : sd ∈ latencyOf st name k) : InColumn k sd := by
  unfold latencyOf at hx
  cases hs : GoMap.get st.stores name with
  | none => rw [hs] at hx; simp at hx
  | some s =>
    rw [hs] at hx
    simp only at hx
    cases hb : s.latency[k]? with
    | none => rw [hb] at hx; simp at hx
    | some b =>
      rw [hb] at hx
      simp only at hx
      obtain ⟨xs, hr, hall⟩ := (SInv.ok (good_run h) name s hs).latency k b hb
      rw [contents_of_rep hr] at hx
      exact inColumn_of (hall sd hx).2.1 (hall sd hx).2.2.1

theorem flatMap_range {α β : Type} (l : List α) (f : α → List β) :
    l.flatMap f = (List.range l.length).flatMap fun k => match l[k]? with
      | none => []
      | some a => f a := by
  induction l using List.reverseRecOn with
  | nil => rfl
  | append_singleton l a ih =>
    rw [List.length_append, List.length_singleton, List.range_succ, List.flatMap_append, List.flatMap_append, ih]
    congr 1
    · apply List.flatMap_congr
      intro k hk
      have : k < l.length := List.mem_range.mp hk
      rw [List.getElem?_append_left this]
    · simp

/-- The stored spans are those of the nine columns. -/
theorem stored_columns {t : Int} {ops : List Op} {st : State} (h : run (State.init t) ops = .ok st) (name : Bytes) :
    stored st name = (List.range 9).flatMap (latencyOf st name) := by
  unfold stored
  cases hs : GoMap.get st.stores name with
  | none =>
    symm
    simp [latencyOf, hs]
  | some s =>
    simp only
    rw [flatMap_range, (SInv.ok (good_run h) name s hs).nbuckets]
    apply List.flatMap_congr
    intro k _
    simp only [latencyOf, hs]
    cases s.latency[k]? <;> rfl

/-! ## C53 -/

/-- The lower and upper bound of a detail page, both inclusive. -/
def pageLo (k : Nat) : Int := ([0, 10000, 100000, 1000000, 10000000, 100000000, 1000000000, 10000000000, 100000000000][k]?).getD 0
def pageHi (k : Nat) : Int := ([10000, 100000, 1000000, 10000000, 100000000, 1000000000, 10000000000, 100000000000, 2 ^ 63 - 1][k]?).getD 0

theorem pageBounds_eq {k : Nat} (hk : k ≤ 8) : pageBounds k = .ok (pageLo k, pageHi k) := by
  interval_cases k <;> rfl

/-- A latency page shows, each once, exactly the stored spans whose duration lies between its bounds,
both inclusive. -/
theorem page_exact {t : Int} {ops : List Op} {st : State} (h : run (State.init t) ops = .ok st)
    (orders : List (List Bytes)) (name : Bytes) {k : Nat} (hk : k ≤ 8) :
    ∃ out, traceSpans st orders name 1 k = .ok (st, out) ∧
      out.Perm ((stored st name).filter fun sd => decide (pageLo k ≤ duration sd ∧ duration sd ≤ pageHi k)) := by
  obtain ⟨out, h1, _, h2⟩ := latency_report_exact h name (pageLo k) (pageHi k)
  refine ⟨out, ?_, ?_⟩
  · unfold traceSpans
    rw [if_neg (by decide), if_pos rfl, pageBounds_eq hk]
    simp only [Res.bind, h1]
  · have hne : pageHi k ≠ 0 := by interval_cases k <;> decide
    have : ∀ sd, decide (Wanted (pageLo k) (pageHi k) sd) = decide (pageLo k ≤ duration sd ∧ duration sd ≤ pageHi k) := by
      intro sd
      simp [Wanted, duration, hne]
    simpa only [this] using h2

/-- A duration on which the two tables of bounds agree: not exactly a bound, and not from one minute to
100 seconds (nor beyond what a `time.Duration` holds). -/
def Ordinary (sd : SpanData) : Prop :=
  duration sd ∉ [10000, 100000, 1000000, 10000000, 100000000, 1000000000, 10000000000] ∧
    ¬ (60000000000 ≤ duration sd ∧ duration sd ≤ 100000000000) ∧ duration sd < 2 ^ 63

instance (sd : SpanData) : Decidable (Ordinary sd) := by unfold Ordinary; infer_instance

/-- A counted span whose duration is ordinary is shown on the page of its column and on no other.
Missing for the full claim: the other durations, for which it is false (`boundary_shown_twice`,
`minute_not_shown`). -/
theorem page_of_column_partial {t : Int} {ops : List Op} {st : State} (h : run (State.init t) ops = .ok st)
    (orders : List (List Bytes)) (name : Bytes) {k : Nat} {sd : SpanData} (hc : sd ∈ latencyOf st name k)
    (ho : Ordinary sd) {j : Nat} (hj : j ≤ 8) :
    ∃ out, traceSpans st orders name 1 j = .ok (st, out) ∧ (sd ∈ out ↔ j = k) := by
  obtain ⟨out, h1, h2⟩ := page_exact h orders name hj
  refine ⟨out, h1, ?_⟩
  have hin := column_mem h hc
  have hst : sd ∈ stored st name := by
    rw [stored_columns h]
    refine List.mem_flatMap.mpr ⟨k, ?_, hc⟩
    simp only [List.mem_range]
    unfold InColumn at hin
    omega
  rw [h2.mem_iff, List.mem_filter, and_iff_right hst, decide_eq_true_eq]
  unfold InColumn at hin
  unfold Ordinary at ho
  simp only [List.mem_cons, List.not_mem_nil, or_false, not_or] at ho
  obtain ⟨⟨a0, a1, a2, a3, a4, a5, a6⟩, a7, a8⟩ := ho
  interval_cases j <;> simp [pageLo, pageHi] <;> omega

/-- What a page shows in terms of the columns: its own column, and besides, what lies exactly on its
upper bound. The last two pages divide at 100 seconds what the columns divide at one minute. -/
def pageSpec (st : State) (name : Bytes) (k : Nat) : List SpanData :=
  if k < 7 then latencyOf st name k ++ (latencyOf st name (k + 1)).filter fun sd => decide (duration sd = pageHi k)
  else if k = 7 then latencyOf st name 7 ++ (latencyOf st name 8).filter fun sd => decide (duration sd ≤ 100000000000)
  else (latencyOf st name 8).filter fun sd => decide (100000000000 ≤ duration sd ∧ duration sd < 2 ^ 63)

theorem page_contents {t : Int} {ops : List Op} {st : State} (h : run (State.init t) ops = .ok st)
    (orders : List (List Bytes)) (name : Bytes) {k : Nat} (hk : k ≤ 8) :
    ∃ out, traceSpans st orders name 1 k = .ok (st, out) ∧ out.Perm (pageSpec st name k) := by
  obtain ⟨out, h1, h2⟩ := page_exact h orders name hk
  refine ⟨out, h1, h2.trans (List.Perm.of_eq ?_)⟩
  rw [stored_columns h, List.filter_flatMap]
  have hin : ∀ j, ∀ sd ∈ latencyOf st name j, InColumn j sd := fun j sd => column_mem h
  have nil_ : ∀ (j : Nat) (P : SpanData → Prop) [DecidablePred P], (∀ sd, InColumn j sd → ¬ P sd) →
      (latencyOf st name j).filter (fun sd => decide (P sd)) = [] := by
    intro j P _ hP
    rw [List.filter_eq_nil_iff]
    intro sd hsd
    simpa using hP sd (hin j sd hsd)
  have all_ : ∀ (j : Nat) (P : SpanData → Prop) [DecidablePred P], (∀ sd, InColumn j sd → P sd) →
      (latencyOf st name j).filter (fun sd => decide (P sd)) = latencyOf st name j := by
    intro j P _ hP
    rw [List.filter_eq_self]
    intro sd hsd
    simpa using hP sd (hin j sd hsd)
  have cong : ∀ (j : Nat) (P Q : SpanData → Prop) [DecidablePred P] [DecidablePred Q], (∀ sd, InColumn j sd → (P sd ↔ Q sd)) →
      (latencyOf st name j).filter (fun sd => decide (P sd)) = (latencyOf st name j).filter (fun sd => decide (Q sd)) := by
    intro j P Q _ _ hP
    apply List.filter_congr
    intro sd hsd
    simpa using hP sd (hin j sd hsd)
  have hr : List.range 9 = [0, 1, 2, 3, 4, 5, 6, 7, 8] := rfl
  have key : ∀ j ∈ List.range 9, (latencyOf st name j).filter (fun sd => decide (pageLo k ≤ duration sd ∧ duration sd ≤ pageHi k)) =
      if j = k ∧ k < 8 then latencyOf st name j
      else if j = k + 1 ∧ k < 7 then (latencyOf st name j).filter fun sd => decide (duration sd = pageHi k)
      else if j = 8 ∧ k = 7 then (latencyOf st name j).filter fun sd => decide (duration sd ≤ 100000000000)
      else if j = 8 ∧ k = 8 then (latencyOf st name j).filter fun sd => decide (100000000000 ≤ duration sd ∧ duration sd < 2 ^ 63)
      else [] := by
    intro j hj
    have hj : j < 9 := List.mem_range.mp hj
    interval_cases k <;> interval_cases j <;> simp only [Nat.reduceAdd, Nat.reduceEqDiff, Nat.reduceLT, and_false, and_true, if_true, if_false, and_self, OfNat.ofNat_ne_zero, OfNat.ofNat_ne_one, OfNat.zero_ne_ofNat, OfNat.one_ne_ofNat, zero_ne_one, one_ne_zero] <;>
      first
      | (apply nil_; intro sd hsd; simp only [InColumn] at hsd; simp [pageLo, pageHi]; omega)
      | (apply all_; intro sd hsd; simp only [InColumn] at hsd; simp [pageLo, pageHi]; omega)
      | (apply cong; intro sd hsd; simp only [InColumn] at hsd; simp [pageLo, pageHi]; omega)
  rw [List.flatMap_congr key, hr]
  unfold pageSpec
  interval_cases k <;> simp

/-- One span of exactly 10 microseconds, one of 70 seconds. -/
def demo (d : Nat) : List Op :=
  [.enableStore, neverConfig, .start none [1] [] (List.replicate 16 1) (List.replicate 8 1), .tick d, .endSpan (some 0) []]

/-- How many spans of name `[1]` are in column `k`, and on page `k`. -/
def demoCounts (ops : List Op) (k : Nat) : Option (Nat × Nat) :=
  match run (State.init 0) ops with
  | .ok st => match traceSpans st [] [1] 1 k with
    | .ok (_, out) => some ((latencyOf st [1] k).length, out.length)
    | _ => none
  | _ => none

/-- A span whose duration is exactly a bound is shown on two pages. -/
theorem boundary_shown_twice :
    demoCounts (demo 10000) 0 = some (0, 1) ∧ demoCounts (demo 10000) 1 = some (1, 1) := by
  decide +kernel

/-- A span of 70 seconds is counted in the last column and shown on the page of the column before it. -/
theorem minute_not_shown :
    demoCounts (demo 70000000000) 8 = some (1, 0) ∧ demoCounts (demo 70000000000) 7 = some (0, 1) := by
  decide +kernel

/-- The hypotheses of `page_of_column_partial` hold for a span of 20 microseconds. -/
example : (match run (State.init 0) (demo 20000) with
    | .ok st => (latencyOf st [1] 1).any fun sd => decide (Ordinary sd)
    | _ => false) = true := by decide +kernel

end Verif.Props.Tracez
