import Verif.Examples.Log

/-!
# C118: the log exporter of the examples

The specification looks at the history only: `On` (the last of `Start` and `Stop` was `Start`), `Fine` (the interval is allowed), `open'` (no `Close`
of a file so far).
-/

namespace Verif.Examples.Log
open Verif

/-! ## Specification -/

/-- The last of the calls of `Start` and `Stop` was a `Start`. -/
def On (pre : List Op) : Bool := (pre.filter fun o => o = .start || o = .stop).getLast? == some .start

/-- The interval is unset or at least a second. -/
def Fine (c : Cfg) : Bool := decide (c.interval = 0 ∨ 1000000000 ≤ c.interval)

/-- The log is the console, or its file has not been closed. -/
def open' (file : Bool) (pre : List Op) : Bool := !file || !pre.contains .close

/-- The span that should be added to the log by `o`, after `pre`. -/
def span1 (c : Cfg) (pre : List Op) : Op → List Sp
  | .span n => if On pre && open' c.tFile pre then [.user n] else []
  | .report n true => if On pre && Fine c && open' c.tFile pre then [.own n] else []
  | _ => []

/-- The spans that should be in the log after `pre`, if `l` follows. -/
def spans (c : Cfg) : List Op → List Op → List Sp
  | _, [] => []
  | pre, o :: l => span1 c pre o ++ spans c (pre ++ [o]) l

/-- The report that should be added to the log by `o`, after `pre`. -/
def report1 (c : Cfg) (pre : List Op) : Op → List Nat
  | .report n _ => if On pre && Fine c && open' c.mFile pre then [n] else []
  | _ => []

/-- The reports that should be in the log. -/
def reports (c : Cfg) : List Op → List Op → List Nat
  | _, [] => []
  | pre, o :: l => report1 c pre o ++ reports c (pre ++ [o]) l

/-! ## Proof -/

/-- The state fits the history. -/
structure Fits (c : Cfg) (pre : List Op) (st : St) : Prop where
  reg : st.registered = On pre
  runs : st.running = (On pre && Fine c)
  t : st.tOpen = open' c.tFile pre
  m : st.mOpen = open' c.mFile pre

theorem on_snoc (pre : List Op) (o : Op) : On (pre ++ [o]) = match o with
    | .start => true
    | .stop => false
    | _ => On pre := by
  cases o <;> simp [On, List.filter_append]

theorem open_snoc (f : Bool) (pre : List Op) (o : Op) : open' f (pre ++ [o]) = (open' f pre && !(f && (o == .close))) := by
  cases f <;> cases o <;> simp [open', List.contains_eq_any_beq]

theorem fits_init (c : Cfg) : Fits c [] .init := ⟨rfl, rfl, by cases h : c.tFile <;> rfl, by cases h : c.mFile <;> rfl⟩

theorem fine_iff (c : Cfg) : Fine c = false ↔ c.interval ≠ 0 ∧ c.interval < 1000000000 := by
  simp only [Fine, decide_eq_false_iff_not]; omega

theorem fits_step (c : Cfg) (pre : List Op) (st : St) (h : Fits c pre st) (o : Op) : Fits c (pre ++ [o]) (step c st o).1 := by
  obtain ⟨h1, h2, h3, h4⟩ := h
  cases o with
  | start =>
    have ht : open' c.tFile (pre ++ [.start]) = open' c.tFile pre := by rw [open_snoc]; simp
    have hm : open' c.mFile (pre ++ [.start]) = open' c.mFile pre := by rw [open_snoc]; simp
    cases hf : Fine c with
    | false =>
      have := (fine_iff c).mp hf
      simp only [step, readerStart, this, ne_eq, not_false_eq_true, and_self, if_true]
      exact ⟨by rw [on_snoc], by simp [h2, hf], by rw [ht]; exact h3, by rw [hm]; exact h4⟩
    | true =>
      have hn : ¬ (c.interval ≠ 0 ∧ c.interval < 1000000000) := by
        intro hc; rw [(fine_iff c).mpr hc] at hf; cases hf
      simp only [step, readerStart, hn, if_false]
      cases hr : st.running with
      | true => exact ⟨by rw [on_snoc]; rfl, by rw [on_snoc]; simp [hr, hf], by rw [ht]; exact h3, by rw [hm]; exact h4⟩
      | false => exact ⟨by rw [on_snoc]; rfl, by rw [on_snoc]; simp [hf], by rw [ht]; exact h3, by rw [hm]; exact h4⟩
  | stop =>
    exact ⟨by rw [on_snoc]; rfl, by rw [on_snoc]; rfl, by rw [open_snoc]; simpa [step, show (Op.stop == Op.close) = false from rfl] using h3,
      by rw [open_snoc]; simpa [step, show (Op.stop == Op.close) = false from rfl] using h4⟩
  | close =>
    exact ⟨by rw [on_snoc]; exact h1, by rw [on_snoc]; exact h2, by rw [open_snoc]; simp [step, h3], by rw [open_snoc]; simp [step, h4]⟩
  | span n =>
    have ht : open' c.tFile (pre ++ [.span n]) = open' c.tFile pre := by rw [open_snoc]; simp
    have hm : open' c.mFile (pre ++ [.span n]) = open' c.mFile pre := by rw [open_snoc]; simp
    have key : (logSpan st (.user n)).registered = st.registered ∧ (logSpan st (.user n)).running = st.running ∧
        (logSpan st (.user n)).tOpen = st.tOpen ∧ (logSpan st (.user n)).mOpen = st.mOpen := by
      unfold logSpan; split <;> exact ⟨rfl, rfl, rfl, rfl⟩
    simp only [step]
    exact ⟨by rw [on_snoc, key.1]; exact h1, by rw [on_snoc, key.2.1]; exact h2, by rw [ht, key.2.2.1]; exact h3, by rw [hm, key.2.2.2]; exact h4⟩
  | report n s =>
    have ht : open' c.tFile (pre ++ [.report n s]) = open' c.tFile pre := by rw [open_snoc]; simp
    have hm : open' c.mFile (pre ++ [.report n s]) = open' c.mFile pre := by rw [open_snoc]; simp
    have key : (step c st (.report n s)).1.registered = st.registered ∧ (step c st (.report n s)).1.running = st.running ∧
        (step c st (.report n s)).1.tOpen = st.tOpen ∧ (step c st (.report n s)).1.mOpen = st.mOpen := by
      cases hr : st.running <;> cases hmo : st.mOpen <;> cases s <;> cases hg : st.registered <;> cases hto : st.tOpen <;>
        simp [step, logSpan, hr, hmo, hg, hto]
    exact ⟨by rw [on_snoc, key.1]; exact h1, by rw [on_snoc, key.2.1]; exact h2, by rw [ht, key.2.2.1]; exact h3, by rw [hm, key.2.2.2]; exact h4⟩

theorem start_logs (c : Cfg) (st : St) : (step c st .start).1.tlog = st.tlog ∧ (step c st .start).1.mlog = st.mlog := by
  simp only [step, readerStart]
  split
  · exact ⟨rfl, rfl⟩
  · split <;> exact ⟨rfl, rfl⟩

theorem logs (c : Cfg) (l : List Op) (pre : List Op) (st : St) (h : Fits c pre st) :
    (run c st l).tlog = st.tlog ++ spans c pre l ∧ (run c st l).mlog = st.mlog ++ reports c pre l := by
  induction l generalizing pre st with
  | nil => simp [run, spans, reports]
  | cons o l ih =>
    have hs := ih (pre ++ [o]) (step c st o).1 (fits_step c pre st h o)
    have hrun : run c st (o :: l) = run c (step c st o).1 l := rfl
    rw [hrun, hs.1, hs.2, spans, reports, ← List.append_assoc, ← List.append_assoc]
    obtain ⟨h1, h2, h3, h4⟩ := h
    suffices hk : (step c st o).1.tlog = st.tlog ++ span1 c pre o ∧ (step c st o).1.mlog = st.mlog ++ report1 c pre o by
      rw [hk.1, hk.2]; exact ⟨rfl, rfl⟩
    unfold span1 report1
    rw [← h3, ← h4, ← h2, ← h1]
    have hrr : st.running = true → st.registered = true := by
      rw [h1, h2]; cases On pre <;> simp
    cases o with
    | start => simpa using start_logs c st
    | stop => simp [step]
    | close => simp [step]
    | span n => cases hg : st.registered <;> cases hto : st.tOpen <;> simp [step, logSpan, hg, hto]
    | report n s =>
      cases hr : st.running <;> cases hmo : st.mOpen <;> cases s <;> cases hg : st.registered <;> cases hto : st.tOpen <;>
        simp_all [step, logSpan]

/-- The log of spans is exactly this: the spans of the program that ended when the last of `Start` and `Stop` was a `Start`, with the log open, and —
while reports are made — the sampled spans of the reports themselves; in order, for every history. -/
theorem spans_logged (c : Cfg) (l : List Op) : (run c .init l).tlog = spans c [] l := by
  simpa [St.init] using (logs c l [] .init (fits_init c)).1

/-- The log of metrics is exactly the reports that were due while started, with an interval that is allowed and the log open. -/
theorem reports_logged (c : Cfg) (l : List Op) : (run c .init l).mlog = reports c [] l := by
  simpa [St.init] using (logs c l [] .init (fits_init c)).2

theorem fits_run (c : Cfg) (l : List Op) (pre : List Op) (st : St) (h : Fits c pre st) : Fits c (pre ++ l) (run c st l) := by
  induction l generalizing pre st with
  | nil => simpa [run] using h
  | cons o l ih =>
    have := ih (pre ++ [o]) _ (fits_step c pre st h o)
    simpa [run] using this

/-- `Start` fails exactly if the interval is not allowed, or the exporter is started. -/
theorem start_fails_iff (c : Cfg) (l : List Op) : (step c (run c .init l) .start).2 = (!Fine c || On l) := by
  have h := fits_run c l [] .init (fits_init c)
  rw [List.nil_append] at h
  have h2 := h.runs
  cases hf : Fine c with
  | false =>
    have := (fine_iff c).mp hf
    simp [step, readerStart, this]
  | true =>
    have hn : ¬ (c.interval ≠ 0 ∧ c.interval < 1000000000) := by
      intro hc; rw [(fine_iff c).mpr hc] at hf; cases hf
    rw [hf, Bool.and_true] at h2
    cases ho : On l <;> rw [ho] at h2 <;> simp [step, readerStart, hn, h2]

/-- The claim, for intervals that are allowed: if `Start` returned an error, the exporter was started already, so what is logged is as if the call had
not been made. -/
theorem failed_start_partial (c : Cfg) (hf : Fine c = true) (l : List Op) (h : (step c (run c .init l) .start).2 = true) (l' : List Op) :
    (run c .init (l ++ .start :: l')).tlog = (run c .init (l ++ l')).tlog ∧
    (run c .init (l ++ .start :: l')).mlog = (run c .init (l ++ l')).mlog := by
  rw [start_fails_iff, hf] at h
  have hon : On l = true := by simpa using h
  have hfit := fits_run c l [] .init (fits_init c)
  rw [List.nil_append] at hfit
  have e : run c .init (l ++ .start :: l') = run c (step c (run c .init l) .start).1 l' := by simp [run]
  have e' : run c .init (l ++ l') = run c (run c .init l) l' := by simp [run]
  rw [e, e']
  have hfit1 : Fits c l (step c (run c .init l) .start).1 := by
    have h1 := fits_step c l _ hfit .start
    refine ⟨by rw [h1.reg, on_snoc, hon], by rw [h1.runs, on_snoc, hon], ?_, ?_⟩
    · rw [h1.t, open_snoc]; simp
    · rw [h1.m, open_snoc]; simp
  have ht : (step c (run c .init l) .start).1.tlog = (run c .init l).tlog ∧ (step c (run c .init l) .start).1.mlog = (run c .init l).mlog := by
    exact start_logs c _
  have a := logs c l' l _ hfit1
  have b := logs c l' l _ hfit
  rw [a.1, a.2, b.1, b.2, ht.1, ht.2]
  exact ⟨rfl, rfl⟩

/-- With an interval that is not allowed `Start` returns an error, but spans are logged from then on. -/
theorem failed_start_logs : (step ⟨5, false, false⟩ .init .start).2 = true ∧
    (run ⟨5, false, false⟩ .init [.start, .span 1]).tlog = [.user 1] ∧ (run ⟨5, false, false⟩ .init [.span 1]).tlog = [] := by decide

/-- After `Close` nothing more is logged to files, though `Start` succeeds and reports are made. -/
theorem closed_silent (c : Cfg) (ht : c.tFile = true) (hm : c.mFile = true) (l l' : List Op) :
    (run c .init (l ++ .close :: l')).tlog = (run c .init l).tlog ∧ (run c .init (l ++ .close :: l')).mlog = (run c .init l).mlog := by
  have hc : ∀ (l' pre : List Op), Op.close ∈ pre → spans c pre l' = [] ∧ reports c pre l' = [] := by
    intro l'
    induction l' with
    | nil => intro pre _; exact ⟨rfl, rfl⟩
    | cons o l' ih =>
      intro pre hp
      have := ih (pre ++ [o]) (by simp [hp])
      have ho : ∀ f, f = true → open' f pre = false := by intro f hf; simp [open', hf, hp]
      rw [spans, reports, this.1, this.2]
      unfold span1 report1
      cases o with
      | report n s => cases s <;> simp [ho _ ht, ho _ hm]
      | _ => simp [ho _ ht]
  have hfit := fits_run c (l ++ [.close]) [] .init (fits_init c)
  rw [List.nil_append] at hfit
  have e : run c .init (l ++ .close :: l') = run c (run c .init (l ++ [.close])) l' := by simp [run]
  have e2 : (run c .init (l ++ [.close])).tlog = (run c .init l).tlog ∧ (run c .init (l ++ [.close])).mlog = (run c .init l).mlog := by
    simp [run, step]
  have a := logs c l' _ _ hfit
  have z := hc l' (l ++ [.close]) (by simp)
  rw [e, a.1, a.2, z.1, z.2, e2.1, e2.2]
  simp

/-- A program that ends no span finds one in the log for every report, if its sampler takes all spans: the exporter reports its own reports. -/
theorem own_spans : (run ⟨0, false, false⟩ .init [.start, .report 1 true, .report 2 true]).tlog = [.own 1, .own 2] := by decide

/-- `NewLogExporter` that fails leaves a file open (and emptied) exactly if only the file for metrics cannot be opened. -/
theorem create_leaks_iff (c : Cfg) (canT canM : Bool) : ((create c canT canM).2 = false ∧ (create c canT canM).1 ≠ (false, false)) ↔
    c.tFile = true ∧ canT = true ∧ c.mFile = true ∧ canM = false := by
  obtain ⟨i, t, m⟩ := c
  cases t <;> cases m <;> cases canT <;> cases canM <;> simp [create]

/-! ## A report -/

theorem labels_some (ks vs : List Bytes) (h : ks.length ≤ vs.length) : labels ks vs = some (ks.zip vs) := by
  induction ks generalizing vs with
  | nil => rfl
  | cons k ks ih =>
    cases vs with
    | nil => simp at h
    | cons v vs => simp only [List.length_cons] at h; simp [labels, ih vs (by omega)]

theorem labels_none (ks vs : List Bytes) (h : vs.length < ks.length) : labels ks vs = none := by
  induction ks generalizing vs with
  | nil => simp at h
  | cons k ks ih =>
    cases vs with
    | nil => rfl
    | cons v vs => simp only [List.length_cons] at h; simp [labels, ih vs (by omega)]

/-- Each series that has a point has a value for each key. -/
def Labelled (m : Metric) : Prop := ∀ s ∈ m.series, s.points ≠ [] → m.keys.length ≤ s.values.length

theorem points_ok (m : Metric) (s : Series) (h : m.keys.length ≤ s.values.length) (ps : List Bytes) :
    logPoints m s ps = (ps.map fun p => ⟨m.head, m.keys.zip s.values, p⟩, false) := by
  induction ps with
  | nil => rfl
  | cons p ps ih => simp [logPoints, labels_some _ _ h, ih]

theorem points_bad (m : Metric) (s : Series) (h : s.values.length < m.keys.length) (ps : List Bytes) (hp : ps ≠ []) :
    logPoints m s ps = ([], true) := by
  cases ps with
  | nil => exact absurd rfl hp
  | cons p ps => simp [logPoints, labels_none _ _ h]

theorem series_panics_iff (m : Metric) (ss : List Series) :
    (logSeries m ss).2 = true ↔ ∃ s ∈ ss, s.points ≠ [] ∧ s.values.length < m.keys.length := by
  induction ss with
  | nil => simp [logSeries]
  | cons s ss ih =>
    by_cases hl : m.keys.length ≤ s.values.length
    · simp only [logSeries, points_ok m s hl, Bool.false_eq_true, if_false, ih, List.mem_cons, exists_eq_or_imp]
      constructor
      · exact Or.inr
      · rintro (⟨_, h⟩ | h)
        · omega
        · exact h
    · by_cases hp : s.points = []
      · simp [logSeries, hp, logPoints, ih]
      · simp only [logSeries, points_bad m s (by omega) _ hp, if_true, true_iff]
        exact ⟨s, List.mem_cons_self, hp, by omega⟩

theorem series_ok (m : Metric) (ss : List Series) (h : ∀ s ∈ ss, s.points ≠ [] → m.keys.length ≤ s.values.length) :
    logSeries m ss = (ss.flatMap fun s => s.points.map fun p => ⟨m.head, m.keys.zip s.values, p⟩, false) := by
  induction ss with
  | nil => rfl
  | cons s ss ih =>
    have ih' := ih (fun x hx => h x (List.mem_cons_of_mem _ hx))
    have hp : logPoints m s s.points = (s.points.map fun p => ⟨m.head, m.keys.zip s.values, p⟩, false) := by
      by_cases hp : s.points = []
      · simp [hp, logPoints]
      · exact points_ok m s (h s List.mem_cons_self hp) _
    simp [logSeries, hp, ih']

/-- A report is logged without a panic exactly if every series that has a point has a value for each key. -/
theorem report_panics_iff (ms : List Metric) : (exportMetrics ms).2 = false ↔ ∀ m ∈ ms, Labelled m := by
  induction ms with
  | nil => simp [exportMetrics]
  | cons m ms ih =>
    have hs := series_panics_iff m m.series
    cases hb : (logSeries m m.series).2 with
    | true =>
      simp only [exportMetrics, hb, if_true, List.mem_cons, forall_eq_or_imp, Bool.true_eq_false, false_iff, not_and]
      intro hl
      obtain ⟨s, h1, h2, h3⟩ := hs.mp hb
      have := hl s h1 h2
      omega
    | false =>
      simp only [exportMetrics, hb, Bool.false_eq_true, if_false, ih, List.mem_cons, forall_eq_or_imp]
      constructor
      · intro h
        refine ⟨?_, h⟩
        intro s h1 h2
        rcases Nat.lt_or_ge s.values.length m.keys.length with h3 | h3
        · have := hs.mpr ⟨s, h1, h2, h3⟩
          rw [hb] at this; cases this
        · exact h3
      · exact fun h => h.2

/-- … and then every point is logged, once and in order, with the labels of its series. -/
theorem report_complete (ms : List Metric) (h : ∀ m ∈ ms, Labelled m) : (exportMetrics ms).1 =
    ms.flatMap fun m => m.series.flatMap fun s => s.points.map fun p => ⟨m.head, m.keys.zip s.values, p⟩ := by
  induction ms with
  | nil => rfl
  | cons m ms ih =>
    have := series_ok m m.series (h m List.mem_cons_self)
    simp [exportMetrics, this, ih (fun x hx => h x (List.mem_cons_of_mem _ hx))]

/-- The claim without its hypothesis is false. -/
theorem report_panics : exportMetrics [⟨str "m", [str "k"], [⟨[], [str "1"]⟩]⟩] = ([], true) := by decide

example : ∀ m ∈ [(⟨str "m", [str "k"], [⟨[str "v"], [str "1", str "2"]⟩, ⟨[], []⟩]⟩ : Metric)], Labelled m := by
  simp [Labelled]
example : (exportMetrics [⟨str "m", [str "k"], [⟨[str "v"], [str "1", str "2"]⟩]⟩]).1
    = [⟨str "m", [(str "k", str "v")], str "1"⟩, ⟨str "m", [(str "k", str "v")], str "2"⟩] := by decide
example : (run ⟨0, true, false⟩ .init [.span 0, .start, .span 1, .report 1 false, .close, .span 2, .report 2 true, .stop, .report 3 true]).tlog
    = [.user 1] := by decide
example : (run ⟨0, true, false⟩ .init [.span 0, .start, .span 1, .report 1 false, .close, .span 2, .report 2 true, .stop, .report 3 true]).mlog
    = [1, 2] := by decide
example : Fine ⟨0, true, true⟩ = true ∧ (step ⟨0, true, true⟩ (run ⟨0, true, true⟩ .init [.start]) .start).2 = true := by decide

end Verif.Examples.Log
