import Verif.View.ReadConc
import Verif.View.WorkerLemmas
import Verif.Props.ViewMetric
import Verif.Props.Recording
import Mathlib.Data.List.Nodup
import Mathlib.Data.List.Perm.Basic
import Mathlib.Tactic.ByContra

/-!
# C72: reading the views as metrics while the worker runs
-/

namespace Verif.Props.ReadConc
open Verif Verif.Tag Verif.Stats Verif.View Verif.View.ReadConc

/-! ## Specification -/

/-- The commands in the order in which they were put on the channel. -/
def sents (evs : List Ev) : List Cmd := evs.filterMap fun ev => match ev with
  | .sent _ c => some c
  | _ => none

def isBegan : Ev → Bool
  | .began => true
  | _ => false

def isDone : Ev → Bool
  | .done => true
  | _ => false

/-- How many commands the worker has taken. -/
def begun (evs : List Ev) : Nat := evs.countP isBegan

/-- How many commands the worker has handled. -/
def handled (evs : List Ev) : Nat := evs.countP isDone

/-- One command handled, nothing else going on. -/
def seqStep (w : Worker) (reg : Measures) (c : Cmd) : Res (Worker × Measures) :=
  (handle w reg c).bind fun x => .ok (x.1, x.2.1)

/-- Commands handled one after the other, nothing else going on. -/
def seqFrom (w : Worker) (reg : Measures) : List Cmd → Res (Worker × Measures)
  | [] => .ok (w, reg)
  | c :: cs => (seqStep w reg c).bind fun x => seqFrom x.1 x.2 cs

/-- The metric a worker has for the view of a name, if any. -/
def metric (w : Worker) (x : Bytes) (now : Int) : Res (Option MetricOut) :=
  match GoMap.get w.views x with
  | none => .ok none
  | some a => match w.vis[a]? with
    | none => .panic
    | some vi => toMetric vi now

/-- A command `Unregister` with the name was not handled after the events `p`, and had been begun when it
came to `evs`. -/
def Unregistering (p evs : List Ev) (x : Bytes) : Prop :=
  ∃ i now ns, handled p ≤ i ∧ i < begun evs ∧ (sents evs)[i]? = some (.unregister now ns) ∧ x ∈ ns

/-- Goroutine `t` calls Read, gets the lock, or returns. -/
def own (t : Nat) : Ev → Prop
  | .called u => u = t
  | .locked u => u = t
  | .returned u _ _ => u = t
  | _ => False

/-- What `Read` of goroutine `t` returned is right, `p` being the events before its return: with `p1` those before
it had the lock, and `W` the worker after the commands handled by then, it returned the metrics `W` had for its
views, each once, where only those of views being unregistered at the time may be missing. -/
def ReadOk (reg : Measures) (p : List Ev) (t : Nat) (now : Int) (R : List (Bytes × MetricOut)) : Prop :=
  ∃ p0 p1 p2, p = p0 ++ .called t :: p1 ++ .locked t :: p2 ∧ (∀ ev ∈ p1, ¬ own t ev) ∧ (∀ ev ∈ p2, ¬ own t ev) ∧
    ∃ W reg', seqFrom newWorker reg ((sents (p0 ++ .called t :: p1)).take (handled (p0 ++ .called t :: p1))) = .ok (W, reg') ∧
      (R.map Prod.fst).Nodup ∧
      (∀ x m, (x, m) ∈ R → metric W x now = .ok (some m)) ∧
      (∀ x m, metric W x now = .ok (some m) → (x, m) ∈ R ∨ Unregistering (p0 ++ .called t :: p1) p x)

/-! ## Events -/

theorem sents_snoc (evs : List Ev) (ev : Ev) (h : ∀ u c, ev ≠ .sent u c) : sents (evs ++ [ev]) = sents evs := by
  cases ev <;> simp_all [sents]

theorem sents_sent (evs : List Ev) (u : Nat) (c : Cmd) : sents (evs ++ [.sent u c]) = sents evs ++ [c] := by
  simp [sents]

theorem begun_snoc (evs : List Ev) (ev : Ev) (h : ev ≠ .began) : begun (evs ++ [ev]) = begun evs := by
  cases ev <;> simp_all [begun, isBegan]

theorem begun_began (evs : List Ev) : begun (evs ++ [.began]) = begun evs + 1 := by
  simp [begun, isBegan]

theorem handled_snoc (evs : List Ev) (ev : Ev) (h : ev ≠ .done) : handled (evs ++ [ev]) = handled evs := by
  cases ev <;> simp_all [handled, isDone]

theorem handled_done (evs : List Ev) : handled (evs ++ [.done]) = handled evs + 1 := by
  simp [handled, isDone]

theorem Unregistering.mono {p evs more : List Ev} {x : Bytes} (h : Unregistering p evs x) :
    Unregistering p (evs ++ more) x := by
  obtain ⟨i, now, ns, h1, h2, h3, h4⟩ := h
  refine ⟨i, now, ns, h1, ?_, ?_, h4⟩
  · simp only [begun, List.countP_append] at h2 ⊢; omega
  · rw [show sents (evs ++ more) = sents evs ++ sents more by simp [sents]]
    rw [List.getElem?_append_left ((List.getElem?_eq_some_iff.1 h3).1)]
    exact h3

theorem seqFrom_append (w : Worker) (reg : Measures) (cs cs' : List Cmd) :
    seqFrom w reg (cs ++ cs') = (seqFrom w reg cs).bind fun x => seqFrom x.1 x.2 cs' := by
  induction cs generalizing w reg with
  | nil => rfl
  | cons c cs ih =>
    simp only [List.cons_append, seqFrom]
    cases seqStep w reg c with
    | ok x => exact ih _ _
    | err => rfl
    | panic => rfl

/-! ## What the steps of the worker do to the metrics -/

theorem rowsToTimeseries_congr {vi vi' : VI} (h : vi'.descriptor = vi.descriptor) (now : Int) (rows : List (Row F64)) :
    rowsToTimeseries vi' now rows = rowsToTimeseries vi now rows := by
  induction rows with
  | nil => rfl
  | cons r rows ih => simp only [rowsToTimeseries, rowToTimeseries, ih, h]

theorem viewToMetric_congr {vi vi' : VI} (h1 : vi'.descriptor = vi.descriptor) (h2 : vi'.collector = vi.collector)
    (h3 : vi'.view = vi.view) (now : Int) : viewToMetric vi' now = viewToMetric vi now := by
  simp only [viewToMetric, h1, h2, h3, rowsToTimeseries_congr h1]

theorem viewToMetric_empty {vi : VI} (h : vi.collector.signatures = []) (now : Int) : viewToMetric vi now = .ok none := by
  simp [viewToMetric, Collector.collectedRows, h, collectRows, Res.bind]

/-- Every name leads to a view of that name; a view that is not subscribed has no rows, but for `ex`. -/
structure Good (ex : Option Nat) (w : Worker) : Prop where
  wf : GoMap.WF w.views
  here : ∀ x a, GoMap.get w.views x = some a → ∃ vi, w.vis[a]? = some vi ∧ vi.view.name = x
  quiet : ∀ (a : Nat) (vi : VI), some a ≠ ex → w.vis[a]? = some vi → vi.subscribed = true ∨ vi.collector.signatures = []

theorem setSubscribed_get (w : Worker) (a b : Nat) (s : Bool) : (w.setSubscribed a s).vis[b]? =
    if a = b then (w.vis[b]?).map fun vi => { vi with subscribed := s } else w.vis[b]? := by
  simp only [Worker.setSubscribed, List.getElem?_modify]
  by_cases h : a = b
  · simp [h]
  · simp [h]

theorem clearRows_get (w : Worker) (a b : Nat) : (w.clearRows a).vis[b]? =
    if a = b then (w.vis[b]?).map fun vi => { vi with collector := vi.collector.clearRows } else w.vis[b]? := by
  simp only [Worker.clearRows, List.getElem?_modify]
  by_cases h : a = b
  · simp [h]
  · simp [h]

theorem Good.subscribe {w : Worker} (h : Good none w) (a : Nat) : Good none (w.setSubscribed a true) ∧
    ∀ x now, metric (w.setSubscribed a true) x now = metric w x now := by
  constructor
  · refine ⟨h.wf, ?_, ?_⟩
    · intro x b hb
      obtain ⟨vi, h1, h2⟩ := h.here x b hb
      rw [setSubscribed_get]
      by_cases hab : a = b
      · exact ⟨{ vi with subscribed := true }, by simp [hab, h1], h2⟩
      · exact ⟨vi, by simp [hab, h1], h2⟩
    · intro b vi _ hv
      rw [setSubscribed_get] at hv
      by_cases hab : a = b
      · rw [if_pos hab, Option.map_eq_some_iff] at hv
        obtain ⟨v0, _, rfl⟩ := hv
        exact Or.inl rfl
      · rw [if_neg hab] at hv
        exact h.quiet b vi (by simp) hv
  · intro x now
    unfold metric
    show (match GoMap.get w.views x with | none => _ | some b => _) = _
    cases hg : GoMap.get w.views x with
    | none => rfl
    | some b =>
      obtain ⟨vi, h1, h2⟩ := h.here x b hg
      simp only [setSubscribed_get, h1]
      by_cases hab : a = b
      · simp only [hab, if_true, Option.map_some, toMetric, Bool.not_true, Bool.false_eq_true, if_false]
        have hc := viewToMetric_congr (vi := vi) (vi' := { vi with subscribed := true }) rfl rfl rfl now
        rw [hc]
        rcases h.quiet b vi (by simp) h1 with hs | hs
        · simp [hs]
        · rw [viewToMetric_empty hs]; split <;> rfl
      · simp [hab]

theorem Good.unsubscribe {w : Worker} (h : Good none w) {n : Bytes} {a : Nat} (hn : GoMap.get w.views n = some a) :
    Good (some a) (w.setSubscribed a false) ∧
    (∀ x now, metric (w.setSubscribed a false) x now = metric w x now ∨
      (x = n ∧ metric (w.setSubscribed a false) x now = .ok none)) := by
  constructor
  · refine ⟨h.wf, ?_, ?_⟩
    · intro x b hb
      obtain ⟨vi, h1, h2⟩ := h.here x b hb
      rw [setSubscribed_get]
      by_cases hab : a = b
      · exact ⟨{ vi with subscribed := false }, by simp [hab, h1], h2⟩
      · exact ⟨vi, by simp [hab, h1], h2⟩
    · intro b vi hb hv
      rw [setSubscribed_get, if_neg (fun hab => hb (by rw [hab]))] at hv
      exact h.quiet b vi (by simp) hv
  · intro x now
    by_cases hx : x = n
    · subst hx
      obtain ⟨vi, h1, h2⟩ := h.here x a hn
      refine Or.inr ⟨rfl, ?_⟩
      unfold metric
      rw [show GoMap.get (w.setSubscribed a false).views x = some a from hn]
      simp only [setSubscribed_get, if_true, h1, Option.map_some, toMetric, Bool.not_false]
    · refine Or.inl ?_
      unfold metric
      show (match GoMap.get w.views x with | none => _ | some b => _) = _
      cases hg : GoMap.get w.views x with
      | none => rfl
      | some b =>
        have hab : a ≠ b := by
          rintro rfl
          obtain ⟨vi, h1, h2⟩ := h.here x a hg
          obtain ⟨vi', h1', h2'⟩ := h.here n a hn
          rw [h1] at h1'; cases h1'
          exact hx (h2.symm.trans h2')
        simp only [setSubscribed_get, if_neg hab]

theorem Good.clear {w : Worker} {a : Nat} (h : Good (some a) w) (hs : ∀ vi, w.vis[a]? = some vi → vi.subscribed = false) :
    Good none (w.clearRows a) ∧ (∀ x now, metric (w.clearRows a) x now = metric w x now) := by
  constructor
  · refine ⟨h.wf, ?_, ?_⟩
    · intro x b hb
      obtain ⟨vi, h1, h2⟩ := h.here x b hb
      rw [clearRows_get]
      by_cases hab : a = b
      · exact ⟨{ vi with collector := vi.collector.clearRows }, by simp [hab, h1], h2⟩
      · exact ⟨vi, by simp [hab, h1], h2⟩
    · intro b vi _ hv
      rw [clearRows_get] at hv
      by_cases hab : a = b
      · rw [if_pos hab, Option.map_eq_some_iff] at hv
        obtain ⟨v0, _, rfl⟩ := hv
        exact Or.inr rfl
      · rw [if_neg hab] at hv
        exact h.quiet b vi (fun hb => hab (by cases hb; rfl)) hv
  · intro x now
    unfold metric
    show (match GoMap.get w.views x with | none => _ | some b => _) = _
    cases hg : GoMap.get w.views x with
    | none => rfl
    | some b =>
      obtain ⟨vi, h1, h2⟩ := h.here x b hg
      simp only [clearRows_get, h1]
      by_cases hab : a = b
      · subst hab
        simp [toMetric, hs vi h1]
      · simp [hab]

theorem unregisterView_vis (w : Worker) (a : Nat) : (w.unregisterView a).vis = w.vis := by
  unfold Worker.unregisterView
  cases w.vis[a]? with
  | none => rfl
  | some vi =>
    simp only
    cases vi.view.measure with
    | none => rfl
    | some m => simp only; split <;> rfl

theorem unregisterView_views {w : Worker} {a : Nat} {vi : VI} (h : w.vis[a]? = some vi) :
    (w.unregisterView a).views = GoMap.del w.views vi.view.name := by
  unfold Worker.unregisterView
  simp only [h]
  cases vi.view.measure with
  | none => rfl
  | some m => simp only; split <;> rfl

theorem Good.delete {w : Worker} (h : Good none w) {a : Nat} {vi : VI} (hv : w.vis[a]? = some vi)
    (hn : GoMap.get w.views vi.view.name = some a) (hs : vi.subscribed = false) :
    Good none (w.unregisterView a) ∧ (∀ x now, metric (w.unregisterView a) x now = metric w x now) := by
  have e1 := unregisterView_vis w a
  have e2 := unregisterView_views hv
  constructor
  · refine ⟨by rw [e2]; exact GoMap.WF_del h.wf _, ?_, ?_⟩
    · intro x b hb
      rw [e2, GoMap.get_del] at hb
      by_cases hx : x = vi.view.name
      · simp [hx] at hb
      · rw [if_neg hx] at hb
        rw [e1]; exact h.here x b hb
    · intro b v hb hvv
      rw [e1] at hvv; exact h.quiet b v hb hvv
  · intro x now
    unfold metric
    rw [e2, e1, GoMap.get_del]
    by_cases hx : x = vi.view.name
    · subst hx
      simp only [if_true, hn, hv, toMetric, hs, Bool.not_false]
    · simp only [hx, if_false]

theorem getMeasureRef_views (w : Worker) (n : Bytes) : (w.getMeasureRef n).1.views = w.views ∧ (w.getMeasureRef n).1.vis = w.vis := by
  unfold Worker.getMeasureRef; split <;> exact ⟨rfl, rfl⟩

/-- Only the names and the views matter. -/
theorem Good.congr {ex : Option Nat} {w w' : Worker} (h : Good ex w) (h1 : w'.views = w.views) (h2 : w'.vis = w.vis) : Good ex w' :=
  ⟨by rw [h1]; exact h.wf, by rw [h1, h2]; exact h.here, by rw [h2]; exact h.quiet⟩

theorem metric_congr {w w' : Worker} (h1 : w'.views = w.views) (h2 : w'.vis = w.vis) (x : Bytes) (now : Int) :
    metric w' x now = metric w x now := by
  unfold metric; rw [h1, h2]

theorem Good.try {w w' : Worker} (h : Good none w) {v : ViewDef} {now : Int} {r : Option Nat}
    (ht : w.tryRegisterView v now = .ok (w', r)) : Good none w' ∧ (∀ x now, metric w' x now = metric w x now) := by
  unfold Worker.tryRegisterView at ht
  cases hnew : newViewInternal v with
  | err => simp [hnew, Res.bind] at ht
  | panic => simp [hnew, Res.bind] at ht
  | ok vi =>
    simp only [hnew, Res.bind] at ht
    have hvi : vi.view = v ∧ vi.subscribed = false ∧ vi.collector.signatures = [] := by
      unfold newViewInternal at hnew
      cases ha : v.agg with
      | none => simp [ha] at hnew
      | some a =>
        simp only [ha] at hnew
        cases hd : viewToMetricDescriptor v with
        | err => simp [hd, Res.bind] at hnew
        | panic => simp [hd, Res.bind] at hnew
        | ok d =>
          simp only [hd, Res.bind, Res.ok.injEq] at hnew
          subst hnew
          exact ⟨rfl, rfl, rfl⟩
    cases hg : GoMap.get w.views v.name with
    | some a =>
      simp only [hg] at ht
      cases hx : w.vis[a]? with
      | none => simp [hx] at ht
      | some x =>
        simp only [hx] at ht
        split at ht <;> simp only [Res.ok.injEq, Prod.mk.injEq] at ht <;> rw [← ht.1] <;> exact ⟨h, fun _ _ => rfl⟩
    | none =>
      simp only [hg] at ht
      cases hm : v.measure with
      | none => simp [hm] at ht
      | some m =>
        simp only [hm, Res.ok.injEq, Prod.mk.injEq] at ht
        obtain ⟨e1, e2⟩ := getMeasureRef_views { w with vis := w.vis ++ [vi], views := GoMap.set w.views v.name w.vis.length, viewStartTimes := GoMap.set w.viewStartTimes w.vis.length now } m.name
        have hv : w'.views = GoMap.set w.views v.name w.vis.length := by rw [← ht.1]; exact e1
        have hvis : w'.vis = w.vis ++ [vi] := by rw [← ht.1]; exact e2
        have hold : ∀ x a, GoMap.get w.views x = some a → (w.vis ++ [vi])[a]? = w.vis[a]? := by
          intro x a hx
          obtain ⟨v0, h1, _⟩ := h.here x a hx
          exact List.getElem?_append_left (List.getElem?_eq_some_iff.1 h1).1
        constructor
        · refine ⟨by rw [hv]; exact GoMap.WF_set h.wf _ _, ?_, ?_⟩
          · intro x a hx
            rw [hv, GoMap.get_set] at hx
            rw [hvis]
            by_cases hxv : x = v.name
            · rw [if_pos hxv] at hx; cases hx
              exact ⟨vi, by simp, by rw [hvi.1, hxv]⟩
            · rw [if_neg hxv] at hx
              rw [hold x a hx]; exact h.here x a hx
          · intro a v0 ha hv0
            rw [hvis] at hv0
            by_cases hlt : a < w.vis.length
            · rw [List.getElem?_append_left hlt] at hv0
              exact h.quiet a v0 ha hv0
            · rw [List.getElem?_append_right (by omega)] at hv0
              have : a - w.vis.length = 0 := by
                by_contra hne
                rw [List.getElem?_eq_none (by simp; omega)] at hv0
                cases hv0
              rw [this] at hv0
              simp only [List.getElem?_cons_zero, Option.some.injEq] at hv0
              rw [← hv0]; exact Or.inr hvi.2.2
        · intro x now
          unfold metric
          rw [hv, hvis, GoMap.get_set]
          by_cases hx : x = v.name
          · simp [hx, hg, toMetric, hvi.2.1]
          · simp only [hx, if_false]
            cases hgx : GoMap.get w.views x with
            | none => rfl
            | some a => simp only; rw [hold x a hgx]

theorem Good.add {w : Worker} (h : Good none w) {a : Nat} {vi vi' : VI} {tm : Option TMap} {s : Sample F64}
    (hv : w.vis[a]? = some vi) (hadd : vi.addSample tm s = .ok vi') : Good none { w with vis := (w.vis.set a vi') } := by
  have hlt := (List.getElem?_eq_some_iff.1 hv).1
  have hvi : vi'.view = vi.view ∧ vi'.subscribed = vi.subscribed ∧ (vi.subscribed = false → vi' = vi) := by
    unfold VI.addSample at hadd
    by_cases hs : vi.subscribed = true
    · simp only [hs, Bool.not_true, Bool.false_eq_true, if_false] at hadd
      cases h1 : encodeWithKeys tm vi.view.tagKeys with
      | err => simp [h1, Res.bind] at hadd
      | panic => simp [h1, Res.bind] at hadd
      | ok sig =>
        simp only [h1, Res.bind] at hadd
        cases h2 : vi.collector.addSample sig s with
        | err => simp [h2] at hadd
        | panic => simp [h2] at hadd
        | ok c =>
          simp only [h2, Res.ok.injEq] at hadd
          subst hadd
          exact ⟨rfl, hs.symm, by simp [hs]⟩
    · simp only [hs, Bool.not_false, if_true, Res.ok.injEq] at hadd
      subst hadd
      exact ⟨rfl, rfl, fun _ => rfl⟩
  refine ⟨h.wf, ?_, ?_⟩
  · intro x b hb
    obtain ⟨v0, h1, h2⟩ := h.here x b hb
    by_cases hab : a = b
    · subst hab
      rw [hv] at h1; cases h1
      exact ⟨vi', by simp [hlt], by rw [hvi.1]; exact h2⟩
    · exact ⟨v0, by simp [hab, h1], h2⟩
  · intro b v0 hb hv0
    by_cases hab : a = b
    · subst hab
      simp only [List.getElem?_set, hlt, if_true, Option.some.injEq] at hv0
      subst hv0
      cases hs : vi.subscribed with
      | true => rw [hvi.2.1]; exact Or.inl hs
      | false => rw [hvi.2.2 hs]; exact h.quiet a vi hb hv
    · simp only [List.getElem?_set, hab, if_false] at hv0
      exact h.quiet b v0 hb hv0

/-! ## What remains to be done of a command -/

def regRest (w : Worker) (reg : Measures) (now : Int) (vs : List ViewDef) : Res (Worker × Measures) :=
  (w.registerAll reg now vs).bind fun x => .ok (x.1, x.2.1)

def unRest (w : Worker) (reg : Measures) (now : Int) (ns : List Bytes) : Res (Worker × Measures) :=
  (w.unregister now ns).bind fun x => .ok (x.1, reg)

def cont (w : Worker) (reg : Measures) : Loop → Res (Worker × Measures)
  | .idle => .ok (w, reg)
  | .regTry now vs => regRest w reg now vs
  | .regMeasure now a m vs => (subscribe reg m.name).bind fun reg => regRest (w.setSubscribed a true) reg now vs
  | .regSub now a vs => regRest (w.setSubscribed a true) reg now vs
  | .unNext now ns => unRest w reg now ns
  | .unSub now a ns => unRest (((w.setSubscribed a false).clearRows a).unregisterView a) reg now ns
  | .unClear now a ns => unRest ((w.clearRows a).unregisterView a) reg now ns
  | .unDel now a ns => unRest (w.unregisterView a) reg now ns
  | .recLock t r => (w.record r t).bind fun w => .ok (w, reg)
  | .recLoop t r ms => (w.recordLoop r.tags r.attachments t ms).bind fun w => .ok (w, reg)
  | .recAdd t r s as ms => ((w.addToViews r.tags s as).bind fun w => w.recordLoop r.tags r.attachments t ms).bind
      fun w => .ok (w, reg)
  | .retrieve n => (w.retrieveData n).bind fun _ => .ok (w, reg)
  | .tick now => (w.reportUsage now).bind fun _ => .ok (w, reg)

theorem bind_assoc {α β γ : Type} (x : Res α) (f : α → Res β) (g : β → Res γ) :
    (x.bind f).bind g = x.bind fun a => (f a).bind g := by
  cases x <;> rfl

theorem cont_begin {st st' : St} {c : Cmd} (h : begin st c = some st') :
    seqStep st.w st.reg c = cont st'.w st'.reg st'.loop := by
  unfold begin at h
  cases c with
  | register now vs =>
    simp only at h
    cases hc : canonicalizeAll vs with
    | error e => simp only [hc, Option.some.injEq] at h; subst h; simp [seqStep, handle, Worker.register, hc, Res.bind, cont, St.finish]
    | ok vs' =>
      simp only [hc, Option.some.injEq] at h; subst h
      simp only [seqStep, handle, Worker.register, hc, cont, regRest, bind_assoc]
      rfl
  | unregister now ns =>
    simp only [Option.some.injEq] at h; subst h
    simp only [seqStep, handle, cont, unRest, bind_assoc]
    rfl
  | retrieve n =>
    simp only [Option.some.injEq] at h; subst h
    simp only [seqStep, handle, cont, bind_assoc]
    rfl
  | record t r =>
    simp only [Option.some.injEq] at h; subst h
    simp only [seqStep, handle, cont, bind_assoc]
    rfl
  | find n =>
    simp only at h
    cases hf : st.w.find n with
    | err => simp [hf] at h
    | panic => simp [hf] at h
    | ok v => simp only [hf, Option.some.injEq] at h; subst h; simp [seqStep, handle, hf, Res.bind, cont, St.finish]
  | setPeriod d => simp only [Option.some.injEq] at h; subst h; rfl
  | tick now =>
    simp only [Option.some.injEq] at h; subst h
    simp only [seqStep, handle, cont, bind_assoc]
    rfl
  | addExporter e => simp only [handle, Option.some.injEq] at h; subst h; rfl
  | delExporter e => simp only [handle, Option.some.injEq] at h; subst h; rfl

theorem cont_step {st st' : St} (h : stepLoop st = some st') (hne : st.loop ≠ .idle) :
    cont st.w st.reg st.loop = cont st'.w st'.reg st'.loop := by
  unfold stepLoop at h
  cases hl : st.loop with
  | idle => exact absurd hl hne
  | regTry now vs =>
    simp only [hl] at h
    cases vs with
    | nil => simp only [Option.some.injEq] at h; subst h; rfl
    | cons v vs =>
      simp only at h
      cases hm : st.mu with
      | some o => simp [hm] at h
      | none =>
        simp only [hm] at h
        cases ht : st.w.tryRegisterView v now with
        | err => simp [ht] at h
        | panic => simp [ht] at h
        | ok x =>
          obtain ⟨w, r⟩ := x
          cases r with
          | none =>
            simp only [ht, Option.some.injEq] at h; subst h
            simp only [cont, regRest, Worker.registerAll, ht, Res.bind]
            cases w.registerAll st.reg now vs <;> rfl
          | some a =>
            simp only [ht] at h
            cases hvm : v.measure with
            | none => simp [hvm] at h
            | some m =>
              simp only [hvm, Option.some.injEq] at h; subst h
              simp only [cont, regRest, Worker.registerAll, ht, Res.bind, hvm]
              cases subscribe st.reg m.name <;> rfl
  | regMeasure now a m vs =>
    simp only [hl] at h
    cases hs : subscribe st.reg m.name with
    | err => simp [hs] at h
    | panic => simp [hs] at h
    | ok reg => simp only [hs, Option.some.injEq] at h; subst h; simp [cont, hs, Res.bind]
  | regSub now a vs => simp only [hl, Option.some.injEq] at h; subst h; rfl
  | unNext now ns =>
    simp only [hl] at h
    cases ns with
    | nil => simp only [Option.some.injEq] at h; subst h; rfl
    | cons n ns =>
      simp only at h
      cases hg : GoMap.get st.w.views n with
      | none => simp only [hg, Option.some.injEq] at h; subst h; simp [cont, unRest, Worker.unregister, hg]
      | some a =>
        simp only [hg] at h
        cases hr : st.w.reportView a now with
        | err => simp [hr] at h
        | panic => simp [hr] at h
        | ok es =>
          simp only [hr, Option.some.injEq] at h; subst h
          simp only [cont, unRest, Worker.unregister, hg, hr, Res.bind]
          cases (((st.w.setSubscribed a false).clearRows a).unregisterView a).unregister now ns <;> rfl
  | unSub now a ns => simp only [hl, Option.some.injEq] at h; subst h; rfl
  | unClear now a ns => simp only [hl, Option.some.injEq] at h; subst h; rfl
  | unDel now a ns =>
    simp only [hl] at h
    cases hm : st.mu with
    | some o => simp [hm] at h
    | none => simp only [hm, Option.some.injEq] at h; subst h; rfl
  | recLock t r =>
    simp only [hl] at h
    cases hm : st.mu with
    | some o => simp [hm] at h
    | none => simp only [hm, Option.some.injEq] at h; subst h; rfl
  | recLoop t r ms =>
    simp only [hl] at h
    cases ms with
    | nil => simp only [Option.some.injEq] at h; subst h; rfl
    | cons m ms =>
      cases m with
      | none => simp only [Option.some.injEq] at h; subst h; rfl
      | some m => simp only [Option.some.injEq] at h; subst h; rfl
  | recAdd t r s as ms =>
    simp only [hl] at h
    cases as with
    | nil => simp only [Option.some.injEq] at h; subst h; rfl
    | cons a as =>
      simp only at h
      cases hv : st.w.vis[a]? with
      | none => simp [hv] at h
      | some vi =>
        simp only [hv] at h
        cases ha : vi.addSample r.tags s with
        | err => simp [ha] at h
        | panic => simp [ha] at h
        | ok vi' =>
          simp only [ha, Option.some.injEq] at h; subst h
          simp [cont, Worker.addToViews, hv, ha, Res.bind]
  | retrieve n =>
    simp only [hl] at h
    cases hm : st.mu with
    | some o => simp [hm] at h
    | none =>
      simp only [hm] at h
      cases hr : st.w.retrieveData n with
      | err => simp [hr] at h
      | panic => simp [hr] at h
      | ok x => simp only [hr, Option.some.injEq] at h; subst h; simp [cont, hr, Res.bind, St.finish]
  | tick now =>
    simp only [hl] at h
    cases hm : st.mu with
    | some o => simp [hm] at h
    | none =>
      simp only [hm] at h
      cases hr : st.w.reportUsage now with
      | err => simp [hr] at h
      | panic => simp [hr] at h
      | ok x => simp only [hr, Option.some.injEq] at h; subst h; simp [cont, hr, Res.bind, St.finish]

/-! ## The effect of a step of the worker -/

/-- The worker is adding samples, holding the lock. -/
def inCS : Loop → Bool
  | .recLoop _ _ _ => true
  | .recAdd _ _ _ _ _ => true
  | _ => false

def exc : Loop → Option Nat
  | .unClear _ a _ => some a
  | _ => none

/-- What is known where the worker is; `N` are the names being unregistered. -/
def LInv (w : Worker) (N : Bytes → Prop) : Loop → Prop
  | .unNext _ ns => ∀ n ∈ ns, N n
  | .unSub _ a ns => (∀ n ∈ ns, N n) ∧ ∃ vi, w.vis[a]? = some vi ∧ GoMap.get w.views vi.view.name = some a ∧ N vi.view.name
  | .unClear _ a ns => (∀ n ∈ ns, N n) ∧ ∃ vi, w.vis[a]? = some vi ∧ GoMap.get w.views vi.view.name = some a ∧
      N vi.view.name ∧ vi.subscribed = false
  | .unDel _ a ns => (∀ n ∈ ns, N n) ∧ ∃ vi, w.vis[a]? = some vi ∧ GoMap.get w.views vi.view.name = some a ∧
      N vi.view.name ∧ vi.subscribed = false
  | _ => True

/-- Whatever a reader that has the lock can see: the names stay, and the rows of a view stay or, if its name is
being unregistered, vanish. -/
def Under (N : Bytes → Prop) (w w' : Worker) : Prop :=
  w'.views = w.views ∧ ∀ (x : Bytes) (a : Nat) (vi : VI), GoMap.get w.views x = some a → w.vis[a]? = some vi → ∃ vi', w'.vis[a]? = some vi' ∧
    ∀ now, viewToMetric vi' now = viewToMetric vi now ∨ (N x ∧ viewToMetric vi' now = .ok none)

theorem Under.refl (N : Bytes → Prop) {w w' : Worker} (h1 : w'.views = w.views) (h2 : w'.vis = w.vis) : Under N w w' :=
  ⟨h1, fun _ a vi _ hv => ⟨vi, by rw [h2, hv], fun _ => Or.inl rfl⟩⟩

structure Effect (N : Bytes → Prop) (st st' : St) : Prop where
  good : Good (exc st'.loop) st'.w
  linv : LInv st'.w N st'.loop
  rpc : st'.rpc = st.rpc
  chan : st'.chan = st.chan
  evs : (st'.evs = st.evs ∧ st'.loop ≠ .idle) ∨ (st'.evs = st.evs ++ [.done] ∧ st'.loop = .idle)
  metrics : inCS st.loop = false → ∀ x now, metric st'.w x now = metric st.w x now ∨ (N x ∧ metric st'.w x now = .ok none)
  under : st.mu ≠ none → inCS st.loop = false → Under N st.w st'.w
  mu : st'.mu = if inCS st.loop = inCS st'.loop then st.mu else if inCS st'.loop then some .worker else none
  wait : inCS st.loop = false → inCS st'.loop = true → st.mu = none
  leave : inCS st.loop = true → st'.loop = .idle ∨ inCS st'.loop = true

theorem effect {N : Bytes → Prop} {st st' : St} (h : stepLoop st = some st') (hne : st.loop ≠ .idle)
    (hg : Good (exc st.loop) st.w) (hi : LInv st.w N st.loop) : Effect N st st' := by
  unfold stepLoop at h
  cases hl : st.loop with
  | idle => exact absurd hl hne
  | regTry now vs =>
    simp only [hl] at h hg hi
    cases vs with
    | nil =>
      simp only [Option.some.injEq] at h; subst h
      exact ⟨hg, trivial, rfl, rfl, Or.inr ⟨rfl, rfl⟩, fun _ _ _ => Or.inl rfl, fun _ _ => .refl _ rfl rfl, by rw [hl]; rfl,
        fun _ h => (by cases h), fun h => by first | exact Or.inl rfl | (rw [hl] at h; cases h)⟩
    | cons v vs =>
      simp only at h
      cases hm : st.mu with
      | some o => simp [hm] at h
      | none =>
        simp only [hm] at h
        cases ht : st.w.tryRegisterView v now with
        | err => simp [ht] at h
        | panic => simp [ht] at h
        | ok x =>
          obtain ⟨w, r⟩ := x
          obtain ⟨g1, g2⟩ := Good.try hg ht
          cases r with
          | none =>
            simp only [ht, Option.some.injEq] at h; subst h
            exact ⟨g1, trivial, rfl, rfl, Or.inl ⟨rfl, by simp⟩, fun _ x now => Or.inl (g2 x now), fun h => absurd hm h,
              by rw [hl]; exact hm.symm ▸ rfl, fun _ _ => hm, fun h => by rw [hl] at h; cases h⟩
          | some a =>
            simp only [ht] at h
            cases hvm : v.measure with
            | none => simp [hvm] at h
            | some m =>
              simp only [hvm, Option.some.injEq] at h; subst h
              exact ⟨g1, trivial, rfl, rfl, Or.inl ⟨rfl, by simp⟩, fun _ x now => Or.inl (g2 x now), fun h => absurd hm h,
                by rw [hl]; exact hm.symm ▸ rfl, fun _ _ => hm, fun h => by rw [hl] at h; cases h⟩
  | regMeasure now a m vs =>
    simp only [hl] at h hg hi
    cases hs : subscribe st.reg m.name with
    | err => simp [hs] at h
    | panic => simp [hs] at h
    | ok reg =>
      simp only [hs, Option.some.injEq] at h; subst h
      exact ⟨hg, trivial, rfl, rfl, Or.inl ⟨rfl, by simp⟩, fun _ _ _ => Or.inl rfl, fun _ _ => .refl _ rfl rfl, by rw [hl]; rfl,
        fun _ h => (by cases h), fun h => by first | exact Or.inl rfl | (rw [hl] at h; cases h)⟩
  | regSub now a vs =>
    simp only [hl, Option.some.injEq] at h hg hi; subst h
    obtain ⟨g1, g2⟩ := hg.subscribe a
    refine ⟨g1, trivial, rfl, rfl, Or.inl ⟨rfl, by simp⟩, fun _ x now => Or.inl (g2 x now), fun _ _ => ⟨rfl, ?_⟩, by rw [hl]; rfl,
        fun _ h => (by cases h), fun h => by first | exact Or.inl rfl | (rw [hl] at h; cases h)⟩
    intro x b vi _ hv
    simp only [setSubscribed_get]
    by_cases hab : a = b
    · exact ⟨{ vi with subscribed := true }, by simp [hab, hv],
        fun now => Or.inl (viewToMetric_congr (vi' := { vi with subscribed := true }) (vi := vi) rfl rfl rfl now)⟩
    · exact ⟨vi, by simp [hab, hv], fun now => Or.inl rfl⟩
  | unNext now ns =>
    simp only [hl] at h hg hi
    cases ns with
    | nil =>
      simp only [Option.some.injEq] at h; subst h
      exact ⟨hg, trivial, rfl, rfl, Or.inr ⟨rfl, rfl⟩, fun _ _ _ => Or.inl rfl, fun _ _ => .refl _ rfl rfl, by rw [hl]; rfl,
        fun _ h => (by cases h), fun h => by first | exact Or.inl rfl | (rw [hl] at h; cases h)⟩
    | cons n ns =>
      simp only at h
      cases hgv : GoMap.get st.w.views n with
      | none =>
        simp only [hgv, Option.some.injEq] at h; subst h
        exact ⟨hg, fun m hm => hi m (List.mem_cons_of_mem _ hm), rfl, rfl, Or.inl ⟨rfl, by simp⟩, fun _ _ _ => Or.inl rfl,
          fun _ _ => .refl _ rfl rfl, by rw [hl]; rfl, fun _ h => (by cases h), fun h => by first | exact Or.inl rfl | (rw [hl] at h; cases h)⟩
      | some a =>
        simp only [hgv] at h
        cases hr : st.w.reportView a now with
        | err => simp [hr] at h
        | panic => simp [hr] at h
        | ok es =>
          simp only [hr, Option.some.injEq] at h; subst h
          obtain ⟨vi, h1, h2⟩ := hg.here n a hgv
          exact ⟨hg, ⟨fun m hm => hi m (List.mem_cons_of_mem _ hm), vi, h1, by rw [h2]; exact hgv, by rw [h2]; exact hi n (by simp)⟩,
            rfl, rfl, Or.inl ⟨rfl, by simp⟩, fun _ _ _ => Or.inl rfl, fun _ _ => .refl _ rfl rfl, by rw [hl]; rfl,
            fun _ h => (by cases h), fun h => by first | exact Or.inl rfl | (rw [hl] at h; cases h)⟩
  | unSub now a ns =>
    simp only [hl, Option.some.injEq] at h hg hi; subst h
    obtain ⟨hns, vi, h1, h2, h3⟩ := hi
    obtain ⟨g1, g2⟩ := hg.unsubscribe h2
    refine ⟨g1, ⟨hns, { vi with subscribed := false }, by simp [setSubscribed_get, h1], h2, h3, rfl⟩, rfl, rfl,
      Or.inl ⟨rfl, by simp⟩, fun _ x now => (g2 x now).elim Or.inl (fun h => Or.inr ⟨h.1 ▸ h3, h.2⟩), fun _ _ => ⟨rfl, ?_⟩, by rw [hl]; rfl,
      fun _ h => (by cases h), fun h => by first | exact Or.inl rfl | (rw [hl] at h; cases h)⟩
    intro x b v0 _ hv
    simp only [setSubscribed_get]
    by_cases hab : a = b
    · exact ⟨{ v0 with subscribed := false }, by simp [hab, hv],
        fun now => Or.inl (viewToMetric_congr (vi' := { v0 with subscribed := false }) (vi := v0) rfl rfl rfl now)⟩
    · exact ⟨v0, by simp [hab, hv], fun now => Or.inl rfl⟩
  | unClear now a ns =>
    simp only [hl, Option.some.injEq] at h hg hi; subst h
    obtain ⟨hns, vi, h1, h2, h3, h4⟩ := hi
    obtain ⟨g1, g2⟩ := Good.clear hg (fun v hv => by rw [h1] at hv; cases hv; exact h4)
    refine ⟨g1, ⟨hns, { vi with collector := vi.collector.clearRows }, by simp [clearRows_get, h1], h2, h3, h4⟩, rfl, rfl,
      Or.inl ⟨rfl, by simp⟩, fun _ x now => Or.inl (g2 x now), fun _ _ => ⟨rfl, ?_⟩, by rw [hl]; rfl, fun _ h => (by cases h), fun h => by first | exact Or.inl rfl | (rw [hl] at h; cases h)⟩
    intro x b v0 hx hv
    simp only [clearRows_get]
    by_cases hab : a = b
    · subst hab
      rw [h1] at hv; cases hv
      obtain ⟨v1, e1, e2⟩ := hg.here x a hx
      rw [h1] at e1; cases e1
      exact ⟨{ vi with collector := vi.collector.clearRows }, by simp [h1],
        fun now => Or.inr ⟨e2 ▸ h3, viewToMetric_empty rfl now⟩⟩
    · exact ⟨v0, by simp [hab, hv], fun now => Or.inl rfl⟩
  | unDel now a ns =>
    simp only [hl] at h hg hi
    cases hm : st.mu with
    | some o => simp [hm] at h
    | none =>
      simp only [hm, Option.some.injEq] at h; subst h
      obtain ⟨hns, vi, h1, h2, h3, h4⟩ := hi
      obtain ⟨g1, g2⟩ := Good.delete hg h1 h2 h4
      exact ⟨g1, hns, rfl, rfl, Or.inl ⟨rfl, by simp⟩, fun _ x now => Or.inl (g2 x now), fun h => absurd hm h,
        by rw [hl]; exact hm.symm ▸ rfl, fun _ _ => hm, fun h => by rw [hl] at h; cases h⟩
  | recLock t r =>
    simp only [hl] at h hg hi
    cases hm : st.mu with
    | some o => simp [hm] at h
    | none =>
      simp only [hm, Option.some.injEq] at h; subst h
      exact ⟨hg, trivial, rfl, rfl, Or.inl ⟨rfl, by simp⟩, fun _ _ _ => Or.inl rfl, fun h => absurd hm h,
        by rw [hl]; rfl, fun _ _ => hm, fun h => by rw [hl] at h; cases h⟩
  | recLoop t r ms =>
    simp only [hl] at h hg hi
    cases ms with
    | nil =>
      simp only [Option.some.injEq] at h; subst h
      exact ⟨hg, trivial, rfl, rfl, Or.inr ⟨rfl, rfl⟩, fun h => (by simp [hl, inCS] at h), fun _ h => by simp [hl, inCS] at h, by rw [hl]; rfl,
        fun _ h => (by cases h), fun h => by first | exact Or.inl rfl | (rw [hl] at h; cases h)⟩
    | cons m ms =>
      cases m with
      | none =>
        simp only [Option.some.injEq] at h; subst h
        exact ⟨hg, trivial, rfl, rfl, Or.inl ⟨rfl, by simp⟩, fun h => (by simp [hl, inCS] at h), fun _ h => by simp [hl, inCS] at h, by rw [hl]; rfl,
          fun h => (by simp [hl, inCS] at h), fun _ => Or.inr rfl⟩
      | some m =>
        simp only [Option.some.injEq] at h; subst h
        obtain ⟨e1, e2⟩ := getMeasureRef_views st.w m.m.name
        exact ⟨Good.congr hg e1 e2, trivial, rfl, rfl, Or.inl ⟨rfl, by simp⟩, fun h => (by simp [hl, inCS] at h), fun _ h => by simp [hl, inCS] at h, by rw [hl]; rfl,
          fun h => (by simp [hl, inCS] at h), fun _ => Or.inr rfl⟩
  | recAdd t r s as ms =>
    simp only [hl] at h hg hi
    cases as with
    | nil =>
      simp only [Option.some.injEq] at h; subst h
      exact ⟨hg, trivial, rfl, rfl, Or.inl ⟨rfl, by simp⟩, fun h => (by simp [hl, inCS] at h), fun _ h => by simp [hl, inCS] at h, by rw [hl]; rfl,
          fun h => (by simp [hl, inCS] at h), fun _ => Or.inr rfl⟩
    | cons a as =>
      simp only at h
      cases hv : st.w.vis[a]? with
      | none => simp [hv] at h
      | some vi =>
        simp only [hv] at h
        cases ha : vi.addSample r.tags s with
        | err => simp [ha] at h
        | panic => simp [ha] at h
        | ok vi' =>
          simp only [ha, Option.some.injEq] at h; subst h
          exact ⟨Good.add hg hv ha, trivial, rfl, rfl, Or.inl ⟨rfl, by simp⟩, fun h => (by simp [hl, inCS] at h), fun _ h => by simp [hl, inCS] at h, by rw [hl]; rfl,
            fun h => (by simp [hl, inCS] at h), fun _ => Or.inr rfl⟩
  | retrieve n =>
    simp only [hl] at h hg hi
    cases hm : st.mu with
    | some o => simp [hm] at h
    | none =>
      simp only [hm] at h
      cases hr : st.w.retrieveData n with
      | err => simp [hr] at h
      | panic => simp [hr] at h
      | ok x =>
        simp only [hr, Option.some.injEq] at h; subst h
        exact ⟨hg, trivial, rfl, rfl, Or.inr ⟨rfl, rfl⟩, fun _ _ _ => Or.inl rfl, fun _ _ => .refl _ rfl rfl, by rw [hl]; rfl,
          fun _ h => (by cases h), fun h => by first | exact Or.inl rfl | (rw [hl] at h; cases h)⟩
  | tick now =>
    simp only [hl] at h hg hi
    cases hm : st.mu with
    | some o => simp [hm] at h
    | none =>
      simp only [hm] at h
      cases hr : st.w.reportUsage now with
      | err => simp [hr] at h
      | panic => simp [hr] at h
      | ok x =>
        simp only [hr, Option.some.injEq] at h; subst h
        exact ⟨hg, trivial, rfl, rfl, Or.inr ⟨rfl, rfl⟩, fun _ _ _ => Or.inl rfl, fun _ _ => .refl _ rfl rfl, by rw [hl]; rfl,
          fun _ h => (by cases h), fun h => by first | exact Or.inl rfl | (rw [hl] at h; cases h)⟩

def curNames (c : Cmd) (x : Bytes) : Prop := ∃ now ns, c = .unregister now ns ∧ x ∈ ns

theorem effect_begin {st st' : St} {c : Cmd} (h : begin st c = some st') (hl : st.loop = .idle) (hg : Good none st.w) :
    Effect (curNames c) st st' := by
  unfold begin at h
  have same : ∀ (w : Worker), w.views = st.w.views → w.vis = st.w.vis → Effect (curNames c) st { st with w := w }.finish := by
    intro w h1 h2
    exact ⟨Good.congr hg h1 h2, trivial, rfl, rfl, Or.inr ⟨rfl, rfl⟩, fun _ x now => Or.inl (metric_congr h1 h2 x now),
      fun _ _ => .refl _ h1 h2, by rw [hl]; rfl, fun _ h => (by cases h), fun h => by first | exact Or.inl rfl | (rw [hl] at h; cases h)⟩
  have goes : ∀ (l : Loop), inCS l = false → exc l = none → l ≠ .idle → LInv st.w (curNames c) l → Effect (curNames c) st { st with loop := l } := by
    intro l h1 h2 h3 h4
    exact ⟨by simpa [h2] using hg, h4, rfl, rfl, Or.inl ⟨rfl, h3⟩, fun _ x now => Or.inl rfl,
      fun _ _ => .refl _ rfl rfl, by rw [hl]; simp [h1, show inCS .idle = false from rfl], fun _ h => by simp [h1] at h,
      fun h => by rw [hl] at h; cases h⟩
  cases c with
  | register now vs =>
    simp only at h
    cases hc : canonicalizeAll vs with
    | error e => simp only [hc, Option.some.injEq] at h; subst h; exact same _ rfl rfl
    | ok vs' => simp only [hc, Option.some.injEq] at h; subst h; exact goes _ rfl rfl (by simp) trivial
  | unregister now ns =>
    simp only [Option.some.injEq] at h; subst h
    exact goes _ rfl rfl (by simp) (fun n hn => ⟨now, ns, rfl, hn⟩)
  | retrieve n => simp only [Option.some.injEq] at h; subst h; exact goes _ rfl rfl (by simp) trivial
  | record t r => simp only [Option.some.injEq] at h; subst h; exact goes _ rfl rfl (by simp) trivial
  | find n =>
    simp only at h
    cases hf : st.w.find n with
    | err => simp [hf] at h
    | panic => simp [hf] at h
    | ok v => simp only [hf, Option.some.injEq] at h; subst h; exact same _ rfl rfl
  | setPeriod d => simp only [Option.some.injEq] at h; subst h; exact same _ rfl rfl
  | tick now => simp only [Option.some.injEq] at h; subst h; exact goes _ rfl rfl (by simp) trivial
  | addExporter e => simp only [handle, Option.some.injEq] at h; subst h; exact same _ rfl rfl
  | delExporter e => simp only [handle, Option.some.injEq] at h; subst h; exact same _ rfl rfl

/-! ## The invariant -/

/-- What `w` has is what `W` has, but for missing metrics of `U`. -/
def Rel (U : Bytes → Prop) (W w : Worker) : Prop :=
  ∀ x now, metric w x now = metric W x now ∨ (U x ∧ metric w x now = .ok none)

theorem Rel.trans {U N : Bytes → Prop} {W w w' : Worker} (h : Rel U W w) (h' : Rel N w w') (hn : ∀ x, N x → U x) : Rel U W w' := by
  intro x now
  rcases h' x now with e | ⟨n, e⟩
  · rcases h x now with e' | ⟨n', e'⟩
    · exact Or.inl (e.trans e')
    · exact Or.inr ⟨n', e.trans e'⟩
  · exact Or.inr ⟨hn x n, e⟩

/-- Where a reader is in its loop, `todo` being still to be looked at. -/
structure Acc (U : Bytes → Prop) (W w : Worker) (now : Int) (todo : List (Bytes × Nat)) (acc : List (Bytes × MetricOut)) : Prop where
  sub : ∀ p ∈ todo, GoMap.get w.views p.1 = some p.2
  nodup : (todo.map Prod.fst ++ acc.map Prod.fst).Nodup
  sound : ∀ x m, (x, m) ∈ acc → metric W x now = .ok (some m)
  complete : ∀ x m, metric W x now = .ok (some m) → (x, m) ∈ acc ∨ x ∈ todo.map Prod.fst ∨ U x

def Holds (U : Bytes → Prop) (W w : Worker) : RPC → Prop
  | .loop now rem acc => Acc U W w now rem acc
  | .loaded now x a rem acc => Acc U W w now ((x, a) :: rem) acc ∧ ∃ vi, w.vis[a]? = some vi ∧
      (viewToMetric vi now = metric W x now ∨ (U x ∧ viewToMetric vi now = .ok none))
  | .unlock now acc => Acc U W w now [] acc
  | _ => True

def holding : RPC → Bool
  | .idle => false
  | .want => false
  | _ => true

def RInv (reg0 : Measures) (evs : List Ev) (w : Worker) (t : Nat) (pc : RPC) : Prop :=
  (pc = .want → ∃ p0 p1, evs = p0 ++ .called t :: p1 ∧ (∀ ev ∈ p1, ¬ own t ev)) ∧
  (holding pc = true → ∃ p0 p1 p2, evs = p0 ++ .called t :: p1 ++ .locked t :: p2 ∧ (∀ ev ∈ p1, ¬ own t ev) ∧ (∀ ev ∈ p2, ¬ own t ev) ∧
    ∃ W reg', seqFrom newWorker reg0 ((sents (p0 ++ .called t :: p1)).take (handled (p0 ++ .called t :: p1))) = .ok (W, reg') ∧
      Rel (Unregistering (p0 ++ .called t :: p1) evs) W w ∧ Holds (Unregistering (p0 ++ .called t :: p1) evs) W w pc)

theorem Acc.mono {U U' : Bytes → Prop} {W w w' : Worker} {now : Int} {todo : List (Bytes × Nat)} {acc : List (Bytes × MetricOut)}
    (h : Acc U W w now todo acc) (hu : ∀ x, U x → U' x) (hw : w'.views = w.views) : Acc U' W w' now todo acc :=
  ⟨by rw [hw]; exact h.sub, h.nodup, h.sound, fun x m hm => (h.complete x m hm).imp id (Or.imp id (hu x))⟩

theorem Holds.mono {U U' N : Bytes → Prop} {W w w' : Worker} {pc : RPC} (h : Holds U W w pc) (hu : ∀ x, U x → U' x)
    (hn : ∀ x, N x → U' x) (hw : Under N w w') : Holds U' W w' pc := by
  cases pc with
  | idle => trivial
  | want => trivial
  | start => trivial
  | loop now rem acc => exact Acc.mono h hu hw.1
  | unlock now acc => exact Acc.mono h hu hw.1
  | loaded now x a rem acc =>
    obtain ⟨h1, vi, h2, h3⟩ := h
    refine ⟨Acc.mono h1 hu hw.1, ?_⟩
    obtain ⟨vi', e1, e2⟩ := hw.2 x a vi (h1.sub (x, a) (by simp)) h2
    refine ⟨vi', e1, ?_⟩
    rcases e2 now with e | ⟨n, e⟩
    · rcases h3 with h3 | ⟨u, h3⟩
      · exact Or.inl (e.trans h3)
      · exact Or.inr ⟨hu x u, e.trans h3⟩
    · exact Or.inr ⟨hn x n, e⟩

theorem RInv.evs {reg0 : Measures} {evs : List Ev} {w : Worker} {t : Nat} {pc : RPC} (h : RInv reg0 evs w t pc) {ev : Ev}
    (he : ¬ own t ev) : RInv reg0 (evs ++ [ev]) w t pc := by
  have app : ∀ {l : List Ev}, (∀ e ∈ l, ¬ own t e) → ∀ e ∈ l ++ [ev], ¬ own t e := by
    intro l hl e hm
    rcases List.mem_append.1 hm with h | h
    · exact hl e h
    · rw [List.mem_singleton.1 h]; exact he
  constructor
  · intro hp
    obtain ⟨p0, p1, h1, h2⟩ := h.1 hp
    exact ⟨p0, p1 ++ [ev], by rw [h1]; simp, app h2⟩
  · intro hp
    obtain ⟨p0, p1, p2, h1, h2, h3, W, r', h4, h5, h6⟩ := h.2 hp
    refine ⟨p0, p1, p2 ++ [ev], by rw [h1]; simp, h2, app h3, W, r', h4, ?_, ?_⟩
    · intro x now
      exact (h5 x now).imp id (fun h => ⟨h.1.mono, h.2⟩)
    · exact Holds.mono (N := fun _ => False) h6 (fun x hx => hx.mono) (fun _ h => h.elim) (.refl _ rfl rfl)

theorem RInv.work {reg0 : Measures} {evs : List Ev} {w w' : Worker} {t : Nat} {pc : RPC} {c : Cmd} (h : RInv reg0 evs w t pc)
    (hc : (sents evs)[handled evs]? = some c) (hb : begun evs = handled evs + 1)
    (hw : holding pc = true → Under (curNames c) w w' ∧ Rel (curNames c) w w') : RInv reg0 evs w' t pc := by
  refine ⟨h.1, fun hp => ?_⟩
  obtain ⟨p0, p1, p2, h1, h2, h3, W, r', h4, h5, h6⟩ := h.2 hp
  obtain ⟨u1, u2⟩ := hw hp
  have hn : ∀ x, curNames c x → Unregistering (p0 ++ .called t :: p1) evs x := by
    rintro x ⟨now, ns, rfl, hx⟩
    refine ⟨handled evs, now, ns, ?_, by omega, hc, hx⟩
    rw [h1]; simp only [handled, List.countP_append]; omega
  exact ⟨p0, p1, p2, h1, h2, h3, W, r', h4, h5.trans u2 hn, h6.mono (fun _ h => h) hn u1⟩

/-- The worker and its commands. -/
structure Core (reg0 : Measures) (w : Worker) (reg : Measures) (chan : List Cmd) (loop : Loop) (cs : List Cmd) (b h : Nat) : Prop where
  chan : chan = cs.drop b
  le : b ≤ cs.length
  good : Good (exc loop) w
  cur : ∃ wn regn, seqFrom newWorker reg0 (cs.take h) = .ok (wn, regn) ∧
    (loop = .idle → b = h ∧ w = wn ∧ reg = regn) ∧
    (loop ≠ .idle → b = h + 1 ∧ ∃ c, cs[h]? = some c ∧ seqStep wn regn c = cont w reg loop ∧ LInv w (curNames c) loop ∧
      (inCS loop = false → Rel (curNames c) wn w))

structure Inv (reg0 : Measures) (st : St) : Prop where
  core : Core reg0 st.w st.reg st.chan st.loop (sents st.evs) (begun st.evs) (handled st.evs)
  mu : st.mu = some .worker ↔ inCS st.loop = true
  holds : ∀ t, st.mu = some (.reader t) ↔ holding (st.rpc t) = true
  readers : ∀ t, RInv reg0 st.evs st.w t (st.rpc t)
  legal : ∀ p t now R, p ++ [.returned t now R] <+: st.evs → ReadOk reg0 p t now R

theorem inv_init (reg0 : Measures) : Inv reg0 (ReadConc.init reg0) := by
  refine ⟨⟨rfl, Nat.le_refl _, ⟨?_, ?_, ?_⟩, newWorker, reg0, rfl, fun _ => ⟨rfl, rfl, rfl⟩, fun h => absurd rfl h⟩, ?_, ?_, ?_, ?_⟩
  · exact GoMap.WF_nil
  · intro x a h; simp [ReadConc.init, newWorker] at h
  · intro a vi _ h; simp [ReadConc.init, newWorker] at h
  · simp [ReadConc.init, inCS]
  · simp [ReadConc.init, holding]
  · intro t; exact ⟨fun h => by simp [ReadConc.init] at h, fun h => by simp [ReadConc.init, holding] at h⟩
  · intro p t now R h; simp [ReadConc.init] at h

theorem legal_snoc {reg0 : Measures} {evs : List Ev} {ev : Ev} (h : ∀ p t now R, p ++ [.returned t now R] <+: evs → ReadOk reg0 p t now R)
    (he : ∀ t now R, ev = .returned t now R → ReadOk reg0 evs t now R) :
    ∀ p t now R, p ++ [.returned t now R] <+: evs ++ [ev] → ReadOk reg0 p t now R := by
  intro p t now R hp
  rcases List.prefix_concat_iff.1 hp with e | e
  · have := List.append_inj' e rfl
    obtain ⟨e1, e2⟩ := this
    subst e1
    exact he t now R (by simpa using e2.symm)
  · exact h p t now R e

theorem inv_send {reg0 : Measures} {st : St} (hI : Inv reg0 st) (u : Nat) (c : Cmd) :
    Inv reg0 { st with chan := st.chan ++ [c], evs := st.evs ++ [.sent u c] } := by
  obtain ⟨⟨k1, k2, k3, wn, regn, k4, k5, k6⟩, hmu, hh, hr, hl⟩ := hI
  have hle : handled st.evs ≤ (sents st.evs).length := by
    by_cases hi : st.loop = .idle
    · have := (k5 hi).1; omega
    · have := (k6 hi).1; omega
  refine ⟨?_, hmu, hh, fun t => (hr t).evs (by simp [own]), legal_snoc hl (by simp)⟩
  simp only [sents_sent, begun_snoc _ (.sent u c) (by simp), handled_snoc _ (.sent u c) (by simp)]
  refine ⟨?_, ?_, k3, wn, regn, ?_, k5, ?_⟩
  · rw [List.drop_append_of_le_length k2, ← k1]
  · simp only [List.length_append]; omega
  · rw [List.take_append_of_le_length hle]; exact k4
  · intro hi
    obtain ⟨h1, c', h2, h3⟩ := k6 hi
    refine ⟨h1, c', ?_, h3⟩
    rw [List.getElem?_append_left (List.getElem?_eq_some_iff.1 h2).1]; exact h2

theorem inv_effect {reg0 : Measures} {st st' : St} {c : Cmd} {wn : Worker} {regn : Measures}
    (hE : Effect (curNames c) st st')
    (h1 : st.chan = (sents st.evs).drop (begun st.evs)) (h2 : begun st.evs ≤ (sents st.evs).length)
    (h3 : begun st.evs = handled st.evs + 1) (h4 : (sents st.evs)[handled st.evs]? = some c)
    (h5 : seqFrom newWorker reg0 ((sents st.evs).take (handled st.evs)) = .ok (wn, regn))
    (h6 : seqStep wn regn c = cont st'.w st'.reg st'.loop) (h7 : inCS st.loop = false → Rel (curNames c) wn st.w)
    (hmu : st.mu = some .worker ↔ inCS st.loop = true)
    (hh : ∀ t, st.mu = some (.reader t) ↔ holding (st.rpc t) = true)
    (hr : ∀ t, RInv reg0 st.evs st.w t (st.rpc t))
    (hl : ∀ p t now R, p ++ [.returned t now R] <+: st.evs → ReadOk reg0 p t now R) : Inv reg0 st' := by
  have hr' : ∀ t, RInv reg0 st.evs st'.w t (st'.rpc t) := by
    intro t
    rw [hE.rpc]
    refine (hr t).work h4 h3 (fun hp => ?_)
    have hm := (hh t).2 hp
    have hcs : inCS st.loop = false := by
      cases hc : inCS st.loop with
      | false => rfl
      | true => rw [hmu.2 hc] at hm; cases hm
    exact ⟨hE.under (by rw [hm]; simp) hcs, fun x now => hE.metrics hcs x now⟩
  have hmu' : st'.mu = some .worker ↔ inCS st'.loop = true := by
    rw [hE.mu]
    cases e1 : inCS st.loop <;> cases e2 : inCS st'.loop <;> simp_all
  have hh' : ∀ t, st'.mu = some (.reader t) ↔ holding (st'.rpc t) = true := by
    intro t
    rw [hE.rpc, ← hh t, hE.mu]
    have hw := hE.wait
    cases e1 : inCS st.loop <;> cases e2 : inCS st'.loop <;> simp_all
  rcases hE.evs with ⟨e1, e2⟩ | ⟨e1, e2⟩
  · refine ⟨⟨?_, ?_, hE.good, wn, regn, ?_, fun h => absurd h e2, fun _ => ⟨?_, c, ?_, h6, hE.linv, ?_⟩⟩, hmu', hh', ?_, ?_⟩
    · rw [hE.chan, e1]; exact h1
    · rw [e1]; exact h2
    · rw [e1]; exact h5
    · rw [e1]; exact h3
    · rw [e1]; exact h4
    · intro hcs
      cases e3 : inCS st.loop with
      | false => exact (h7 e3).trans (fun x now => hE.metrics e3 x now) (fun _ h => h)
      | true =>
        rcases hE.leave e3 with h | h
        · exact absurd h e2
        · rw [h] at hcs; cases hcs
    · rw [e1]; exact hr'
    · rw [e1]; exact hl
  · have hs := sents_snoc st.evs .done (by simp)
    have hb := begun_snoc st.evs .done (by simp)
    have hd := handled_done st.evs
    refine ⟨⟨?_, ?_, hE.good, st'.w, st'.reg, ?_, fun _ => ⟨?_, rfl, rfl⟩, fun h => absurd e2 h⟩, hmu', hh', ?_, ?_⟩
    · rw [hE.chan, e1, hs, hb]; exact h1
    · rw [e1, hs, hb]; exact h2
    · rw [e1, hs, hd, List.take_add_one, seqFrom_append, h5, h4]
      simp only [Res.bind, Option.toList, seqFrom]
      rw [h6, e2]
      rfl
    · rw [e1, hb, hd]; exact h3
    · intro t; rw [e1]; exact (hr' t).evs (by simp [own])
    · rw [e1]; exact legal_snoc hl (by simp)

theorem inv_work {reg0 : Measures} {st st' : St} (hI : Inv reg0 st) (h : stepLoop st = some st') : Inv reg0 st' := by
  obtain ⟨⟨k1, k2, k3, wn, regn, k4, k5, k6⟩, hmu, hh, hr, hl⟩ := hI
  by_cases hi : st.loop = .idle
  · obtain ⟨b1, rfl, rfl⟩ := k5 hi
    unfold stepLoop at h
    simp only [hi] at h
    cases hc : st.chan with
    | nil => simp [hc] at h
    | cons c rest =>
      simp only [hc] at h
      have hs := sents_snoc st.evs .began (by simp)
      have hb := begun_began st.evs
      have hd := handled_snoc st.evs .began (by simp)
      rw [hc] at k1
      have hlt : begun st.evs < (sents st.evs).length := by
        rcases Nat.lt_or_ge (begun st.evs) (sents st.evs).length with h | h
        · exact h
        · rw [List.drop_eq_nil_of_le h] at k1; cases k1
      rw [List.drop_eq_getElem_cons hlt] at k1
      simp only [List.cons.injEq] at k1
      have hce : (sents st.evs)[begun st.evs]? = some c := by rw [List.getElem?_eq_getElem hlt, ← k1.1]
      rw [hi] at k3
      have hcb := cont_begin h
      refine inv_effect (c := c) (wn := st.w) (regn := st.reg) (effect_begin h rfl k3) ?_ ?_ ?_ ?_ ?_ hcb ?_ (by rw [hi] at hmu; exact hmu) hh ?_ ?_
      · simp only [hs, hb]; exact k1.2
      · simp only [hs, hb]; omega
      · simp only [hb, hd]; omega
      · simp only [hs, hd, ← b1]; exact hce
      · simp only [hs, hd]; exact k4
      · intro _ x now; exact Or.inl rfl
      · intro t; exact (hr t).evs (by simp [own])
      · exact legal_snoc hl (by simp)
  · obtain ⟨b1, c, c1, c2, c3, c4⟩ := k6 hi
    exact inv_effect (effect h hi k3 c3) k1 k2 b1 c1 k4 (c2.trans (cont_step h hi)) c4 hmu hh hr hl

/-- A step of a reader that has the lock and keeps it. -/
theorem inv_keep {reg0 : Measures} {st : St} (hI : Inv reg0 st) {t : Nat} (hp : holding (st.rpc t) = true) {pc : RPC} (hpc : holding pc = true)
    (hk : ∀ U W, Rel U W st.w → Holds U W st.w (st.rpc t) → Holds U W st.w pc) :
    Inv reg0 { st with rpc := upd st.rpc t pc } := by
  obtain ⟨hcore, hmu, hh, hr, hl⟩ := hI
  refine ⟨hcore, hmu, ?_, ?_, hl⟩
  · intro u
    simp only [upd]
    by_cases hu : u = t
    · subst hu; simp only [if_true, hpc, iff_true]; exact (hh u).2 hp
    · simp only [hu, if_false]; exact hh u
  · intro u
    simp only [upd]
    by_cases hu : u = t
    · subst hu
      simp only [if_true]
      refine ⟨fun h => (by rw [h] at hpc; cases hpc), fun _ => ?_⟩
      obtain ⟨p0, p1, p2, h1, h2, h3, W, r', h4, h5, h6⟩ := (hr u).2 hp
      exact ⟨p0, p1, p2, h1, h2, h3, W, r', h4, h5, hk _ _ h5 h6⟩
    · simp only [hu, if_false]; exact hr u

theorem metric_at {w : Worker} {ex : Option Nat} (hg : Good ex w) {x : Bytes} {a : Nat} {vi : VI} (h1 : GoMap.get w.views x = some a)
    (h2 : w.vis[a]? = some vi) (now : Int) : metric w x now = if vi.subscribed then viewToMetric vi now else .ok none := by
  unfold metric toMetric
  simp only [h1, h2]
  cases vi.subscribed <;> rfl

theorem Acc.skip {U : Bytes → Prop} {W w : Worker} {now : Int} {x : Bytes} {a : Nat} {todo : List (Bytes × Nat)}
    {acc : List (Bytes × MetricOut)} (h : Acc U W w now ((x, a) :: todo) acc) (hx : metric W x now = .ok none ∨ U x) : Acc U W w now todo acc := by
  refine ⟨fun p hp => h.sub p (List.mem_cons_of_mem _ hp), ?_, h.sound, ?_⟩
  · have := h.nodup
    simp only [List.map_cons, List.cons_append, List.nodup_cons] at this
    exact this.2
  · intro y m hy
    rcases h.complete y m hy with h1 | h1 | h1
    · exact Or.inl h1
    · rw [List.map_cons, List.mem_cons] at h1
      rcases h1 with rfl | h1
      · rcases hx with hx | hx
        · rw [hx] at hy; cases hy
        · exact Or.inr (Or.inr hx)
      · exact Or.inr (Or.inl h1)
    · exact Or.inr (Or.inr h1)

theorem Acc.take {U : Bytes → Prop} {W w : Worker} {now : Int} {x : Bytes} {a : Nat} {todo : List (Bytes × Nat)} {m : MetricOut}
    {acc : List (Bytes × MetricOut)} (h : Acc U W w now ((x, a) :: todo) acc) (hx : metric W x now = .ok (some m)) :
    Acc U W w now todo (acc ++ [(x, m)]) := by
  refine ⟨fun p hp => h.sub p (List.mem_cons_of_mem _ hp), ?_, ?_, ?_⟩
  · refine (List.Perm.nodup_iff ?_).2 h.nodup
    simp only [List.map_append, List.map_cons, List.map_nil, List.cons_append]
    rw [← List.append_assoc]
    exact List.perm_append_singleton _ _
  · intro y m' hy
    rcases List.mem_append.1 hy with h1 | h1
    · exact h.sound y m' h1
    · cases List.mem_singleton.1 h1; exact hx
  · intro y m' hy
    rcases h.complete y m' hy with h1 | h1 | h1
    · exact Or.inl (List.mem_append_left _ h1)
    · rw [List.map_cons, List.mem_cons] at h1
      rcases h1 with rfl | h1
      · rw [hx] at hy; cases hy; exact Or.inl (by simp)
      · exact Or.inr (Or.inl h1)
    · exact Or.inr (Or.inr h1)

theorem Acc.perm {U : Bytes → Prop} {W w : Worker} {now : Int} {todo todo' : List (Bytes × Nat)}
    {acc : List (Bytes × MetricOut)} (h : Acc U W w now todo acc) (hp : todo.Perm todo') : Acc U W w now todo' acc :=
  ⟨fun p hm => h.sub p (hp.mem_iff.2 hm), ((hp.map Prod.fst).append_right _).nodup_iff.1 h.nodup, h.sound,
    fun x m hx => (h.complete x m hx).imp id (Or.imp (fun h => (hp.map Prod.fst).mem_iff.1 h) id)⟩

theorem eraseIdx_perm {α : Type} {l : List α} {i : Nat} {x : α} (h : l[i]? = some x) : l.Perm (x :: l.eraseIdx i) := by
  obtain ⟨hi, rfl⟩ := List.getElem?_eq_some_iff.1 h
  exact (List.getElem_cons_eraseIdx_perm hi).symm

theorem inv_read {reg0 : Measures} {st st' : St} (hI : Inv reg0 st) {t : Nat} {now : Int} {ch : Nat}
    (h : stepRead st t now ch = some st') : Inv reg0 st' := by
  have hI0 := hI
  obtain ⟨hcore, hmu, hh, hr, hl⟩ := hI
  unfold stepRead at h
  cases hp : st.rpc t with
  | idle =>
    simp only [hp, Option.some.injEq] at h; subst h
    refine ⟨?_, hmu, ?_, ?_, legal_snoc hl (by simp)⟩
    · simp only [sents_snoc _ (.called t) (by simp), begun_snoc _ (.called t) (by simp), handled_snoc _ (.called t) (by simp)]
      exact hcore
    · intro u
      simp only [upd]
      by_cases hu : u = t
      · subst hu; rw [hh u, hp]; simp [holding]
      · simp only [hu, if_false]; exact hh u
    · intro u
      simp only [upd]
      by_cases hu : u = t
      · subst hu; simp only [if_true]
        exact ⟨fun _ => ⟨st.evs, [], rfl, by simp⟩, fun h => by cases h⟩
      · simp only [hu, if_false]; exact (hr u).evs (by simp only [own]; exact fun h => hu h.symm)
  | want =>
    simp only [hp] at h
    cases hm : st.mu with
    | some o => simp [hm] at h
    | none =>
      simp only [hm, Option.some.injEq] at h; subst h
      refine ⟨?_, ?_, ?_, ?_, legal_snoc hl (by simp)⟩
      · simp only [sents_snoc _ (.locked t) (by simp), begun_snoc _ (.locked t) (by simp), handled_snoc _ (.locked t) (by simp)]
        exact hcore
      · simp only [hm] at hmu; simpa using hmu
      · intro u
        simp only [upd]
        by_cases hu : u = t
        · subst hu; simp [holding]
        · have := hh u
          rw [hm] at this
          simp only [hu, if_false, ← this]
          have hu' : t ≠ u := fun h => hu h.symm
          simp [hu']
      · intro u
        simp only [upd]
        by_cases hu : u = t
        · subst hu; simp only [if_true]
          refine ⟨fun h => (by cases h), fun _ => ?_⟩
          obtain ⟨p0, p1, h1, h2⟩ := (hr u).1 hp
          obtain ⟨k1, k2, k3, wn, regn, k4, k5, k6⟩ := hcore
          refine ⟨p0, p1, [], by rw [h1], h2, by simp, wn, regn, by rw [← h1]; exact k4, ?_, trivial⟩
          by_cases hi : st.loop = .idle
          · intro x now; exact Or.inl (by rw [(k5 hi).2.1])
          · obtain ⟨b1, c, c1, c2, c3, c4⟩ := k6 hi
            have hcs : inCS st.loop = false := by
              cases e : inCS st.loop with
              | false => rfl
              | true => rw [hmu.2 e] at hm; cases hm
            intro x now
            refine (c4 hcs x now).imp id (fun h => ⟨?_, h.2⟩)
            obtain ⟨now', ns, rfl, hx⟩ := h.1
            refine Unregistering.mono ?_
            rw [← h1]
            exact ⟨handled st.evs, now', ns, Nat.le_refl _, by omega, c1, hx⟩
        · simp only [hu, if_false]; exact (hr u).evs (by simp only [own]; exact fun h => hu h.symm)
  | start =>
    simp only [hp, Option.some.injEq] at h; subst h
    refine inv_keep hI0 (by rw [hp]; rfl) rfl (fun U W hrel _ => ?_)
    have hg := hcore.good
    refine ⟨fun p hm => GoMap.get_of_mem hg.wf hm, ?_, by simp, ?_⟩
    · simpa [GoMap.WF, GoMap.keys] using hg.wf
    · intro x m hx
      rcases hrel x now with e | ⟨e, _⟩
      · right; left
        rw [hx] at e
        unfold metric at e
        cases hgv : GoMap.get st.w.views x with
        | none => simp [hgv] at e
        | some a => exact List.mem_map.2 ⟨(x, a), GoMap.mem_of_get hgv, rfl⟩
      · exact Or.inr (Or.inr e)
  | loop now' rem acc =>
    simp only [hp] at h
    cases hrem : rem with
    | nil =>
      simp only [hrem, Option.some.injEq] at h; subst h
      refine inv_keep hI0 (by rw [hp]; rfl) rfl (fun U W _ hk => ?_)
      rw [hp, hrem] at hk; exact hk
    | cons y rem' =>
      simp only [hrem] at h
      rw [← hrem] at h
      cases hc : rem[ch]? with
      | none => simp [hc] at h
      | some xa =>
        obtain ⟨x, a⟩ := xa
        simp only [hc] at h
        cases hv : st.w.vis[a]? with
        | none => simp [hv] at h
        | some vi =>
          simp only [hv] at h
          by_cases hs : vi.subscribed = true
          · simp only [hs, Bool.not_true, Bool.false_eq_true, if_false, Option.some.injEq] at h; subst h
            refine inv_keep hI0 (by rw [hp]; rfl) rfl (fun U W hrel hk => ?_)
            rw [hp] at hk
            have hk' := Acc.perm hk (eraseIdx_perm hc)
            refine ⟨hk', vi, hv, ?_⟩
            have e := metric_at hcore.good (hk'.sub (x, a) (by simp)) hv now'
            rw [hs] at e
            simp only [if_true] at e
            rw [← e]
            exact hrel x now'
          · simp only [Bool.not_eq_true] at hs
            simp only [hs, Bool.not_false, if_true, Option.some.injEq] at h; subst h
            refine inv_keep hI0 (by rw [hp]; rfl) rfl (fun U W hrel hk => ?_)
            rw [hp] at hk
            have hk' := Acc.perm hk (eraseIdx_perm hc)
            refine Acc.skip hk' ?_
            have e := metric_at hcore.good (hk'.sub (x, a) (by simp)) hv now'
            rw [hs] at e
            rcases hrel x now' with h | ⟨h, _⟩
            · left; rw [← h, e]; rfl
            · exact Or.inr h
  | loaded now' x a rem acc =>
    simp only [hp] at h
    cases hv : st.w.vis[a]? with
    | none => simp [hv] at h
    | some vi =>
      simp only [hv] at h
      cases hm : viewToMetric vi now' with
      | err => simp [hm] at h
      | panic => simp [hm] at h
      | ok o =>
        cases o with
        | none =>
          simp only [hm, Option.some.injEq] at h; subst h
          refine inv_keep hI0 (by rw [hp]; rfl) rfl (fun U W hrel hk => ?_)
          rw [hp] at hk
          obtain ⟨hk', vi', e1, e2⟩ := hk
          rw [hv] at e1; cases e1
          refine Acc.skip hk' ?_
          rcases e2 with e | ⟨e, _⟩
          · left; rw [← e, hm]
          · exact Or.inr e
        | some m =>
          simp only [hm, Option.some.injEq] at h; subst h
          refine inv_keep hI0 (by rw [hp]; rfl) rfl (fun U W hrel hk => ?_)
          rw [hp] at hk
          obtain ⟨hk', vi', e1, e2⟩ := hk
          rw [hv] at e1; cases e1
          refine Acc.take hk' ?_
          rcases e2 with e | ⟨_, e⟩
          · rw [← e, hm]
          · rw [hm] at e; cases e
  | unlock now' acc =>
    simp only [hp, Option.some.injEq] at h; subst h
    have hmt := (hh t).2 (by rw [hp]; rfl)
    refine ⟨?_, ?_, ?_, ?_, ?_⟩
    · simp only [sents_snoc _ (.returned t now' acc) (by simp), begun_snoc _ (.returned t now' acc) (by simp), handled_snoc _ (.returned t now' acc) (by simp)]
      exact hcore
    · rw [hmt] at hmu; simpa using hmu
    · intro u
      simp only [upd]
      by_cases hu : u = t
      · subst hu; simp [holding]
      · have := hh u
        rw [hmt] at this
        simp only [hu, if_false, ← this]
        have hu' : t ≠ u := fun h => hu h.symm
        simp [hu']
    · intro u
      simp only [upd]
      by_cases hu : u = t
      · subst hu; simp only [if_true]
        exact ⟨fun h => (by cases h), fun h => by cases h⟩
      · simp only [hu, if_false]; exact (hr u).evs (by simp only [own]; exact fun h => hu h.symm)
    · refine legal_snoc hl ?_
      intro t' now R he
      cases he
      obtain ⟨p0, p1, p2, h1, h2, h3, W, r', h4, h5, h6⟩ := (hr t).2 (by rw [hp]; rfl)
      rw [hp] at h6
      refine ⟨p0, p1, p2, h1, h2, h3, W, r', h4, by simpa using h6.nodup, h6.sound, ?_⟩
      intro x m hx
      rcases h6.complete x m hx with h | h | h
      · exact Or.inl h
      · simp at h
      · exact Or.inr h

theorem inv_run {reg0 : Measures} (l : List Action) : ∀ {st st' : St}, Inv reg0 st → ReadConc.run st l = some st' → Inv reg0 st' := by
  induction l with
  | nil => intro st st' hI h; simp only [ReadConc.run, Option.some.injEq] at h; subst h; exact hI
  | cons a l ih =>
    intro st st' hI h
    simp only [ReadConc.run] at h
    cases hs : ReadConc.step st a with
    | none => simp [hs] at h
    | some st1 =>
      simp only [hs, Option.bind_some] at h
      refine ih ?_ h
      cases a with
      | send u c => simp only [ReadConc.step, Option.some.injEq] at hs; subst hs; exact inv_send hI u c
      | work => exact inv_work hI hs
      | read t now c => exact inv_read hI hs

/-! ## The theorems -/

/-- C72: whatever the worker is doing in the meantime, what `Read` returns are the metrics of the views after the
commands handled by the time it had the lock, which is between its call and its return. Each view is there once.
Only the metric of a view that is being unregistered in the meantime may be missing. -/
theorem read_consistent {reg : Measures} {l : List Action} {st : St} (h : ReadConc.run (ReadConc.init reg) l = some st)
    {p q : List Ev} {t : Nat} {now : Int} {R : List (Bytes × MetricOut)} (he : st.evs = p ++ .returned t now R :: q) :
    ReadOk reg p t now R :=
  (inv_run l (inv_init reg) h).legal p t now R ⟨q, by rw [he]; simp⟩

theorem seqFrom_rel {w : Worker} {reg : Measures} {σ : Spec.SState} (h : View.Rel w reg σ) (cs : List Cmd) (hg : ∀ c ∈ cs, Spec.GoodCmd reg c) :
    ∃ w' reg', seqFrom w reg cs = .ok (w', reg') ∧ View.Rel w' reg' (Worker.specRun σ cs) ∧
      (∀ k, (GoMap.get reg k).isSome → (GoMap.get reg' k).isSome) := by
  induction cs generalizing w reg σ with
  | nil => exact ⟨w, reg, rfl, h, fun _ hk => hk⟩
  | cons c cs ih =>
    obtain ⟨w1, reg1, r, es, h1, h2, h3, h4⟩ := handle_rel h c (hg c (by simp))
    obtain ⟨w2, reg2, h5, h6, h7⟩ := ih h2 (fun c hc => Worker.goodCmd_mono h4 (hg c (by simp [hc])))
    refine ⟨w2, reg2, ?_, h6, fun k hk => h7 k (h4 k hk)⟩
    simp only [seqFrom, seqStep, h1, Res.bind]
    exact h5

theorem rel_metric {w : Worker} {reg : Measures} {σ : Spec.SState} (h : View.Rel w reg σ) (x : Bytes) (now : Int) :
    ∃ o, metric w x now = .ok o ∧ (∀ m, o = some m → ∃ v, σ x = some v ∧ v.recs ≠ [] ∧ ViewMetric.MetricOf v now m) ∧
      (∀ v, σ x = some v → v.recs ≠ [] → ∃ m, o = some m) := by
  unfold metric
  cases hg : GoMap.get w.views x with
  | none => exact ⟨none, rfl, by simp, fun v hv => by rw [h.none_iff x hg] at hv; cases hv⟩
  | some a =>
    obtain ⟨vi, v, h1, h2, h3, _⟩ := h.some_iff x a hg
    obtain ⟨o, e1, e2⟩ := ViewMetric.view_metric h3 now
    refine ⟨o, by simp only [h1]; exact e1, ?_, ?_⟩
    · rintro m rfl; exact ⟨v, h2, e2.1, e2.2⟩
    · intro v' hv hne
      rw [h2] at hv; cases hv
      cases o with
      | none => exact absurd e2 hne
      | some m => exact ⟨m, rfl⟩

/-- C72, in terms of what was recorded: with the commands handled by the time it had the lock, `Read` returns for each
view registered by then one metric with what was recorded for it by then, if anything; it returns no other.
Only the metric of a view that is being unregistered in the meantime may be missing. -/
theorem read_describes {reg : Measures} {l : List Action} {st : St} (h : ReadConc.run (ReadConc.init reg) l = some st)
    (hgood : ∀ c ∈ sents st.evs, Spec.GoodCmd reg c)
    {p q : List Ev} {t : Nat} {now : Int} {R : List (Bytes × MetricOut)} (he : st.evs = p ++ .returned t now R :: q) :
    ∃ p0 p1 p2, p = p0 ++ .called t :: p1 ++ .locked t :: p2 ∧ (∀ ev ∈ p1, ¬ own t ev) ∧ (∀ ev ∈ p2, ¬ own t ev) ∧
      let σ := Worker.specRun Spec.empty ((sents (p0 ++ .called t :: p1)).take (handled (p0 ++ .called t :: p1)))
      (R.map Prod.fst).Nodup ∧
      (∀ x m, (x, m) ∈ R → ∃ v, σ x = some v ∧ v.recs ≠ [] ∧ ViewMetric.MetricOf v now m) ∧
      (∀ x v, σ x = some v → v.recs ≠ [] → (∃ m, (x, m) ∈ R) ∨ Unregistering (p0 ++ .called t :: p1) p x) := by
  obtain ⟨p0, p1, p2, h1, h2, h3, W, reg', h4, h5, h6, h7⟩ := read_consistent h he
  refine ⟨p0, p1, p2, h1, h2, h3, h5, ?_⟩
  obtain ⟨w', r', g1, g2, _⟩ := seqFrom_rel (rel_init reg) ((sents (p0 ++ .called t :: p1)).take (handled (p0 ++ .called t :: p1)))
    (by
      intro c hc
      refine hgood c ?_
      rw [he, h1]
      have := List.mem_of_mem_take hc
      simp only [sents, List.filterMap_append, List.append_assoc] at this ⊢
      simp only [List.mem_append] at this ⊢
      tauto)
  rw [h4] at g1
  cases g1
  constructor
  · intro x m hm
    obtain ⟨o, e1, e2, _⟩ := rel_metric g2 x now
    rw [h6 x m hm] at e1
    cases e1
    exact e2 m rfl
  · intro x v hv hne
    obtain ⟨o, e1, _, e3⟩ := rel_metric g2 x now
    obtain ⟨m, rfl⟩ := e3 v hv hne
    exact (h7 x m e1).imp (fun h => ⟨m, h⟩) id

/-! ## Nobody panics, and nobody waits for ever -/

theorem cont_runs {st : St} {x : Worker × Measures} (hne : st.loop ≠ .idle) (h : cont st.w st.reg st.loop = .ok x)
    (hm' : inCS st.loop = true ∨ st.mu = none) : stepLoop st ≠ none := by
  intro hstuck
  unfold stepLoop at hstuck
  cases hl : st.loop with
  | idle => exact hne hl
  | regTry now vs =>
    have hm : st.mu = none := by simpa [hl, inCS] using hm'
    simp only [hl, hm] at hstuck
    cases vs with
    | nil => simp at hstuck
    | cons v vs =>
      rw [hl] at h
      simp only [cont, regRest, Worker.registerAll] at h
      cases ht : st.w.tryRegisterView v now with
      | err => simp [ht, Res.bind] at h
      | panic => simp [ht, Res.bind] at h
      | ok y =>
        obtain ⟨w, r⟩ := y
        cases r with
        | none => simp [ht] at hstuck
        | some a =>
          cases hv : v.measure with
          | none => simp [ht, hv, Res.bind] at h
          | some m => simp [ht, hv] at hstuck
  | regMeasure now a m vs =>
    simp only [hl] at hstuck
    rw [hl] at h
    simp only [cont] at h
    cases hs : subscribe st.reg m.name with
    | err => simp [hs, Res.bind] at h
    | panic => simp [hs, Res.bind] at h
    | ok reg => simp [hs] at hstuck
  | regSub now a vs => simp [hl] at hstuck
  | unNext now ns =>
    simp only [hl] at hstuck
    cases ns with
    | nil => simp at hstuck
    | cons n ns =>
      rw [hl] at h
      simp only [cont, unRest, Worker.unregister] at h
      cases hg : GoMap.get st.w.views n with
      | none => simp [hg] at hstuck
      | some a =>
        cases hr : st.w.reportView a now with
        | err => simp [hg, hr, Res.bind] at h
        | panic => simp [hg, hr, Res.bind] at h
        | ok es => simp [hg, hr] at hstuck
  | unSub now a ns => simp [hl] at hstuck
  | unClear now a ns => simp [hl] at hstuck
  | unDel now a ns =>
    have hm : st.mu = none := by simpa [hl, inCS] using hm'
    simp [hl, hm] at hstuck
  | recLock t r =>
    have hm : st.mu = none := by simpa [hl, inCS] using hm'
    simp [hl, hm] at hstuck
  | recLoop t r ms =>
    simp only [hl] at hstuck
    cases ms with
    | nil => simp at hstuck
    | cons m ms => cases m <;> simp at hstuck
  | recAdd t r s as ms =>
    simp only [hl] at hstuck
    cases as with
    | nil => simp at hstuck
    | cons a as =>
      rw [hl] at h
      simp only [cont, Worker.addToViews] at h
      cases hv : st.w.vis[a]? with
      | none => simp [hv, Res.bind] at h
      | some vi =>
        cases ha : vi.addSample r.tags s with
        | err => simp [hv, ha, Res.bind] at h
        | panic => simp [hv, ha, Res.bind] at h
        | ok vi' => simp [hv, ha] at hstuck
  | retrieve n =>
    have hm : st.mu = none := by simpa [hl, inCS] using hm'
    simp only [hl, hm] at hstuck
    rw [hl] at h
    simp only [cont] at h
    cases hr : st.w.retrieveData n with
    | err => simp [hr, Res.bind] at h
    | panic => simp [hr, Res.bind] at h
    | ok y => simp [hr] at hstuck
  | tick now =>
    have hm : st.mu = none := by simpa [hl, inCS] using hm'
    simp only [hl, hm] at hstuck
    rw [hl] at h
    simp only [cont] at h
    cases hr : st.w.reportUsage now with
    | err => simp [hr, Res.bind] at h
    | panic => simp [hr, Res.bind] at h
    | ok y => simp [hr] at hstuck

theorem begin_runs {st : St} {c : Cmd} {x : Worker × Measures} (h : seqStep st.w st.reg c = .ok x) : begin st c ≠ none := by
  intro hstuck
  unfold begin at hstuck
  cases c with
  | register now vs =>
    simp only at hstuck
    cases hc : canonicalizeAll vs <;> simp [hc] at hstuck
  | find n =>
    simp only at hstuck
    simp only [seqStep, handle] at h
    cases hf : st.w.find n with
    | err => simp [hf, Res.bind] at h
    | panic => simp [hf, Res.bind] at h
    | ok v => simp [hf] at hstuck
  | addExporter e => simp [handle] at hstuck
  | delExporter e => simp [handle] at hstuck
  | _ => simp at hstuck

theorem seqStep_runs {reg : Measures} {cs : List Cmd} (hgood : ∀ c ∈ cs, Spec.GoodCmd reg c) {i : Nat} {c : Cmd} (hc : cs[i]? = some c)
    {wn : Worker} {regn : Measures} (h : seqFrom newWorker reg (cs.take i) = .ok (wn, regn)) : ∃ x, seqStep wn regn c = .ok x := by
  obtain ⟨w', r', g1, _⟩ := seqFrom_rel (rel_init reg) (cs.take (i + 1)) (fun c hc => hgood c (List.mem_of_mem_take hc))
  rw [List.take_add_one, seqFrom_append, h, hc] at g1
  simp only [Res.bind, Option.toList, seqFrom] at g1
  cases hs : seqStep wn regn c with
  | ok x => exact ⟨x, rfl⟩
  | err => simp [hs] at g1
  | panic => simp [hs] at g1

/-- C72: the worker does not panic whatever `Read`s there are, and with something to do it only waits for a `Read`
that has the lock. -/
theorem worker_progress {reg : Measures} {l : List Action} {st : St} (h : ReadConc.run (ReadConc.init reg) l = some st)
    (hgood : ∀ c ∈ sents st.evs, Spec.GoodCmd reg c) (hwork : st.loop ≠ .idle ∨ st.chan ≠ []) :
    stepLoop st ≠ none ∨ ∃ t, st.mu = some (.reader t) := by
  obtain ⟨⟨k1, k2, k3, wn, regn, k4, k5, k6⟩, hmu, hh, hr, hl⟩ := inv_run l (inv_init reg) h
  by_cases hi : st.loop = .idle
  · obtain ⟨b1, rfl, rfl⟩ := k5 hi
    cases hc : st.chan with
    | nil => exact absurd hc (hwork.resolve_left (fun h => h hi))
    | cons c rest =>
      left
      rw [hc] at k1
      have hlt : begun st.evs < (sents st.evs).length := by
        rcases Nat.lt_or_ge (begun st.evs) (sents st.evs).length with h | h
        · exact h
        · rw [List.drop_eq_nil_of_le h] at k1; cases k1
      rw [List.drop_eq_getElem_cons hlt] at k1
      simp only [List.cons.injEq] at k1
      have hce : (sents st.evs)[handled st.evs]? = some c := by rw [← b1, List.getElem?_eq_getElem hlt, ← k1.1]
      obtain ⟨x, hx⟩ := seqStep_runs hgood hce k4
      unfold stepLoop
      simp only [hi, hc]
      exact begin_runs (x := x) hx
  · obtain ⟨b1, c, c1, c2, c3, c4⟩ := k6 hi
    obtain ⟨x, hx⟩ := seqStep_runs hgood c1 k4
    cases hm : st.mu with
    | none => exact Or.inl (cont_runs hi (c2.symm.trans hx) (Or.inr hm))
    | some o =>
      cases o with
      | worker => exact Or.inl (cont_runs hi (c2.symm.trans hx) (Or.inl (hmu.1 hm)))
      | reader t => exact Or.inr ⟨t, rfl⟩

/-- C72: `Read` does not panic whatever the worker does, and when it has the lock it waits for nobody. -/
theorem read_progress {reg : Measures} {l : List Action} {st : St} (h : ReadConc.run (ReadConc.init reg) l = some st)
    (hgood : ∀ c ∈ sents st.evs, Spec.GoodCmd reg c) (t : Nat) (now : Int) :
    (∃ c, stepRead st t now c ≠ none) ∨ (st.rpc t = .want ∧ (st.mu = some .worker ∨ ∃ u, u ≠ t ∧ st.mu = some (.reader u))) := by
  obtain ⟨hcore, hmu, hh, hr, hl⟩ := inv_run l (inv_init reg) h
  have ok : ∀ {p0 p1 : List Ev} {p2 : List Ev} {W : Worker} {reg' : Measures} (x : Bytes) (now : Int),
      st.evs = p0 ++ .called t :: p1 ++ .locked t :: p2 →
      seqFrom newWorker reg ((sents (p0 ++ .called t :: p1)).take (handled (p0 ++ .called t :: p1))) = .ok (W, reg') →
      ∃ o, metric W x now = .ok o := by
    intro p0 p1 p2 W reg' x now h1 h4
    obtain ⟨w', r', g1, g2, _⟩ := seqFrom_rel (rel_init reg) ((sents (p0 ++ .called t :: p1)).take (handled (p0 ++ .called t :: p1)))
      (by
        intro c hc
        refine hgood c ?_
        rw [h1]
        have := List.mem_of_mem_take hc
        simp only [sents, List.filterMap_append, List.append_assoc] at this ⊢
        simp only [List.mem_append] at this ⊢
        tauto)
    rw [h4] at g1
    cases g1
    obtain ⟨o, e, _⟩ := rel_metric g2 x now
    exact ⟨o, e⟩
  cases hp : st.rpc t with
  | idle => left; exact ⟨0, by simp [stepRead, hp]⟩
  | want =>
    cases hm : st.mu with
    | none => left; exact ⟨0, by simp [stepRead, hp, hm]⟩
    | some o =>
      right
      refine ⟨rfl, ?_⟩
      cases o with
      | worker => exact Or.inl rfl
      | reader u =>
        refine Or.inr ⟨u, ?_, rfl⟩
        rintro rfl
        have := (hh u).1 hm
        rw [hp] at this; cases this
  | start => left; exact ⟨0, by simp [stepRead, hp]⟩
  | unlock now' acc => left; exact ⟨0, by simp [stepRead, hp]⟩
  | loop now' rem acc =>
    left
    obtain ⟨p0, p1, p2, h1, h2, h3, W, r', h4, h5, h6⟩ := (hr t).2 (by rw [hp]; rfl)
    rw [hp] at h6
    cases hrem : rem with
    | nil => exact ⟨0, by simp [stepRead, hp, hrem]⟩
    | cons xa rem' =>
      obtain ⟨x, a⟩ := xa
      obtain ⟨vi, e1, e2⟩ := hcore.good.here x a (h6.sub (x, a) (by rw [hrem]; simp))
      refine ⟨0, ?_⟩
      simp only [stepRead, hp, hrem, List.getElem?_cons_zero, e1]
      cases vi.subscribed <;> simp
  | loaded now' x a rem acc =>
    left
    obtain ⟨p0, p1, p2, h1, h2, h3, W, r', h4, h5, h6⟩ := (hr t).2 (by rw [hp]; rfl)
    rw [hp] at h6
    obtain ⟨h6, vi, e1, e2⟩ := h6
    obtain ⟨o, ho⟩ := ok x now' h1 h4
    have hv : ∃ o, viewToMetric vi now' = .ok o := by
      rcases e2 with e | ⟨_, e⟩
      · exact ⟨o, e.trans ho⟩
      · exact ⟨none, e⟩
    obtain ⟨o', ho'⟩ := hv
    refine ⟨0, ?_⟩
    simp only [stepRead, hp, e1, ho']
    cases o' <;> simp

/-! ## Concrete executions -/

/-- A view without tags. -/
def view0 : ViewDef := ⟨10, str "v", [], [], some Recording.latency, some Recording.countAgg⟩

def req0 : RecordReq := ⟨none, [some ⟨.fin 7, Recording.latency⟩], []⟩

/-- How many metrics the Reads returned, by goroutine. -/
def results (evs : List Ev) : List (Nat × Nat) := evs.filterMap fun ev => match ev with
  | .returned t _ r => some (t, r.length)
  | _ => none

def reads (t n : Nat) : List Action := List.replicate n (.read t 100 0)

def works (n : Nat) : List Action := List.replicate n .work

/-- A view is registered and recorded to; the reads of goroutines 1 and 2 overlap with a second recording and with
the unregistration of the view. -/
def sched0 : List Action :=
  [.send 0 (.register 0 [view0])] ++ works 5 ++ [.send 0 (.record 1 req0)] ++ works 6 ++ reads 1 3 ++ [.send 0 (.record 2 req0)] ++
    works 1 ++ reads 1 4 ++ works 5 ++ [.send 0 (.unregister 3 [str "v"])] ++ works 1 ++ reads 2 3 ++ works 2 ++ reads 2 3

/-- It is an execution: the first Read returned the metric, the second did not, the view being unregistered. -/
theorem sched0_runs : ((ReadConc.run (ReadConc.init Recording.regUnsub) sched0).map fun st => results st.evs) = some [(1, 1), (2, 0)] := by
  decide +kernel

/-- Goroutine 1 records and then reads; its command waits in the channel meanwhile. -/
def sched1 : List Action :=
  [.send 0 (.register 0 [view0])] ++ works 5 ++ [.send 1 (.record 1 req0)] ++ reads 1 7 ++ works 6

/-- Events without the data. -/
inductive Shape where
  | sent (u : Nat)
  | began
  | done
  | called (t : Nat)
  | locked (t : Nat)
  | returned (t n : Nat)
  deriving DecidableEq

def shape : Ev → Shape
  | .sent u _ => .sent u
  | .began => .began
  | .done => .done
  | .called t => .called t
  | .locked t => .locked t
  | .returned t _ r => .returned t r.length

/-- `Read` need not see what the same goroutine recorded before, unlike `RetrieveData` (C18): it does not go through
the channel, in which the recording still waits. -/
theorem read_misses_own_record :
    ((ReadConc.run (ReadConc.init Recording.regUnsub) sched1).map fun st => st.evs.map shape) =
      some [.sent 0, .began, .done, .sent 1, .called 1, .locked 1, .returned 1 0, .began, .done] ∧
    ((Worker.specRun Spec.empty [.register 0 [view0], .record 1 req0] (str "v")).map fun v => v.recs.length) = some 1 := by
  constructor <;> decide +kernel

/-- The commands of the executions above meet the hypothesis of `read_describes`, `worker_progress` and
`read_progress`. -/
example : ∀ c ∈ ([.register 0 [view0], .record 1 req0, .record 2 req0, .unregister 3 [str "v"]] : List Cmd),
    Spec.GoodCmd Recording.regUnsub c := by
  intro c hc
  simp only [List.mem_cons, List.not_mem_nil, or_false] at hc
  rcases hc with rfl | rfl | rfl | rfl
  · intro v hv
    simp only [List.mem_singleton] at hv; subst hv
    refine ⟨?_, ?_⟩
    · intro m hm; simp only [view0, Option.some.injEq] at hm; subst hm
      exact ⟨by decide, _, rfl⟩
    · intro a ha; simp only [view0, Option.some.injEq] at ha; subst ha
      exact ⟨rfl, by decide⟩
  · intro tm htm; simp [req0] at htm
  · intro tm htm; simp [req0] at htm
  · trivial

end Verif.Props.ReadConc
