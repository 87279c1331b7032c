import Verif.View.Crash
import Verif.View.WorkerLemmas

/-!
# C109: what ends the process
-/

namespace Verif.Props.Crash
open Verif Verif.Tag Verif.Stats Verif.View Verif.View.Crash
open Verif.View.Spec (TagsFit)

/-! ## Specification -/

/-- The registered views by name. -/
abbrev State := Bytes → Option ViewDef

/-- Who has a name: the view registered before, or the first of the views that come before in the same call. -/
def holder (σ : State) (xs : List ViewDef) (n : Bytes) : Option ViewDef := (σ n).or (xs.find? fun v => v.name = n)

/-- There is no metric for such a view: the aggregation has no type, or the measure is of a foreign type and is counted or summed
or its last value taken. -/
def NoMetric (v : ViewDef) : Prop := ∃ m g, v.measure = some m ∧ v.agg = some g ∧
  (g.type = .none ∨ (m.kind = .other ∧ g.type ≠ .distribution))

/-- No measure of this name was made with package stats. -/
def Unknown (reg : Measures) (v : ViewDef) : Prop := ∃ m, v.measure = some m ∧ GoMap.get reg m.name = none

/-- The aggregation was not made by one of the functions of the package. -/
def Blank (g : Aggregation F64) : Prop := g.newData = none ∨ g.newData = some .none

/-- The views of a call to `Register` as they are after validation, if all are valid. -/
def valid : List (Option ViewDef) → Option (List ViewDef)
  | [] => some []
  | none :: _ => none
  | some v :: vs => match canonicalize v with
    | (_, some _) => none
    | (v, none) => (valid vs).map (v :: ·)

/-- What ends the process, given the registered views. -/
def Deadly (reg : Measures) (σ : State) : Call → Prop
  | .register _ ps =>
    -- a nil pointer after valid views
    (∃ xs ys, ps = xs ++ none :: ys ∧ (valid xs).isSome) ∨
    -- all are valid, and one has no metric, or is registered on a measure that there is not
    ∃ vs, valid ps = some vs ∧ ∃ xs v ys, vs = xs ++ v :: ys ∧
      (NoMetric v ∨ (Unknown reg v ∧ ∀ x, holder σ xs v.name = some x → same x v = true))
  | .record _ r => ∃ m, some m ∈ r.ms ∧ ∃ n v m' g, σ n = some v ∧ v.measure = some m' ∧ m'.name = m.m.name ∧ v.agg = some g ∧ Blank g
  | _ => False

/-- The registered views after a call that does not end the process. -/
def step (σ : State) : Call → State
  | .register _ ps => match valid ps with
    | some vs => holder σ vs
    | none => σ
  | .unregister _ ns => fun n => if n ∈ ns then none else σ n
  | _ => σ

def steps (σ : State) : List Call → State
  | [] => σ
  | c :: cs => steps (step σ c) cs

/-- Tags come from package tag: values have at most 255 bytes. -/
def Fit : Call → Prop
  | .record _ r => TagsFit r.tags
  | _ => True

/-! ## Invariant -/

/-- A view's rows can be read, and there are none if its aggregation makes no data. -/
structure Fine (vi : VI) : Prop where
  agg : vi.view.agg = some vi.collector.a
  rows : ∀ p ∈ vi.collector.signatures, p.2.Shape ∧
    ∃ f : Key → Bytes, (∀ k ∈ vi.view.tagKeys, (f k).length ≤ 255) ∧ p.1 = sigOf (vi.view.tagKeys.map f)
  blank : Blank vi.collector.a → vi.collector.signatures = []

/-- The view at an address. -/
def viewAt (w : Worker) (a : Nat) : Option ViewDef := (w.vis[a]?).map VI.view

structure Inv (w : Worker) (σ : State) : Prop where
  found : ∀ n, (GoMap.get w.views n).bind (viewAt w) = σ n
  reg : ∀ n a, GoMap.get w.views n = some a → ∃ vi m ref, w.vis[a]? = some vi ∧ vi.subscribed = true ∧ vi.view.name = n ∧
    vi.view.measure = some m ∧ GoMap.get w.measures m.name = some ref ∧ a ∈ ref
  refs : ∀ mn ref a, GoMap.get w.measures mn = some ref → a ∈ ref → ∃ vi m, w.vis[a]? = some vi ∧ vi.view.measure = some m ∧
    m.name = mn ∧ GoMap.get w.views vi.view.name = some a
  fine : ∀ (a : Nat) (vi : VI), w.vis[a]? = some vi → Fine vi
  wf : GoMap.WF w.views

theorem inv_init : Inv newWorker fun _ => none := by
  constructor <;> simp [newWorker, GoMap.WF]

/-- Replacing a view's data keeps it. -/
theorem Inv.put {w : Worker} {σ : State} (h : Inv w σ) {a : Nat} {vi vi' : VI} (ha : w.vis[a]? = some vi) (hv : vi'.view = vi.view)
    (hs : vi'.subscribed = vi.subscribed) (hf : Fine vi') :
    Inv { w with vis := w.vis.set a vi' } σ ∧ ∀ b, viewAt { w with vis := w.vis.set a vi' } b = viewAt w b := by
  have hlt : a < w.vis.length := (List.getElem?_eq_some_iff.mp ha).1
  have key : ∀ b, (w.vis.set a vi')[b]? = if a = b then some vi' else w.vis[b]? := by
    intro b
    rw [List.getElem?_set]
    split
    · next e => subst e; simp [hlt]
    · rfl
  have hat : ∀ b, viewAt { w with vis := w.vis.set a vi' } b = viewAt w b := by
    intro b
    simp only [viewAt, key]
    split
    · next e => subst e; simp [ha, hv]
    · rfl
  refine ⟨⟨fun n => ?_, fun n b hb => ?_, fun mn ref b hr hb => ?_, fun b x hx => ?_, h.wf⟩, hat⟩
  · rw [← h.found n]
    cases GoMap.get w.views n with
    | none => rfl
    | some b => exact hat b
  · obtain ⟨x, m, ref, h1, h2, h3, h4⟩ := h.reg n b hb
    by_cases e : a = b
    · subst e
      rw [ha] at h1; cases h1
      exact ⟨vi', m, ref, by simp only [key, if_true], hs.trans h2, by rw [hv]; exact h3, by rw [hv]; exact h4⟩
    · exact ⟨x, m, ref, by simp only [key, if_neg e, h1], h2, h3, h4⟩
  · obtain ⟨x, m, h1, h2⟩ := h.refs mn ref b hr hb
    by_cases e : a = b
    · subst e
      rw [ha] at h1; cases h1
      exact ⟨vi', m, by simp only [key, if_true], by rw [hv]; exact h2⟩
    · exact ⟨x, m, by simp only [key, if_neg e, h1], h2⟩
  · simp only [key] at hx
    split at hx
    · cases hx; exact hf
    · exact h.fine b x hx

/-! ## Recording -/

theorem mem_set {m : GoMap Bytes (AggData F64)} {k : Bytes} {v : AggData F64} {p : Bytes × AggData F64} (h : p ∈ GoMap.set m k v) :
    p = (k, v) ∨ p ∈ m := by
  induction m with
  | nil => simp only [GoMap.set, List.mem_singleton] at h; exact .inl h
  | cons q m ih =>
    simp only [GoMap.set] at h
    split at h
    · rcases List.mem_cons.mp h with h | h
      · exact .inl h
      · exact .inr (List.mem_cons_of_mem _ h)
    · rcases List.mem_cons.mp h with h | h
      · exact .inr (by simp [h])
      · rcases ih h with h | h
        · exact .inl h
        · exact .inr (List.mem_cons_of_mem _ h)

theorem mkData_blank {g : Aggregation F64} (h : Blank g) (t : Int) : g.mkData t = .panic := by
  rcases h with h | h <;> simp [Aggregation.mkData, h]

theorem usable {g : Aggregation F64} (h : ¬ Blank g) : g.Usable := by
  unfold Blank at h
  cases hn : g.newData with
  | none => exact absurd (.inl hn) h
  | some k => exact ⟨k, hn, fun e => h (.inr (by rw [hn, e]))⟩

theorem addSample_blank {vi : VI} (hf : Fine vi) (hs : vi.subscribed = true) (hb : Blank vi.collector.a) (tm : Option TMap) (s : Sample F64) :
    vi.addSample tm s = .panic := by
  simp [VI.addSample, hs, encodeWithKeys_eq, Res.bind, Collector.addSample, hf.blank hb, mkData_blank hb]

theorem addSample_fine {vi : VI} (hf : Fine vi) (hs : vi.subscribed = true) (hb : ¬ Blank vi.collector.a) {tm : Option TMap} (ht : TagsFit tm)
    (s : Sample F64) : ∃ vi', vi.addSample tm s = .ok vi' ∧ vi'.view = vi.view ∧ vi'.subscribed = vi.subscribed ∧ Fine vi' := by
  have hlen : ∀ k ∈ vi.view.tagKeys, (valueOf tm k).length ≤ 255 := by
    intro k _
    unfold valueOf
    split
    · simp
    · rename_i m
      split
      · rename_i c hc
        exact ht m rfl _ (GoMap.mem_of_get hc)
      · simp
  have key : ∀ d : AggData F64, d.Shape → Fine { vi with collector := { vi.collector with
      signatures := GoMap.set vi.collector.signatures (sigOf (vi.view.tagKeys.map (valueOf tm))) d } } := by
    intro d hd
    refine ⟨hf.agg, fun p hp => ?_, fun h => absurd h hb⟩
    rcases mem_set hp with rfl | hp
    · exact ⟨hd, valueOf tm, hlen, rfl⟩
    · exact hf.rows p hp
  cases hg : GoMap.get vi.collector.signatures (sigOf (vi.view.tagKeys.map (valueOf tm))) with
  | some d =>
    have hd := (hf.rows _ (GoMap.mem_of_get hg)).1
    refine ⟨{ vi with collector := { vi.collector with
      signatures := GoMap.set vi.collector.signatures (sigOf (vi.view.tagKeys.map (valueOf tm))) (d.next s) } }, ?_, rfl, rfl,
      key (d.next s) (AggData.next_shape hd s)⟩
    simp [VI.addSample, hs, encodeWithKeys_eq, Res.bind, Collector.addSample, hg, AggData.addSample_eq d hd]
  | none =>
    obtain ⟨d, hd⟩ := Aggregation.mkData_ok (usable hb) s.t
    have hsh := mkData_shape hd
    refine ⟨{ vi with collector := { vi.collector with
      signatures := GoMap.set vi.collector.signatures (sigOf (vi.view.tagKeys.map (valueOf tm))) (d.next s) } }, ?_, rfl, rfl,
      key (d.next s) (AggData.next_shape hsh s)⟩
    simp [VI.addSample, hs, encodeWithKeys_eq, Res.bind, Collector.addSample, hg, hd, AggData.addSample_eq d hsh]

/-- The view makes no data. -/
def BlankView (v : ViewDef) : Prop := ∃ g, v.agg = some g ∧ Blank g

theorem addToViews_spec {σ : State} {tm : Option TMap} (ht : TagsFit tm) (s : Sample F64) : ∀ {l : List Nat} {w : Worker}, Inv w σ →
    (∀ a ∈ l, ∃ n, GoMap.get w.views n = some a) →
    ((∃ a ∈ l, ∃ v, viewAt w a = some v ∧ BlankView v) → w.addToViews tm s l = .panic) ∧
    ((¬ ∃ a ∈ l, ∃ v, viewAt w a = some v ∧ BlankView v) → ∃ w', w.addToViews tm s l = .ok w' ∧ Inv w' σ ∧ w'.views = w.views ∧
      w'.measures = w.measures ∧ ∀ b, viewAt w' b = viewAt w b)
  | [], w, h, _ => ⟨fun ⟨a, ha, _⟩ => by simp at ha, fun _ => ⟨w, rfl, h, rfl, rfl, fun _ => rfl⟩⟩
  | a :: l, w, h, hl => by
    obtain ⟨n, hn⟩ := hl a (by simp)
    obtain ⟨vi, m, ref, h1, h2, _⟩ := h.reg n a hn
    have hf := h.fine a vi h1
    have hat : viewAt w a = some vi.view := by simp [viewAt, h1]
    by_cases hb : Blank vi.collector.a
    · have : w.addToViews tm s (a :: l) = .panic := by
        simp only [Worker.addToViews, h1, addSample_blank hf h2 hb, Res.bind]
      exact ⟨fun _ => this, fun hn => absurd ⟨a, by simp, vi.view, hat, _, hf.agg, hb⟩ hn⟩
    · obtain ⟨vi', e1, e2, e3, e4⟩ := addSample_fine hf h2 hb ht s
      obtain ⟨h3, h4⟩ := h.put h1 e2 e3 e4
      obtain ⟨i1, i2⟩ := addToViews_spec ht s (l := l) h3 (fun b hb => hl b (by simp [hb]))
      have e : w.addToViews tm s (a :: l) = ({ w with vis := w.vis.set a vi' } : Worker).addToViews tm s l := by
        simp only [Worker.addToViews, h1, e1, Res.bind]
      rw [e]
      have hiff : (∃ b ∈ a :: l, ∃ v, viewAt w b = some v ∧ BlankView v) ↔
          ∃ b ∈ l, ∃ v, viewAt { w with vis := w.vis.set a vi' } b = some v ∧ BlankView v := by
        simp only [h4]
        constructor
        · rintro ⟨b, hb', v, hv, g, hg, hg'⟩
          rcases List.mem_cons.mp hb' with rfl | hb'
          · rw [hat] at hv; cases hv
            rw [hf.agg] at hg; cases hg
            exact absurd hg' hb
          · exact ⟨b, hb', v, hv, g, hg, hg'⟩
        · rintro ⟨b, hb', hr⟩
          exact ⟨b, by simp [hb'], hr⟩
      rw [hiff]
      refine ⟨i1, fun hn => ?_⟩
      obtain ⟨w', j1, j2, j3, j4, j5⟩ := i2 hn
      exact ⟨w', j1, j2, j3, j4, fun b => (j5 b).trans (h4 b)⟩

theorem getMeasureRef_inv {w : Worker} {σ : State} (h : Inv w σ) (mn : Bytes) : Inv (w.getMeasureRef mn).1 σ ∧
    (∀ a, a ∈ (w.getMeasureRef mn).2 ↔ ∃ n v m, GoMap.get w.views n = some a ∧ viewAt w a = some v ∧ v.measure = some m ∧ m.name = mn) ∧
    (w.getMeasureRef mn).1.views = w.views ∧ (∀ b, viewAt (w.getMeasureRef mn).1 b = viewAt w b) := by
  unfold Worker.getMeasureRef
  cases hg : GoMap.get w.measures mn with
  | some ref =>
    refine ⟨h, fun a => ⟨fun ha => ?_, fun ⟨n, v, m, h1, h2, h3, h4⟩ => ?_⟩, rfl, fun _ => rfl⟩
    · obtain ⟨vi, m, h1, h2, h3, h4⟩ := h.refs mn ref a hg ha
      exact ⟨_, vi.view, m, h4, by simp [viewAt, h1], h2, h3⟩
    · obtain ⟨vi, m', ref', g1, _, _, g4, g5, g6⟩ := h.reg n a h1
      simp only [viewAt, g1, Option.map_some, Option.some.injEq] at h2
      rw [← h2, g4] at h3; cases h3
      rw [h4, hg] at g5; cases g5
      exact g6
  | none =>
    refine ⟨⟨h.found, fun n a ha => ?_, fun mn' ref a hr ha => ?_, h.fine, h.wf⟩, fun a => ⟨fun ha => by simp at ha, fun ⟨n, v, m, h1, h2, h3, h4⟩ => ?_⟩,
      rfl, fun _ => rfl⟩
    · obtain ⟨vi, m, ref, g1, g2, g3, g4, g5, g6⟩ := h.reg n a ha
      refine ⟨vi, m, ref, g1, g2, g3, g4, ?_, g6⟩
      rw [GoMap.get_set, if_neg]
      · exact g5
      · intro e; rw [e, hg] at g5; cases g5
    · simp only [GoMap.get_set] at hr
      split at hr
      · cases hr; simp at ha
      · exact h.refs mn' ref a hr ha
    · obtain ⟨vi, m', ref', g1, _, _, g4, g5, g6⟩ := h.reg n a h1
      simp only [viewAt, g1, Option.map_some, Option.some.injEq] at h2
      rw [← h2, g4] at h3; cases h3
      rw [h4, hg] at g5; cases g5

/-- One measurement hits a view that makes no data. -/
def Hits (σ : State) (m : Measurement) : Prop :=
  ∃ n v m' g, σ n = some v ∧ v.measure = some m' ∧ m'.name = m.m.name ∧ v.agg = some g ∧ Blank g

theorem recordLoop_spec {σ : State} {tm : Option TMap} (ht : TagsFit tm) (att : Attachments) (t : Int) :
    ∀ {ms : List (Option Measurement)} {w : Worker}, Inv w σ →
    ((∃ m, some m ∈ ms ∧ Hits σ m) → w.recordLoop tm att t ms = .panic) ∧
    ((¬ ∃ m, some m ∈ ms ∧ Hits σ m) → ∃ w', w.recordLoop tm att t ms = .ok w' ∧ Inv w' σ)
  | [], w, h => ⟨fun ⟨m, hm, _⟩ => by simp at hm, fun _ => ⟨w, rfl, h⟩⟩
  | none :: ms, w, h => by
    have := recordLoop_spec ht att t (ms := ms) h
    simpa only [Worker.recordLoop, List.mem_cons, reduceCtorEq, false_or] using this
  | some m :: ms, w, h => by
    obtain ⟨h1, h2, h3, h4⟩ := getMeasureRef_inv h m.m.name
    obtain ⟨i1, i2⟩ := addToViews_spec ht ⟨m.v, att, t⟩ (l := (w.getMeasureRef m.m.name).2) h1 (by
      intro a ha
      obtain ⟨n, v, m', g1, _⟩ := (h2 a).mp ha
      exact ⟨n, by rw [h3]; exact g1⟩)
    have hiff : (∃ a ∈ (w.getMeasureRef m.m.name).2, ∃ v, viewAt (w.getMeasureRef m.m.name).1 a = some v ∧ BlankView v) ↔ Hits σ m := by
      simp only [h4]
      constructor
      · rintro ⟨a, ha, v, hv, g, hg, hb⟩
        obtain ⟨n, v', m', g1, g2, g3, g4⟩ := (h2 a).mp ha
        rw [hv] at g2; cases g2
        exact ⟨n, v, m', g, by rw [← h.found n, g1]; exact hv, g3, g4, hg, hb⟩
      · rintro ⟨n, v, m', g, hn, g3, g4, hg, hb⟩
        rw [← h.found n] at hn
        obtain ⟨a, g1, g2⟩ := Option.bind_eq_some_iff.mp hn
        exact ⟨a, (h2 a).mpr ⟨n, v, m', g1, g2, g3, g4⟩, v, g2, g, hg, hb⟩
    rw [hiff] at i1 i2
    by_cases hh : Hits σ m
    · refine ⟨fun _ => ?_, fun hn => absurd ⟨m, by simp, hh⟩ hn⟩
      simp only [Worker.recordLoop, i1 hh, Res.bind]
    · obtain ⟨w', j1, j2, -⟩ := i2 hh
      obtain ⟨k1, k2⟩ := recordLoop_spec ht att t (ms := ms) j2
      have e : w.recordLoop tm att t (some m :: ms) = w'.recordLoop tm att t ms := by
        simp only [Worker.recordLoop, j1, Res.bind]
      have hiff2 : (∃ x, some x ∈ some m :: ms ∧ Hits σ x) ↔ ∃ x, some x ∈ ms ∧ Hits σ x := by
        constructor
        · rintro ⟨x, hx, hx'⟩
          rcases List.mem_cons.mp hx with hx | hx
          · cases hx; exact absurd hx' hh
          · exact ⟨x, hx, hx'⟩
        · rintro ⟨x, hx, hx'⟩; exact ⟨x, by simp [hx], hx'⟩
      rw [e, hiff2]
      exact ⟨k1, k2⟩

/-! ## Reading and unregistering -/

theorem rows_ok {vi : VI} (hf : Fine vi) : ∃ rows, vi.collector.collectedRows vi.view.tagKeys = .ok rows := by
  unfold Collector.collectedRows
  have := hf.rows
  revert this
  generalize vi.collector.signatures = l
  intro hl
  induction l with
  | nil => exact ⟨[], rfl⟩
  | cons p l ih =>
    obtain ⟨rows, h1⟩ := ih fun q hq => hl q (by simp [hq])
    obtain ⟨-, f, h2, h3⟩ := hl p (by simp)
    have h4 := decodeLoop_sig f vi.view.tagKeys h2 []
    rw [List.append_nil, ← h3] at h4
    obtain ⟨sig, d⟩ := p
    simp only at h4
    simp only [collectRows, decodeTags, h4, Res.bind, h1]
    exact ⟨_, rfl⟩

theorem report_ok {w : Worker} {σ : State} (h : Inv w σ) {n : Bytes} {a : Nat} (ha : GoMap.get w.views n = some a) (now : Int) :
    ∃ es, w.reportView a now = .ok es := by
  obtain ⟨vi, m, ref, h1, h2, -⟩ := h.reg n a ha
  obtain ⟨rows, h3⟩ := rows_ok (h.fine a vi h1)
  simp only [Worker.reportView, h1, h2, h3, Res.bind]
  exact ⟨_, rfl⟩

theorem reportAll_ok {w : Worker} {σ : State} (h : Inv w σ) (now : Int) : ∀ (l : List (Bytes × Nat)), (∀ p ∈ l, p ∈ w.views) →
    ∃ es, w.reportAll now l = .ok es
  | [], _ => ⟨[], rfl⟩
  | (n, a) :: l, hl => by
    obtain ⟨es, h1⟩ := report_ok h (GoMap.get_of_mem h.wf (hl (n, a) (by simp))) now
    obtain ⟨es', h2⟩ := reportAll_ok h now l fun p hp => hl p (by simp [hp])
    exact ⟨es ++ es', by simp only [Worker.reportAll, h1, h2, Res.bind]⟩

theorem unregister_one {w : Worker} {σ : State} (h : Inv w σ) {n : Bytes} {a : Nat} (ha : GoMap.get w.views n = some a) :
    Inv (((w.setSubscribed a false).clearRows a).unregisterView a) fun k => if k = n then none else σ k := by
  obtain ⟨vi, m, ref, h1, h2, h3, h4, h5, h6⟩ := h.reg n a ha
  have hlt : a < w.vis.length := (List.getElem?_eq_some_iff.mp h1).1
  have key : ∀ b : Nat, ((w.setSubscribed a false).clearRows a).vis[b]? = if a = b then
      some { vi with subscribed := false, collector := vi.collector.clearRows } else w.vis[b]? := by
    intro b
    simp only [Worker.setSubscribed, Worker.clearRows, List.getElem?_modify]
    split
    · next e => subst e; simp [h1]
    · cases w.vis[b]? <;> rfl
  have e : ((w.setSubscribed a false).clearRows a).unregisterView a =
      { (w.setSubscribed a false).clearRows a with
        views := GoMap.del w.views n, viewStartTimes := GoMap.del w.viewStartTimes a,
        measures := GoMap.set w.measures m.name (ref.filter (· ≠ a)) } := by
    have hk := key a
    rw [if_pos rfl] at hk
    simp only [Worker.unregisterView, hk, h4, h3]
    have : GoMap.get ((w.setSubscribed a false).clearRows a).measures m.name = some ref := h5
    simp only [this]
    rfl
  rw [e]
  have hview : ∀ b : Nat, ((((w.setSubscribed a false).clearRows a).vis[b]?).map VI.view) = (w.vis[b]?).map VI.view := by
    intro b
    rw [key b]
    split
    · next e => subst e; simp [h1]
    · rfl
  refine ⟨fun k => ?_, fun k b hb => ?_, fun mn r b hr hb => ?_, fun b x hx => ?_, ?_⟩
  · simp only [GoMap.get_del]
    split
    · rfl
    · rw [← h.found k]
      cases GoMap.get w.views k with
      | none => rfl
      | some b => exact hview b
  · simp only [GoMap.get_del] at hb
    split at hb
    · cases hb
    · next hk =>
      obtain ⟨x, m', r, g1, g2, g3, g4, g5, g6⟩ := h.reg k b hb
      have hab : a ≠ b := by
        intro hab; subst hab
        rw [h1] at g1; cases g1
        exact hk (g3.symm.trans h3)
      simp only [key, if_neg hab, GoMap.get_set]
      by_cases hm : m'.name = m.name
      · rw [hm, h5] at g5; cases g5
        exact ⟨x, m', ref.filter (· ≠ a), g1, g2, g3, g4, by rw [if_pos hm], by simp [g6, Ne.symm hab]⟩
      · exact ⟨x, m', r, g1, g2, g3, g4, by rw [if_neg hm]; exact g5, g6⟩
  · simp only [GoMap.get_set] at hr
    have : b ≠ a ∧ ∃ r, GoMap.get w.measures mn = some r ∧ b ∈ r := by
      split at hr
      · next hm =>
        cases hr
        simp only [ne_eq, decide_not, List.mem_filter, Bool.not_eq_eq_eq_not, Bool.not_true, decide_eq_false_iff_not] at hb
        exact ⟨hb.2, ref, by rw [hm]; exact h5, hb.1⟩
      · next hm =>
        refine ⟨?_, r, hr, hb⟩
        rintro rfl
        obtain ⟨x, m', g1, g2, g3, -⟩ := h.refs mn r b hr hb
        rw [h1] at g1; cases g1
        rw [h4] at g2; cases g2
        exact hm g3.symm
    obtain ⟨hab, r', hr', hb'⟩ := this
    obtain ⟨x, m', g1, g2, g3, g4⟩ := h.refs mn r' b hr' hb'
    refine ⟨x, m', by simp only [key, if_neg (Ne.symm hab)]; exact g1, g2, g3, ?_⟩
    simp only [GoMap.get_del]
    rw [if_neg]
    · exact g4
    · intro hx; rw [hx, ha] at g4; cases g4; exact hab rfl
  · simp only [key] at hx
    split at hx
    · cases hx
      have hf := h.fine a vi h1
      exact ⟨hf.agg, by simp [Collector.clearRows], fun _ => rfl⟩
    · exact h.fine b x hx
  · exact GoMap.WF_del h.wf n

theorem unregister_ok {now : Int} : ∀ {ns : List Bytes} {w : Worker} {σ : State}, Inv w σ →
    ∃ w' es, w.unregister now ns = .ok (w', es) ∧ Inv w' fun k => if k ∈ ns then none else σ k
  | [], w, σ, h => ⟨w, [], rfl, by simpa using h⟩
  | n :: ns, w, σ, h => by
    cases ha : GoMap.get w.views n with
    | none =>
      obtain ⟨w', es, h1, h2⟩ := unregister_ok (now := now) (ns := ns) h
      refine ⟨w', es, by simp only [Worker.unregister, ha, h1], ?_⟩
      have hn : σ n = none := by rw [← h.found n, ha]; rfl
      have : (fun k => if k ∈ n :: ns then none else σ k) = fun k => if k ∈ ns then none else σ k := by
        funext k
        by_cases hk : k = n
        · subst hk; simp [hn]
        · simp [hk]
      rw [this]; exact h2
    | some a =>
      obtain ⟨es, h0⟩ := report_ok h ha now
      obtain ⟨w', es', h1, h2⟩ := unregister_ok (now := now) (ns := ns) (unregister_one h ha)
      refine ⟨w', es ++ es', by simp only [Worker.unregister, ha, h0, h1, Res.bind], ?_⟩
      have : (fun k => if k ∈ n :: ns then none else σ k) = fun k => if k ∈ ns then none else if k = n then none else σ k := by
        funext k
        by_cases hk : k = n
        · subst hk; simp
        · simp [hk]
      rw [this]; exact h2

/-! ## Registering -/

/-- The view passed validation. -/
def Valid (v : ViewDef) : Prop := v.measure ≠ none ∧ v.agg ≠ none

theorem canonicalize_valid {v v' : ViewDef} (h : canonicalize v = (v', none)) : Valid v' := by
  unfold canonicalize at h
  split at h
  · cases h
  · next m hm =>
    split at h
    · cases h
    · next g hg =>
      simp only at h
      split at h
      · cases h
      · split at h
        · cases h
        · cases h
          exact ⟨by simp [withDefaults, hm], by simp⟩

theorem valid_valid : ∀ {ps : List (Option ViewDef)} {vs : List ViewDef}, valid ps = some vs → ∀ v ∈ vs, Valid v
  | [], vs, h => by cases h; simp
  | none :: ps, vs, h => by cases h
  | some v :: ps, vs, h => by
    simp only [valid] at h
    split at h
    · cases h
    · next v' hc =>
      obtain ⟨vs', h1, rfl⟩ := Option.map_eq_some_iff.mp h
      intro u hu
      rcases List.mem_cons.mp hu with rfl | hu
      · exact canonicalize_valid hc
      · exact valid_valid h1 u hu

/-- The first loop: it panics at a nil after valid views; it gives the views if all are valid; else it is an error. -/
theorem canonicalizePtrs_spec : ∀ ps : List (Option ViewDef),
    ((∃ xs ys, ps = xs ++ none :: ys ∧ (valid xs).isSome) → canonicalizePtrs ps = .panic ∧ valid ps = none) ∧
    (∀ vs, valid ps = some vs → canonicalizePtrs ps = .ok (.ok vs)) ∧
    ((¬ ∃ xs ys, ps = xs ++ none :: ys ∧ (valid xs).isSome) → valid ps = none → ∃ e, canonicalizePtrs ps = .ok (.error e))
  | [] => ⟨fun ⟨xs, ys, h, _⟩ => (by simp at h), fun vs h => (by cases h; rfl), fun _ h => (by cases h)⟩
  | none :: ps => ⟨fun _ => ⟨rfl, rfl⟩, fun vs h => (by cases h), fun h => absurd ⟨[], ps, rfl, rfl⟩ h⟩
  | some v :: ps => by
    obtain ⟨i1, i2, i3⟩ := canonicalizePtrs_spec ps
    cases hc : canonicalize v with
    | mk v' e =>
      cases e with
      | some e =>
        have hv : ∀ qs, valid (some v :: qs) = none := fun qs => by simp only [valid, hc]
        refine ⟨fun ⟨xs, ys, h, hx⟩ => ?_, fun vs h => ?_, fun _ _ => ⟨e, by simp only [canonicalizePtrs, hc]⟩⟩
        · cases xs with
          | nil => cases h
          | cons x xs => cases h; rw [hv] at hx; cases hx
        · rw [hv] at h; cases h
      | none =>
        have hv : ∀ qs, valid (some v :: qs) = (valid qs).map (v' :: ·) := fun qs => by simp only [valid, hc]
        have hp : ∀ qs, canonicalizePtrs (some v :: qs) = (canonicalizePtrs qs).bind fun r => match r with
            | .error e => .ok (.error e)
            | .ok vs => .ok (.ok (v' :: vs)) := fun qs => by simp only [canonicalizePtrs, hc]; rfl
        have hiff : (∃ xs ys, some v :: ps = xs ++ none :: ys ∧ (valid xs).isSome) ↔ ∃ xs ys, ps = xs ++ none :: ys ∧ (valid xs).isSome := by
          constructor
          · rintro ⟨xs, ys, h, hx⟩
            cases xs with
            | nil => cases h
            | cons x xs =>
              cases h
              rw [hv, Option.isSome_map] at hx
              exact ⟨xs, ys, rfl, hx⟩
          · rintro ⟨xs, ys, h, hx⟩
            exact ⟨some v :: xs, ys, by rw [h]; rfl, by rw [hv, Option.isSome_map]; exact hx⟩
        rw [hiff, hv, hp]
        refine ⟨fun h => ?_, fun vs h => ?_, fun h h' => ?_⟩
        · rw [(i1 h).1, (i1 h).2]; exact ⟨rfl, rfl⟩
        · obtain ⟨vs', h1, rfl⟩ := Option.map_eq_some_iff.mp h
          rw [i2 vs' h1]; rfl
        · obtain ⟨e, h1⟩ := i3 h (by simpa using h')
          exact ⟨e, by rw [h1]; rfl⟩

theorem getType_panic {m : Measure} {g : Aggregation F64} :
    if g.type = .none ∨ (m.kind = .other ∧ g.type ≠ .distribution) then getType m g = .panic else ∃ t, getType m g = .ok t := by
  unfold getType
  cases g.type <;> cases m.kind <;> simp

theorem newView_spec {v : ViewDef} (hv : Valid v) :
    (NoMetric v → newViewInternal v = .panic) ∧
    (¬ NoMetric v → ∃ g d, v.agg = some g ∧ newViewInternal v = .ok ⟨v, false, ⟨[], g⟩, d⟩) := by
  obtain ⟨m, hm⟩ := Option.ne_none_iff_exists'.mp hv.1
  obtain ⟨g, hg⟩ := Option.ne_none_iff_exists'.mp hv.2
  have ht := getType_panic (m := m) (g := g)
  have hiff : NoMetric v ↔ (g.type = .none ∨ (m.kind = .other ∧ g.type ≠ .distribution)) := by
    constructor
    · rintro ⟨m', g', h1, h2, h3⟩
      rw [hm] at h1; cases h1
      rw [hg] at h2; cases h2
      exact h3
    · exact fun h => ⟨m, g, hm, hg, h⟩
  rw [hiff]
  refine ⟨fun h => ?_, fun h => ?_⟩
  · rw [if_pos h] at ht
    simp only [newViewInternal, viewToMetricDescriptor, hm, hg, ht, Res.bind]
  · rw [if_neg h] at ht
    obtain ⟨t, ht⟩ := ht
    exact ⟨g, ⟨v.name, v.description, convertUnit m g, t, v.tagKeys.map Key.name⟩, hg,
      by simp only [newViewInternal, viewToMetricDescriptor, hm, hg, ht, Res.bind]⟩

/-- The worker with a view more, before the reference of its measure is looked up. -/
def added (w : Worker) (v : ViewDef) (g : Aggregation F64) (d : Descriptor) (now : Int) : Worker :=
  { w with
    vis := w.vis ++ [⟨v, false, ⟨[], g⟩, d⟩]
    views := GoMap.set w.views v.name w.vis.length
    viewStartTimes := GoMap.set w.viewStartTimes w.vis.length now }

/-- The worker after it. -/
def addedRef (w : Worker) (mn : Bytes) (a : Nat) : Worker :=
  { (w.getMeasureRef mn).1 with
    measures := GoMap.set (w.getMeasureRef mn).1.measures mn ((w.getMeasureRef mn).2 ++ [a]) }

/-- The new view is there. -/
theorem register_new {w : Worker} {σ : State} (h : Inv w σ) {v : ViewDef} {m : Measure} {g : Aggregation F64} (hm : v.measure = some m)
    (hg : v.agg = some g) (hn : GoMap.get w.views v.name = none) (d : Descriptor) (now : Int) :
    Inv ((addedRef (added w v g d now) m.name w.vis.length).setSubscribed w.vis.length true) (holder σ [v]) := by
  unfold addedRef
  obtain ⟨w1, ref, e, hview, hvis, hms, href⟩ : ∃ w1 ref, (added w v g d now).getMeasureRef m.name = (w1, ref) ∧
      w1.views = GoMap.set w.views v.name w.vis.length ∧ w1.vis = w.vis ++ [⟨v, false, ⟨[], g⟩, d⟩] ∧
      (∀ mn, mn ≠ m.name → GoMap.get w1.measures mn = GoMap.get w.measures mn) ∧ ref = (GoMap.get w.measures m.name).getD [] := by
    unfold Worker.getMeasureRef added
    cases hr : GoMap.get w.measures m.name with
    | some ref => simp only; exact ⟨_, _, rfl, rfl, rfl, fun _ _ => rfl, rfl⟩
    | none => simp only; exact ⟨_, _, rfl, rfl, rfl, fun mn hmn => by simp only [GoMap.get_set, if_neg hmn], rfl⟩
  rw [e]
  simp only
  have key : ∀ b : Nat, (w1.vis.modify w.vis.length fun vi => { vi with subscribed := true })[b]? =
      if b = w.vis.length then some ⟨v, true, ⟨[], g⟩, d⟩ else w.vis[b]? := by
    intro b
    rw [List.getElem?_modify, hvis]
    by_cases hb : b = w.vis.length
    · subst hb; simp
    · simp only [if_neg (Ne.symm hb), if_neg hb, List.getElem?_append]
      split
      · cases w.vis[b]? <;> rfl
      · have : w.vis[b]? = none := List.getElem?_eq_none (by omega)
        rw [this, List.getElem?_eq_none (by simp; omega)]; rfl
  have hold : ∀ {b : Nat} {x : VI}, w.vis[b]? = some x → b ≠ w.vis.length := by
    intro b x hb e
    have := (List.getElem?_eq_some_iff.mp hb).1
    omega
  refine ⟨fun n => ?_, fun n b hb => ?_, fun mn r b hr hb => ?_, fun b x hx => ?_, ?_⟩
  · simp only [Worker.setSubscribed, viewAt, hview, GoMap.get_set, holder]
    by_cases e : n = v.name
    · subst e
      have : σ v.name = none := by rw [← h.found, hn]; rfl
      simp only [if_true, Option.bind_some, viewAt, key, this]
      simp
    · have hne : ¬ v.name = n := fun h => e h.symm
      simp only [if_neg e, List.find?_cons, hne, decide_false, List.find?_nil, Option.or_none]
      rw [← h.found n]
      cases hb : GoMap.get w.views n with
      | none => rfl
      | some b =>
        obtain ⟨x, _, _, hx, _⟩ := h.reg n b hb
        simp [viewAt, key, hold hx]
  · simp only [Worker.setSubscribed, hview, GoMap.get_set] at hb ⊢
    split at hb
    · next e =>
      cases hb
      exact ⟨⟨v, true, ⟨[], g⟩, d⟩, m, _, by rw [key, if_pos rfl], rfl, e.symm, hm, by rw [if_pos rfl], by simp⟩
    · obtain ⟨x, m', r, g1, g2, g3, g4, g5, g6⟩ := h.reg n b hb
      by_cases hmm : m'.name = m.name
      · exact ⟨x, m', _, by rw [key, if_neg (hold g1)]; exact g1, g2, g3, g4, by rw [if_pos hmm], by
          rw [hmm] at g5; rw [href, g5]; simp [g6]⟩
      · exact ⟨x, m', r, by rw [key, if_neg (hold g1)]; exact g1, g2, g3, g4, by rw [if_neg hmm, hms _ hmm]; exact g5, g6⟩
  · simp only [Worker.setSubscribed, hview, GoMap.get_set] at hr ⊢
    have : (b = w.vis.length ∧ mn = m.name) ∨ ∃ r, GoMap.get w.measures mn = some r ∧ b ∈ r := by
      split at hr
      · next e =>
        cases hr
        rcases List.mem_append.mp hb with hb | hb
        · right
          rw [href] at hb
          cases hr : GoMap.get w.measures m.name with
          | none => rw [hr] at hb; simp at hb
          | some r => rw [hr] at hb; exact ⟨r, by rw [e]; exact hr, hb⟩
        · left; exact ⟨by simpa using hb, e⟩
      · next e => right; rw [hms _ e] at hr; exact ⟨r, hr, hb⟩
    rcases this with ⟨rfl, rfl⟩ | ⟨r', hr', hb'⟩
    · exact ⟨⟨v, true, ⟨[], g⟩, d⟩, m, by rw [key, if_pos rfl], hm, rfl, by rw [if_pos rfl]⟩
    · obtain ⟨x, m', g1, g2, g3, g4⟩ := h.refs mn r' b hr' hb'
      refine ⟨x, m', by rw [key, if_neg (hold g1)]; exact g1, g2, g3, ?_⟩
      rw [if_neg]
      · exact g4
      · intro e; rw [e, hn] at g4; cases g4
  · simp only [Worker.setSubscribed] at hx
    rw [key] at hx
    split at hx
    · cases hx; exact ⟨hg, by simp, fun _ => rfl⟩
    · exact h.fine b x hx
  · simp only [Worker.setSubscribed, hview]
    exact GoMap.WF_set h.wf _ _

/-- One view ends the process. -/
def BadOne (reg : Measures) (σ : State) (v : ViewDef) : Prop :=
  NoMetric v ∨ (Unknown reg v ∧ ∀ x, σ v.name = some x → same x v = true)

/-- One of the views of a call does. -/
def Bad (reg : Measures) (σ : State) (vs : List ViewDef) : Prop := ∃ xs v ys, vs = xs ++ v :: ys ∧
  (NoMetric v ∨ (Unknown reg v ∧ ∀ x, holder σ xs v.name = some x → same x v = true))

theorem holder_nil (σ : State) : holder σ [] = σ := by
  funext n; simp [holder]

theorem holder_cons (σ : State) (v : ViewDef) (xs : List ViewDef) : holder (holder σ [v]) xs = holder σ (v :: xs) := by
  funext n
  simp only [holder, List.find?_cons]
  cases σ n with
  | some x => rfl
  | none => by_cases h : v.name = n <;> simp [h]

theorem holder_taken {σ : State} {v x : ViewDef} (h : σ v.name = some x) : holder σ [v] = σ := by
  funext n
  simp only [holder, List.find?_cons]
  by_cases e : v.name = n
  · subst e; simp [h]
  · simp [e]

theorem bad_cons (reg : Measures) (σ : State) (v : ViewDef) (vs : List ViewDef) :
    Bad reg σ (v :: vs) ↔ BadOne reg σ v ∨ Bad reg (holder σ [v]) vs := by
  constructor
  · rintro ⟨xs, u, ys, e, h⟩
    cases xs with
    | nil =>
      cases e
      rw [holder_nil] at h
      exact .inl h
    | cons x xs =>
      cases e
      rw [← holder_cons] at h
      exact .inr ⟨xs, u, ys, rfl, h⟩
  · rintro (h | ⟨xs, u, ys, e, h⟩)
    · exact ⟨[], v, vs, rfl, by rw [holder_nil]; exact h⟩
    · exact ⟨v :: xs, u, ys, by rw [e]; rfl, by rw [← holder_cons]; exact h⟩

theorem subscribe_spec {reg : Measures} {n : Bytes} :
    (GoMap.get reg n = none → subscribe reg n = .panic) ∧
    (GoMap.get reg n ≠ none → ∃ reg', subscribe reg n = .ok reg' ∧ ∀ k, GoMap.get reg' k = none ↔ GoMap.get reg k = none) := by
  unfold subscribe
  cases h : GoMap.get reg n with
  | none => exact ⟨fun _ => rfl, fun h' => absurd rfl h'⟩
  | some d =>
    refine ⟨fun h' => (by cases h'), fun _ => ⟨_, rfl, fun k => ?_⟩⟩
    rw [GoMap.get_set]
    split
    · next e => subst e; simp [h]
    · rfl

theorem bad_known {reg reg' : Measures} (h : ∀ k, GoMap.get reg' k = none ↔ GoMap.get reg k = none) (σ : State) (vs : List ViewDef) :
    Bad reg' σ vs ↔ Bad reg σ vs := by
  have : ∀ v, Unknown reg' v ↔ Unknown reg v := fun v => by
    constructor <;> rintro ⟨m, h1, h2⟩
    · exact ⟨m, h1, (h _).mp h2⟩
    · exact ⟨m, h1, (h _).mpr h2⟩
  simp only [Bad, this]

theorem Inv.resubscribe {w : Worker} {σ : State} (h : Inv w σ) {n : Bytes} {a : Nat} (ha : GoMap.get w.views n = some a) :
    w.setSubscribed a true = w := by
  obtain ⟨vi, m, ref, h1, h2, -⟩ := h.reg n a ha
  have : w.vis.modify a (fun vi => { vi with subscribed := true }) = w.vis := by
    apply List.ext_getElem?
    intro b
    rw [List.getElem?_modify]
    by_cases e : a = b
    · subst e
      rw [h1]
      simp only [if_true, Option.map_eq_map, Option.map_some, Option.some.injEq]
      cases vi; simp only at h2; subst h2; rfl
    · simp only [if_neg e]; cases w.vis[b]? <;> rfl
  simp only [Worker.setSubscribed, this]

theorem registerAll_spec (now : Int) : ∀ {vs : List ViewDef} {w : Worker} {reg : Measures} {σ : State}, Inv w σ → (∀ v ∈ vs, Valid v) →
    (Bad reg σ vs → w.registerAll reg now vs = .panic) ∧
    (¬ Bad reg σ vs → ∃ w' reg' errs, w.registerAll reg now vs = .ok (w', reg', errs) ∧ Inv w' (holder σ vs) ∧
      ∀ k, GoMap.get reg' k = none ↔ GoMap.get reg k = none)
  | [], w, reg, σ, h, _ => by
    refine ⟨fun ⟨xs, v, ys, e, _⟩ => by simp at e, fun _ => ⟨w, reg, [], rfl, ?_, fun _ => Iff.rfl⟩⟩
    rw [holder_nil]; exact h
  | v :: vs, w, reg, σ, h, hv => by
    have hvv := hv v (by simp)
    obtain ⟨m, hm⟩ := Option.ne_none_iff_exists'.mp hvv.1
    obtain ⟨n1, n2⟩ := newView_spec hvv
    rw [bad_cons, ← holder_cons σ v vs]
    have hu : Unknown reg v ↔ GoMap.get reg m.name = none :=
      ⟨fun ⟨m', h1, h2⟩ => by rw [hm] at h1; cases h1; exact h2, fun h => ⟨m, hm, h⟩⟩
    by_cases hnm : NoMetric v
    · have : w.registerAll reg now (v :: vs) = .panic := by
        simp only [Worker.registerAll, Worker.tryRegisterView, n1 hnm, Res.bind]
      exact ⟨fun _ => this, fun hn => absurd (.inl (.inl hnm)) hn⟩
    obtain ⟨g, d, hg, hnew⟩ := n2 hnm
    -- what is done after the view was registered at an address
    have after : ∀ (w' : Worker) (a : Nat), w.tryRegisterView v now = .ok (w', some a) → Inv (w'.setSubscribed a true) (holder σ [v]) →
        (∀ x, σ v.name = some x → same x v = true) →
        (BadOne reg σ v ∨ Bad reg (holder σ [v]) vs → w.registerAll reg now (v :: vs) = .panic) ∧
        (¬ (BadOne reg σ v ∨ Bad reg (holder σ [v]) vs) → ∃ w' reg' errs, w.registerAll reg now (v :: vs) = .ok (w', reg', errs) ∧
          Inv w' (holder (holder σ [v]) vs) ∧ ∀ k, GoMap.get reg' k = none ↔ GoMap.get reg k = none) := by
      intro w' a ht hi hsame
      obtain ⟨s1, s2⟩ := subscribe_spec (reg := reg) (n := m.name)
      by_cases hk : GoMap.get reg m.name = none
      · have : w.registerAll reg now (v :: vs) = .panic := by
          simp only [Worker.registerAll, ht, Res.bind, hm, s1 hk]
        exact ⟨fun _ => this, fun hn => absurd (.inl (.inr ⟨hu.mpr hk, hsame⟩)) hn⟩
      · obtain ⟨reg', h1, h2⟩ := s2 hk
        have e : w.registerAll reg now (v :: vs) = (w'.setSubscribed a true).registerAll reg' now vs := by
          simp only [Worker.registerAll, ht, Res.bind, hm, h1]
        have hb : ¬ BadOne reg σ v := fun hb => hb.elim hnm fun hb => hk (hu.mp hb.1)
        obtain ⟨i1, i2⟩ := registerAll_spec now (vs := vs) (reg := reg') hi fun u hu => hv u (by simp [hu])
        rw [bad_known h2] at i1 i2
        rw [e]
        refine ⟨fun hh => i1 (hh.resolve_left hb), fun hn => ?_⟩
        obtain ⟨w2, reg2, errs, j1, j2, j3⟩ := i2 fun hh => hn (.inr hh)
        exact ⟨w2, reg2, errs, j1, j2, fun k => (j3 k).trans (h2 k)⟩
    cases hget : GoMap.get w.views v.name with
    | none =>
      have hσ : σ v.name = none := by rw [← h.found, hget]; rfl
      refine after (addedRef (added w v g d now) m.name w.vis.length) w.vis.length ?_ (register_new h hm hg hget d now)
        (fun x hx => by rw [hσ] at hx; cases hx)
      simp only [Worker.tryRegisterView, hnew, Res.bind, hget, hm]
      rfl
    | some a =>
      obtain ⟨vi, _, _, g1, _⟩ := h.reg _ _ hget
      have hσ : σ v.name = some vi.view := by rw [← h.found, hget]; simp [viewAt, g1]
      by_cases hs : same vi.view v = true
      · refine after w a ?_ ?_ (fun x hx => by rw [hσ] at hx; cases hx; exact hs)
        · simp only [Worker.tryRegisterView, hnew, Res.bind, hget, g1, hs]; rfl
        · rw [h.resubscribe hget, holder_taken hσ]; exact h
      · have ht : w.tryRegisterView v now = .ok (w, none) := by
          simp only [Worker.tryRegisterView, hnew, Res.bind, hget, g1, hs]; rfl
        have hb : ¬ BadOne reg σ v := fun hb => hb.elim hnm fun hb => hs (hb.2 _ hσ)
        obtain ⟨i1, i2⟩ := registerAll_spec now (vs := vs) (reg := reg) h fun u hu => hv u (by simp [hu])
        rw [holder_taken hσ]
        refine ⟨fun hh => ?_, fun hn => ?_⟩
        · simp only [Worker.registerAll, ht, Res.bind, i1 (hh.resolve_left hb)]
        · obtain ⟨w2, reg2, errs, j1, j2, j3⟩ := i2 fun hh => hn (.inr hh)
          exact ⟨w2, reg2, v.name :: errs, by simp only [Worker.registerAll, ht, Res.bind, j1], j2, j3⟩

/-! ## Theorems -/

theorem handle_spec {w : Worker} {reg : Measures} {σ : State} (h : Inv w σ) {c : Call} (hc : Fit c) :
    (Deadly reg σ c → handle w reg c = .panic) ∧
    (¬ Deadly reg σ c → ∃ w' reg', handle w reg c = .ok (w', reg') ∧ Inv w' (step σ c) ∧
      ∀ k, GoMap.get reg' k = none ↔ GoMap.get reg k = none) := by
  cases c with
  | register now ps =>
    obtain ⟨p1, p2, p3⟩ := canonicalizePtrs_spec ps
    by_cases hnil : ∃ xs ys, ps = xs ++ none :: ys ∧ (valid xs).isSome
    · refine ⟨fun _ => ?_, fun hn => absurd (.inl hnil) hn⟩
      simp only [Crash.handle, Crash.register, (p1 hnil).1, Res.bind]
    cases hv : valid ps with
    | none =>
      obtain ⟨e, he⟩ := p3 hnil hv
      refine ⟨fun hd => ?_, fun _ => ⟨w, reg, by simp only [Crash.handle, Crash.register, he, Res.bind], ?_, fun _ => Iff.rfl⟩⟩
      · rcases hd with hd | ⟨vs, h1, _⟩
        · exact absurd hd hnil
        · rw [hv] at h1; cases h1
      · simp only [step, hv]; exact h
    | some vs =>
      obtain ⟨i1, i2⟩ := registerAll_spec now (reg := reg) h (valid_valid hv)
      have hd : Deadly reg σ (.register now ps) ↔ Bad reg σ vs := by
        constructor
        · rintro (hd | ⟨vs', h1, h2⟩)
          · exact absurd hd hnil
          · rw [hv] at h1; cases h1; exact h2
        · exact fun hb => .inr ⟨vs, hv, hb⟩
      rw [hd]
      refine ⟨fun hb => by simp only [Crash.handle, Crash.register, p2 vs hv, Res.bind, i1 hb], fun hb => ?_⟩
      obtain ⟨w', reg', errs, j1, j2, j3⟩ := i2 hb
      exact ⟨w', reg', by simp only [Crash.handle, Crash.register, p2 vs hv, Res.bind, j1], by simp only [step, hv]; exact j2, j3⟩
  | unregister now ns =>
    obtain ⟨w', es, h1, h2⟩ := unregister_ok (now := now) (ns := ns) h
    exact ⟨fun hd => hd.elim, fun _ => ⟨w', reg, by simp only [Crash.handle, h1, Res.bind], h2, fun _ => Iff.rfl⟩⟩
  | retrieve n =>
    have : ∃ r, w.retrieveData n = .ok r := by
      unfold Worker.retrieveData
      cases hg : GoMap.get w.views n with
      | none => exact ⟨_, rfl⟩
      | some a =>
        obtain ⟨vi, m, ref, h1, h2, -⟩ := h.reg n a hg
        obtain ⟨rows, h3⟩ := rows_ok (h.fine a vi h1)
        simp only [h1, h2, h3, Res.bind]
        exact ⟨_, rfl⟩
    obtain ⟨r, hr⟩ := this
    exact ⟨fun hd => hd.elim, fun _ => ⟨w, reg, by simp only [Crash.handle, hr, Res.bind], h, fun _ => Iff.rfl⟩⟩
  | record t r =>
    obtain ⟨i1, i2⟩ := recordLoop_spec hc r.attachments t (ms := r.ms) h
    refine ⟨fun hd => by simp only [Crash.handle, Worker.record, i1 hd, Res.bind], fun hn => ?_⟩
    obtain ⟨w', h1, h2⟩ := i2 hn
    exact ⟨w', reg, by simp only [Crash.handle, Worker.record, h1, Res.bind], h2, fun _ => Iff.rfl⟩
  | find n =>
    have : ∃ r, w.find n = .ok r := by
      unfold Worker.find
      cases hg : GoMap.get w.views n with
      | none => exact ⟨_, rfl⟩
      | some a =>
        obtain ⟨vi, m, ref, h1, -⟩ := h.reg n a hg
        simp only [h1]
        exact ⟨_, rfl⟩
    obtain ⟨r, hr⟩ := this
    exact ⟨fun hd => hd.elim, fun _ => ⟨w, reg, by simp only [Crash.handle, hr, Res.bind], h, fun _ => Iff.rfl⟩⟩
  | tick now =>
    obtain ⟨es, he⟩ := reportAll_ok h now w.views fun _ hp => hp
    exact ⟨fun hd => hd.elim, fun _ => ⟨w, reg, by simp only [Crash.handle, Worker.reportUsage, he, Res.bind], h, fun _ => Iff.rfl⟩⟩

theorem deadly_known {reg reg' : Measures} (h : ∀ k, GoMap.get reg' k = none ↔ GoMap.get reg k = none) (σ : State) (c : Call) :
    Deadly reg' σ c ↔ Deadly reg σ c := by
  cases c with
  | register now ps =>
    have := fun vs => bad_known h σ vs
    unfold Bad at this
    simp only [Deadly, this]
  | _ => rfl

theorem run_iff : ∀ {cs : List Call} {w : Worker} {reg : Measures} {σ : State}, Inv w σ → (∀ c ∈ cs, Fit c) →
    (run w reg cs = .panic ↔ ∃ xs c ys, cs = xs ++ c :: ys ∧ Deadly reg (steps σ xs) c) ∧
    (run w reg cs ≠ .panic → ∃ w' reg', run w reg cs = .ok (w', reg') ∧ Inv w' (steps σ cs))
  | [], w, reg, σ, h, _ => ⟨⟨fun h => (by cases h), fun ⟨xs, c, ys, e, _⟩ => (by simp at e)⟩, fun _ => ⟨w, reg, rfl, h⟩⟩
  | c :: cs, w, reg, σ, h, hf => by
    obtain ⟨h1, h2⟩ := handle_spec (reg := reg) h (hf c (by simp))
    by_cases hd : Deadly reg σ c
    · have : run w reg (c :: cs) = .panic := by simp only [run, h1 hd, Res.bind]
      exact ⟨⟨fun _ => ⟨[], c, cs, rfl, hd⟩, fun _ => this⟩, fun hn => absurd this hn⟩
    · obtain ⟨w', reg', h3, h4, h5⟩ := h2 hd
      have e : run w reg (c :: cs) = run w' reg' cs := by simp only [run, h3, Res.bind]
      obtain ⟨i1, i2⟩ := run_iff (cs := cs) (reg := reg') h4 fun c hc => hf c (by simp [hc])
      rw [e]
      refine ⟨i1.trans ⟨fun ⟨xs, d, ys, e1, e2⟩ => ⟨c :: xs, d, ys, by rw [e1]; rfl, (deadly_known h5 _ _).mp e2⟩, fun ⟨xs, d, ys, e1, e2⟩ => ?_⟩, i2⟩
      cases xs with
      | nil => cases e1; exact absurd e2 hd
      | cons x xs => cases e1; exact ⟨xs, d, ys, rfl, (deadly_known h5 _ _).mpr e2⟩

/-- C109. For every history of calls with tags of package tag, whatever is passed to `Register`: the process ends exactly if one of
the calls is deadly, given the views that are registered then. -/
theorem ends_iff (reg : Measures) {cs : List Call} (hf : ∀ c ∈ cs, Fit c) :
    run newWorker reg cs = .panic ↔ ∃ xs c ys, cs = xs ++ c :: ys ∧ Deadly reg (steps (fun _ => none) xs) c :=
  (run_iff inv_init hf).1

/-- C109. Until then `Find` gives the view that the specification says. -/
theorem find_is (reg : Measures) {cs : List Call} (hf : ∀ c ∈ cs, Fit c) {w : Worker} {reg' : Measures} (h : run newWorker reg cs = .ok (w, reg'))
    (n : Bytes) : w.find n = .ok (steps (fun _ => none) cs n) := by
  obtain ⟨w', reg2, h1, h2⟩ := (run_iff (reg := reg) inv_init hf).2 (by rw [h]; intro e; cases e)
  rw [h] at h1; cases h1
  rw [← h2.found n]
  unfold Worker.find
  cases hg : GoMap.get w.views n with
  | none => rfl
  | some a =>
    obtain ⟨vi, m, ref, g1, -⟩ := h2.reg n a hg
    simp only [g1, Option.bind_some, viewAt]; rfl

/-- A view that the package's functions made: on a measure of the package, with an aggregation of the package. -/
def Made (reg : Measures) (v : ViewDef) : Prop :=
  (∀ m, v.measure = some m → m.kind ≠ .other ∧ GoMap.get reg m.name ≠ none) ∧ (∀ g, v.agg = some g → g.type ≠ .none ∧ ¬ Blank g)

theorem canonicalize_made {reg : Measures} {v v' : ViewDef} {e : Option CanonErr} (h : canonicalize v = (v', e)) (hm : Made reg v) : Made reg v' := by
  unfold canonicalize at h
  split at h
  · cases h; exact hm
  · next m hmm =>
    split at h
    · cases h; exact hm
    · next g hg =>
      simp only at h
      have h1 := hm.1
      have h2 := hm.2 g hg
      split at h
      · cases h; exact ⟨h1, hm.2⟩
      · split at h
        · cases h; exact ⟨h1, fun g' hg' => by cases hg'; exact h2⟩
        · cases h; exact ⟨h1, fun g' hg' => by cases hg'; exact h2⟩

theorem valid_made {reg : Measures} : ∀ {ps : List (Option ViewDef)} {vs : List ViewDef}, valid ps = some vs →
    (∀ v, some v ∈ ps → Made reg v) → ∀ v ∈ vs, Made reg v
  | [], vs, h, _ => by cases h; simp
  | none :: ps, vs, h, _ => by cases h
  | some v :: ps, vs, h, hm => by
    simp only [valid] at h
    split at h
    · cases h
    · next v' hc =>
      obtain ⟨vs', h1, rfl⟩ := Option.map_eq_some_iff.mp h
      intro u hu
      rcases List.mem_cons.mp hu with rfl | hu
      · exact canonicalize_made hc (hm v (by simp))
      · exact valid_made h1 (fun w hw => hm w (by simp [hw])) u hu

/-- The registered views were made so, if all that were passed to `Register` were. -/
theorem steps_made {reg : Measures} : ∀ {cs : List Call} {σ : State}, (∀ n v, σ n = some v → Made reg v) →
    (∀ now ps, Call.register now ps ∈ cs → ∀ v, some v ∈ ps → Made reg v) → ∀ n v, steps σ cs n = some v → Made reg v
  | [], σ, h, _ => h
  | c :: cs, σ, h, hc => by
    refine steps_made (cs := cs) ?_ fun now ps hp => hc now ps (by simp [hp])
    intro n v hv
    cases c with
    | register now ps =>
      cases hvs : valid ps with
      | some vs =>
        simp only [step, hvs, holder, Option.or_eq_some_iff] at hv
        rcases hv with hv | ⟨-, hv⟩
        · exact h n v hv
        · exact valid_made hvs (hc now ps (by simp)) v (List.mem_of_find?_eq_some hv)
      | none => exact h n v (by simpa only [step, hvs] using hv)
    | unregister now ns =>
      by_cases hn : n ∈ ns
      · simp [step, hn] at hv
      · exact h n v (by simpa [step, hn] using hv)
    | _ => exact h n v hv

/-- C109, as far as it holds. If no pointer is nil and every view, valid or not, is on a measure of package stats with an aggregation
made by package view, the process does not end. -/
theorem no_end_partial (reg : Measures) {cs : List Call} (hf : ∀ c ∈ cs, Fit c)
    (hm : ∀ now ps, Call.register now ps ∈ cs → none ∉ ps ∧ ∀ v, some v ∈ ps → Made reg v) :
    ∃ w reg', run newWorker reg cs = .ok (w, reg') := by
  by_cases h : run newWorker reg cs = .panic
  · exfalso
    obtain ⟨xs, c, ys, e, hd⟩ := (ends_iff reg hf).mp h
    have hσ := steps_made (reg := reg) (cs := xs) (σ := fun _ => none) (by simp) fun now ps hp => (hm now ps (by rw [e]; simp [hp])).2
    cases c with
    | register now ps =>
      obtain ⟨h1, h2⟩ := hm now ps (by rw [e]; simp)
      rcases hd with ⟨us, ws, e2, _⟩ | ⟨vs, hv, us, v, ws, e2, hb⟩
      · exact h1 (by rw [e2]; simp)
      · have hmv := valid_made hv h2 v (by rw [e2]; simp)
        rcases hb with ⟨m, g, g1, g2, g3⟩ | ⟨⟨m, g1, g2⟩, _⟩
        · rcases g3 with g3 | g3
          · exact (hmv.2 g g2).1 g3
          · exact (hmv.1 m g1).1 g3.1
        · exact (hmv.1 m g1).2 g2
    | record t r =>
      obtain ⟨m, _, n, v, m', g, h1, _, _, h4, h5⟩ := hd
      exact ((hσ n v h1).2 g h4).2 h5
    | unregister => exact hd
    | retrieve => exact hd
    | find => exact hd
    | tick => exact hd
  · obtain ⟨w, reg', h1, _⟩ := (run_iff (reg := reg) inv_init hf).2 h
    exact ⟨w, reg', h1⟩

/-! ## Witnesses -/

/-- A measure of package stats. -/
def latency : Measure := ⟨.float64, str "latency", [], str "ms"⟩

def reg0 : Measures := [(str "latency", ⟨false, str "latency", [], str "ms"⟩)]

/-- `view.Count()`. -/
def count : Aggregation F64 := ⟨1, .count, [], some .count⟩

/-- `&view.View{Name: "v", Measure: latency, Aggregation: view.Count()}`. -/
def good : ViewDef := ⟨10, str "v", [], [], some latency, some count⟩

/-- `&view.Aggregation{Type: view.AggTypeCount}` instead. -/
def literal : ViewDef := ⟨11, str "v", [], [], some latency, some ⟨2, .count, [], none⟩⟩

def one : RecordReq := ⟨none, [some ⟨.fin 7, latency⟩], []⟩

/-- Whether the process goes on. -/
def alive (cs : List Call) : Bool := match run newWorker reg0 cs with
  | .ok _ => true
  | _ => false

/-- Whether it ends. -/
def ended (reg : Measures) (cs : List Call) : Bool := match run newWorker reg cs with
  | .panic => true
  | _ => false

theorem of_ended {reg : Measures} {cs : List Call} (h : ended reg cs = true) : run newWorker reg cs = .panic := by
  unfold ended at h
  split at h
  · assumption
  · cases h

/-- C109 fails: a nil pointer among the views ends the process, though every view without measure or aggregation gives an error. -/
theorem nil_view_ends : run newWorker reg0 [.register 0 [some good, none]] = .panic := of_ended (by decide +kernel)

/-- C109 fails: so does an aggregation without type. -/
theorem untyped_ends : run newWorker reg0 [.register 0 [some { good with agg := some ⟨2, .none, [], none⟩ }]] = .panic := of_ended (by decide +kernel)

/-- C109 fails: so does a measure of a foreign type. -/
theorem foreign_ends : run newWorker reg0 [.register 0 [some { good with measure := some ⟨.other, str "latency", [], []⟩ }]] = .panic :=
  of_ended (by decide +kernel)

/-- A distribution of a foreign measure. -/
def foreign (name : Bytes) : ViewDef := ⟨12, str "v", [], [], some ⟨.other, name, [], []⟩, some ⟨3, .distribution, [], some .distribution⟩⟩

/-- C109 fails: a distribution of a foreign measure ends the process as well, unless there is a measure of package stats that has the
same name. -/
theorem unknown_ends : run newWorker reg0 [.register 0 [some (foreign (str "mine"))]] = .panic ∧
    alive [.register 0 [some (foreign (str "latency"))], .record 1 one, .tick 2] = true := ⟨of_ended (by decide +kernel), by decide +kernel⟩

/-- C109 fails: `Register` takes a view whose aggregation is a literal; so do `Find`, `RetrieveData` and the reports. The first
record of the measure ends the process, whatever the tags. -/
theorem literal_registers : alive [.register 0 [some literal], .find (str "v"), .retrieve (str "v"), .tick 1] = true ∧
    alive [.register 0 [some literal], .unregister 1 [str "v"], .record 2 one] = true ∧
    run newWorker reg0 [.register 0 [some literal], .record 2 one] = .panic :=
  ⟨by decide +kernel, by decide +kernel, of_ended (by decide +kernel)⟩

/-- A view that comes after one without measure is not looked at: the call returns the error. -/
theorem invalid_first : alive [.register 0 [some { good with measure := none }, none]] = true := by decide +kernel

/-- The histories above have fitting tags. -/
example : ∀ c ∈ [Call.register 0 [some literal], .record 2 one], Fit c := by
  intro c hc
  simp only [List.mem_cons, List.not_mem_nil, or_false] at hc
  rcases hc with rfl | rfl
  · trivial
  · intro m hm; simp [one] at hm

/-- And the specification says which call ends the process. -/
example : Deadly reg0 (fun n => if n = str "v" then some literal else none) (.record 2 one) :=
  ⟨⟨.fin 7, latency⟩, by simp [one], str "v", literal, latency, _, by simp, rfl, rfl, rfl, .inl rfl⟩

/-- The hypotheses of `no_end_partial` hold for a view made as in the documentation, together with one that is not valid. -/
example : Made reg0 good ∧ Made reg0 { good with measure := none } := by
  have hg : ∀ g, some count = some g → g.type ≠ .none ∧ ¬ Blank g := by
    intro g hg; cases hg
    exact ⟨by decide, fun h => by rcases h with h | h <;> cases h⟩
  refine ⟨⟨fun m hm => ?_, hg⟩, fun m hm => ?_, hg⟩
  · cases hm; exact ⟨by decide, by decide +kernel⟩
  · cases hm

example : alive [.register 0 [some good], .record 1 one, .register 2 [some { good with measure := none }], .tick 3] = true := by decide +kernel

end Verif.Props.Crash
