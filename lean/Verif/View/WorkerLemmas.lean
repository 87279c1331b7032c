import Verif.View.WorkerSpec

/-!
# The worker refines its specification: lemmas
-/

namespace Verif.View
open Verif Verif.Tag Verif.Stats Verif.Props.Rows Verif.View.Spec

/-! ## canonicalize -/

theorem dropZeroBounds_sublist (bs : List F64) : (dropZeroBounds bs).Sublist bs := by
  induction bs with
  | nil => exact List.Sublist.refl _
  | cons b bs ih =>
    simp only [dropZeroBounds]
    split
    · exact List.Sublist.refl _
    · exact ih.cons b

theorem keys_sorted (l : List Key) :
    KeysSorted (l.mergeSort (fun a b => decide (a.name ≤ b.name))) := by
  have := List.pairwise_mergeSort (le := fun (a b : Key) => decide (a.name ≤ b.name))
    (by intro a b c; simp only [decide_eq_true_eq]; exact List.le_trans)
    (by intro a b; simp only [Bool.or_eq_true, decide_eq_true_eq]; exact List.le_total _ _) l
  exact this.imp (fun h => by simpa using h)

/-- What a successful `canonicalize` leaves alone. -/
theorem canonicalize_ok {v v' : ViewDef} (h : canonicalize v = (v', none)) :
    ∃ m a a', v.measure = some m ∧ v'.measure = some m ∧ v.agg = some a ∧ v'.agg = some a' ∧
      a'.id = a.id ∧ a'.type = a.type ∧ a'.newData = a.newData ∧ KeysSorted v'.tagKeys ∧
      v'.ptr = v.ptr := by
  unfold canonicalize at h
  rcases hm : v.measure with _ | m
  · simp [hm] at h
  · rcases ha : v.agg with _ | a
    · simp [hm, ha] at h
    · simp only [hm, ha] at h
      split at h
      · simp at h
      · split at h
        · simp at h
        · simp only [Prod.mk.injEq, and_true] at h
          subst h
          exact ⟨m, a, _, rfl, hm, rfl, rfl, rfl, rfl, rfl, keys_sorted _, rfl⟩

theorem canonicalizeAll_good {reg : Measures} {vs vs' : List ViewDef}
    (h : canonicalizeAll vs = .ok vs') (hg : ∀ v ∈ vs, GoodView reg v) :
    ∀ v ∈ vs', GoodView reg v ∧ KeysSorted v.tagKeys ∧ v.measure ≠ none ∧ v.agg ≠ none := by
  induction vs generalizing vs' with
  | nil => simp only [canonicalizeAll, Except.ok.injEq] at h; subst h; simp
  | cons v vs ih =>
    simp only [canonicalizeAll] at h
    rcases hc : canonicalize v with ⟨v1, _ | e⟩
    · rw [hc] at h
      simp only at h
      rcases hr : canonicalizeAll vs with e | vs1
      · rw [hr] at h; simp at h
      · rw [hr] at h
        simp only [Except.ok.injEq] at h
        subst h
        obtain ⟨m, a, a', h1, h2, h3, h4, h5, h6, h7, h8, _⟩ := canonicalize_ok hc
        have gv := hg v (by simp)
        intro u hu
        simp only [List.mem_cons] at hu
        rcases hu with rfl | hu
        · refine ⟨⟨?_, ?_⟩, h8, by simp [h2], by simp [h4]⟩
          · intro m' hm'; rw [h2] at hm'; simp only [Option.some.injEq] at hm'; subst hm'
            exact gv.1 m h1
          · intro x hx; rw [h4] at hx; simp only [Option.some.injEq] at hx; subst hx
            rw [h6, h7]; exact gv.2 a h3
        · exact ih hr (fun v hv => hg v (by simp [hv])) u hu
    · rw [hc] at h; simp at h

/-! ## The refinement relation -/

/-- The concrete view `vi` represents the abstract view `x`. -/
structure VRel (vi : VI) (x : SView) : Prop where
  view : vi.view = x.view
  agg : x.view.agg = some x.agg
  measure : x.view.measure = some x.measure
  sub : vi.subscribed = true
  ca : vi.collector.a = x.agg
  type : x.agg.newData = some x.agg.type ∧ x.agg.type ≠ .none
  sorted : KeysSorted x.view.tagKeys
  fit : ∀ r ∈ x.recs, TagsFit r.1
  holds : vi.collector.Holds (sigRecs x.view.tagKeys x.recs)
  desc : viewToMetricDescriptor vi.view = .ok vi.descriptor

theorem VRel.usable {vi : VI} {x : SView} (h : VRel vi x) : vi.collector.a.Usable := by
  rw [h.ca]; exact ⟨_, h.type.1, h.type.2⟩

/-- The worker and the measures of package stats represent the abstract state. -/
structure Rel (w : Worker) (reg : Measures) (σ : SState) : Prop where
  none_iff : ∀ n, GoMap.get w.views n = none → σ n = none
  some_iff : ∀ n a, GoMap.get w.views n = some a →
    ∃ vi x, w.vis[a]? = some vi ∧ σ n = some x ∧ VRel vi x ∧ x.view.name = n
  nodup : ∀ mn ref, GoMap.get w.measures mn = some ref → ref.Nodup
  refs : ∀ mn a, (∃ ref, GoMap.get w.measures mn = some ref ∧ a ∈ ref) ↔
    ∃ n x, GoMap.get w.views n = some a ∧ σ n = some x ∧ x.measure.name = mn
  subs : ∀ n x, σ n = some x → ∃ d, GoMap.get reg x.measure.name = some d ∧ d.subs = true
  wf : GoMap.WF w.views

theorem rel_init (reg : Measures) : Rel newWorker reg Spec.empty := by
  constructor <;> simp [newWorker, Spec.empty, GoMap.WF]

/-- An address belongs to one name only. -/
theorem Rel.inj {w : Worker} {reg : Measures} {σ : SState} (h : Rel w reg σ) {n n' : Bytes} {a : Nat}
    (h1 : GoMap.get w.views n = some a) (h2 : GoMap.get w.views n' = some a) : n = n' := by
  obtain ⟨vi, x, e1, _, r1, hn⟩ := h.some_iff n a h1
  obtain ⟨vi', x', e2, _, r2, hn'⟩ := h.some_iff n' a h2
  rw [e1] at e2
  simp only [Option.some.injEq] at e2
  subst e2
  rw [← hn, ← hn', ← r1.view, ← r2.view]

/-! ## Recording -/

theorem getMeasureRef_rel {w : Worker} {reg : Measures} {σ : SState} (h : Rel w reg σ) (mn : Bytes) :
    Rel (w.getMeasureRef mn).1 reg σ ∧ (w.getMeasureRef mn).1.vis = w.vis ∧
    GoMap.get (w.getMeasureRef mn).1.measures mn = some (w.getMeasureRef mn).2 := by
  unfold Worker.getMeasureRef
  cases hg : GoMap.get w.measures mn with
  | some ref => exact ⟨h, rfl, hg⟩
  | none =>
    refine ⟨⟨h.none_iff, h.some_iff, ?_, ?_, h.subs, h.wf⟩, rfl, by simp⟩
    · intro mn' ref
      simp only [GoMap.get_set]
      split
      · intro he; simp only [Option.some.injEq] at he; subst he; simp
      · exact h.nodup mn' ref
    · intro mn' a
      rw [← h.refs mn' a]
      simp only [GoMap.get_set]
      split
      · next he => subst he; simp [hg]
      · rfl

theorem VI.addSample_rel {vi : VI} {x : SView} (h : VRel vi x) (tm : Option TMap) (s : Sample F64)
    (hfit : TagsFit tm) :
    ∃ vi', vi.addSample tm s = .ok vi' ∧ VRel vi' { x with recs := x.recs ++ [(tm, s)] } := by
  obtain ⟨c', hc, hca, hh⟩ := Collector.addSample_holds h.usable h.holds
    (sigOf (x.view.tagKeys.map (given tm))) s
  refine ⟨{ vi with collector := c' }, ?_, ?_⟩
  · have e : x.view.tagKeys.map (valueOf tm) = x.view.tagKeys.map (given tm) := by
      apply List.map_congr_left; intro k _; exact (given_eq tm k).symm
    simp only [VI.addSample, h.sub, h.view, encodeWithKeys_eq, e, Res.bind, hc]
    rfl
  · refine ⟨h.view, h.agg, h.measure, h.sub, by rw [← h.ca, ← hca], h.type, h.sorted, ?_, ?_, h.desc⟩
    · intro r hr
      simp only [List.mem_append, List.mem_singleton] at hr
      rcases hr with hr | rfl
      · exact h.fit r hr
      · exact hfit
    · simpa [sigRecs] using hh

/-- The inner loop updates exactly the views at the given addresses. -/
theorem addToViews_spec (tm : Option TMap) (s : Sample F64) (hfit : TagsFit tm) (as : List Nat)
    (w : Worker) (hnd : as.Nodup) (hv : ∀ a ∈ as, ∃ vi x, w.vis[a]? = some vi ∧ VRel vi x) :
    ∃ w', w.addToViews tm s as = .ok w' ∧ w'.measures = w.measures ∧ w'.views = w.views ∧
      w'.viewStartTimes = w.viewStartTimes ∧ w'.exporters = w.exporters ∧
      (∀ i, i ∉ as → w'.vis[i]? = w.vis[i]?) ∧
      (∀ i ∈ as, ∀ vi x, w.vis[i]? = some vi → VRel vi x →
        ∃ vi', w'.vis[i]? = some vi' ∧ VRel vi' { x with recs := x.recs ++ [(tm, s)] }) := by
  induction as generalizing w with
  | nil => exact ⟨w, rfl, rfl, rfl, rfl, rfl, fun _ _ => rfl, by simp⟩
  | cons a as ih =>
    obtain ⟨vi, x, hvi, hrel⟩ := hv a (by simp)
    obtain ⟨vi', hadd, hrel'⟩ := VI.addSample_rel hrel tm s hfit
    have hlt : a < w.vis.length := by
      rcases Nat.lt_or_ge a w.vis.length with h | h
      · exact h
      · rw [List.getElem?_eq_none h] at hvi; simp at hvi
    have hnd' := List.nodup_cons.mp hnd
    obtain ⟨w', h1, h2, h3, h4, h5, h6, h7⟩ := ih { w with vis := w.vis.set a vi' } hnd'.2 (by
      intro b hb
      obtain ⟨vb, xb, e1, e2⟩ := hv b (by simp [hb])
      have hne : a ≠ b := by rintro rfl; exact hnd'.1 hb
      exact ⟨vb, xb, by simp only [List.getElem?_set_ne hne]; exact e1, e2⟩)
    refine ⟨w', ?_, h2, h3, h4, h5, ?_, ?_⟩
    · simp only [Worker.addToViews, hvi, hadd, Res.bind]; exact h1
    · intro i hi
      simp only [List.mem_cons, not_or] at hi
      rw [h6 i hi.2]
      simp only [List.getElem?_set_ne (Ne.symm hi.1)]
    · intro i hi ui xi hu hr
      simp only [List.mem_cons] at hi
      by_cases he : i = a
      · subst he
        refine ⟨(vi.addSample tm s |> fun _ => vi'), ?_, ?_⟩
        · rw [h6 i hnd'.1]; simp [hlt]
        · rw [hvi] at hu
          simp only [Option.some.injEq] at hu
          subst hu
          obtain ⟨vi'', hadd2, hrel2⟩ := VI.addSample_rel hr tm s hfit
          rw [hadd] at hadd2
          simp only [Res.ok.injEq] at hadd2
          subst hadd2
          exact hrel2
      · rcases hi with hi | hi
        · exact absurd hi he
        · exact h7 i hi ui xi (by simp only [List.getElem?_set_ne (Ne.symm he)]; exact hu) hr

theorem addMeasurement_rel {w : Worker} {reg : Measures} {σ : SState} (h : Rel w reg σ)
    (mn : Bytes) (tm : Option TMap) (s : Sample F64) (hfit : TagsFit tm) :
    ∃ w', ((w.getMeasureRef mn).1.addToViews tm s (w.getMeasureRef mn).2) = .ok w' ∧
      Rel w' reg (addRec σ mn (tm, s)) ∧ w'.viewStartTimes = (w.getMeasureRef mn).1.viewStartTimes ∧
      w'.exporters = (w.getMeasureRef mn).1.exporters := by
  obtain ⟨hr, hvis, href⟩ := getMeasureRef_rel h mn
  generalize (w.getMeasureRef mn).1 = w1 at *
  generalize (w.getMeasureRef mn).2 = ref at *
  have hmem : ∀ a, a ∈ ref ↔ ∃ n x, GoMap.get w1.views n = some a ∧ σ n = some x ∧ x.measure.name = mn := by
    intro a
    rw [← hr.refs mn a]
    constructor
    · intro ha; exact ⟨ref, href, ha⟩
    · rintro ⟨ref', h1, h2⟩; rw [href] at h1; simp only [Option.some.injEq] at h1; subst h1; exact h2
  obtain ⟨w', h1, h2, h3, h4, h5, h6, h7⟩ := addToViews_spec tm s hfit ref w1 (hr.nodup mn ref href) (by
    intro a ha
    obtain ⟨n, x, e1, _, _⟩ := (hmem a).mp ha
    obtain ⟨vi, x', e3, _, e4, _⟩ := hr.some_iff n a e1
    exact ⟨vi, x', e3, e4⟩)
  refine ⟨w', h1, ?_, h4, h5⟩
  constructor
  · intro n hn
    rw [h3] at hn
    simp [addRec, hr.none_iff n hn]
  · intro n a hn
    rw [h3] at hn
    obtain ⟨vi, x, e1, e2, e3, e4⟩ := hr.some_iff n a hn
    by_cases hm : x.measure.name = mn
    · have ha : a ∈ ref := (hmem a).mpr ⟨n, x, hn, e2, hm⟩
      obtain ⟨vi', e5, e6⟩ := h7 a ha vi x e1 e3
      exact ⟨vi', _, e5, by simp [addRec, e2, hm], e6, e4⟩
    · have ha : a ∉ ref := by
        intro hc
        obtain ⟨n', x', e5, e6, e7⟩ := (hmem a).mp hc
        have : n = n' := hr.inj hn e5
        subst this
        rw [e2] at e6
        simp only [Option.some.injEq] at e6
        subst e6
        exact hm e7
      exact ⟨vi, x, by rw [h6 a ha]; exact e1, by simp [addRec, e2, hm], e3, e4⟩
  · rw [h2]; exact hr.nodup
  · intro mn' a
    rw [h2, h3, hr.refs mn' a]
    have hx : ∀ x : SView, (if x.measure.name = mn then { x with recs := x.recs ++ [(tm, s)] } else x).measure.name
        = x.measure.name := by intro x; split <;> rfl
    constructor
    · rintro ⟨n, x, e1, e2, e3⟩
      exact ⟨n, _, e1, (by simp only [addRec, e2, Option.map_some]; rfl), by rw [hx]; exact e3⟩
    · rintro ⟨n, x, e1, e2, e3⟩
      simp only [addRec, Option.map_eq_some_iff] at e2
      obtain ⟨y, hy, rfl⟩ := e2
      rw [hx] at e3
      exact ⟨n, y, e1, hy, e3⟩
  · intro n x hn
    simp only [addRec, Option.map_eq_some_iff] at hn
    obtain ⟨y, hy, rfl⟩ := hn
    have := hr.subs n y hy
    split <;> exact this
  · rw [h3]; exact hr.wf

theorem getMeasureRef_rest (w : Worker) (mn : Bytes) :
    (w.getMeasureRef mn).1.viewStartTimes = w.viewStartTimes ∧
    (w.getMeasureRef mn).1.exporters = w.exporters := by
  unfold Worker.getMeasureRef; split <;> exact ⟨rfl, rfl⟩

theorem recordLoop_rel (tm : Option TMap) (att : Attachments) (t : Int) (hfit : TagsFit tm)
    (ms : List (Option Measurement)) {w : Worker} {reg : Measures} {σ : SState} (h : Rel w reg σ) :
    ∃ w', w.recordLoop tm att t ms = .ok w' ∧ Rel w' reg (Spec.record σ tm att t ms) ∧
      w'.viewStartTimes = w.viewStartTimes ∧ w'.exporters = w.exporters := by
  induction ms generalizing w σ with
  | nil => exact ⟨w, rfl, h, rfl, rfl⟩
  | cons m ms ih =>
    cases m with
    | none => exact ih h
    | some m =>
      obtain ⟨w1, h1, h2, h3, h4⟩ := addMeasurement_rel h m.m.name tm ⟨m.v, att, t⟩ hfit
      obtain ⟨w2, h5, h6, h7, h8⟩ := ih h2
      have hrest := getMeasureRef_rest w m.m.name
      refine ⟨w2, ?_, h6, by rw [h7, h3, hrest.1], by rw [h8, h4, hrest.2]⟩
      simp only [Worker.recordLoop, h1, Res.bind]
      exact h5

/-! ## Reading -/

theorem tagsFit_values {m : Option TMap} (h : TagsFit m) (keys : List Key) : ValuesFit keys m := by
  intro k _
  rw [given_eq]
  unfold valueOf
  cases m with
  | none => simp
  | some tm =>
    simp only
    cases hg : GoMap.get tm k with
    | none => simp
    | some c => exact h tm rfl (k, c) (GoMap.mem_of_get hg)

theorem VRel.rows {vi : VI} {x : SView} (h : VRel vi x) :
    ∃ rows, vi.collector.collectedRows vi.view.tagKeys = .ok rows ∧ RowsFor x rows := by
  obtain ⟨rows, h1, h2⟩ := holds_rows vi.collector h.usable x.view.tagKeys h.sorted x.recs
    (fun r hr => tagsFit_values (h.fit r hr) _) h.holds
  refine ⟨rows, by rw [h.view]; exact h1, ?_⟩
  rw [h.ca] at h2; exact h2

theorem retrieveData_rel {w : Worker} {reg : Measures} {σ : SState} (h : Rel w reg σ) (n : Bytes) :
    ∃ r, w.retrieveData n = .ok r ∧ ReplyOK σ (.retrieve n) (.rows r) := by
  unfold Worker.retrieveData
  cases hg : GoMap.get w.views n with
  | none => exact ⟨none, rfl, by simp [ReplyOK, h.none_iff n hg]⟩
  | some a =>
    obtain ⟨vi, x, h1, h2, h3, _⟩ := h.some_iff n a hg
    obtain ⟨rows, h4, h5⟩ := h3.rows
    refine ⟨some rows, by simp [h1, h3.sub, h4, Res.bind], ?_⟩
    simp only [ReplyOK, h2]
    exact ⟨rows, rfl, h5⟩

theorem find_rel {w : Worker} {reg : Measures} {σ : SState} (h : Rel w reg σ) (n : Bytes) :
    w.find n = .ok ((σ n).map (·.view)) := by
  unfold Worker.find
  cases hg : GoMap.get w.views n with
  | none => simp [h.none_iff n hg]
  | some a =>
    obtain ⟨vi, x, h1, h2, h3, _⟩ := h.some_iff n a hg
    simp [h1, h2, h3.view]

/-! ## Registering -/

theorem newViewInternal_ok {reg : Measures} {v : ViewDef} (hg : GoodView reg v) {m : Measure}
    {a : Aggregation F64} (hm : v.measure = some m) (ha : v.agg = some a) :
    ∃ d, viewToMetricDescriptor v = .ok d ∧ newViewInternal v = .ok ⟨v, false, ⟨[], a⟩, d⟩ := by
  obtain ⟨h1, _⟩ := hg.1 m hm
  obtain ⟨h2, h3⟩ := hg.2 a ha
  have : ∃ t, getType m a = .ok t := by
    unfold getType
    cases ht : a.type <;> cases hk : m.kind <;> simp_all
  obtain ⟨t, ht⟩ := this
  refine ⟨⟨v.name, v.description, convertUnit m a, t, v.tagKeys.map Key.name⟩, ?_, ?_⟩
  · simp [viewToMetricDescriptor, hm, ha, ht, Res.bind]
  · simp [newViewInternal, viewToMetricDescriptor, hm, ha, ht, Res.bind]

theorem same_iff {vi : VI} {x : SView} (h : VRel vi x) {reg : Measures} {v : ViewDef}
    (hg : GoodView reg v) (hm : v.measure ≠ none) (ha : v.agg ≠ none) :
    same vi.view v = true ↔ Same x v := by
  obtain ⟨m, hm⟩ := Option.ne_none_iff_exists'.mp hm
  obtain ⟨a, ha⟩ := Option.ne_none_iff_exists'.mp ha
  unfold same Same
  rw [h.view]
  by_cases hp : x.view.ptr = v.ptr
  · simp [hp]
  · rw [if_neg hp]
    simp only [h.agg, h.measure, hm, ha, hp, false_or, aggDeepEqual, (hg.2 a ha).1, h.type.1]
    simp
    constructor
    · rintro ⟨h1, h2⟩; exact ⟨h1.symm, h2.symm⟩
    · rintro ⟨h1, h2⟩; exact ⟨h1.symm, h2.symm⟩

/-- A registered view keeps being related when nothing but other addresses change. -/
theorem tryRegister_rel {w : Worker} {reg : Measures} {σ : SState} (h : Rel w reg σ) {v : ViewDef}
    (hg : GoodView reg v) {m : Measure} {a : Aggregation F64} (hm : v.measure = some m)
    (ha : v.agg = some a) (hs : KeysSorted v.tagKeys) (now : Int) :
    match σ v.name with
    | some x => if Same x v then
          ∃ ad reg', w.tryRegisterView v now = .ok (w, some ad) ∧ subscribe reg m.name = .ok reg' ∧
            Rel (w.setSubscribed ad true) reg' σ ∧ (∀ k, (GoMap.get reg k).isSome → (GoMap.get reg' k).isSome)
        else w.tryRegisterView v now = .ok (w, none)
    | none => ∃ w' ad reg', w.tryRegisterView v now = .ok (w', some ad) ∧ subscribe reg m.name = .ok reg' ∧
        Rel (w'.setSubscribed ad true) reg' (Spec.update σ v.name (some ⟨v, a, m, []⟩)) ∧
          (∀ k, (GoMap.get reg k).isSome → (GoMap.get reg' k).isSome) := by
  obtain ⟨desc, hdesc, hnew⟩ := newViewInternal_ok hg hm ha
  obtain ⟨d, hd⟩ := (hg.1 m hm).2
  have hsub : subscribe reg m.name = .ok (GoMap.set reg m.name { d with subs := true }) := by
    simp [subscribe, hd]
  have hreg : ∀ k, (GoMap.get reg k).isSome →
      (GoMap.get (GoMap.set reg m.name { d with subs := true }) k).isSome := by
    intro k hk
    rw [GoMap.get_set]; split
    · rfl
    · exact hk
  have hsubs : ∀ n x, σ n = some x → ∃ d', GoMap.get (GoMap.set reg m.name { d with subs := true })
      x.measure.name = some d' ∧ d'.subs = true := by
    intro n x hx
    rw [GoMap.get_set]
    split
    · exact ⟨_, rfl, rfl⟩
    · exact h.subs n x hx
  cases hg' : GoMap.get w.views v.name with
  | some ad =>
    obtain ⟨vi, x, h1, h2, h3, h4⟩ := h.some_iff _ ad hg'
    rw [h2]
    simp only
    have hsame := same_iff h3 hg (by simp [hm]) (by simp [ha])
    by_cases hS : Same x v
    · rw [if_pos hS]
      refine ⟨ad, _, ?_, hsub, ?_, hreg⟩
      · simp [Worker.tryRegisterView, hnew, Res.bind, hg', h1, hsame.mpr hS]
      · -- already subscribed: nothing changes
        have hid : w.setSubscribed ad true = w := by
          unfold Worker.setSubscribed
          have : w.vis.modify ad (fun vi => { vi with subscribed := true }) = w.vis := by
            apply List.ext_getElem?
            intro i
            rw [List.getElem?_modify]
            by_cases hi : ad = i
            · subst hi
              rw [h1]
              have := h3.sub
              cases vi
              simp_all
            · cases w.vis[i]? <;> simp [hi]
          rw [this]
        rw [hid]
        exact ⟨h.none_iff, h.some_iff, h.nodup, h.refs, hsubs, h.wf⟩
    · rw [if_neg hS]
      have : same vi.view v = false := by
        rw [Bool.eq_false_iff]; exact fun hc => hS (hsame.mp hc)
      simp [Worker.tryRegisterView, hnew, Res.bind, hg', h1, this]
  | none =>
    have hσ := h.none_iff _ hg'
    rw [hσ]
    simp only
    -- the state after allocating the view
    let vi0 : VI := ⟨v, false, ⟨[], a⟩, desc⟩
    let ad := w.vis.length
    have hmr := getMeasureRef_rel h m.name
    have hfresh : ∀ mn ref, GoMap.get w.measures mn = some ref → ad ∉ ref := by
      intro mn ref hr hc
      obtain ⟨n, x, e1, _, _⟩ := (h.refs mn ad).mp ⟨ref, hr, hc⟩
      obtain ⟨vi, _, e2, _⟩ := h.some_iff n ad e1
      have : w.vis[ad]? = none := List.getElem?_eq_none (Nat.le_refl _)
      rw [this] at e2; simp at e2
    obtain ⟨oref, horef⟩ : ∃ oref : List Nat, oref = (GoMap.get w.measures m.name).getD [] := ⟨_, rfl⟩
    let w' : Worker :=
      { measures := GoMap.set (match GoMap.get w.measures m.name with
          | some _ => w.measures
          | none => GoMap.set w.measures m.name []) m.name (oref ++ [ad])
        views := GoMap.set w.views v.name ad
        viewStartTimes := GoMap.set w.viewStartTimes ad now
        exporters := w.exporters
        vis := w.vis ++ [vi0] }
    have hgetm : ∀ k, GoMap.get w'.measures k =
        if k = m.name then some (oref ++ [ad]) else GoMap.get w.measures k := by
      intro k
      simp only [w', GoMap.get_set]
      split
      · rfl
      · next hk =>
        split
        · rfl
        · rw [GoMap.get_set, if_neg hk]
    refine ⟨w', ad, _, ?_, hsub, ?_, hreg⟩
    · simp only [Worker.tryRegisterView, hnew, Res.bind, hg', hm, Worker.getMeasureRef]
      cases hgm : GoMap.get w.measures m.name with
      | some r => simp [w', vi0, ad, horef, hgm]
      | none => simp [w', vi0, ad, horef, hgm]
    · have hvis : ∀ i, (w'.setSubscribed ad true).vis[i]? =
          if i = ad then some { vi0 with subscribed := true } else w.vis[i]? := by
        intro i
        simp only [Worker.setSubscribed, w', List.getElem?_modify]
        by_cases hi : i = ad
        · subst hi; simp [ad]
        · rw [if_neg hi]
          have hi' : ¬ ad = i := fun hc => hi hc.symm
          simp only [hi', if_false]
          rcases Nat.lt_or_ge i w.vis.length with hlt | hge
          · rw [List.getElem?_append_left hlt]; cases w.vis[i]? <;> rfl
          · have : ad < i := by show w.vis.length < i; have : i ≠ w.vis.length := hi; omega
            rw [List.getElem?_eq_none (by simp; exact this), List.getElem?_eq_none hge]; rfl
      constructor
      · intro n hn
        simp only [Worker.setSubscribed, w', GoMap.get_set] at hn
        split at hn
        · simp at hn
        · next hne => simp [Spec.update, hne, h.none_iff n hn]
      · intro n b hn
        simp only [Worker.setSubscribed, w', GoMap.get_set] at hn
        split at hn
        · next he =>
          simp only [Option.some.injEq] at hn
          subst he hn
          refine ⟨_, ⟨v, a, m, []⟩, by rw [hvis, if_pos rfl], by simp [Spec.update], ?_, rfl⟩
          exact ⟨rfl, ha, hm, rfl, rfl, hg.2 a ha, hs, by simp, by
            simpa [sigRecs] using Collector.holds_nil a, hdesc⟩
        · next hne =>
          obtain ⟨vi, x, e1, e2, e3, e4⟩ := h.some_iff n b hn
          have : b ≠ ad := by
            rintro rfl
            rw [List.getElem?_eq_none (Nat.le_refl _)] at e1; simp at e1
          exact ⟨vi, x, by rw [hvis, if_neg this]; exact e1, by simp [Spec.update, hne, e2], e3, e4⟩
      · intro mn ref hr
        have hr' : GoMap.get w'.measures mn = some ref := hr
        rw [hgetm] at hr'
        split at hr'
        · simp only [Option.some.injEq] at hr'
          subst hr'
          cases hgm : GoMap.get w.measures m.name with
          | none => simp [horef, hgm]
          | some r =>
            have : oref = r := by simp [horef, hgm]
            rw [this, List.nodup_append]
            refine ⟨h.nodup _ _ hgm, by simp, ?_⟩
            intro x hx y hy hxy
            simp at hy
            subst hxy hy
            exact hfresh _ _ hgm hx
        · exact h.nodup mn ref hr'
      · intro mn b
        have hL : (∃ ref, GoMap.get w'.measures mn = some ref ∧ b ∈ ref) ↔
            ((∃ ref, GoMap.get w.measures mn = some ref ∧ b ∈ ref) ∨ (mn = m.name ∧ b = ad)) := by
          rw [hgetm]
          by_cases hmn : mn = m.name
          · subst hmn
            simp only [if_true, Option.some.injEq, exists_eq_left', List.mem_append, List.mem_singleton, true_and]
            cases hgm : GoMap.get w.measures m.name with
            | none => simp [horef, hgm]
            | some r => simp [horef, hgm]
          · simp [hmn]
        show (∃ ref, GoMap.get w'.measures mn = some ref ∧ b ∈ ref) ↔ _
        rw [hL, h.refs mn b]
        constructor
        · rintro (⟨n, x, e1, e2, e3⟩ | ⟨rfl, rfl⟩)
          · have hne : n ≠ v.name := by rintro rfl; rw [hg'] at e1; simp at e1
            exact ⟨n, x, by simp [Worker.setSubscribed, w', GoMap.get_set, hne, e1], by simp [Spec.update, hne, e2], e3⟩
          · exact ⟨v.name, ⟨v, a, m, []⟩, by simp [Worker.setSubscribed, w', ad], by simp [Spec.update], rfl⟩
        · rintro ⟨n, x, e1, e2, e3⟩
          simp only [Worker.setSubscribed, w', GoMap.get_set] at e1
          by_cases hne : n = v.name
          · rw [if_pos hne] at e1
            simp only [Option.some.injEq] at e1
            simp only [Spec.update, if_pos hne, Option.some.injEq] at e2
            subst e2
            exact Or.inr ⟨e3.symm, e1.symm⟩
          · rw [if_neg hne] at e1
            simp only [Spec.update, if_neg hne] at e2
            exact Or.inl ⟨n, x, e1, e2, e3⟩
      · intro n x hx
        simp only [Spec.update] at hx
        split at hx
        · simp only [Option.some.injEq] at hx
          subst hx
          exact ⟨_, GoMap.get_set_same _ _ _, rfl⟩
        · exact hsubs n x hx
      · exact GoMap.WF_set h.wf _ _

theorem goodView_mono {reg reg' : Measures} {v : ViewDef}
    (hr : ∀ k, (GoMap.get reg k).isSome → (GoMap.get reg' k).isSome) (h : GoodView reg v) :
    GoodView reg' v := by
  refine ⟨fun m hm => ⟨(h.1 m hm).1, ?_⟩, h.2⟩
  obtain ⟨d, hd⟩ := (h.1 m hm).2
  exact Option.isSome_iff_exists.mp (hr m.name (by simp [hd]))

theorem registerAll_rel (vs : List ViewDef) {w : Worker} {reg : Measures} {σ : SState}
    (h : Rel w reg σ) (hg : ∀ v ∈ vs, GoodView reg v ∧ KeysSorted v.tagKeys ∧ v.measure ≠ none ∧ v.agg ≠ none)
    (now : Int) :
    ∃ w' reg', w.registerAll reg now vs = .ok (w', reg', (Spec.registerAll σ vs).2) ∧
      Rel w' reg' (Spec.registerAll σ vs).1 ∧
      (∀ k, (GoMap.get reg k).isSome → (GoMap.get reg' k).isSome) := by
  induction vs generalizing w reg σ with
  | nil => exact ⟨w, reg, rfl, h, fun _ hk => hk⟩
  | cons v vs ih =>
    obtain ⟨hgv, hks, hm, ha⟩ := hg v (by simp)
    obtain ⟨m, hm⟩ := Option.ne_none_iff_exists'.mp hm
    obtain ⟨a, ha⟩ := Option.ne_none_iff_exists'.mp ha
    have ht := tryRegister_rel h hgv hm ha hks now
    have hg' : ∀ reg', (∀ k, (GoMap.get reg k).isSome → (GoMap.get reg' k).isSome) →
        ∀ v ∈ vs, GoodView reg' v ∧ KeysSorted v.tagKeys ∧ v.measure ≠ none ∧ v.agg ≠ none := by
      intro reg' hr u hu
      obtain ⟨h1, h2⟩ := hg u (by simp [hu])
      exact ⟨goodView_mono hr h1, h2⟩
    cases hσ : σ v.name with
    | some x =>
      rw [hσ] at ht
      simp only at ht
      by_cases hS : Same x v
      · rw [if_pos hS] at ht
        obtain ⟨ad, reg1, h1, h2, h3, h4⟩ := ht
        obtain ⟨w2, reg2, h5, h6, h7⟩ := ih h3 (hg' reg1 h4)
        refine ⟨w2, reg2, ?_, ?_, fun k hk => h7 k (h4 k hk)⟩
        · simp only [Worker.registerAll, h1, Res.bind, hm, h2, h5, Spec.registerAll, hσ, if_pos hS]
        · simp only [Spec.registerAll, hσ, if_pos hS]; exact h6
      · rw [if_neg hS] at ht
        obtain ⟨w2, reg2, h5, h6, h7⟩ := ih h (hg' reg (fun _ hk => hk))
        refine ⟨w2, reg2, ?_, ?_, h7⟩
        · simp only [Worker.registerAll, ht, Res.bind, h5, Spec.registerAll, hσ, if_neg hS]
        · simp only [Spec.registerAll, hσ, if_neg hS]; exact h6
    | none =>
      rw [hσ] at ht
      simp only at ht
      obtain ⟨w1, ad, reg1, h1, h2, h3, h4⟩ := ht
      obtain ⟨w2, reg2, h5, h6, h7⟩ := ih h3 (hg' reg1 h4)
      refine ⟨w2, reg2, ?_, ?_, fun k hk => h7 k (h4 k hk)⟩
      · simp only [Worker.registerAll, h1, Res.bind, hm, h2, h5, Spec.registerAll, hσ, ha]
      · simp only [Spec.registerAll, hσ, hm, ha]; exact h6

/-! ## Unregistering -/

theorem unregisterOne_rel {w : Worker} {reg : Measures} {σ : SState} (h : Rel w reg σ) {n : Bytes}
    {a : Nat} (hn : GoMap.get w.views n = some a) :
    Rel (((w.setSubscribed a false).clearRows a).unregisterView a) reg (Spec.update σ n none) ∧
    (((w.setSubscribed a false).clearRows a).unregisterView a).exporters = w.exporters := by
  obtain ⟨vi, x, h1, h2, h3, h4⟩ := h.some_iff n a hn
  let w2 := (w.setSubscribed a false).clearRows a
  have hv2 : ∀ i, i ≠ a → w2.vis[i]? = w.vis[i]? := by
    intro i hi
    have hi' : ¬ a = i := fun hc => hi hc.symm
    simp only [w2, Worker.clearRows, Worker.setSubscribed, List.getElem?_modify, hi', if_false]
    cases w.vis[i]? <;> rfl
  have hva : w2.vis[a]? = some { vi with subscribed := false, collector := vi.collector.clearRows } := by
    simp [w2, Worker.clearRows, Worker.setSubscribed, h1]
  have hname : vi.view.name = n := by rw [h3.view]; exact h4
  have hmeas : vi.view.measure = some x.measure := by rw [h3.view]; exact h3.measure
  have hmem : ∃ ref, GoMap.get w.measures x.measure.name = some ref ∧ a ∈ ref :=
    (h.refs _ a).mpr ⟨n, x, hn, h2, rfl⟩
  obtain ⟨ref, href, _⟩ := hmem
  have hun : w2.unregisterView a =
      { w2 with views := GoMap.del w.views n
                viewStartTimes := GoMap.del w.viewStartTimes a
                measures := GoMap.set w.measures x.measure.name (ref.filter (· ≠ a)) } := by
    simp only [Worker.unregisterView, hva, hname, hmeas]
    have : GoMap.get w2.measures x.measure.name = some ref := href
    simp only [this]
    rfl
  rw [show ((w.setSubscribed a false).clearRows a) = w2 from rfl, hun]
  refine ⟨?_, rfl⟩
  have hne_addr : ∀ n' b, n' ≠ n → GoMap.get w.views n' = some b → b ≠ a := by
    rintro n' b hne hb rfl
    exact hne (h.inj hb hn)
  constructor
  · intro n' hn'
    simp only [GoMap.get_del] at hn'
    by_cases he : n' = n
    · simp [Spec.update, he]
    · rw [if_neg he] at hn'; simp [Spec.update, he, h.none_iff n' hn']
  · intro n' b hn'
    simp only [GoMap.get_del] at hn'
    by_cases he : n' = n
    · rw [if_pos he] at hn'; simp at hn'
    · rw [if_neg he] at hn'
      obtain ⟨vi', x', e1, e2, e3, e4⟩ := h.some_iff n' b hn'
      exact ⟨vi', x', by rw [hv2 b (hne_addr n' b he hn')]; exact e1, by simp [Spec.update, he, e2], e3, e4⟩
  · intro mn r hr
    simp only [GoMap.get_set] at hr
    split at hr
    · simp only [Option.some.injEq] at hr
      subst hr
      exact (h.nodup _ _ href).filter _
    · exact h.nodup mn r hr
  · intro mn b
    simp only [GoMap.get_set]
    constructor
    · rintro ⟨r, hr, hb⟩
      have hold : b ≠ a ∧ ∃ r, GoMap.get w.measures mn = some r ∧ b ∈ r := by
        split at hr
        · next he =>
          simp only [Option.some.injEq] at hr
          subst hr he
          simp only [List.mem_filter, decide_eq_true_eq] at hb
          exact ⟨hb.2, ref, href, hb.1⟩
        · next he =>
          refine ⟨?_, r, hr, hb⟩
          rintro rfl
          obtain ⟨n', x', e1, e2, e3⟩ := (h.refs mn b).mp ⟨r, hr, hb⟩
          have : n' = n := h.inj e1 hn
          subst this
          rw [h2] at e2
          simp only [Option.some.injEq] at e2
          subst e2
          exact he e3.symm
      obtain ⟨n', x', e1, e2, e3⟩ := (h.refs mn b).mp hold.2
      have hne : n' ≠ n := by
        rintro rfl
        rw [hn] at e1
        simp only [Option.some.injEq] at e1
        exact hold.1 e1.symm
      exact ⟨n', x', by rw [GoMap.get_del, if_neg hne]; exact e1, by simp [Spec.update, hne, e2], e3⟩
    · rintro ⟨n', x', e1, e2, e3⟩
      rw [GoMap.get_del] at e1
      by_cases hne : n' = n
      · rw [if_pos hne] at e1; simp at e1
      · rw [if_neg hne] at e1
        simp only [Spec.update, if_neg hne] at e2
        have hba := hne_addr n' b hne e1
        obtain ⟨r, hr, hb⟩ := (h.refs mn b).mpr ⟨n', x', e1, e2, e3⟩
        split
        · next he =>
          subst he
          rw [href] at hr
          simp only [Option.some.injEq] at hr
          subst hr
          exact ⟨_, rfl, by simp [hb, hba]⟩
        · exact ⟨r, hr, hb⟩
  · intro n' x' hx'
    simp only [Spec.update] at hx'
    split at hx'
    · simp at hx'
    · exact h.subs n' x' hx'
  · exact GoMap.WF_del h.wf _

/-- What the exporters are handed for a view. -/
def ExportsOf (exporters : List Nat) (x : SView) (es : List Export) : Prop :=
  es.map (·.exporter) = exporters ∧ ∀ e ∈ es, e.view = x.view ∧ RowsFor x e.rows

theorem reportView_rel {w : Worker} {reg : Measures} {σ : SState} (h : Rel w reg σ) {n : Bytes}
    {a : Nat} (hn : GoMap.get w.views n = some a) (now : Int) :
    ∃ es x, w.reportView a now = .ok es ∧ σ n = some x ∧ ExportsOf w.exporters x es := by
  obtain ⟨vi, x, h1, h2, h3, h4⟩ := h.some_iff n a hn
  obtain ⟨rows, h5, h6⟩ := h3.rows
  refine ⟨_, x, by simp [Worker.reportView, h1, h3.sub, h5, Res.bind]; rfl, h2, ?_, ?_⟩
  · simp [Function.comp_def]
  · intro e he
    simp only [List.mem_map] at he
    obtain ⟨_, _, rfl⟩ := he
    exact ⟨h3.view, h6⟩

theorem unregister_rel (ns : List Bytes) (now : Int) {w : Worker} {reg : Measures} {σ : SState}
    (h : Rel w reg σ) :
    ∃ w' es, w.unregister now ns = .ok (w', es) ∧ Rel w' reg (Spec.unregister σ ns) ∧
      w'.exporters = w.exporters := by
  induction ns generalizing w σ with
  | nil => exact ⟨w, [], rfl, h, rfl⟩
  | cons n ns ih =>
    cases hn : GoMap.get w.views n with
    | none =>
      have : Spec.update σ n none = σ := by
        funext k
        simp only [Spec.update]
        split
        · next he => subst he; exact (h.none_iff k hn).symm
        · rfl
      simp only [Worker.unregister, hn, Spec.unregister, this]
      exact ih h
    | some a =>
      obtain ⟨es, x, h1, h2, h3⟩ := reportView_rel h hn now
      obtain ⟨h4, h5⟩ := unregisterOne_rel h hn
      obtain ⟨w', es', h6, h7, h8⟩ := ih h4
      refine ⟨w', es ++ es', ?_, h7, by rw [h8, h5]⟩
      simp only [Worker.unregister, hn, h1, Res.bind, h6]

theorem reportAll_ok {w : Worker} {reg : Measures} {σ : SState} (h : Rel w reg σ) (now : Int)
    (l : List (Bytes × Nat)) (hl : ∀ p ∈ l, GoMap.get w.views p.1 = some p.2) :
    ∃ es, w.reportAll now l = .ok es ∧
      ∀ e, e ∈ es → ∃ p ∈ l, ∃ x, σ p.1 = some x ∧ e.view = x.view ∧ RowsFor x e.rows ∧ e.exporter ∈ w.exporters := by
  induction l with
  | nil => exact ⟨[], rfl, by simp⟩
  | cons p l ih =>
    obtain ⟨n, a⟩ := p
    obtain ⟨es, x, h1, h2, h3, h4⟩ := reportView_rel h (hl (n, a) (by simp)) now
    obtain ⟨es', h5, h6⟩ := ih (fun p hp => hl p (by simp [hp]))
    refine ⟨es ++ es', by simp [Worker.reportAll, h1, h5, Res.bind], ?_⟩
    intro e he
    simp only [List.mem_append] at he
    rcases he with he | he
    · refine ⟨(n, a), by simp, x, h2, (h4 e he).1, (h4 e he).2, ?_⟩
      rw [← h3]; exact List.mem_map_of_mem he
    · obtain ⟨p, hp, rest⟩ := h6 e he
      exact ⟨p, by simp [hp], rest⟩

/-! ## All commands -/

theorem rel_exporters {w : Worker} {reg : Measures} {σ : SState} (h : Rel w reg σ) (es : List Nat) :
    Rel { w with exporters := es } reg σ :=
  ⟨h.none_iff, h.some_iff, h.nodup, h.refs, h.subs, h.wf⟩

theorem handle_rel {w : Worker} {reg : Measures} {σ : SState} (h : Rel w reg σ) (cmd : Cmd)
    (hg : GoodCmd reg cmd) :
    ∃ w' reg' r es, handle w reg cmd = .ok (w', reg', r, es) ∧ Rel w' reg' (Spec.step σ cmd) ∧
      ReplyOK σ cmd r ∧ (∀ k, (GoMap.get reg k).isSome → (GoMap.get reg' k).isSome) := by
  cases cmd with
  | register now vs =>
    cases hc : canonicalizeAll vs with
    | error e =>
      refine ⟨w, reg, .registered (.invalid e), [], ?_, ?_, ?_, fun _ hk => hk⟩
      · simp [handle, Worker.register, hc, Res.bind]
      · simpa [Spec.step, hc] using h
      · simp [ReplyOK, hc]
    | ok vs' =>
      have hg' := canonicalizeAll_good hc hg
      obtain ⟨w', reg', h1, h2, h3⟩ := registerAll_rel vs' h hg' now
      refine ⟨w', reg', .registered (if (Spec.registerAll σ vs').2 = [] then .ok
        else .conflict (Spec.registerAll σ vs').2), [], ?_, ?_, ?_, h3⟩
      · simp only [handle, Worker.register, hc, h1, Res.bind]
        congr 4
        by_cases he : (Spec.registerAll σ vs').2 = []
        · simp [he]
        · have : (Spec.registerAll σ vs').2.length > 0 := List.length_pos_iff.mpr he
          simp [he, this]
      · simpa [Spec.step, hc] using h2
      · simp [ReplyOK, hc]
  | unregister now ns =>
    obtain ⟨w', es, h1, h2, _⟩ := unregister_rel ns now h
    exact ⟨w', reg, .none, es, by simp [handle, h1, Res.bind], h2, rfl, fun _ hk => hk⟩
  | retrieve n =>
    obtain ⟨r, h1, h2⟩ := retrieveData_rel h n
    exact ⟨w, reg, .rows r, [], by simp [handle, h1, Res.bind], h, h2, fun _ hk => hk⟩
  | record t r =>
    obtain ⟨w', h1, h2, _⟩ := recordLoop_rel r.tags r.attachments t hg r.ms h
    exact ⟨w', reg, .none, [], by simp [handle, Worker.record, h1, Res.bind], h2, rfl, fun _ hk => hk⟩
  | find n =>
    exact ⟨w, reg, .found ((σ n).map (fun x : SView => x.view)), [], by simp [handle, find_rel h, Res.bind], h, by simp [ReplyOK],
      fun _ hk => hk⟩
  | setPeriod d => exact ⟨w, reg, .none, [], rfl, h, rfl, fun _ hk => hk⟩
  | tick now =>
    obtain ⟨es, h1, _⟩ := reportAll_ok h now w.views (by
      intro p hp; exact GoMap.get_of_mem h.wf hp)
    exact ⟨w, reg, .none, es, by simp [handle, Worker.reportUsage, h1, Res.bind], h, rfl, fun _ hk => hk⟩
  | addExporter e => exact ⟨_, reg, .none, [], rfl, rel_exporters h _, rfl, fun _ hk => hk⟩
  | delExporter e => exact ⟨_, reg, .none, [], rfl, rel_exporters h _, rfl, fun _ hk => hk⟩

end Verif.View
