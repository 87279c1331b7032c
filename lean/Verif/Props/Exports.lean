import Verif.Props.Worker
import Verif.Props.Recording

/-!
# What exporters of views are handed (C60)

`ExportView` is called on every tick of the reporting timer and when a view is unregistered. The
specification is a machine whose state is the abstract state of the views (`Spec.SState`), the time
at which each name was registered, and the set of exporters.
-/

namespace Verif.Props.Exports
open Verif Verif.Tag Verif.Stats Verif.View Verif.View.Spec Verif.Props.Rows Verif.Props.Worker

/-! ## Specification -/

structure EState where
  views : SState
  since : Bytes → Int
  exps : Nat → Bool

def init : EState := ⟨Spec.empty, fun _ => 0, fun _ => false⟩

def step (s : EState) (c : Cmd) : EState where
  views := Spec.step s.views c
  since := match c with
    | .register now _ => fun n => if (s.views n).isNone then now else s.since n
    | _ => s.since
  exps := match c with
    | .addExporter e => fun i => i == e || s.exps i
    | .delExporter e => fun i => i != e && s.exps i
    | _ => s.exps

def eRun (s : EState) : List Cmd → EState
  | [] => s
  | c :: cs => eRun (step s c) cs

/-- The command makes the worker report the view named `n` at time `now`. -/
def Due (n : Bytes) (now : Int) : Cmd → Prop
  | .tick t => t = now
  | .unregister t ns => t = now ∧ n ∈ ns
  | _ => False

/-- The export is for this exporter and the view of this name. -/
def IsFor (i : Nat) (n : Bytes) (e : Export) : Bool := decide (e.exporter = i ∧ e.view.name = n)

/-- What a command that is handled in state `s` must export: for every registered view that is due
and every exporter exactly one `Data`, and no other. -/
structure ExportsOK (s : EState) (c : Cmd) (es : List Export) : Prop where
  sound : ∀ e ∈ es, ∃ n x, Due n e.stop c ∧ s.views n = some x ∧ s.exps e.exporter = true ∧
    e.view = x.view ∧ e.view.name = n ∧ e.start = s.since n ∧ RowsFor x e.rows
  once : ∀ n x now i, Due n now c → s.views n = some x → s.exps i = true →
    (es.filter (IsFor i n)).length = 1

/-- The exports of a history. -/
def AllExportsOK (s : EState) : List Cmd → List (List Export) → Prop
  | [], ess => ess = []
  | c :: cs, ess => ∃ es ess', ess = es :: ess' ∧ ExportsOK s c es ∧ AllExportsOK (step s c) cs ess'

/-! ## The invariant -/

/-- The start times and the exporters of the worker are those of the specification. -/
structure ERel (w : Worker) (since : Bytes → Int) (exps : Nat → Bool) : Prop where
  since : ∀ n a, GoMap.get w.views n = some a → GoMap.get w.viewStartTimes a = some (since n)
  exps : ∀ i, i ∈ w.exporters ↔ exps i = true
  nodup : w.exporters.Nodup

theorem isNone_views {w : Worker} {reg : Measures} {σ : SState} (h : Rel w reg σ) (n : Bytes) :
    (GoMap.get w.views n).isNone = (σ n).isNone := by
  cases hg : GoMap.get w.views n with
  | none => rw [h.none_iff n hg]; rfl
  | some a =>
    obtain ⟨_, x, _, hx, _, _⟩ := h.some_iff n a hg
    rw [hx]; rfl

theorem tryRegisterView_cases {w w' : Worker} {v : ViewDef} {now : Int} {r : Option Nat}
    (h : w.tryRegisterView v now = .ok (w', r)) :
    w' = w ∧ (GoMap.get w.views v.name ≠ none) ∨
    (GoMap.get w.views v.name = none ∧ r = some w.vis.length ∧
      w'.views = GoMap.set w.views v.name w.vis.length ∧
      w'.viewStartTimes = GoMap.set w.viewStartTimes w.vis.length now ∧
      w'.exporters = w.exporters) := by
  unfold Worker.tryRegisterView at h
  cases hn : newViewInternal v with
  | err => rw [hn] at h; cases h
  | panic => rw [hn] at h; cases h
  | ok vi =>
    rw [hn] at h
    simp only [Res.bind] at h
    cases hg : GoMap.get w.views v.name with
    | some a =>
      rw [hg] at h
      simp only at h
      left
      refine ⟨?_, by simp⟩
      cases hv : w.vis[a]? with
      | none => rw [hv] at h; cases h
      | some x =>
        rw [hv] at h
        simp only at h
        split at h <;> · simp only [Res.ok.injEq, Prod.mk.injEq] at h; exact h.1.symm
    | none =>
      rw [hg] at h
      simp only at h
      right
      cases hm : v.measure with
      | none => rw [hm] at h; cases h
      | some m =>
        rw [hm] at h
        simp only [Res.ok.injEq, Prod.mk.injEq] at h
        obtain ⟨h1, h2⟩ := h
        have hr := getMeasureRef_rest { w with vis := w.vis ++ [vi],
                                                views := GoMap.set w.views v.name w.vis.length,
                                                viewStartTimes := GoMap.set w.viewStartTimes w.vis.length now } m.name
        refine ⟨rfl, h2.symm, ?_, ?_, ?_⟩
        · rw [← h1]
          simp only [Worker.getMeasureRef]
          split <;> rfl
        · rw [← h1]; exact hr.1
        · rw [← h1]; exact hr.2

theorem setSubscribed_erel {w : Worker} {since : Bytes → Int} {exps : Nat → Bool}
    (h : ERel w since exps) (a : Nat) (b : Bool) : ERel (w.setSubscribed a b) since exps :=
  ⟨h.since, h.exps, h.nodup⟩

theorem registerAll_erel (vs : List ViewDef) {w : Worker} {reg : Measures} {σ : SState}
    (h : Rel w reg σ)
    (hg : ∀ v ∈ vs, GoodView reg v ∧ KeysSorted v.tagKeys ∧ v.measure ≠ none ∧ v.agg ≠ none)
    (now : Int) {since : Bytes → Int} {exps : Nat → Bool} (he : ERel w since exps)
    {w' : Worker} {reg' : Measures} {errs : List Bytes}
    (hr : w.registerAll reg now vs = .ok (w', reg', errs)) :
    ERel w' (fun n => if (GoMap.get w.views n).isNone then now else since n) exps := by
  induction vs generalizing w reg σ since w' reg' errs with
  | nil =>
    simp only [Worker.registerAll, Res.ok.injEq, Prod.mk.injEq] at hr
    obtain ⟨rfl, _, _⟩ := hr
    refine ⟨?_, he.exps, he.nodup⟩
    intro n a hn
    rw [he.since n a hn, hn]; simp
  | cons v vs ih =>
    obtain ⟨hgv, hks, hm, ha⟩ := hg v (by simp)
    obtain ⟨m, hm⟩ := Option.ne_none_iff_exists'.mp hm
    obtain ⟨a, ha⟩ := Option.ne_none_iff_exists'.mp ha
    have ht := tryRegister_rel h hgv hm ha hks now
    have hg' : ∀ reg', (∀ k, (GoMap.get reg k).isSome → (GoMap.get reg' k).isSome) →
        ∀ v ∈ vs, GoodView reg' v ∧ KeysSorted v.tagKeys ∧ v.measure ≠ none ∧ v.agg ≠ none := by
      intro reg' hr u hu
      obtain ⟨h1, h2⟩ := hg u (by simp [hu])
      exact ⟨goodView_mono hr h1, h2⟩
    cases hσ : σ v.name with
    | some x =>
      rw [hσ] at ht
      simp only at ht
      by_cases hS : Same x v
      · rw [if_pos hS] at ht
        obtain ⟨ad, reg1, h1, h2, h3, h4⟩ := ht
        simp only [Worker.registerAll, h1, Res.bind, hm, h2] at hr
        exact ih h3 (hg' reg1 h4) (setSubscribed_erel he ad true) hr
      · rw [if_neg hS] at ht
        simp only [Worker.registerAll, ht, Res.bind] at hr
        cases hrest : w.registerAll reg now vs with
        | err => rw [hrest] at hr; cases hr
        | panic => rw [hrest] at hr; cases hr
        | ok p =>
          obtain ⟨w2, reg2, errs2⟩ := p
          rw [hrest] at hr
          simp only [Res.ok.injEq, Prod.mk.injEq] at hr
          obtain ⟨rfl, _, _⟩ := hr
          exact ih h (hg' reg (fun _ hk => hk)) he hrest
    | none =>
      rw [hσ] at ht
      simp only at ht
      obtain ⟨w1, ad, reg1, h1, h2, h3, h4⟩ := ht
      simp only [Worker.registerAll, h1, Res.bind, hm, h2] at hr
      rcases tryRegisterView_cases h1 with ⟨_, hc⟩ | ⟨c1, c2, c3, c4, c5⟩
      · have := isNone_views h v.name
        rw [hσ] at this
        exact absurd (Option.isNone_iff_eq_none.mp this) hc
      · have he1 : ERel w1 (fun n => if n = v.name then now else since n) exps := by
          refine ⟨?_, by rw [c5]; exact he.exps, by rw [c5]; exact he.nodup⟩
          intro n b hn
          rw [c3, GoMap.get_set] at hn
          rw [c4, GoMap.get_set]
          by_cases hnv : n = v.name
          · rw [if_pos hnv] at hn
            simp only [Option.some.injEq] at hn
            simp [hn, hnv]
          · rw [if_neg hnv] at hn
            obtain ⟨vi, _, e1, _⟩ := h.some_iff n b hn
            have : b ≠ w.vis.length := by
              rintro rfl
              rw [List.getElem?_eq_none (Nat.le_refl _)] at e1; simp at e1
            rw [if_neg this, he.since n b hn, if_neg hnv]
        have := ih h3 (hg' reg1 h4) (setSubscribed_erel he1 ad true) hr
        refine ⟨?_, this.exps, this.nodup⟩
        intro n b hn
        rw [this.since n b hn]
        congr 1
        have hv1 : (w1.setSubscribed ad true).views = GoMap.set w.views v.name w.vis.length := c3
        rw [hv1, GoMap.get_set]
        by_cases hnv : n = v.name
        · simp [hnv, c1]
        · simp [hnv]

theorem addToViews_rest (tm : Option TMap) (s : Sample F64) (as : List Nat) {w w' : Worker}
    (h : w.addToViews tm s as = .ok w') :
    w'.views = w.views ∧ w'.viewStartTimes = w.viewStartTimes ∧ w'.exporters = w.exporters := by
  induction as generalizing w with
  | nil => simp only [Worker.addToViews, Res.ok.injEq] at h; subst h; exact ⟨rfl, rfl, rfl⟩
  | cons a as ih =>
    simp only [Worker.addToViews] at h
    cases hv : w.vis[a]? with
    | none => rw [hv] at h; cases h
    | some vi =>
      rw [hv] at h
      simp only at h
      cases hs : vi.addSample tm s with
      | err => rw [hs] at h; cases h
      | panic => rw [hs] at h; cases h
      | ok vi' =>
        rw [hs] at h
        exact ih (w := { w with vis := w.vis.set a vi' }) h

theorem recordLoop_rest (tm : Option TMap) (att : Attachments) (t : Int)
    (ms : List (Option Measurement)) {w w' : Worker} (h : w.recordLoop tm att t ms = .ok w') :
    w'.views = w.views ∧ w'.viewStartTimes = w.viewStartTimes ∧ w'.exporters = w.exporters := by
  induction ms generalizing w with
  | nil => simp only [Worker.recordLoop, Res.ok.injEq] at h; subst h; exact ⟨rfl, rfl, rfl⟩
  | cons m ms ih =>
    cases m with
    | none => exact ih h
    | some m =>
      simp only [Worker.recordLoop] at h
      cases hs : (w.getMeasureRef m.m.name).1.addToViews tm ⟨m.v, att, t⟩ (w.getMeasureRef m.m.name).2 with
      | err => rw [hs] at h; cases h
      | panic => rw [hs] at h; cases h
      | ok w1 =>
        rw [hs] at h
        obtain ⟨h1, h2, h3⟩ := ih h
        obtain ⟨h4, h5, h6⟩ := addToViews_rest tm _ _ hs
        have hr := getMeasureRef_rest w m.m.name
        refine ⟨?_, by rw [h2, h5, hr.1], by rw [h3, h6, hr.2]⟩
        rw [h1, h4]
        unfold Worker.getMeasureRef
        split <;> rfl

/-! ## Reporting -/

/-- What one view's report holds. -/
theorem reportView_spec {w : Worker} {reg : Measures} {σ : SState} (h : Rel w reg σ)
    {since : Bytes → Int} {exps : Nat → Bool} (he : ERel w since exps) {n : Bytes} {a : Nat}
    (hn : GoMap.get w.views n = some a) (now : Int) {x : SView} (hx : σ n = some x) :
    ∃ rows, w.reportView a now = .ok (w.exporters.map fun e => ⟨e, x.view, since n, now, rows⟩) ∧
      RowsFor x rows ∧ x.view.name = n := by
  obtain ⟨vi, x', h1, h2, h3, h4⟩ := h.some_iff n a hn
  rw [hx] at h2
  simp only [Option.some.injEq] at h2
  subst h2
  obtain ⟨rows, h5, h6⟩ := h3.rows
  rw [h3.view] at h5
  refine ⟨rows, ?_, h6, h4⟩
  simp [Worker.reportView, h1, h3.sub, h5, Res.bind, he.since n a hn, h3.view]

theorem filter_own {exporters : List Nat} (hnd : exporters.Nodup) (v : ViewDef) (st sp : Int)
    (rows : List (Row F64)) {i : Nat} (hi : i ∈ exporters) :
    ((exporters.map fun e => (⟨e, v, st, sp, rows⟩ : Export)).filter (IsFor i v.name)).length = 1 := by
  rw [List.filter_map, List.length_map]
  have : (IsFor i v.name ∘ fun e => (⟨e, v, st, sp, rows⟩ : Export)) = fun e => e == i := by
    funext e; by_cases hei : e = i <;> simp [IsFor, hei]
  rw [this, ← List.countP_eq_length_filter]
  show exporters.count i = 1
  exact List.count_eq_one_of_mem hnd hi

theorem filter_other (exporters : List Nat) {v : ViewDef} (st sp : Int)
    (rows : List (Row F64)) (i : Nat) {n : Bytes} (hn : v.name ≠ n) :
    ((exporters.map fun e => (⟨e, v, st, sp, rows⟩ : Export)).filter (IsFor i n)) = [] := by
  rw [List.filter_eq_nil_iff]
  intro e he
  simp only [List.mem_map] at he
  obtain ⟨_, _, rfl⟩ := he
  simp [IsFor, hn]

/-- One tick, whatever the order in which the map of views is ranged over. -/
theorem reportAll_spec {w : Worker} {reg : Measures} {σ : SState} (h : Rel w reg σ)
    {since : Bytes → Int} {exps : Nat → Bool} (he : ERel w since exps) (now : Int)
    (l : List (Bytes × Nat)) (hl : ∀ p ∈ l, GoMap.get w.views p.1 = some p.2)
    (hnd : (l.map Prod.fst).Nodup) :
    ∃ es, w.reportAll now l = .ok es ∧
      (∀ e ∈ es, ∃ n x, n ∈ l.map Prod.fst ∧ e.stop = now ∧ σ n = some x ∧ exps e.exporter = true ∧
        e.view = x.view ∧ e.view.name = n ∧ e.start = since n ∧ RowsFor x e.rows) ∧
      (∀ n i, n ∈ l.map Prod.fst → exps i = true → (es.filter (IsFor i n)).length = 1) := by
  induction l with
  | nil => exact ⟨[], rfl, by simp, by simp⟩
  | cons p l ih =>
    obtain ⟨n, a⟩ := p
    have hn := hl (n, a) (by simp)
    obtain ⟨_, x, _, hx, _, _⟩ := h.some_iff n a hn
    obtain ⟨rows, h1, h2, h3⟩ := reportView_spec h he hn now hx
    simp only [List.map_cons, List.nodup_cons] at hnd
    obtain ⟨es, h4, h5, h6⟩ := ih (fun p hp => hl p (by simp [hp])) hnd.2
    refine ⟨_, by simp only [Worker.reportAll, h1, h4, Res.bind]; rfl, ?_, ?_⟩
    · intro e hem
      rw [List.mem_append] at hem
      rcases hem with hem | hem
      · simp only [List.mem_map] at hem
        obtain ⟨i, hi, rfl⟩ := hem
        exact ⟨n, x, by simp, rfl, hx, (he.exps i).mp hi, rfl, h3, rfl, h2⟩
      · obtain ⟨n', x', h7, rest⟩ := h5 e hem
        exact ⟨n', x', by simp only [List.map_cons, List.mem_cons]; exact Or.inr h7, rest⟩
    · intro n' i hn' hi
      rw [List.filter_append, List.length_append]
      simp only [List.map_cons, List.mem_cons] at hn'
      by_cases hnn : n' = n
      · subst hnn
        have hnone : es.filter (IsFor i n') = [] := by
          rw [List.filter_eq_nil_iff]
          intro e hem
          obtain ⟨n2, x2, h7, _, _, _, _, h8, _⟩ := h5 e hem
          have : n2 ≠ n' := by rintro rfl; exact hnd.1 h7
          simp [IsFor, h8, this]
        rw [hnone]
        have := filter_own he.nodup x.view (since n') now rows ((he.exps i).mpr hi)
        rw [h3] at this
        simpa using this
      · have hne : x.view.name ≠ n' := by rw [h3]; exact fun hc => hnn hc.symm
        rw [filter_other _ _ _ _ _ hne]
        simpa using h6 n' i (hn'.resolve_left hnn) hi

theorem unregister_spec (ns : List Bytes) (now : Int) {w : Worker} {reg : Measures} {σ : SState}
    (h : Rel w reg σ) {since : Bytes → Int} {exps : Nat → Bool} (he : ERel w since exps)
    {w' : Worker} {es : List Export} (hu : w.unregister now ns = .ok (w', es)) :
    ERel w' since exps ∧
      (∀ e ∈ es, ∃ n x, n ∈ ns ∧ e.stop = now ∧ σ n = some x ∧ exps e.exporter = true ∧
        e.view = x.view ∧ e.view.name = n ∧ e.start = since n ∧ RowsFor x e.rows) ∧
      (∀ n x i, n ∈ ns → σ n = some x → exps i = true → (es.filter (IsFor i n)).length = 1) := by
  induction ns generalizing w σ w' es with
  | nil =>
    simp only [Worker.unregister, Res.ok.injEq, Prod.mk.injEq] at hu
    obtain ⟨rfl, rfl⟩ := hu
    exact ⟨he, by simp, by simp⟩
  | cons n ns ih =>
    cases hn : GoMap.get w.views n with
    | none =>
      simp only [Worker.unregister, hn] at hu
      obtain ⟨h1, h2, h3⟩ := ih h he hu
      have hσn := h.none_iff n hn
      refine ⟨h1, ?_, ?_⟩
      · intro e hem
        obtain ⟨n', x', h4, rest⟩ := h2 e hem
        exact ⟨n', x', List.mem_cons_of_mem _ h4, rest⟩
      · intro n' x' i hn' hx' hi
        rcases List.mem_cons.mp hn' with rfl | hn'
        · rw [hσn] at hx'; cases hx'
        · exact h3 n' x' i hn' hx' hi
    | some a =>
      obtain ⟨vi, x, hvi, hx, hvr, hname⟩ := h.some_iff n a hn
      obtain ⟨rows, h1, h2, h3⟩ := reportView_spec h he hn now hx
      obtain ⟨h4, h5⟩ := unregisterOne_rel h hn
      simp only [Worker.unregister, hn, h1, Res.bind] at hu
      cases hrest : (((w.setSubscribed a false).clearRows a).unregisterView a).unregister now ns with
      | err => rw [hrest] at hu; cases hu
      | panic => rw [hrest] at hu; cases hu
      | ok p =>
        obtain ⟨w2, es2⟩ := p
        rw [hrest] at hu
        simp only [Res.ok.injEq, Prod.mk.injEq] at hu
        obtain ⟨rfl, rfl⟩ := hu
        have he1 : ERel (((w.setSubscribed a false).clearRows a).unregisterView a) since exps := by
          refine ⟨?_, by rw [h5]; exact he.exps, by rw [h5]; exact he.nodup⟩
          intro n' b hb
          have hva : ((w.setSubscribed a false).clearRows a).vis[a]? =
              some { vi with subscribed := false, collector := vi.collector.clearRows } := by
            simp [Worker.clearRows, Worker.setSubscribed, hvi]
          have hviews : (((w.setSubscribed a false).clearRows a).unregisterView a).views
              = GoMap.del w.views n ∧
              (((w.setSubscribed a false).clearRows a).unregisterView a).viewStartTimes
              = GoMap.del w.viewStartTimes a := by
            have hvn : vi.view.name = n := by rw [hvr.view]; exact hname
            unfold Worker.unregisterView
            rw [hva]
            simp only
            split
            · exact ⟨by rw [hvn]; rfl, rfl⟩
            · split
              · exact ⟨by rw [hvn]; rfl, rfl⟩
              · exact ⟨by rw [hvn]; rfl, rfl⟩
          rw [hviews.1, GoMap.get_del] at hb
          rw [hviews.2, GoMap.get_del]
          by_cases hnn : n' = n
          · rw [if_pos hnn] at hb; cases hb
          · rw [if_neg hnn] at hb
            have : b ≠ a := by
              rintro rfl
              exact hnn (h.inj hb hn)
            rw [if_neg this]
            exact he.since n' b hb
        obtain ⟨h6, h7, h8⟩ := ih h4 he1 hrest
        have hnone : ∀ i, es2.filter (IsFor i n) = [] := by
          intro i
          rw [List.filter_eq_nil_iff]
          intro e hem
          obtain ⟨n2, x2, _, _, hx2, _, _, hn2, _⟩ := h7 e hem
          have : n2 ≠ n := by
            rintro rfl
            simp [Spec.update] at hx2
          simp [IsFor, hn2, this]
        refine ⟨h6, ?_, ?_⟩
        · intro e hem
          rw [List.mem_append] at hem
          rcases hem with hem | hem
          · simp only [List.mem_map] at hem
            obtain ⟨i, hi, rfl⟩ := hem
            exact ⟨n, x, by simp, rfl, hx, (he.exps i).mp hi, rfl, h3, rfl, h2⟩
          · obtain ⟨n', x', g1, g2, g3, rest⟩ := h7 e hem
            refine ⟨n', x', List.mem_cons_of_mem _ g1, g2, ?_, rest⟩
            simp only [Spec.update] at g3
            split at g3
            · cases g3
            · exact g3
        · intro n' x' i hn' hx' hi
          rw [List.filter_append, List.length_append]
          by_cases hnn : n' = n
          · subst hnn
            rw [hnone]
            have := filter_own he.nodup x.view (since n') now rows ((he.exps i).mpr hi)
            rw [h3] at this
            simpa using this
          · have hne : x.view.name ≠ n' := by rw [h3]; exact fun hc => hnn hc.symm
            rw [filter_other _ _ _ _ _ hne]
            have hn'' := (List.mem_cons.mp hn').resolve_left hnn
            simpa using h8 n' x' i hn'' (by simp [Spec.update, hnn, hx']) hi

/-! ## Every command -/

theorem handle_exports {w : Worker} {reg : Measures} {s : EState} (h : Rel w reg s.views)
    (he : ERel w s.since s.exps) (c : Cmd) (hg : GoodCmd reg c) {w' : Worker} {reg' : Measures}
    {r : Reply} {es : List Export} (hh : handle w reg c = .ok (w', reg', r, es)) :
    ERel w' (step s c).since (step s c).exps ∧ ExportsOK s c es := by
  have quiet : ∀ {c : Cmd}, (∀ n now, ¬ Due n now c) → ExportsOK s c [] := by
    intro c hd
    exact ⟨by simp, fun n x now i hdue => absurd hdue (hd n now)⟩
  cases c with
  | register now vs =>
    simp only [handle, Worker.register] at hh
    cases hc : canonicalizeAll vs with
    | error e =>
      rw [hc] at hh
      simp only [Res.bind, Res.ok.injEq, Prod.mk.injEq] at hh
      obtain ⟨rfl, _, _, rfl⟩ := hh
      refine ⟨⟨?_, he.exps, he.nodup⟩, quiet (by simp [Due])⟩
      intro n a hn
      rw [he.since n a hn]
      obtain ⟨_, x, _, hx, _⟩ := h.some_iff n a hn
      simp [step, hx]
    | ok vs' =>
      rw [hc] at hh
      simp only at hh
      cases hr : w.registerAll reg now vs' with
      | err => rw [hr] at hh; cases hh
      | panic => rw [hr] at hh; cases hh
      | ok p =>
        obtain ⟨w1, reg1, errs⟩ := p
        rw [hr] at hh
        simp only [Res.bind, Res.ok.injEq, Prod.mk.injEq] at hh
        obtain ⟨rfl, _, _, rfl⟩ := hh
        refine ⟨?_, quiet (by simp [Due])⟩
        have := registerAll_erel vs' h (canonicalizeAll_good hc hg) now he hr
        have hf : (fun n => if (GoMap.get w.views n).isNone = true then now else s.since n) =
            (step s (.register now vs)).since := by
          funext n; simp only [step, isNone_views h n]
        rw [hf] at this
        exact this
  | unregister now ns =>
    simp only [handle] at hh
    cases hu : w.unregister now ns with
    | err => rw [hu] at hh; cases hh
    | panic => rw [hu] at hh; cases hh
    | ok p =>
      obtain ⟨w1, es1⟩ := p
      rw [hu] at hh
      simp only [Res.bind, Res.ok.injEq, Prod.mk.injEq] at hh
      obtain ⟨rfl, _, _, rfl⟩ := hh
      obtain ⟨h1, h2, h3⟩ := unregister_spec ns now h he hu
      refine ⟨h1, ?_, ?_⟩
      · intro e hem
        obtain ⟨n, x, g1, g2, g3, g4, g5, g6, g7, g8⟩ := h2 e hem
        exact ⟨n, x, ⟨g2.symm, g1⟩, g3, g4, g5, g6, g7, g8⟩
      · intro n x now' i hd hx hi
        exact h3 n x i hd.2 hx hi
  | retrieve n =>
    simp only [handle] at hh
    cases hu : w.retrieveData n with
    | err => rw [hu] at hh; cases hh
    | panic => rw [hu] at hh; cases hh
    | ok p =>
      rw [hu] at hh
      simp only [Res.bind, Res.ok.injEq, Prod.mk.injEq] at hh
      obtain ⟨rfl, _, _, rfl⟩ := hh
      exact ⟨he, quiet (by simp [Due])⟩
  | record t r' =>
    simp only [handle, Worker.record] at hh
    cases hu : w.recordLoop r'.tags r'.attachments t r'.ms with
    | err => rw [hu] at hh; cases hh
    | panic => rw [hu] at hh; cases hh
    | ok w1 =>
      rw [hu] at hh
      simp only [Res.bind, Res.ok.injEq, Prod.mk.injEq] at hh
      obtain ⟨rfl, _, _, rfl⟩ := hh
      obtain ⟨h1, h2, h3⟩ := recordLoop_rest _ _ _ _ hu
      refine ⟨⟨?_, by rw [h3]; exact he.exps, by rw [h3]; exact he.nodup⟩, quiet (by simp [Due])⟩
      intro n a hn
      rw [h1] at hn
      rw [h2]; exact he.since n a hn
  | find n =>
    simp only [handle] at hh
    cases hu : w.find n with
    | err => rw [hu] at hh; cases hh
    | panic => rw [hu] at hh; cases hh
    | ok p =>
      rw [hu] at hh
      simp only [Res.bind, Res.ok.injEq, Prod.mk.injEq] at hh
      obtain ⟨rfl, _, _, rfl⟩ := hh
      exact ⟨he, quiet (by simp [Due])⟩
  | setPeriod d =>
    simp only [handle, Res.ok.injEq, Prod.mk.injEq] at hh
    obtain ⟨rfl, _, _, rfl⟩ := hh
    exact ⟨he, quiet (by simp [Due])⟩
  | tick now =>
    obtain ⟨es1, h1, h2, h3⟩ := reportAll_spec h he now w.views
      (fun p hp => GoMap.get_of_mem h.wf hp) h.wf
    simp only [handle, Worker.reportUsage, h1, Res.bind, Res.ok.injEq, Prod.mk.injEq] at hh
    obtain ⟨rfl, _, _, rfl⟩ := hh
    refine ⟨he, ?_, ?_⟩
    · intro e hem
      obtain ⟨n, x, _, g2, g3, g4, g5, g6, g7, g8⟩ := h2 e hem
      exact ⟨n, x, g2.symm, g3, g4, g5, g6, g7, g8⟩
    · intro n x now' i hd hx hi
      refine h3 n i ?_ hi
      cases hn : GoMap.get w.views n with
      | none => rw [h.none_iff n hn] at hx; cases hx
      | some a => exact List.mem_map_of_mem (f := Prod.fst) (GoMap.mem_of_get hn)
  | addExporter e =>
    simp only [handle, Res.ok.injEq, Prod.mk.injEq] at hh
    obtain ⟨rfl, _, _, rfl⟩ := hh
    refine ⟨⟨he.since, ?_, ?_⟩, quiet (by simp [Due])⟩
    · intro i
      have := he.exps i
      by_cases hm : e ∈ w.exporters
      · by_cases hie : i = e
        · subst hie; simp [step, hm]
        · simp [step, hm, hie, this]
      · by_cases hie : i = e
        · subst hie; simp [step, hm]
        · simp [step, hm, hie, this]
    · by_cases hm : e ∈ w.exporters
      · simpa [hm] using he.nodup
      · simp only [hm, if_false]
        rw [List.nodup_append]
        refine ⟨he.nodup, by simp, ?_⟩
        intro a ha b hb hab
        simp at hb
        subst hab hb
        exact hm ha
  | delExporter e =>
    simp only [handle, Res.ok.injEq, Prod.mk.injEq] at hh
    obtain ⟨rfl, _, _, rfl⟩ := hh
    refine ⟨⟨he.since, ?_, he.nodup.filter _⟩, quiet (by simp [Due])⟩
    intro i
    have := he.exps i
    by_cases hie : i = e
    · subst hie; simp [step]
    · simp [step, hie, this]

theorem run_exports {w : Worker} {reg : Measures} {s : EState} (h : Rel w reg s.views)
    (he : ERel w s.since s.exps) (cs : List Cmd) (hg : ∀ c ∈ cs, GoodCmd reg c) :
    ∃ w' reg' rs, run w reg cs = .ok (w', reg', rs) ∧ AllExportsOK s cs (rs.map Prod.snd) := by
  induction cs generalizing w reg s with
  | nil => exact ⟨w, reg, [], rfl, rfl⟩
  | cons c cs ih =>
    obtain ⟨w1, reg1, r, es, h1, h2, _, h4⟩ := handle_rel h c (hg c (by simp))
    obtain ⟨g1, g2⟩ := handle_exports h he c (hg c (by simp)) h1
    obtain ⟨w2, reg2, rs, h5, h6⟩ := ih (s := step s c) h2 g1
      (fun c hc => goodCmd_mono h4 (hg c (by simp [hc])))
    refine ⟨w2, reg2, (r, es) :: rs, ?_, ⟨es, _, rfl, g2, h6⟩⟩
    simp only [run, h1, h5, Res.bind]

theorem erel_init : ERel newWorker init.since init.exps :=
  ⟨by simp [newWorker], by simp [newWorker, init], by simp [newWorker]⟩

/-! ## C60 -/

/-- C60. For every history of commands: a tick hands every registered exporter exactly one `Data` for
every registered view, an `Unregister` exactly one for every view it removes, and no command hands
out anything else. Each `Data` has the view, the time it was registered, the time of the command and
the rows of everything recorded for the view since it was registered. -/
theorem exports_exact (reg : Measures) (cs : List Cmd) (hg : ∀ c ∈ cs, GoodCmd reg c) :
    ∃ w reg' rs, run newWorker reg cs = .ok (w, reg', rs) ∧ AllExportsOK init cs (rs.map Prod.snd) :=
  run_exports (s := init) (rel_init reg) erel_init cs hg

theorem allExportsOK_append {s : EState} {xs ys : List Cmd} {ess : List (List Export)}
    (h : AllExportsOK s (xs ++ ys) ess) :
    ∃ e1 e2, ess = e1 ++ e2 ∧ e1.length = xs.length ∧ AllExportsOK s xs e1 ∧
      AllExportsOK (eRun s xs) ys e2 := by
  induction xs generalizing s ess with
  | nil => exact ⟨[], ess, rfl, rfl, rfl, h⟩
  | cons x xs ih =>
    obtain ⟨r, rs', rfl, h1, h2⟩ := h
    obtain ⟨rs1, rs2, rfl, h3, h4, h5⟩ := ih h2
    exact ⟨r :: rs1, rs2, rfl, by simp [h3], ⟨r, rs1, rfl, h1, h4⟩, h5⟩

theorem eRun_append (s : EState) (xs ys : List Cmd) : eRun s (xs ++ ys) = eRun (eRun s xs) ys := by
  induction xs generalizing s with
  | nil => rfl
  | cons x xs ih => exact ih _

theorem eRun_views (s : EState) (cs : List Cmd) : (eRun s cs).views = specRun s.views cs := by
  induction cs generalizing s with
  | nil => rfl
  | cons c cs ih => exact ih _

/-- A registered view keeps its start time until it is unregistered. -/
theorem eRun_since {s : EState} {n : Bytes} {x : SView} (h : s.views n = some x) (cs : List Cmd)
    (hc : ∀ c ∈ cs, ¬ Unregisters n c) : (eRun s cs).since n = s.since n := by
  induction cs generalizing s x with
  | nil => rfl
  | cons c cs ih =>
    have hk := step_keeps h (hc c (by simp))
    have := ih (s := step s c) hk (fun c hc' => hc c (by simp [hc']))
    rw [eRun, this]
    cases c <;> simp [step, h]

/-- The exporter is registered after the history: it was added, and not removed since. -/
theorem eRun_exps {s : EState} {i : Nat} (pre post : List Cmd)
    (hp : ∀ c ∈ post, c ≠ .delExporter i) :
    (eRun s (pre ++ [.addExporter i] ++ post)).exps i = true := by
  rw [eRun_append, eRun_append]
  have h0 : (eRun (eRun s pre) [.addExporter i]).exps i = true := by simp [eRun, step]
  generalize eRun (eRun s pre) [.addExporter i] = t at h0
  induction post generalizing t with
  | nil => exact h0
  | cons c cs ih =>
    apply ih (fun c hc => hp c (by simp [hc]))
    have := hp c (by simp)
    cases c with
    | addExporter e => simp [step, h0]
    | delExporter e =>
      have hne : ¬ i = e := by rintro rfl; exact this rfl
      simp [step, h0, hne]
    | _ => exact h0

/-- The exporter was never added, or removed and not added since. -/
theorem eRun_noExp {s : EState} {i : Nat} (cs : List Cmd) (h : s.exps i = false)
    (hc : ∀ c ∈ cs, c ≠ .addExporter i) : (eRun s cs).exps i = false := by
  induction cs generalizing s with
  | nil => exact h
  | cons c cs ih =>
    apply ih _ (fun c hc' => hc c (by simp [hc']))
    have := hc c (by simp)
    cases c with
    | addExporter e =>
      have hne : ¬ i = e := by rintro rfl; exact this rfl
      simp [step, h, hne]
    | delExporter e => simp [step, h]
    | _ => exact h

/-- C60. A view registered at `t0` under a free name, and not unregistered since, is handed to an
exporter that is registered when it is due — at a tick, or when it is unregistered — exactly once,
with its definition, `t0`, the time of the report, and exactly the rows of what was recorded for its
measure in between. -/
theorem view_exported (reg : Measures) (pre mid : List Cmd) (t0 now : Int) (v v' : ViewDef)
    (c : Cmd) (i : Nat)
    (hg : ∀ c' ∈ pre ++ [.register t0 [v]] ++ mid ++ [c], GoodCmd reg c')
    (hv : canonicalize v = (v', none)) (hfree : specRun Spec.empty pre v'.name = none)
    (hmid : ∀ c ∈ mid, ¬ Unregisters v'.name c) (hdue : Due v'.name now c)
    (hi : (eRun init (pre ++ [.register t0 [v]] ++ mid)).exps i = true) :
    ∃ w reg' rs es a m e,
      run newWorker reg (pre ++ [.register t0 [v]] ++ mid ++ [c]) = .ok (w, reg', rs) ∧
      (rs.map Prod.snd).getLast? = some es ∧ v'.agg = some a ∧ v'.measure = some m ∧
      es.filter (IsFor i v'.name) = [e] ∧
      e.view = v' ∧ e.start = t0 ∧ e.stop = now ∧
      RowsOf a v'.tagKeys (samplesOf m.name mid) e.rows := by
  obtain ⟨w, reg', rs, h1, h2⟩ := exports_exact reg _ hg
  obtain ⟨m, a0, a, _, hm, _, ha, _⟩ := canonicalize_ok hv
  obtain ⟨rs1, rs2, hrs, _, _, h3⟩ := allExportsOK_append h2
  obtain ⟨es, rs', rfl, hes, he⟩ := h3
  cases he
  have h4 : specRun (specRun Spec.empty pre) [.register t0 [v]] v'.name = some ⟨v', a, m, []⟩ := by
    simp [specRun, Spec.step, canonicalizeAll, hv, Spec.registerAll, hfree, ha, hm, Spec.update]
  have hσ : (eRun init (pre ++ [.register t0 [v]] ++ mid)).views v'.name =
      some ⟨v', a, m, samplesOf m.name mid⟩ := by
    rw [eRun_views, specRun_append]
    show specRun (specRun Spec.empty _) mid _ = _
    rw [specRun_append]
    simpa using specRun_collects h4 mid hmid
  have hsince : (eRun init (pre ++ [.register t0 [v]] ++ mid)).since v'.name = t0 := by
    rw [eRun_append]
    have hx : (eRun init (pre ++ [.register t0 [v]])).views v'.name = some ⟨v', a, m, []⟩ := by
      rw [eRun_views]
      show specRun Spec.empty _ _ = _
      rw [specRun_append]; exact h4
    rw [eRun_since hx mid hmid, eRun_append]
    have hn : (eRun init pre).views v'.name = none := by rw [eRun_views]; exact hfree
    simp [eRun, step, hn]
  have hone := hes.once v'.name _ now i hdue hσ hi
  obtain ⟨e, hee⟩ := List.length_eq_one_iff.mp hone
  have hmem : e ∈ es.filter (IsFor i v'.name) := by rw [hee]; simp
  rw [List.mem_filter] at hmem
  obtain ⟨hmem, hfor⟩ := hmem
  obtain ⟨n, x, g1, g2, g3, g4, g5, g6, g7⟩ := hes.sound e hmem
  simp only [IsFor, decide_eq_true_eq] at hfor
  have hn : n = v'.name := by rw [← g5, hfor.2]
  subst hn
  rw [hσ] at g2
  simp only [Option.some.injEq] at g2
  subst g2
  refine ⟨w, reg', rs, es, a, m, e, h1, by rw [hrs]; simp, ha, hm, hee, g4, by rw [g6, hsince], ?_, g7⟩
  cases c with
  | tick t => rw [← (show t = e.stop from g1)]; exact hdue
  | unregister t ns => rw [← (show t = e.stop from g1.1)]; exact hdue.1
  | _ => exact hdue.elim

/-- C60. A name that was never registered, or was unregistered and not registered again, is exported
to nobody by any later command. -/
theorem unregistered_not_exported (reg : Measures) (pre mid : List Cmd) (c : Cmd) (n : Bytes)
    (hg : ∀ c' ∈ pre ++ mid ++ [c], GoodCmd reg c')
    (hfree : specRun Spec.empty pre n = none) (hmid : ∀ c ∈ mid, ¬ Registers n c) :
    ∃ w reg' rs es, run newWorker reg (pre ++ mid ++ [c]) = .ok (w, reg', rs) ∧
      (rs.map Prod.snd).getLast? = some es ∧ ∀ e ∈ es, e.view.name ≠ n := by
  obtain ⟨w, reg', rs, h1, h2⟩ := exports_exact reg _ hg
  obtain ⟨rs1, rs2, hrs, _, _, h3⟩ := allExportsOK_append h2
  obtain ⟨es, rs', rfl, hes, he⟩ := h3
  cases he
  refine ⟨w, reg', rs, es, h1, by rw [hrs]; simp, ?_⟩
  intro e hem hc
  obtain ⟨n', x, _, g2, _, _, g5, _⟩ := hes.sound e hem
  rw [hc] at g5
  subst g5
  rw [eRun_views, specRun_append, specRun_absent (show specRun init.views pre n = none from hfree) mid hmid] at g2
  cases g2

/-- C60. An exporter that is not registered is handed nothing. -/
theorem unregistered_exporter_quiet (reg : Measures) (pre mid : List Cmd) (c : Cmd) (i : Nat)
    (hg : ∀ c' ∈ pre ++ [.delExporter i] ++ mid ++ [c], GoodCmd reg c')
    (hmid : ∀ c ∈ mid, c ≠ .addExporter i) :
    ∃ w reg' rs es, run newWorker reg (pre ++ [.delExporter i] ++ mid ++ [c]) = .ok (w, reg', rs) ∧
      (rs.map Prod.snd).getLast? = some es ∧ ∀ e ∈ es, e.exporter ≠ i := by
  obtain ⟨w, reg', rs, h1, h2⟩ := exports_exact reg _ hg
  obtain ⟨rs1, rs2, hrs, _, _, h3⟩ := allExportsOK_append h2
  obtain ⟨es, rs', rfl, hes, he⟩ := h3
  cases he
  refine ⟨w, reg', rs, es, h1, by rw [hrs]; simp, ?_⟩
  intro e hem hc
  obtain ⟨n', x, _, _, g3, _⟩ := hes.sound e hem
  rw [hc, eRun_append, eRun_noExp mid (by rw [eRun_append]; simp [eRun, step]) hmid] at g3
  cases g3

/-- C60. The order in which the map of views is ranged over on a tick does not matter: whatever the
order, the exports are those of `exports_exact`. -/
theorem tick_any_order (reg : Measures) (cs : List Cmd) (hg : ∀ c ∈ cs, GoodCmd reg c) (now : Int) :
    ∃ w reg' rs, run newWorker reg cs = .ok (w, reg', rs) ∧
      ∀ l, l.Perm w.views → ∃ es, w.reportAll now l = .ok es ∧
        ExportsOK (eRun init cs) (.tick now) es := by
  have key : ∀ (cs : List Cmd) (w : Worker) (reg : Measures) (s : EState), Rel w reg s.views →
      ERel w s.since s.exps → (∀ c ∈ cs, GoodCmd reg c) →
      ∃ w' reg' rs, run w reg cs = .ok (w', reg', rs) ∧ Rel w' reg' (eRun s cs).views ∧
        ERel w' (eRun s cs).since (eRun s cs).exps := by
    intro cs
    induction cs with
    | nil => intro w reg s h he _; exact ⟨w, reg, [], rfl, h, he⟩
    | cons c cs ih =>
      intro w reg s h he hg
      obtain ⟨w1, reg1, r, es, h1, h2, _, h4⟩ := handle_rel h c (hg c (by simp))
      obtain ⟨g1, g2⟩ := handle_exports h he c (hg c (by simp)) h1
      obtain ⟨w2, reg2, rs, h5, h6⟩ := ih w1 reg1 (step s c) h2 g1
        (fun c hc => goodCmd_mono h4 (hg c (by simp [hc])))
      exact ⟨w2, reg2, (r, es) :: rs, by simp only [run, h1, h5, Res.bind], h6⟩
  obtain ⟨w, reg', rs, h1, h, he⟩ := key cs newWorker reg init (rel_init reg) erel_init hg
  refine ⟨w, reg', rs, h1, fun l hl => ?_⟩
  obtain ⟨es, h2, h3, h4⟩ := reportAll_spec h he now l
    (fun p hp => GoMap.get_of_mem h.wf (hl.mem_iff.mp hp)) ((hl.map Prod.fst).nodup_iff.mpr h.wf)
  refine ⟨es, h2, ?_, ?_⟩
  · intro e hem
    obtain ⟨n, x, _, g2, g3, g4, g5, g6, g7, g8⟩ := h3 e hem
    exact ⟨n, x, g2.symm, g3, g4, g5, g6, g7, g8⟩
  · intro n x now' i _ hx hi
    refine h4 n i ?_ hi
    cases hn : GoMap.get w.views n with
    | none => rw [h.none_iff n hn] at hx; cases hx
    | some a =>
      exact (hl.map Prod.fst).mem_iff.mpr (List.mem_map_of_mem (f := Prod.fst) (GoMap.mem_of_get hn))

/-! ## Instances of the hypotheses -/

open Recording in
theorem good_view1 : GoodView regUnsub view1 := by
  refine ⟨?_, ?_⟩
  · intro m hm; simp only [view1, Option.some.injEq] at hm; subst hm
    exact ⟨by decide, _, rfl⟩
  · intro a ha; simp only [view1, Option.some.injEq] at ha; subst ha
    exact ⟨rfl, by decide⟩

open Recording in
theorem good_req1 : TagsFit req1.tags := by
  intro tm htm p hp
  simp only [req1, Option.some.injEq] at htm; subst htm
  simp only [tagsAB, List.mem_singleton] at hp; subst hp
  decide

open Recording in
/-- Two exporters, one removed and added again; a view registered at time 3 is due at a tick at time 9
after recordings before and after its registration, and on its unregistration. -/
example (c : Cmd) (hc : c = .tick 9 ∨ c = .unregister 9 [str "other", str "latency"]) :
    let pre : List Cmd := [.addExporter 1, .record 0 req1, .delExporter 1, .addExporter 2, .tick 2]
    let mid : List Cmd := [.record 4 req1, .addExporter 1, .tick 5, .unregister 6 [str "other"], .record 7 req1]
    (∀ c' ∈ pre ++ [.register 3 [view1]] ++ mid ++ [c], GoodCmd regUnsub c') ∧
    canonicalize view1 = (view1', none) ∧ specRun Spec.empty pre view1'.name = none ∧
    (∀ c ∈ mid, ¬ Unregisters view1'.name c) ∧ Due view1'.name 9 c ∧
    (∀ i, (eRun init (pre ++ [.register 3 [view1]] ++ mid)).exps i = true ↔ i = 1 ∨ i = 2) ∧
    (samplesOf (str "latency") mid).length = 4 := by
  refine ⟨?_, canon_view1, rfl, ?_, ?_, ?_, by decide⟩
  · intro c' hc'
    simp only [List.cons_append, List.nil_append, List.mem_cons, List.not_mem_nil, or_false] at hc'
    rcases hc' with rfl | rfl | rfl | rfl | rfl | rfl | rfl | rfl | rfl | rfl | rfl | rfl
    case inr.inr.inr.inr.inr.inl =>
      intro v hv; simp only [List.mem_singleton] at hv; subst hv; exact good_view1
    case inr.inl => exact good_req1
    case inr.inr.inr.inr.inr.inr.inl => exact good_req1
    case inr.inr.inr.inr.inr.inr.inr.inr.inr.inr.inl => exact good_req1
    case inr.inr.inr.inr.inr.inr.inr.inr.inr.inr.inr => rcases hc with rfl | rfl <;> trivial
    all_goals trivial
  · intro c hc
    simp only [List.mem_cons, List.not_mem_nil, or_false] at hc
    rcases hc with rfl | rfl | rfl | rfl | rfl <;> simp [Unregisters]
    decide
  · rcases hc with rfl | rfl
    · rfl
    · exact ⟨rfl, by decide⟩
  · intro i
    simp [eRun, step, init]

end Verif.Props.Exports
