import Verif.Plugins.Views
import Verif.Props.Canon
import Verif.RoundErr

/-!
# C66: the predefined views of the plugins can be registered together
-/

namespace Verif.Props.PluginViews
open Verif Verif.Tag Verif.Stats Verif.View Verif.View.Spec Verif.Props.Rows Verif.Props.Worker

/-! ## Helper lemmas -/

/-- A number that is not tiny does not round to zero. -/
theorem rnd_pos {q : Rat} (h : 1 / 128 ≤ q) : F64.lt (.fin 0) (F64.rnd q) = true := by
  have hq : 0 < q := by linarith
  cases hr : F64.rnd q with
  | nan =>
    unfold F64.rnd at hr
    rw [if_neg (ne_of_gt hq), if_pos hq] at hr
    simp only at hr; split at hr <;> cases hr
  | ninf =>
    unfold F64.rnd at hr
    rw [if_neg (ne_of_gt hq), if_pos hq] at hr
    simp only at hr; split at hr <;> cases hr
  | pinf => rfl
  | fin r =>
    have he := F64.rnd_err hr
    rw [abs_of_pos hq] at he
    have h1 : F64.eps ≤ 1 / 2 := by unfold F64.eps; norm_num
    have h2 : F64.eta ≤ 1 / 1024 := by
      unfold F64.eta
      apply one_div_le_one_div_of_le (by norm_num)
      calc (1024 : Rat) = 2 ^ 10 := by norm_num
        _ ≤ 2 ^ 1075 := pow_le_pow_right₀ (by norm_num) (by norm_num)
    have h3 : F64.eps * q ≤ 1 / 2 * q := mul_le_mul_of_nonneg_right h1 hq.le
    have h4 := (abs_le.mp he).1
    simp only [F64.lt, decide_eq_true_eq]
    linarith

/-- Bounds as the plugins write them: increasing, and not tiny. -/
def NiceBounds (a : Aggregation F64) : Prop :=
  ∃ qs : List Rat, a.buckets = qs.map F64.rnd ∧ qs.Pairwise (· ≤ ·) ∧ ∀ q ∈ qs, 1 / 128 ≤ q

theorem canon_self {v : ViewDef} {m : Measure} {a : Aggregation F64} (hm : v.measure = some m) (ha : v.agg = some a)
    (hn : v.name ≠ [] ∧ checkViewName v.name = true) (hd : v.description ≠ [])
    (hk : v.tagKeys.Pairwise (fun x y => x.name ≤ y.name)) (hb : NiceBounds a) : canonicalize v = (v, none) := by
  obtain ⟨qs, h1, h2, h3⟩ := hb
  have hpos : ∀ b ∈ a.buckets, F64.lt (.fin 0) b = true := by
    rw [h1]; intro b hb
    obtain ⟨q, hq, rfl⟩ := List.mem_map.mp hb
    exact rnd_pos (h3 q hq)
  have he : Canon.effName v m = v.name := by simp [Canon.effName, hn.1]
  have hc := (Canon.checkViewName_iff v.name).mp hn.2
  rw [Canon.canonicalize_iff]
  refine ⟨⟨m, a, hm, ha, by rw [he]; exact hc.1, by rw [he]; exact hc.2, fun b hb => F64.lt_asymm (hpos b hb)⟩,
    m, a, a, hm, ha, hm, ha, rfl, he.symm, by rw [if_neg hd], List.Perm.refl _, hk, rfl, rfl, rfl, ?_, ?_⟩
  · rw [List.filter_eq_self.mpr hpos]
  · rw [h1, List.pairwise_map]
    exact h2.imp fun h => F64.rnd_mono h

theorem size_nice : NiceBounds Plugins.Http.sizeDistribution := ⟨_, rfl, by decide +kernel, by decide +kernel⟩
theorem latency_nice : NiceBounds Plugins.Http.latencyDistribution := ⟨_, rfl, by decide +kernel, by decide +kernel⟩
theorem bytes_nice : NiceBounds Plugins.Grpc.bytesDistribution := ⟨_, rfl, by decide +kernel, by decide +kernel⟩
theorem milliseconds_nice : NiceBounds Plugins.Grpc.millisecondsDistribution := ⟨_, rfl, by decide +kernel, by decide +kernel⟩
theorem messages_nice : NiceBounds Plugins.Grpc.messageCountDistribution := ⟨_, rfl, by decide +kernel, by decide +kernel⟩
theorem count_nice : NiceBounds Plugins.count := ⟨[], rfl, by simp, by simp⟩

theorem aggs_nice : ∀ v ∈ Plugins.views, ∃ a, v.agg = some a ∧ NiceBounds a ∧ a.newData = some a.type ∧ a.type ≠ .none := by
  have h1 := size_nice
  have h2 := latency_nice
  have h3 := bytes_nice
  have h4 := milliseconds_nice
  have h5 := messages_nice
  have h6 := count_nice
  simp only [Plugins.views, Plugins.Http.views, Plugins.Grpc.views, List.cons_append, List.nil_append, List.forall_mem_cons]
  repeat' apply And.intro
  all_goals first
    | exact ⟨_, rfl, h1, rfl, by decide⟩
    | exact ⟨_, rfl, h2, rfl, by decide⟩
    | exact ⟨_, rfl, h3, rfl, by decide⟩
    | exact ⟨_, rfl, h4, rfl, by decide⟩
    | exact ⟨_, rfl, h5, rfl, by decide⟩
    | exact ⟨_, rfl, h6, rfl, by decide⟩
    | simp

theorem names_ok : ∀ v ∈ Plugins.views, (v.name ≠ [] ∧ checkViewName v.name = true) ∧ v.description ≠ [] ∧
    v.tagKeys.Pairwise (fun x y => x.name ≤ y.name) := by
  decide +kernel

theorem measures_ok : ∀ v ∈ Plugins.views, ∃ m, v.measure = some m ∧ m ∈ Plugins.measures := by
  decide +kernel

theorem kinds_ok : ∀ m ∈ Plugins.measures, m.kind ≠ .other := by decide +kernel

theorem names_nodup : (Plugins.views.map (·.name)).Nodup := by decide +kernel

theorem canon {v : ViewDef} (hv : v ∈ Plugins.views) : canonicalize v = (v, none) := by
  obtain ⟨a, h1, h2, _⟩ := aggs_nice v hv
  obtain ⟨m, h3, _⟩ := measures_ok v hv
  obtain ⟨h4, h5, h6⟩ := names_ok v hv
  exact canon_self h3 h1 h4 h5 h6 h2

theorem canonAll {vs : List ViewDef} (hv : ∀ v ∈ vs, v ∈ Plugins.views) : canonicalizeAll vs = .ok vs := by
  induction vs with
  | nil => rfl
  | cons v vs ih =>
    simp only [canonicalizeAll, canon (hv v (by simp)), ih fun v h => hv v (by simp [h])]

/-- A name says which of the views it is. -/
theorem name_inj {v v' : ViewDef} (hv : v ∈ Plugins.views) (hv' : v' ∈ Plugins.views) (h : v.name = v'.name) : v = v' :=
  List.inj_on_of_nodup_map names_nodup hv hv' h

theorem good {reg : Measures} (hreg : ∀ m ∈ Plugins.measures, ∃ d, GoMap.get reg m.name = some d) {v : ViewDef}
    (hv : v ∈ Plugins.views) : GoodView reg v := by
  obtain ⟨a, h1, _, h2, h3⟩ := aggs_nice v hv
  obtain ⟨m, h4, h5⟩ := measures_ok v hv
  refine ⟨?_, ?_⟩
  · intro m' hm'
    rw [h4] at hm'; cases hm'
    exact ⟨kinds_ok m h5, hreg m h5⟩
  · intro a' ha'
    rw [h1] at ha'; cases ha'
    exact ⟨h2, h3⟩

theorem registerAll_spec (vs : List ViewDef) (hv : ∀ v ∈ vs, v ∈ Plugins.views) (σ : SState)
    (hσ : ∀ v ∈ vs, ∀ x, σ v.name = some x → x.view = v) :
    (Spec.registerAll σ vs).2 = [] ∧
    (∀ v ∈ vs, ∃ x, (Spec.registerAll σ vs).1 v.name = some x ∧ x.view = v ∧
      (σ v.name = none → v.agg = some x.agg ∧ v.measure = some x.measure ∧ x.recs = [])) ∧
    ∀ n x, σ n = some x → (Spec.registerAll σ vs).1 n = some x := by
  induction vs generalizing σ with
  | nil => exact ⟨rfl, by simp, fun n x h => h⟩
  | cons v vs ih =>
    have hv0 := hv v (by simp)
    obtain ⟨a, ha, _⟩ := aggs_nice v hv0
    obtain ⟨m, hm, _⟩ := measures_ok v hv0
    cases hn : σ v.name with
    | some x =>
      have hx := hσ v (by simp) x hn
      have hS : Same x v := .inl (by rw [hx])
      simp only [Spec.registerAll, hn, hS, if_true]
      obtain ⟨i1, i2, i3⟩ := ih (fun v h => hv v (by simp [h])) σ (fun v h => hσ v (by simp [h]))
      refine ⟨i1, ?_, i3⟩
      intro u hu
      rcases List.mem_cons.mp hu with rfl | hu
      · exact ⟨x, i3 _ _ hn, hx, by simp [hn]⟩
      · exact i2 u hu
    | none =>
      simp only [Spec.registerAll, hn, ha, hm]
      obtain ⟨i1, i2, i3⟩ := ih (fun v h => hv v (by simp [h])) (Spec.update σ v.name (some ⟨v, a, m, []⟩)) (by
        intro u hu x hx
        unfold Spec.update at hx
        split at hx
        · next h =>
          cases hx
          exact (name_inj (hv u (by simp [hu])) hv0 h).symm
        · exact hσ u (by simp [hu]) x hx)
      refine ⟨i1, ?_, ?_⟩
      · intro u hu
        rcases List.mem_cons.mp hu with rfl | hu
        · exact ⟨⟨u, a, m, []⟩, i3 u.name _ (by simp [Spec.update]), rfl, fun _ => ⟨ha, hm, rfl⟩⟩
        · by_cases he : u.name = v.name
          · cases name_inj (hv u (by simp [hu])) hv0 he
            exact ⟨⟨v, a, m, []⟩, i3 v.name _ (by simp [Spec.update]), rfl, fun _ => ⟨ha, hm, rfl⟩⟩
          · obtain ⟨x, g1, g2, g3⟩ := i2 u hu
            exact ⟨x, g1, g2, fun h => g3 (by simp [Spec.update, he, h])⟩
      · intro n x hx
        apply i3
        unfold Spec.update
        rw [if_neg (by rintro rfl; rw [hn] at hx; cases hx)]
        exact hx

/-! ## Property theorems -/

/-- **C66.** Any of the predefined views of both plugins can be registered together, in any order and more than
once, after any history in which no other view has taken one of their names: `Register` succeeds, and every one
of them is then registered as it is written in the code. -/
theorem predefined_register (reg : Measures) (hreg : ∀ m ∈ Plugins.measures, ∃ d, GoMap.get reg m.name = some d)
    (pre : List Cmd) (hpre : ∀ c ∈ pre, GoodCmd reg c) (vs : List ViewDef) (hvs : ∀ v ∈ vs, v ∈ Plugins.views)
    (hfree : ∀ v ∈ vs, ∀ x, specRun Spec.empty pre v.name = some x → x.view = v) (now : Int) (v : ViewDef) (hv : v ∈ vs) :
    ∃ w reg' rs, run newWorker reg (pre ++ [.register now vs, .find v.name]) = .ok (w, reg', rs) ∧
      (rs.map Prod.fst).drop pre.length = [.registered .ok, .found (some v)] := by
  have hg : ∀ c ∈ pre ++ [.register now vs, .find v.name], GoodCmd reg c := by
    intro c hc
    rcases List.mem_append.mp hc with hc | hc
    · exact hpre c hc
    · rcases List.mem_cons.mp hc with rfl | hc
      · exact fun v hv => good hreg (hvs v hv)
      · cases List.mem_singleton.mp hc; trivial
  obtain ⟨w, reg', rs, h1, h2⟩ := worker_refines_spec reg _ hg
  refine ⟨w, reg', rs, h1, ?_⟩
  obtain ⟨rs1, rs2, hrs, hl, _, h3⟩ := repliesOK_append h2
  obtain ⟨r, rs', rfl, hr, h4⟩ := h3
  obtain ⟨r', rs'', rfl, hr', he⟩ := h4
  cases he
  obtain ⟨e1, e2, _⟩ := registerAll_spec vs hvs _ hfree
  obtain ⟨x, hx1, hx2, _⟩ := e2 v hv
  have hr1 : r = .registered .ok := by
    simpa [ReplyOK, canonAll hvs, e1] using hr
  have hr2 : r' = .found (some v) := by
    simpa [ReplyOK, Spec.step, canonAll hvs, hx1, hx2] using hr'
  rw [hrs, ← hl, List.drop_left', hr1, hr2]
  rfl

/-- The package's measures right after initialisation. -/
def demoReg : Measures := Plugins.measures.map fun m => (m.name, ⟨false, m.name, m.description, m.unit⟩)

theorem demoReg_ok : ∀ m ∈ Plugins.measures, ∃ d, GoMap.get demoReg m.name = some d := by
  have h : (Plugins.measures.all fun m => (GoMap.get demoReg m.name).isSome) = true := by decide +kernel
  intro m hm
  exact Option.isSome_iff_exists.mp (List.all_eq_true.mp h m hm)

/-- The hypotheses are met by registering all the views, some of them again, after one of them. -/
example : (∀ m ∈ Plugins.measures, ∃ d, GoMap.get demoReg m.name = some d) ∧
    (∀ c ∈ [Cmd.register 0 [Plugins.Http.clientCompletedCountView]], GoodCmd demoReg c) ∧
    (∀ v ∈ Plugins.views ++ [Plugins.Http.clientCompletedCountView], v ∈ Plugins.views) ∧
    (∀ v ∈ Plugins.views ++ [Plugins.Http.clientCompletedCountView], ∀ x,
      specRun Spec.empty [.register 0 [Plugins.Http.clientCompletedCountView]] v.name = some x → x.view = v) ∧
    Plugins.views.length = 31 := by
  have hc : Plugins.Http.clientCompletedCountView ∈ Plugins.views := by simp [Plugins.views, Plugins.Http.views]
  have hvs : ∀ v ∈ Plugins.views ++ [Plugins.Http.clientCompletedCountView], v ∈ Plugins.views := by
    intro v hv
    rcases List.mem_append.mp hv with hv | hv
    · exact hv
    · rw [List.mem_singleton.mp hv]; exact hc
  refine ⟨demoReg_ok, ?_, hvs, ?_, rfl⟩
  · intro c hcm
    cases List.mem_singleton.mp hcm
    intro v hv
    rw [List.mem_singleton.mp hv]
    exact good demoReg_ok hc
  · intro v hv x hx
    have h1 : canonicalizeAll [Plugins.Http.clientCompletedCountView] = .ok [Plugins.Http.clientCompletedCountView] :=
      canonAll (by simpa using hc)
    have h2 : specRun Spec.empty [.register 0 [Plugins.Http.clientCompletedCountView]] =
        Spec.update Spec.empty Plugins.Http.clientCompletedCountView.name (some ⟨Plugins.Http.clientCompletedCountView,
          Plugins.count, Plugins.Http.clientRoundtripLatency, []⟩) := by
      simp only [specRun, Spec.step, h1]; rfl
    rw [h2] at hx
    by_cases h : v.name = Plugins.Http.clientCompletedCountView.name
    · simp only [Spec.update, if_pos h] at hx
      cases hx
      exact name_inj hc (hvs v hv) h.symm
    · simp [Spec.update, if_neg h, Spec.empty] at hx

end Verif.Props.PluginViews
