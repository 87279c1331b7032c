import Verif.View.Program
import Verif.Props.ViewMetric
import Verif.Props.Canon

/-!
# C81: from tags to exported metrics

What a reader of the metrics sees of what a program recorded under which tags, whatever the program did.
-/

namespace Verif.Props.Program
open Verif Verif.Tag Verif.Stats Verif.View Verif.View.Program Verif.Metric
open Verif.Props.Tag Verif.Props.Recording Verif.Props.ViewMetric
open Verif.Props.Rows (given Agree specTags RowsOf)

/-! ## Specification: programs -/

/-- A registered view and all that was recorded for it: with which values for each tag key (empty if there was none),
and the sample. -/
structure PView where
  view : ViewDef
  agg : Aggregation F64
  measure : Measure
  recs : List ((Key → Bytes) × Sample F64)

/-- More recordings. -/
def PView.add (x : PView) (rs : List ((Key → Bytes) × Sample F64)) : PView := { x with recs := x.recs ++ rs }

abbrev Views := Bytes → Option PView

/-- The last argument of an option that is used. -/
def lastOf {β : Type} (f : Option' → Option β) (ros : List Option') : Option β := (ros.filterMap f).getLast?

def mutatorsOf (ros : List Option') : List Mutator :=
  (lastOf (fun | .tags l => some l | _ => none) ros).getD []

def attachmentsOf (ros : List Option') : Attachments :=
  (lastOf (fun | .attachments a => some a | _ => none) ros).getD []

def measurementsOf (ros : List Option') : List (Option Measurement) :=
  (lastOf (fun | .measurements l => some l | _ => none) ros).getD []

def ownRecorder (ros : List Option') : Bool := ros.any fun | .recorder _ => true | _ => false

/-- The samples among the measurements for views of a measure. -/
def samples (tags : Key → Bytes) (att : Attachments) (t : Int) (measure : Bytes) (ms : List (Option Measurement)) :
    List ((Key → Bytes) × Sample F64) :=
  ms.filterMap fun m => match m with
    | some m => if m.m.name = measure then some (tags, ⟨m.v, att, t⟩) else none
    | none => none

/-- Each view gets the samples of its measure. -/
def recordAll (σ : Views) (tags : Key → Bytes) (att : Attachments) (t : Int) (ms : List (Option Measurement)) : Views :=
  fun n => (σ n).map fun x => x.add (samples tags att t x.measure.name ms)

/-- Views are registered under names that are free. (`canonicalizeAll`, used below, is the subject of C20.) -/
def registerAll (σ : Views) : List ViewDef → Views
  | [] => σ
  | v :: vs => match σ v.name, v.agg, v.measure with
    | none, some a, some m => registerAll (fun n => if n = v.name then some ⟨v, a, m, []⟩ else σ n) vs
    | _, _, _ => registerAll σ vs

/-- What the contexts show, the views, and the views at the time of each read. -/
structure Spec where
  ctxs : List View
  views : Views
  reads : List (Int × Views)

open Classical in
noncomputable def Spec.step (p : Spec) : Call → Spec
  | .newTags _ i mus => match p.ctxs[i]? with
    | none => p
    | some v => { p with ctxs := p.ctxs ++ [if ∀ mu ∈ mus, GoodMut mu then mus.foldl specMut v else v] }
  | .forward _ _ j => match p.ctxs[j]? with
    | none => p
    | some v => { p with ctxs := p.ctxs ++ [fun k => (v k).filter fun c => c.2 = -1] }
  | .register _ vs => match canonicalizeAll vs with
    | .error _ => p
    | .ok vs => { p with views := registerAll p.views vs }
  | .unregister _ ns => { p with views := fun n => if n ∈ ns then none else p.views n }
  | .record _ i t ros => match p.ctxs[i]? with
    | none => p
    | some v =>
      if ownRecorder ros = false ∧ ∀ mu ∈ mutatorsOf ros, GoodMut mu then
        { p with views := recordAll p.views (tagOf ((mutatorsOf ros).foldl specMut v)) (attachmentsOf ros) t
                   (measurementsOf ros) }
      else p
  | .read now => { p with reads := p.reads ++ [(now, p.views)] }

noncomputable def Spec.run (p : Spec) : List Call → Spec
  | [] => p
  | c :: cs => Spec.run (p.step c) cs

def Spec.init : Spec := ⟨[fun _ => none], fun _ => none, []⟩

/-- Ranges over maps give each entry once; keys come from `NewKey`; measures from `stats.Int64` and
`stats.Float64`; aggregations from `Count`, `Sum`, `LastValue` and `Distribution`. -/
def Good (reg : Measures) : Call → Prop
  | .newTags iter _ mus => (∀ m, (iter m).Perm m) ∧ ∀ mu ∈ mus, GoodMutKey mu
  | .forward iter _ _ => ∀ m, (iter m).Perm m
  | .register _ vs => ∀ v ∈ vs, View.Spec.GoodView reg v
  | .record iter _ _ ros => (∀ m, (iter m).Perm m) ∧ (∀ mu ∈ mutatorsOf ros, GoodMutKey mu) ∧
      RealMeasurements reg (measurementsOf ros)
  | _ => True

/-! ## Specification: metrics -/

/-- A value as a point of a measure's number type. -/
def Number : MKind → F64 → PointValue → Prop
  | .int64, x, p => ∃ y, p = .int64 y ∧ IntOf x y
  | .float64, x, p => p = .float64 x
  | .other, _, _ => False

/-- The point for the samples of a series. (What the sum and the squared deviation of a distribution are is said in
C14 and C79.) -/
def PointFor (a : Aggregation F64) (k : MKind) (ss : List (Sample F64)) (p : PointValue) : Prop :=
  match a.type with
  | .count => p = .int64 (some ss.length)
  | .sum => Number k ((ss.map (·.v)).foldl F64.add (.fin 0)) p
  | .lastValue => ∃ s, ss.getLast? = some s ∧ Number k s.v p
  | .distribution => ∃ sum ssd buckets, p = .distribution ss.length sum ssd a.buckets buckets ∧
      buckets.length = a.buckets.length + 1 ∧
      ∀ i b, buckets[i]? = some b →
        b.count = ((ss.countP fun s => decide (Agg.InBucket a.buckets i s.v) : Nat) : Int) ∧
        b.exemplar = ((ss.filter fun s => decide (s.att ≠ [] ∧ Agg.InBucket a.buckets i s.v)).getLast?).map
          fun s => ⟨s.v, s.t, s.att⟩
  | .none => False

/-- The label values of a series, `none` where there is none. -/
def labels (s : TimeSeries) : List (Option Bytes) := s.labelValues.map fun l => if l.present then some l.value else none

/-- The series of the recordings that have the values `tags` for the keys of the view. -/
def SeriesFor (x : PView) (now : Int) (tags : Key → Bytes) (s : TimeSeries) : Prop :=
  labels s = x.view.tagKeys.map (fun k => if tags k = [] then none else some (tags k)) ∧ s.time = now ∧
  ∃ ss, ss = (x.recs.filter fun r => decide (∀ k ∈ x.view.tagKeys, r.1 k = tags k)).map Prod.snd ∧
    s.startTime = (if x.agg.type = .lastValue then none else ss.head?.map (·.t)) ∧
    (ss.length < 2 ^ 63 → PointFor x.agg x.measure.kind ss s.point)

/-- The metric of a view. -/
structure MetricFor (x : PView) (now : Int) (m : MetricOut) : Prop where
  name : m.descriptor.name = x.view.name
  description : m.descriptor.description = x.view.description
  keys : m.descriptor.labelKeys = x.view.tagKeys.map Key.name
  type : TypeOf x.agg.type x.measure.kind m.descriptor.type
  unit : UnitOf x.agg.type x.measure.unit m.descriptor.unit
  /-- every series is that of some recording -/
  sound : ∀ s ∈ m.series, ∃ r ∈ x.recs, SeriesFor x now r.1 s
  /-- every recording has its series -/
  complete : ∀ r ∈ x.recs, ∃ s ∈ m.series, SeriesFor x now r.1 s
  /-- no labels twice -/
  distinct : (m.series.map labels).Nodup

/-- What is read: a metric for each view with recordings. -/
def MetricsFor (σ : Views) (now : Int) (ms : List MetricOut) : Prop :=
  ∃ names : List Bytes, names.Nodup ∧ (∀ n, n ∈ names ↔ ∃ x, σ n = some x ∧ x.recs ≠ []) ∧
    List.Forall₂ (fun n m => ∃ x, σ n = some x ∧ MetricFor x now m) names ms

/-! ## Proof: points and series -/

theorem foldl_start (ss : List (Sample F64)) (d : AggData F64) :
    startOf (ss.foldl AggData.next d) = startOf d := by
  induction ss generalizing d with
  | nil => rfl
  | cons s ss ih =>
    rw [List.foldl_cons, ih]
    cases d <;> rfl

theorem foldl_dist (ss : List (Sample F64)) (d : Dist F64) :
    ss.foldl AggData.next (.dist d) = .dist (ss.foldl Dist.next d) := by
  induction ss generalizing d with
  | nil => rfl
  | cons s ss ih => exact ih _

theorem point_for {a : Aggregation F64} {k : MKind} {t : MType} {ss : List (Sample F64)} {s0 : Sample F64}
    {d0 data : AggData F64} {p : PointValue} (hn : a.newData = some a.type) (hty : a.type ≠ .none)
    (hs : Agg.SortedBounds a.buckets) (h0 : ss.head? = some s0) (hd : a.mkData s0.t = .ok d0)
    (hall : d0.addAll ss = .ok data) (ht : TypeOf a.type k t) (hk : KindOf t p) (hc : Carries data p) :
    startOf data = (if a.type = .lastValue then none else ss.head?.map (·.t)) ∧
      (ss.length < 2 ^ 63 → PointFor a k ss p) := by
  have hsh := mkData_shape hd
  rw [AggData.addAll_eq _ hsh] at hall
  cases hall
  refine ⟨?_, fun hlen => ?_⟩
  · rw [foldl_start, h0]
    unfold Aggregation.mkData at hd
    rw [hn] at hd
    cases hta : a.type <;> simp [hta] at hd hty <;> subst hd <;> simp [startOf, newDistributionData]
  · unfold Aggregation.mkData at hd
    rw [hn] at hd
    unfold PointFor
    cases hta : a.type <;> rw [hta] at hd ht <;> simp only [reduceCtorEq, Res.ok.injEq] at hd
    · have e := Agg.count_data s0.t ss hlen
      rw [AggData.addAll_eq _ (by trivial), Res.ok.injEq] at e
      subst hd
      rw [e] at hc
      exact hc
    · have e := Agg.sum_data s0.t (Arith.ofInt 0) ss
      rw [AggData.addAll_eq _ (by trivial), Res.ok.injEq] at e
      subst hd
      rw [e] at hc
      change Number k _ p
      cases k <;> simp only [TypeOf] at ht <;> subst ht <;> cases p <;> simp only [KindOf] at hk
      · exact ⟨_, rfl, hc⟩
      · exact congrArg _ hc
    · subst hd
      rw [foldl_dist] at hc
      obtain ⟨d, g1, g2, g3⟩ := Agg.dist_buckets_count a.buckets hs s0.t ss hlen
      obtain ⟨d', g4, g5, _⟩ := Agg.dist_buckets_sum a.buckets s0.t ss hlen
      obtain ⟨d'', g6, g7⟩ := Agg.dist_exemplar_last a.buckets hs s0.t ss
      rw [Dist.addAll_eq _ (newDistributionData_shape _ _), Res.ok.injEq] at g1 g4 g6
      subst g4
      rw [g1] at g6 g5
      subst g6
      have gb := Agg.foldl_next_bounds ss (newDistributionData a.buckets s0.t)
      rw [g1] at gb
      rw [g1] at hc
      subst ht
      cases p <;> simp only [KindOf] at hk
      obtain ⟨c1, c2, c3, c4, c5, c6⟩ := hc
      subst c1 c4
      rename_i sum ssd buckets
      change d.bounds = a.buckets at gb
      rw [gb] at hk ⊢
      refine ⟨sum, ssd, buckets, by rw [g5], hk, fun i b hb => ?_⟩
      have hi : i ≤ a.buckets.length := by
        have := (List.getElem?_eq_some_iff.mp hb).1
        omega
      have e1 := g3 i hi
      have e2 := g7 i hi
      rw [← c5, List.getElem?_map, hb, Option.map_some, Option.some.injEq] at e1
      rw [← c6, List.getElem?_map, hb, Option.map_some, Option.some.injEq] at e2
      exact ⟨e1, e2⟩
    · have e := Agg.last_data (Arith.ofInt 0) ss
      rw [AggData.addAll_eq _ (by trivial), Res.ok.injEq] at e
      subst hd
      rw [e] at hc
      obtain ⟨s, hs'⟩ : ∃ s, ss.getLast? = some s := by
        cases hl : ss.getLast? with
        | none => rw [List.getLast?_eq_none_iff] at hl; subst hl; cases h0
        | some s => exact ⟨s, rfl⟩
      rw [List.getLast?_map, hs'] at hc
      refine ⟨s, hs', ?_⟩
      cases k <;> simp only [TypeOf] at ht <;> subst ht <;> cases p <;> simp only [KindOf] at hk
      · exact ⟨_, rfl, hc⟩
      · exact congrArg _ hc

/-- What a view of the worker's specification has recorded, by the values of tag keys. -/
def absV (x : View.Spec.SView) : PView := ⟨x.view, x.agg, x.measure, x.recs.map fun r => (given r.1, r.2)⟩

theorem samples_eq (x : View.Spec.SView) (m : Option TMap) :
    ((absV x).recs.filter fun r => decide (∀ k ∈ (absV x).view.tagKeys, r.1 k = given m k)).map Prod.snd =
      Rows.rowSamples x.view.tagKeys x.recs m := by
  unfold Rows.rowSamples
  simp only [absV, List.filter_map, List.map_map]
  rfl

theorem labels_eq {keys : List Key} {m : Option TMap} {row : Row F64} (ht : row.tags = specTags keys m)
    {ls : List LabelValue} {ks : List Key} (hks : ∀ k ∈ ks, k ∈ keys)
    (h : List.Forall₂ (LabelFor row.tags) ks ls) :
    ls.map (fun l => if l.present then some l.value else none) =
      ks.map fun k => if given m k = [] then none else some (given m k) := by
  induction h with
  | nil => rfl
  | @cons k l ks ls hl _ ih =>
    rw [List.map_cons, List.map_cons, ih fun k hk => hks k (by simp [hk])]
    congr 1
    have hmem : ∀ v, (k, v) ∈ row.tags ↔ given m k = v ∧ v ≠ [] := by
      intro v
      rw [ht]
      simp only [specTags, List.mem_filter, List.mem_map, decide_eq_true_eq, Prod.mk.injEq]
      constructor
      · rintro ⟨⟨k', _, rfl, h2⟩, h3⟩
        exact ⟨h2, h3⟩
      · rintro ⟨h1, h2⟩
        exact ⟨⟨k, hks k (by simp), rfl, h1⟩, h2⟩
    cases hp : l.present with
    | true =>
      have := (hmem _).mp (hl.1 hp)
      rw [this.1, if_neg this.2]
      rfl
    | false =>
      have := (hl.2 hp).2
      have hg : given m k = [] := by
        by_contra hne
        exact this _ ((hmem _).mpr ⟨rfl, hne⟩)
      rw [if_pos hg]
      rfl

theorem labels_inj {f g : Key → Bytes} {keys : List Key}
    (h : (keys.map fun k => if f k = [] then none else some (f k)) =
      keys.map fun k => if g k = [] then none else some (g k)) : ∀ k ∈ keys, f k = g k := by
  intro k hk
  have := List.map_inj_left.mp h k hk
  by_cases hf : f k = [] <;> by_cases hg : g k = [] <;> simp [hf, hg] at this ⊢
  exact this

theorem metric_for {x : View.Spec.SView} {now : Int} {m : MetricOut} (h : MetricOf x now m)
    (hty : x.agg.newData = some x.agg.type ∧ x.agg.type ≠ .none) (hs : Agg.SortedBounds x.agg.buckets) :
    MetricFor (absV x) now m := by
  obtain ⟨h1, h2, h3, h4, h5, rows, hr, hf⟩ := h
  have series : ∀ row s, row ∈ rows → SeriesOf x.view.tagKeys m.descriptor.type now row s →
      ∀ r, row.tags = specTags x.view.tagKeys r → SeriesFor (absV x) now (given r) s := by
    intro row s hrow hse r hrt
    obtain ⟨r', hr', ht', s0, ss, d0, e1, e2, e3⟩ := (hr.2 row).mp hrow
    obtain ⟨g1, g2, g3, g4, g5⟩ := hse
    have hagree : Agree x.view.tagKeys r'.1 r := (Rows.same_tags_iff _ _ _).mp (by rw [← ht', hrt])
    have hrs : Rows.rowSamples x.view.tagKeys x.recs r = s0 :: ss := by
      rw [← e1]
      unfold Rows.rowSamples
      congr 1
      apply List.filter_congr
      intro q _
      rw [decide_eq_decide]
      constructor
      · intro hq k hk; rw [hq k hk, hagree k hk]
      · intro hq k hk; rw [hq k hk, hagree k hk]
    obtain ⟨p1, p2⟩ := point_for (ss := s0 :: ss) (k := x.measure.kind) hty.1 hty.2 hs rfl e2 e3 h4 g2 g4
    refine ⟨labels_eq hrt (fun k hk => hk) g1, g3, s0 :: ss, ?_, ?_, p2⟩
    · rw [samples_eq, hrs]
    · rw [g5, p1]
      rfl
  have fwd : ∀ s ∈ m.series, ∃ row ∈ rows, SeriesOf x.view.tagKeys m.descriptor.type now row s := by
    intro s hs'
    obtain ⟨i, hi, rfl⟩ := List.getElem_of_mem hs'
    have hl := hf.length_eq
    exact ⟨rows[i]'(by omega), List.getElem_mem _, List.forall₂_iff_get.mp hf |>.2 i (by omega) hi⟩
  have bwd : ∀ row ∈ rows, ∃ s ∈ m.series, SeriesOf x.view.tagKeys m.descriptor.type now row s := by
    intro row hrow
    obtain ⟨i, hi, rfl⟩ := List.getElem_of_mem hrow
    have hl := hf.length_eq
    exact ⟨m.series[i]'(by omega), List.getElem_mem _, List.forall₂_iff_get.mp hf |>.2 i hi (by omega)⟩
  refine ⟨h1, h2, h3, h4, h5, ?_, ?_, ?_⟩
  · intro s hs'
    obtain ⟨row, hrow, hse⟩ := fwd s hs'
    obtain ⟨r', hr', ht', _⟩ := (hr.2 row).mp hrow
    exact ⟨(given r'.1, r'.2), List.mem_map.mpr ⟨r', hr', rfl⟩, series row s hrow hse r'.1 ht'⟩
  · intro r hrm
    obtain ⟨r', hr', rfl⟩ := List.mem_map.mp hrm
    obtain ⟨row, hrow, ht⟩ : ∃ row ∈ rows, row.tags = specTags x.view.tagKeys r'.1 := by
      cases hrs : Rows.rowSamples x.view.tagKeys x.recs r'.1 with
      | nil =>
        unfold Rows.rowSamples at hrs
        rw [List.map_eq_nil_iff, List.filter_eq_nil_iff] at hrs
        exact absurd (by simp [Agree]) (hrs r' hr')
      | cons s0 ss =>
        obtain ⟨d0, hd⟩ : ∃ d0, x.agg.mkData s0.t = .ok d0 := by
          unfold Aggregation.mkData
          rw [hty.1]
          cases hta : x.agg.type <;> first | exact absurd hta hty.2 | exact ⟨_, rfl⟩
        exact ⟨⟨_, _⟩, (hr.2 _).mpr ⟨r', hr', rfl, s0, ss, d0, hrs, hd, AggData.addAll_eq _ (mkData_shape hd) _⟩, rfl⟩
    obtain ⟨s, hs1, hs2⟩ := bwd row hrow
    exact ⟨s, hs1, series row s hrow hs2 r'.1 ht⟩
  · have hl := hf.length_eq
    unfold List.Nodup
    rw [List.pairwise_map, List.pairwise_iff_getElem]
    intro i j hi hj hij he
    have si := (List.forall₂_iff_get.mp hf).2 i (by omega) hi
    have sj := (List.forall₂_iff_get.mp hf).2 j (by omega) hj
    simp only [List.get_eq_getElem] at si sj
    obtain ⟨ri, _, hti, _⟩ := (hr.2 _).mp (List.getElem_mem (l := rows) (n := i) (by omega))
    obtain ⟨rj, _, htj, _⟩ := (hr.2 _).mp (List.getElem_mem (l := rows) (n := j) (by omega))
    have ei := labels_eq hti (fun k hk => hk) si.1
    have ej := labels_eq htj (fun k hk => hk) sj.1
    have := labels_inj (ei.symm.trans (he.trans ej))
    have htt : (rows[i]'(by omega)).tags = (rows[j]'(by omega)).tags := by
      rw [hti, htj]
      exact (Rows.same_tags_iff _ _ _).mpr this
    have hnd := hr.1
    unfold List.Nodup at hnd
    rw [List.pairwise_map, List.pairwise_iff_getElem] at hnd
    exact hnd i j (by omega) (by omega) hij htt

/-! ## Proof: steps -/

theorem lastOf_append {β : Type} (f : Option' → Option β) (ros : List Option') (o : Option') :
    lastOf f (ros ++ [o]) = (f o).or (lastOf f ros) := by
  unfold lastOf
  rw [List.filterMap_append, List.getLast?_append]
  cases h : f o <;> simp [h]

theorem options_eq (ros : List Option') :
    mutatorsOf ros = (createRecordOption ros).mutators ∧
    attachmentsOf ros = (createRecordOption ros).attachments ∧
    measurementsOf ros = (createRecordOption ros).measurements ∧
    (ownRecorder ros = false ↔ (createRecordOption ros).recorder = none) := by
  induction ros using List.reverseRecOn with
  | nil => exact ⟨rfl, rfl, rfl, by simp [ownRecorder, createRecordOption]⟩
  | append_singleton ros o ih =>
    obtain ⟨h1, h2, h3, h4⟩ := ih
    unfold createRecordOption at *
    simp only [mutatorsOf, attachmentsOf, measurementsOf, ownRecorder] at *
    simp only [lastOf_append, List.foldl_append, List.foldl_cons, List.foldl_nil, List.any_append, List.any_cons,
      List.any_nil, Bool.or_false]
    cases o <;> simp [applyOption, h1, h2, h3, h4]

theorem samples_given (tm : Option TMap) (f : Key → Bytes) (h : given tm = f) (att : Attachments) (t : Int)
    (measure : Bytes) (ms : List (Option Measurement)) :
    (Worker.recorded tm att t measure ms).map (fun r => (given r.1, r.2)) = samples f att t measure ms := by
  unfold Worker.recorded samples
  rw [List.map_filterMap]
  congr 1
  funext m
  cases m with
  | none => rfl
  | some m => simp only; split <;> simp [h]

theorem samples_nil {tm : Option TMap} {att : Attachments} {t : Int} {measure : Bytes}
    {ms : List (Option Measurement)} (h : Worker.recorded tm att t measure ms = []) (f : Key → Bytes) :
    samples f att t measure ms = [] := by
  unfold Worker.recorded at h
  unfold samples
  rw [List.filterMap_eq_nil_iff] at h ⊢
  intro m hm
  have := h m hm
  cases m with
  | none => rfl
  | some m => simp only at this ⊢; split <;> simp_all

theorem registerAll_abs (vs : List ViewDef) (σ : View.Spec.SState) (n : Bytes) :
    ((View.Spec.registerAll σ vs).1 n).map absV = registerAll (fun n => (σ n).map absV) vs n := by
  induction vs generalizing σ with
  | nil => rfl
  | cons v vs ih =>
    cases hσ : σ v.name with
    | some x =>
      have e : registerAll (fun n => (σ n).map absV) (v :: vs) n = registerAll (fun n => (σ n).map absV) vs n := by
        simp [registerAll, hσ]
      rw [e, ← ih]
      simp only [View.Spec.registerAll, hσ]
      split <;> rfl
    | none =>
      cases ha : v.agg with
      | none =>
        simp only [registerAll, View.Spec.registerAll, hσ, ha]
        exact ih σ
      | some a =>
        cases hm : v.measure with
        | none =>
          simp only [registerAll, View.Spec.registerAll, hσ, ha, hm]
          exact ih σ
        | some m =>
          simp only [registerAll, View.Spec.registerAll, hσ, ha, hm, Option.map_none]
          rw [ih]
          congr 1
          funext k
          simp only [View.Spec.update]
          split <;> rfl

theorem canonicalizeAll_sorted {vs vs' : List ViewDef} (h : canonicalizeAll vs = .ok vs') :
    ∀ v ∈ vs', ∀ a, v.agg = some a → Agg.SortedBounds a.buckets := by
  induction vs generalizing vs' with
  | nil => cases h; simp
  | cons v vs ih =>
    unfold canonicalizeAll at h
    rcases hc : canonicalize v with ⟨v1, _ | e⟩
    · rw [hc] at h
      simp only at h
      cases hr : canonicalizeAll vs with
      | error e => rw [hr] at h; cases h
      | ok vs1 =>
        rw [hr] at h
        cases h
        intro w hw a ha
        rcases List.mem_cons.mp hw with rfl | hw
        · obtain ⟨_, m, a0, a', _, _, _, h4, _, _, _, _, _, _, _, _, h5, h6⟩ := (Canon.canonicalize_iff _ _).mp hc
          rw [ha, Option.some.injEq] at h4
          subst h4
          refine ⟨fun b hb => ?_, h6⟩
          have := (List.mem_filter.mp (h5.mem_iff.mp hb)).2
          cases b <;> simp_all [F64.lt, F64.IsNum]
        · exact ih hr w hw a ha
    · rw [hc] at h; cases h

theorem registerAll_sorted (vs : List ViewDef) (hv : ∀ v ∈ vs, ∀ a, v.agg = some a → Agg.SortedBounds a.buckets)
    (σ : View.Spec.SState) (h : ∀ n x, σ n = some x → Agg.SortedBounds x.agg.buckets) :
    ∀ n x, (View.Spec.registerAll σ vs).1 n = some x → Agg.SortedBounds x.agg.buckets := by
  induction vs generalizing σ with
  | nil => exact h
  | cons v vs ih =>
    have ih := ih fun w hw => hv w (by simp [hw])
    cases hσ : σ v.name with
    | some x =>
      simp only [View.Spec.registerAll, hσ]
      split
      · exact ih σ h
      · exact ih σ h
    | none =>
      cases ha : v.agg with
      | none => simp only [View.Spec.registerAll, hσ, ha]; exact ih σ h
      | some a =>
        cases hm : v.measure with
        | none => simp only [View.Spec.registerAll, hσ, ha, hm]; exact ih σ h
        | some m =>
          simp only [View.Spec.registerAll, hσ, ha, hm]
          refine ih _ fun n x hx => ?_
          simp only [View.Spec.update] at hx
          split at hx
          · cases hx; exact hv v (by simp) a ha
          · exact h n x hx

/-- What holds after every call. -/
structure Inv (reg0 : Measures) (s : State) (p : Spec) : Prop where
  ctxs : List.Forall₂ (fun c v => CtxOK s.heap c ∧ view s.heap c = v ∧ ViewValid v) s.ctxs p.ctxs
  views : ∃ σ, View.Rel s.w s.reg σ ∧ (∀ n, p.views n = (σ n).map absV) ∧
    ∀ n x, σ n = some x → Agg.SortedBounds x.agg.buckets
  mono : ∀ k, (GoMap.get reg0 k).isSome → (GoMap.get s.reg k).isSome
  out : List.Forall₂ (fun q ms => MetricsFor q.2 q.1 ms) p.reads s.out

theorem inv_init (reg : Measures) : Inv reg (init reg) Spec.init := by
  refine ⟨.cons ⟨?_, ?_, ?_⟩ .nil, ⟨_, View.rel_init reg, fun _ => rfl, ?_⟩, fun _ h => h, .nil⟩
  · intro a ha; cases ha
  · rfl
  · intro k b t h; cases h
  · intro n x h; cases h

theorem forall₂_get {α β : Type} {R : α → β → Prop} {l : List α} {l' : List β} (h : List.Forall₂ R l l') {i : Nat} {a : α}
    (ha : l[i]? = some a) : ∃ b, l'[i]? = some b ∧ R a b := by
  obtain ⟨hi, rfl⟩ := List.getElem?_eq_some_iff.mp ha
  have hl := h.length_eq
  exact ⟨l'[i]'(by omega), List.getElem?_eq_getElem (by omega), (List.forall₂_iff_get.mp h).2 i hi (by omega)⟩

theorem frame_ctx {α : Type} {h : Heap} {c : Ctx α} (m : TMap) (hc : CtxOK h c) :
    CtxOK (h ++ [m]) c ∧ view (h ++ [m]) c = view h c := by
  cases ht : c.tags with
  | none =>
    refine ⟨fun a ha => ?_, ?_⟩
    · rw [ht] at ha; cases ha
    · funext k; simp [view, ht]
  | some a =>
    obtain ⟨ma, hma, hw⟩ := hc a ht
    have hlt : a < h.length := (List.getElem?_eq_some_iff.mp hma).1
    have hma' : (h ++ [m])[a]? = some ma := by rw [List.getElem?_append_left hlt]; exact hma
    refine ⟨fun a' ha' => ?_, ?_⟩
    · rw [ht] at ha'; cases ha'; exact ⟨ma, hma', hw⟩
    · rw [view_eq _ c ht hma', ← view_eq h c ht hma]

theorem new_frame {α : Type} (iter : Order) (h : Heap) (c : Ctx α) (mus : List Mutator) :
    ∃ m, (new iter h c mus).1 = h ++ [m] := by
  rw [new_eq]
  rcases copyAllP [] (incoming iter h c) with ⟨m, _ | e⟩
  · simp only
    rcases mutateAllP m mus with ⟨m', _ | e⟩ <;> exact ⟨m', rfl⟩
  · exact ⟨m, rfl⟩

theorem frame_ctxs {h : Heap} {cs : List (Ctx Unit)} {vs : List View} (m : TMap)
    (hf : List.Forall₂ (fun c v => CtxOK h c ∧ view h c = v ∧ ViewValid v) cs vs) :
    List.Forall₂ (fun c v => CtxOK (h ++ [m]) c ∧ view (h ++ [m]) c = v ∧ ViewValid v) cs vs := by
  refine hf.imp fun c v hcv => ?_
  obtain ⟨a1, a2⟩ := frame_ctx m hcv.1
  exact ⟨a1, by rw [a2]; exact hcv.2.1, hcv.2.2⟩

theorem decode_wf {bytes : Bytes} {m : TMap} (hd : Verif.Tag.decode bytes = .ok m) : GoMap.WF m := by
  simp only [Verif.Tag.decode] at hd
  rcases hde : decodeEach bytes with ⟨calls, o⟩
  rw [hde] at hd
  cases o <;> simp only [Res.ok.injEq, reduceCtorEq] at hd
  subst hd
  have : ∀ (calls : List (Key × Bytes)) (m : TMap), GoMap.WF m → GoMap.WF (calls.foldl (fun ts c =>
      upsert ts c.1 c.2 (createMetadatas [.withTTL ttlUnlimited])) m) := by
    intro calls
    induction calls with
    | nil => intro m h; exact h
    | cons c calls ih => intro m h; exact ih _ (GoMap.WF_set h _ _)
  exact this _ _ GoMap.WF_nil

/-- A call cannot be made: it names a context that there is not, or encoded tags would have 2^63 bytes. -/
def Impossible (s : State) : Call → Prop
  | .newTags _ i _ => s.ctxs.length ≤ i
  | .forward iter i j => s.ctxs.length ≤ i ∨ s.ctxs.length ≤ j ∨
      ∃ c bytes, s.ctxs[j]? = some c ∧ encodeCtx iter s.heap c = .ok bytes ∧ 2 ^ 63 ≤ bytes.length
  | .record _ i _ _ => s.ctxs.length ≤ i
  | _ => False

theorem step_new {reg0 : Measures} {s : State} {p : Spec} (h : Inv reg0 s p) {iter : Order} {i : Nat} {mus : List Mutator}
    (hg : Good reg0 (.newTags iter i mus)) :
    (step s (.newTags iter i mus) = .err ∧ Impossible s (.newTags iter i mus)) ∨
      ∃ s', step s (.newTags iter i mus) = .ok s' ∧ Inv reg0 s' (p.step (.newTags iter i mus)) := by
  cases hc : s.ctxs[i]? with
  | none => exact .inl ⟨by simp [step, hc], List.getElem?_eq_none_iff.mp hc⟩
  | some c =>
    right
    obtain ⟨v, hv, c1, c2, c3⟩ := forall₂_get h.ctxs hc
    obtain ⟨hiter, hk⟩ := hg
    refine ⟨_, by simp only [step, hc]; rfl, ?_⟩
    simp only [Spec.step, hv]
    refine ⟨?_, h.views, h.mono, h.out⟩
    obtain ⟨m, hm⟩ := new_frame iter s.heap c mus
    have hfail := new_fails_iff iter hiter s.heap c c1 mus
    refine List.rel_append (by simp only [hm]; exact frame_ctxs m h.ctxs) (.cons ?_ .nil)
    by_cases hgood : ∀ mu ∈ mus, GoodMut mu
    · rw [if_pos hgood]
      have hne : (new iter s.heap c mus).2.2 = none := by
        cases he : (new iter s.heap c mus).2.2 with
        | none => rfl
        | some e =>
          rcases hfail.mp ⟨e, he⟩ with ⟨k, b, t, hb, hbad⟩ | ⟨mu, hmu, hbad⟩
          · rw [c2] at hb; exact absurd (c3 k b t hb) hbad
          · exact absurd (hgood mu hmu) hbad
      have hnew : new iter s.heap c mus = ((new iter s.heap c mus).1, (new iter s.heap c mus).2.1, none) := by
        rw [← hne]
      obtain ⟨s1, _, s3⟩ := new_refines_spec iter hiter s.heap c c1 mus _ _ hnew
      rw [c2] at s1
      exact ⟨s3, s1, foldl_specMut_valid mus _ c3 hk hgood⟩
    · rw [if_neg hgood]
      push Not at hgood
      obtain ⟨e, he⟩ := hfail.mpr (.inr hgood)
      rw [new_error_returns_input iter s.heap c mus e he]
      obtain ⟨a1, a2⟩ := frame_ctx m c1
      simp only [hm]
      exact ⟨a1, by rw [a2]; exact c2, c3⟩

theorem step_forward {reg0 : Measures} {s : State} {p : Spec} (h : Inv reg0 s p) {iter : Order} {i j : Nat}
    (hg : Good reg0 (.forward iter i j)) :
    (step s (.forward iter i j) = .err ∧ Impossible s (.forward iter i j)) ∨
      ∃ s', step s (.forward iter i j) = .ok s' ∧ Inv reg0 s' (p.step (.forward iter i j)) := by
  cases hc : s.ctxs[i]? with
  | none => exact .inl ⟨by simp [step, hc], .inl (List.getElem?_eq_none_iff.mp hc)⟩
  | some c =>
    cases hd : s.ctxs[j]? with
    | none => exact .inl ⟨by simp [step, hc, hd], .inr (.inl (List.getElem?_eq_none_iff.mp hd))⟩
    | some d =>
      obtain ⟨v, hv, d1, d2, d3⟩ := forall₂_get h.ctxs hd
      -- what is encoded and decoded again
      have key : ∃ bytes, encodeCtx iter s.heap d = .ok bytes ∧ (bytes.length < 2 ^ 63 →
          ∃ m', decode bytes = .ok m' ∧ viewMap m' = fun k => (v k).filter fun c => c.2 = -1) := by
        cases ht : d.tags with
        | none =>
          refine ⟨[], by simp [encodeCtx, ht], fun _ => ⟨[], by simp [decode, decodeEach], ?_⟩⟩
          funext k
          rw [← d2]
          simp [viewMap, view, ht, GoMap.get]
        | some a =>
          obtain ⟨m, hm, hw⟩ := d1 a ht
          have hvm := view_eq s.heap d ht hm
          have hvalid : ValidMap m := by
            refine ⟨hw, fun e he => ?_⟩
            apply d3 e.1 e.2.value e.2.m.ttl
            rw [← d2, hvm, viewMap, GoMap.get_of_mem hw (k := e.1) (v := e.2) he]
            rfl
          obtain ⟨bytes, e1, e2⟩ := decode_encode m (iter m) hvalid (hg m)
          refine ⟨bytes, by simp [encodeCtx, ht, hm, e1], fun hlen => ?_⟩
          obtain ⟨m', e3, e4⟩ := e2 hlen
          refine ⟨m', e3, ?_⟩
          funext k
          rw [← d2, hvm]
          simp only [viewMap, e4]
          cases GoMap.get m k with
          | none => rfl
          | some c => by_cases ht : c.m.ttl = -1 <;> simp [Option.filter, ht]
      obtain ⟨bytes, e1, e2⟩ := key
      by_cases hlen : bytes.length < 2 ^ 63
      · right
        obtain ⟨m', e3, e4⟩ := e2 hlen
        refine ⟨_, by simp only [step, hc, hd, e1, Res.bind, if_pos hlen, e3]; rfl, ?_⟩
        simp only [Spec.step, hv]
        refine ⟨List.rel_append (frame_ctxs m' h.ctxs) (.cons ⟨?_, ?_, ?_⟩ .nil), h.views, h.mono, h.out⟩
        · intro a ha
          cases ha
          exact ⟨m', by simp, decode_wf e3⟩
        · rw [view_eq (s.heap ++ [m']) _ (a := s.heap.length) (m := m') rfl (by simp), e4]
        · intro k b t hk
          apply d3 k b t
          cases hvk : v k with
          | none => simp [hvk] at hk
          | some x => simp only [hvk, Option.filter] at hk; split at hk <;> simp_all
      · refine .inl ⟨by simp only [step, hc, hd, e1, Res.bind, if_neg hlen], .inr (.inr ⟨d, bytes, hd, e1, by omega⟩)⟩

theorem step_record {reg0 : Measures} {s : State} {p : Spec} (h : Inv reg0 s p) {iter : Order} {i : Nat} {t : Int}
    {ros : List Option'} (hg : Good reg0 (.record iter i t ros)) :
    (step s (.record iter i t ros) = .err ∧ Impossible s (.record iter i t ros)) ∨
      ∃ s', step s (.record iter i t ros) = .ok s' ∧ Inv reg0 s' (p.step (.record iter i t ros)) := by
  cases hc : s.ctxs[i]? with
  | none => exact .inl ⟨by simp [step, hc], List.getElem?_eq_none_iff.mp hc⟩
  | some c =>
    right
    obtain ⟨v, hv, c1, c2, c3⟩ := forall₂_get h.ctxs hc
    obtain ⟨hiter, hk, hreal⟩ := hg
    obtain ⟨o1, o2, o3, o4⟩ := options_eq ros
    have hreal : RealMeasurements s.reg (createRecordOption ros).measurements := by
      intro m hm
      rw [o3] at hreal
      obtain ⟨x, d, e1, e2⟩ := hreal m hm
      obtain ⟨d', hd'⟩ := Option.isSome_iff_exists.mp (h.mono x.m.name (by simp [e2]))
      exact ⟨x, d', e1, hd'⟩
    obtain ⟨σ, hr, hσ, hsort⟩ := h.views
    have same : ∀ heap, (heap = s.heap ∨ ∃ m, heap = s.heap ++ [m]) →
        List.Forall₂ (fun c v => CtxOK heap c ∧ view heap c = v ∧ ViewValid v) s.ctxs p.ctxs := by
      rintro heap (rfl | ⟨m, rfl⟩)
      · exact h.ctxs
      · exact frame_ctxs m h.ctxs
    have hstep : ∀ q, (p.step (.record iter i t ros)) = q → q.ctxs = p.ctxs ∧ q.reads = p.reads := by
      rintro q rfl
      simp only [Spec.step, hv]
      split <;> exact ⟨rfl, rfl⟩
    obtain ⟨hq1, hq2⟩ := hstep _ rfl
    -- it is enough to follow the heap and the worker
    suffices hs : ∃ heap res w, recordWithOptions iter s.reg s.heap c ros = .ok (heap, res) ∧
        sendRecord s.w t res.sent = .ok w ∧ (heap = s.heap ∨ ∃ m, heap = s.heap ++ [m]) ∧
        ∃ σ', View.Rel w s.reg σ' ∧ (∀ n, (p.step (.record iter i t ros)).views n = (σ' n).map absV) ∧
          ∀ n x, σ' n = some x → Agg.SortedBounds x.agg.buckets by
      obtain ⟨heap, res, w, e1, e2, e3, e4⟩ := hs
      refine ⟨{ s with heap := heap, w := w }, by simp only [step, hc, e1, e2, Res.bind], ?_⟩
      refine ⟨?_, e4, h.mono, ?_⟩
      · rw [hq1]; exact same heap e3
      · rw [hq2]; exact h.out
    -- nothing happens
    have nothing : ∀ heap res, recordWithOptions iter s.reg s.heap c ros = .ok (heap, res) →
        sendRecord s.w t res.sent = .ok s.w → (heap = s.heap ∨ ∃ m, heap = s.heap ++ [m]) →
        ((ownRecorder ros = false ∧ ∀ mu ∈ mutatorsOf ros, GoodMut mu) → ∀ tm att, View.Spec.record σ tm att t
          (measurementsOf ros) = σ) → ∃ heap res w, recordWithOptions iter s.reg s.heap c ros = .ok (heap, res) ∧
        sendRecord s.w t res.sent = .ok w ∧ (heap = s.heap ∨ ∃ m, heap = s.heap ++ [m]) ∧
        ∃ σ', View.Rel w s.reg σ' ∧ (∀ n, (p.step (.record iter i t ros)).views n = (σ' n).map absV) ∧
          ∀ n x, σ' n = some x → Agg.SortedBounds x.agg.buckets := by
      intro heap res e1 e2 e3 e4
      refine ⟨heap, res, s.w, e1, e2, e3, σ, hr, fun n => ?_, hsort⟩
      simp only [Spec.step, hv]
      split
      · next hcond =>
        have hrec := congrFun (e4 hcond none (attachmentsOf ros)) n
        rw [Worker.record_get] at hrec
        simp only [recordAll, hσ]
        cases hn : σ n with
        | none => rfl
        | some x =>
          rw [hn] at hrec
          simp only [Option.map_some, Option.some.injEq] at hrec
          have hnil : Worker.recorded none (attachmentsOf ros) t x.measure.name (measurementsOf ros) = [] := by
            have := congrArg View.Spec.SView.recs hrec
            simpa using this
          simp only [Option.map_some, Option.some.injEq]
          have hnil' := samples_nil hnil (tagOf ((mutatorsOf ros).foldl specMut v))
          simp only [PView.add, absV, hnil', List.append_nil]
      · exact hσ n
    -- the request is sent
    have sent : ∀ heap (ctx' : Ctx Unit), (heap = s.heap ∨ ∃ m, heap = s.heap ++ [m]) → CtxOK heap ctx' →
        view heap ctx' = (mutatorsOf ros).foldl specMut v → (∀ mu ∈ mutatorsOf ros, GoodMut mu) →
        recordWithOptions iter s.reg s.heap c ros = .ok (heap, ⟨none, some ((createRecordOption ros).recorder,
          ⟨ctx'.tags.bind (fun a => heap[a]?), (createRecordOption ros).measurements,
            (createRecordOption ros).attachments⟩)⟩) →
        ∃ heap res w, recordWithOptions iter s.reg s.heap c ros = .ok (heap, res) ∧
        sendRecord s.w t res.sent = .ok w ∧ (heap = s.heap ∨ ∃ m, heap = s.heap ++ [m]) ∧
        ∃ σ', View.Rel w s.reg σ' ∧ (∀ n, (p.step (.record iter i t ros)).views n = (σ' n).map absV) ∧
          ∀ n x, σ' n = some x → Agg.SortedBounds x.agg.buckets := by
      intro heap ctx' hheap hok hview hgood hrun
      cases hrec : (createRecordOption ros).recorder with
      | some r =>
        refine nothing _ _ hrun (by simp [sendRecord, hrec]) hheap fun hcond => ?_
        rw [o4] at hcond
        rw [hrec] at hcond
        cases hcond.1
      | none =>
        have hvalid := foldl_specMut_valid (mutatorsOf ros) v c3 hk hgood
        have hfit : ViewFits (view heap ctx') := by
          intro k b t hkb
          rw [hview] at hkb
          exact (hvalid k b t hkb).2.1
        obtain ⟨w', h1, h2, _⟩ := recordLoop_rel (ctx'.tags.bind fun a => heap[a]?) (createRecordOption ros).attachments t
          (tagsFit_of_view hok hfit) (createRecordOption ros).measurements hr
        refine ⟨heap, _, w', hrun, by simp only [sendRecord, hrec, Worker.record]; exact h1, hheap, _, h2, fun n => ?_, ?_⟩
        · have hgiven : given (ctx'.tags.bind fun a => heap[a]?) = tagOf ((mutatorsOf ros).foldl specMut v) := by
            funext k
            rw [given_of_view hok, hview]
          simp only [Spec.step, hv]
          rw [if_pos ⟨o4.mpr hrec, hgood⟩]
          simp only [recordAll, hσ, Worker.record_get]
          cases hn : σ n with
          | none => rfl
          | some x =>
            simp only [Option.map_some, Option.some.injEq, PView.add, absV, List.map_append]
            rw [samples_given _ _ hgiven, o2, o3]
        · intro n x hx
          rw [Worker.record_get] at hx
          obtain ⟨y, hy, rfl⟩ := Option.map_eq_some_iff.mp hx
          exact hsort n y hy
    by_cases h0 : (createRecordOption ros).measurements.length = 0
    · refine nothing s.heap ⟨none, none⟩ (by simp [recordWithOptions, h0]) rfl (.inl rfl) fun _ tm att => ?_
      rw [o3, List.length_eq_zero_iff.mp h0]
      rfl
    · obtain ⟨b, hb, hiff⟩ := anySubscribed_eq hreal
      cases b with
      | false =>
        refine nothing s.heap ⟨none, none⟩ (by simp [recordWithOptions, h0, hb, Res.bind]) rfl (.inl rfl)
          fun _ tm att => ?_
        rw [o3]
        exact unsubscribed_records_nothing hr (by rw [← hiff]; simp) tm att t
      | true =>
        by_cases hmu : (createRecordOption ros).mutators.length > 0
        · obtain ⟨m, hm⟩ := new_frame iter s.heap c (createRecordOption ros).mutators
          have hfail := new_fails_iff iter hiter s.heap c c1 (createRecordOption ros).mutators
          rcases hn : new iter s.heap c (createRecordOption ros).mutators with ⟨heap', ctx', _ | e⟩
          · rw [hn] at hm
            have hgood : ∀ mu ∈ mutatorsOf ros, GoodMut mu := by
              intro mu hmu'
              by_contra hbad
              rw [o1] at hmu'
              obtain ⟨e, he⟩ := hfail.mpr (.inr ⟨mu, hmu', hbad⟩)
              rw [hn] at he; cases he
            obtain ⟨s1, _, s3⟩ := new_refines_spec iter hiter s.heap c c1 _ _ _ hn
            refine sent heap' ctx' (.inr ⟨m, hm⟩) s3 (by rw [s1, c2, o1]) hgood ?_
            simp [recordWithOptions, h0, hb, hmu, hn, Res.bind]
          · rw [hn] at hm
            refine nothing heap' ⟨some e, none⟩ (by simp [recordWithOptions, h0, hb, hmu, hn, Res.bind]) rfl
              (.inr ⟨m, hm⟩) fun hcond => ?_
            rcases hfail.mp ⟨e, by rw [hn]⟩ with ⟨k, b, t, hkb, hbad⟩ | ⟨mu, hmu', hbad⟩
            · rw [c2] at hkb
              exact absurd (c3 k b t hkb) hbad
            · rw [← o1] at hmu'
              exact absurd (hcond.2 mu hmu') hbad
        · have hnil : (createRecordOption ros).mutators = [] := List.length_eq_zero_iff.mp (by omega)
          refine sent s.heap c (.inl rfl) c1 (by rw [o1, hnil]; exact c2) (by rw [o1, hnil]; simp) ?_
          simp [recordWithOptions, h0, hb, hnil, Res.bind]

theorem step_cmd {reg0 : Measures} {s : State} {p q : Spec} (h : Inv reg0 s p) {cmd : Cmd}
    (hg : View.Spec.GoodCmd reg0 cmd) {now : Int} (hcmd : (∃ vs, cmd = .register now vs) ∨ ∃ ns, cmd = .unregister now ns)
    (hq : q.ctxs = p.ctxs ∧ q.reads = p.reads)
    (hviews : ∀ σ, (∀ n, p.views n = (σ n).map absV) → (∀ n x, σ n = some x → Agg.SortedBounds x.agg.buckets) →
      (∀ n, q.views n = (View.Spec.step σ cmd n).map absV) ∧
        ∀ n x, View.Spec.step σ cmd n = some x → Agg.SortedBounds x.agg.buckets) :
    ∃ w reg r, handle s.w s.reg cmd = .ok (w, reg, r) ∧ Inv reg0 { s with w := w, reg := reg } q := by
  obtain ⟨σ, hr, hσ, hsort⟩ := h.views
  obtain ⟨w, reg, r, es, e1, e2, _, e4⟩ := handle_rel hr cmd (Worker.goodCmd_mono h.mono hg)
  obtain ⟨f1, f2⟩ := hviews σ hσ hsort
  exact ⟨w, reg, (r, es), e1, by rw [hq.1]; exact h.ctxs, ⟨_, e2, f1, f2⟩, fun k hk => e4 k (h.mono k hk),
    by rw [hq.2]; exact h.out⟩

theorem step_ok {reg0 : Measures} {s : State} {p : Spec} (h : Inv reg0 s p) {c : Call} (hg : Good reg0 c) :
    (step s c = .err ∧ Impossible s c) ∨ ∃ s', step s c = .ok s' ∧ Inv reg0 s' (p.step c) := by
  cases c with
  | newTags iter i mus => exact step_new h hg
  | forward iter i j => exact step_forward h hg
  | record iter i t ros => exact step_record h hg
  | register now vs =>
    right
    obtain ⟨w, reg, r, e1, e2⟩ := step_cmd (q := p.step (.register now vs)) (now := now) h (cmd := .register now vs) hg
      (.inl ⟨vs, rfl⟩) (by simp only [Spec.step]; split <;> exact ⟨rfl, rfl⟩) (by
        intro σ hσ hsort
        simp only [Spec.step, View.Spec.step]
        cases hc : canonicalizeAll vs with
        | error e => exact ⟨hσ, hsort⟩
        | ok vs' =>
          refine ⟨fun n => ?_, registerAll_sorted vs' (canonicalizeAll_sorted hc) σ hsort⟩
          rw [registerAll_abs]
          simp only [funext hσ])
    exact ⟨_, by simp only [step, e1, Res.bind], e2⟩
  | unregister now ns =>
    right
    obtain ⟨w, reg, r, e1, e2⟩ := step_cmd (q := p.step (.unregister now ns)) (now := now) h (cmd := .unregister now ns)
      trivial (.inr ⟨ns, rfl⟩) ⟨rfl, rfl⟩ (by
        intro σ hσ hsort
        refine ⟨fun n => ?_, fun n x hx => ?_⟩
        · simp only [Spec.step, View.Spec.step, Worker.unregister_get, hσ]
          split <;> rfl
        · simp only [View.Spec.step, Worker.unregister_get] at hx
          split at hx
          · cases hx
          · exact hsort n x hx)
    exact ⟨_, by simp only [step, e1, Res.bind], e2⟩
  | read now =>
    right
    obtain ⟨σ, hr, hσ, hsort⟩ := h.views
    obtain ⟨ms, names, e1, e2, e3, e4⟩ := read_rel hr now
    refine ⟨{ s with out := s.out ++ [ms] }, by simp only [step, e1, Res.bind], h.ctxs, ⟨σ, hr, hσ, hsort⟩, h.mono, ?_⟩
    refine List.rel_append h.out (.cons ⟨names, e2, fun n => ?_, ?_⟩ .nil)
    · rw [e3 n]
      simp only [hσ]
      constructor
      · rintro ⟨x, h1, h2⟩
        exact ⟨absV x, by rw [h1]; rfl, by simpa [absV] using h2⟩
      · rintro ⟨y, h1, h2⟩
        obtain ⟨x, hx, rfl⟩ := Option.map_eq_some_iff.mp h1
        exact ⟨x, hx, by simpa [absV] using h2⟩
    · refine e4.imp fun n m hnm => ?_
      obtain ⟨x, hx, hm⟩ := hnm
      refine ⟨absV x, by simp only [hσ, hx]; rfl, metric_for hm ?_ (hsort n x hx)⟩
      cases hg' : GoMap.get s.w.views n with
      | none => rw [hr.none_iff n hg'] at hx; cases hx
      | some a =>
        obtain ⟨vi, x', _, f2, f3, _⟩ := hr.some_iff n a hg'
        rw [hx, Option.some.injEq] at f2
        subst f2
        exact f3.type

theorem run_ok {reg0 : Measures} {s : State} {p : Spec} (h : Inv reg0 s p) (cs : List Call) (hg : ∀ c ∈ cs, Good reg0 c) :
    (run s cs = .err ∧ ∃ pre c s', pre ++ [c] <+: cs ∧ run s pre = .ok s' ∧ Impossible s' c) ∨
      ∃ s', run s cs = .ok s' ∧ Inv reg0 s' (p.run cs) := by
  induction cs generalizing s p with
  | nil => exact .inr ⟨s, rfl, h⟩
  | cons c cs ih =>
    rcases step_ok h (hg c (by simp)) with ⟨e1, e2⟩ | ⟨s1, e1, e2⟩
    · exact .inl ⟨by simp [run, e1, Res.bind], [], c, s, by simp, rfl, e2⟩
    · rcases ih e2 (fun d hd => hg d (by simp [hd])) with ⟨f1, pre, d, s', f3, f4, f5⟩ | ⟨s', f1, f2⟩
      · refine .inl ⟨by simp [run, e1, Res.bind, f1], c :: pre, d, s', ?_, by simp [run, e1, Res.bind, f4], f5⟩
        exact List.prefix_cons_inj c |>.mpr f3
      · exact .inr ⟨s', by simp [run, e1, Res.bind, f1], f2⟩

/-! ## The theorem -/

/-- C81. Whatever a program does with tags, views and recordings, no call panics, and each read gives one metric for each
view registered at that time with recordings since. In it every combination of values of the view's tag keys under which
something was recorded has one series, labelled with the values, and with the point of exactly the samples recorded under
them: the tags are those of the context as the mutators made it, of which only those with unlimited TTL were handed on from
one process to the next. (The other case: a call names a context that there is not, or would need a slice of 2^63 bytes.) -/
theorem exports_right (reg : Measures) (cs : List Call) (hg : ∀ c ∈ cs, Good reg c) :
    (∃ s, run (init reg) cs = .ok s ∧
      List.Forall₂ (fun q ms => MetricsFor q.2 q.1 ms) (Spec.init.run cs).reads s.out) ∨
    (run (init reg) cs = .err ∧
      ∃ pre c s, pre ++ [c] <+: cs ∧ run (init reg) pre = .ok s ∧ Impossible s c) := by
  rcases run_ok (inv_init reg) cs hg with h | ⟨s, h1, h2⟩
  · exact .inr h
  · exact .inl ⟨s, h1, h2.out⟩

/-! ## An instance -/

def keyA : Key := ⟨str "a"⟩
def keyB : Key := ⟨str "b"⟩

/-- A client tags `a` (to be handed on) and `b` (not); the server it calls records a latency in a view by `a` and `b`, with an
option that sets `b`, and once more without; then the metrics are read. -/
def prog : List Call :=
  [.newTags id 0 [.upsert keyA (str "1") [], .upsert keyB (str "x") [.withTTL 0]],
    .forward id 0 1,
    .register 5 [view1],
    .record id 2 7 [.tags [.insert keyB (str "y") []], .measurements [some ⟨.fin 7, latency⟩]],
    .record id 2 8 [.measurements [some ⟨.fin 3, latency⟩, some ⟨.fin 4, latency⟩]],
    .read 9]

theorem prog_good : ∀ c ∈ prog, Good regUnsub c := by
  have hA : GoodName keyA.name := by unfold GoodName; decide
  have hB : GoodName keyB.name := by unfold GoodName; decide
  have hreal : ∀ x : F64, ∃ y d, (some ⟨x, latency⟩ : Option Measurement) = some y ∧ GoMap.get regUnsub y.m.name = some d :=
    fun x => ⟨_, ⟨false, str "latency", [], str "ms"⟩, rfl, rfl⟩
  intro c hc
  simp only [prog, List.mem_cons, List.not_mem_nil, or_false] at hc
  rcases hc with rfl | rfl | rfl | rfl | rfl | rfl
  · refine ⟨fun m => .refl m, fun mu hmu => ?_⟩
    simp only [List.mem_cons, List.not_mem_nil, or_false] at hmu
    rcases hmu with rfl | rfl
    · exact hA
    · exact hB
  · exact fun m => .refl m
  · intro v hv
    simp only [List.mem_singleton] at hv; subst hv
    refine ⟨?_, ?_⟩
    · intro m hm; simp only [view1, Option.some.injEq] at hm; subst hm
      exact ⟨by decide, _, rfl⟩
    · intro a ha; simp only [view1, Option.some.injEq] at ha; subst ha
      exact ⟨rfl, by decide⟩
  · refine ⟨fun m => .refl m, fun mu hmu => ?_, fun m hm => ?_⟩
    · simp only [mutatorsOf, lastOf, List.filterMap_cons, List.filterMap_nil, List.getLast?_singleton, Option.getD_some,
        List.mem_singleton] at hmu
      subst hmu
      exact hB
    · simp only [measurementsOf, lastOf, List.filterMap_cons, List.filterMap_nil, List.getLast?_singleton, Option.getD_some,
        List.mem_singleton] at hm
      subst hm
      exact hreal _
  · refine ⟨fun m => .refl m, fun mu hmu => ?_, fun m hm => ?_⟩
    · simp [mutatorsOf, lastOf] at hmu
    · simp only [measurementsOf, lastOf, List.filterMap_cons, List.filterMap_nil, List.getLast?_singleton, Option.getD_some,
        List.mem_cons, List.not_mem_nil, or_false] at hm
      rcases hm with rfl | rfl <;> exact hreal _
  · trivial

/-- The tags are handed on without hindrance. -/
example : ∃ s, run (init regUnsub) (prog.take 2) = .ok s := by
  have hg : ∀ c ∈ prog.take 2, Good regUnsub c := fun c hc => prog_good c (List.mem_of_mem_take hc)
  rcases exports_right regUnsub (prog.take 2) hg with ⟨s, h, _⟩ | ⟨_, pre, c, s, h1, h2, h3⟩
  · exact ⟨s, h⟩
  · exfalso
    rcases pre with _ | ⟨c0, _ | ⟨c1, pre⟩⟩
    · have hc : c = prog[0] := by simpa [prog, List.prefix_cons_iff] using h1
      subst hc
      cases h2
      exact absurd h3 (by simp [prog, Impossible, init])
    · have hc : c0 = prog[0] ∧ c = prog[1] := by simpa [prog, List.prefix_cons_iff] using h1
      obtain ⟨rfl, rfl⟩ := hc
      cases h2
      rcases h3 with h3 | h3 | ⟨d, bytes, e1, e2, e3⟩
      · exact absurd h3 (by decide)
      · exact absurd h3 (by decide)
      · have : bytes = [0, 0, 1, 97, 1, 49] := by
          cases e1
          change encode [(keyA, ⟨str "1", ⟨-1⟩⟩), (keyB, ⟨str "x", ⟨0⟩⟩)] = .ok bytes at e2
          rw [encode_is_concatenation _ (by intro e he; simp [keyA, keyB] at he; rcases he with rfl | rfl <;> decide)] at e2
          have p1 : putUvarint 1 = [1] := by rw [putUvarint]; decide
          have l2 : str "a" = [97] ∧ str "1" = [49] := by decide
          simp only [keyA, keyB, List.filter_cons, List.filter_nil, tagBytes] at e2
          rw [if_pos (by decide), if_neg (by decide), Res.ok.injEq] at e2
          rw [← e2]
          simp only [List.map_cons, List.map_nil, List.flatten_cons, List.flatten_nil, l2.1, l2.2,
            List.length_cons, List.length_nil, Nat.zero_add, p1]
          rfl
        subst this
        exact absurd e3 (by decide)
    · have := h1.length_le
      simp [prog] at this

/-- What the specification says was recorded when the metrics are read: three samples, the first under `a = 1`, `b = y`, the
others under `a = 1` alone. -/
theorem prog_reads : ∃ σ x f g, (Spec.init.run prog).reads = [(9, σ)] ∧ σ (str "latency") = some x ∧
    x.view = view1' ∧ x.recs = [(f, ⟨.fin 7, [], 7⟩), (g, ⟨.fin 3, [], 8⟩), (g, ⟨.fin 4, [], 8⟩)] ∧
    f keyA = str "1" ∧ f keyB = str "y" ∧ g keyA = str "1" ∧ g keyB = [] := by
  have h1 : GoodValue (str "1") := by unfold GoodValue; decide
  have hx : GoodValue (str "x") := by unfold GoodValue; decide
  have hy : GoodValue (str "y") := by unfold GoodValue; decide
  have c1 : canonicalizeAll [view1] = .ok [view1'] := by simp [canonicalizeAll, canon_view1]
  have g1 : ∀ mu ∈ ([.upsert keyA (str "1") [], .upsert keyB (str "x") [.withTTL 0]] : List Mutator), GoodMut mu := by
    simp [GoodMut, h1, hx]
  have g2 : ∀ mu ∈ ([.insert keyB (str "y") []] : List Mutator), GoodMut mu := by simp [GoodMut, hy]
  have g3 : ∀ mu ∈ ([] : List Mutator), GoodMut mu := by simp
  have m1 : mutatorsOf [.tags [.insert keyB (str "y") []], .measurements [some ⟨.fin 7, latency⟩]] =
      [.insert keyB (str "y") []] := rfl
  have m2 : mutatorsOf [.measurements [some ⟨.fin 3, latency⟩, some ⟨.fin 4, latency⟩]] = [] := rfl
  simp only [prog, Spec.run, Spec.step, Spec.init, List.getElem?_cons_zero, List.getElem?_cons_succ, List.cons_append,
    List.nil_append, if_pos g1, c1, m1, m2]
  rw [if_pos ⟨rfl, g2⟩]
  simp only [List.getElem?_cons_zero, List.getElem?_cons_succ, m2]
  rw [if_pos ⟨rfl, g3⟩]
  simp only [List.nil_append]
  refine ⟨_, _, _, _, rfl, rfl, rfl, rfl, ?_, ?_, ?_, ?_⟩
  all_goals decide

end Verif.Props.Program
