import Verif.Props.Truncate
import Verif.View.Metric
import Verif.Props.Recording

/-!
# Property C21: views as metrics
-/

namespace Verif.Props.ViewMetric
open Verif Verif.Tag Verif.Stats Verif.View Verif.View.Spec Verif.Props.Rows Verif.Props.Worker
open Verif.Metric

/-! ## Specification -/

/-- The label value a series should show for a key, given the row's tags. -/
def LabelFor (tags : List (Key × Bytes)) (k : Key) (l : LabelValue) : Prop :=
  (l.present = true → (k, l.value) ∈ tags) ∧ (l.present = false → l.value = [] ∧ ∀ v, (k, v) ∉ tags)

/-- The kind of value a metric of a type carries. -/
def KindOf : MType → PointValue → Prop
  | .gaugeInt64, .int64 _ => True
  | .cumulativeInt64, .int64 _ => True
  | .gaugeFloat64, .float64 _ => True
  | .cumulativeFloat64, .float64 _ => True
  | .cumulativeDistribution, .distribution _ _ _ bounds buckets => buckets.length = bounds.length + 1
  | _, _ => False

/-- `y` is the value `x` as an `int64`: without its fraction, if that fits. Otherwise it is left open. -/
def IntOf (x : F64) (y : Option Int) : Prop :=
  ∀ n, y = some n ↔ ∃ q, x = .fin q ∧ TowardsZero q n ∧ -2 ^ 63 ≤ n ∧ n < 2 ^ 63

/-- The point carries the data of the row. -/
def Carries (d : AggData F64) (p : PointValue) : Prop :=
  match d, p with
  | .count _ n, p => p = .int64 (some n)
  | .sum _ x, .float64 y => y = x
  | .sum _ x, .int64 y => IntOf x y
  | .last x, .float64 y => y = x
  | .last x, .int64 y => IntOf x y
  | .dist d, .distribution c sum ssd bounds buckets =>
    c = d.count ∧ sum = d.sum ∧ ssd = d.ssd ∧ bounds = d.bounds ∧ buckets.map (·.count) = d.cpb ∧
      buckets.map (·.exemplar) = d.epb
  | _, _ => False

/-- When the row's data started to be collected; a last value has no start. -/
def startOf : AggData F64 → Option Int
  | .count s _ => some s
  | .sum s _ => some s
  | .dist d => some d.start
  | .last _ => none

/-- The series of a row: one label value per key of the view, in key order; the point is of the
metric's type and taken at the time of the read; and it carries the row's data. -/
def SeriesOf (keys : List Key) (t : MType) (now : Int) (row : Row F64) (s : TimeSeries) : Prop :=
  List.Forall₂ (LabelFor row.tags) keys s.labelValues ∧ KindOf t s.point ∧ s.time = now ∧
  Carries row.data s.point ∧ s.startTime = startOf row.data

/-- The type and unit of the metric of a measure and an aggregation: sums and counts are cumulative,
last values are gauges, in the measure's number type except for counts, which are integers without
unit. -/
def TypeOf : AggType → MKind → MType → Prop
  | .count, _, t => t = .cumulativeInt64
  | .sum, .int64, t => t = .cumulativeInt64
  | .sum, .float64, t => t = .cumulativeFloat64
  | .lastValue, .int64, t => t = .gaugeInt64
  | .lastValue, .float64, t => t = .gaugeFloat64
  | .distribution, _, t => t = .cumulativeDistribution
  | _, _, _ => False

def UnitOf (a : AggType) (unit : Bytes) (u : Unit') : Prop :=
  (u = .milliseconds ↔ a ≠ .count ∧ unit = str "ms") ∧ (u = .bytes ↔ a ≠ .count ∧ unit = str "By")

/-- The metric of a registered view: described by the view's name, description and tag keys, with a
series for each row and in the order of the rows. -/
def MetricOf (x : SView) (now : Int) (m : MetricOut) : Prop :=
  m.descriptor.name = x.view.name ∧ m.descriptor.description = x.view.description ∧
  m.descriptor.labelKeys = x.view.tagKeys.map Key.name ∧
  TypeOf x.agg.type x.measure.kind m.descriptor.type ∧
  UnitOf x.agg.type x.measure.unit m.descriptor.unit ∧
  ∃ rows, RowsFor x rows ∧ List.Forall₂ (SeriesOf x.view.tagKeys m.descriptor.type now) rows m.series

/-! ## Proof -/

theorem toInt64_spec (x : F64) : IntOf x (toInt64 x) := by
  intro n
  cases x with
  | fin q =>
    have hn : (if q < 0 then -((-q).floor) else q.floor) = if 0 ≤ q then q.floor else -((-q).floor) := by
      by_cases hq : q < 0
      · rw [if_pos hq, if_neg (not_le.mpr hq)]
      · rw [if_neg hq, if_pos (not_lt.mp hq)]
    have ht := towardsZero_of q
    rw [← hn] at ht
    unfold toInt64
    simp only
    constructor
    · intro h
      by_cases hr : -2 ^ 63 ≤ (if q < 0 then -((-q).floor) else q.floor) ∧ (if q < 0 then -((-q).floor) else q.floor) < 2 ^ 63
      · rw [if_pos hr, Option.some.injEq] at h
        exact ⟨q, rfl, h ▸ ht, h ▸ hr⟩
      · rw [if_neg hr] at h; cases h
    · rintro ⟨q', hq, h1, h2⟩
      cases hq
      have := ht.unique h1
      rw [this, if_pos h2]
  | _ => simp [toInt64]

theorem tagMap_get (tags : List (Key × Bytes)) (acc : GoMap Bytes Bytes) (k : Bytes) :
    GoMap.get (tags.foldl (fun m t => GoMap.set m t.1.name t.2) acc) k =
      ((tags.reverse.find? (fun t => decide (t.1.name = k))).map Prod.snd).or (GoMap.get acc k) := by
  induction tags generalizing acc with
  | nil => simp
  | cons t tags ih =>
    rw [List.foldl_cons, ih, GoMap.get_set, List.reverse_cons, List.find?_append]
    by_cases h : k = t.1.name
    · cases hf : tags.reverse.find? (fun t => decide (t.1.name = k)) <;> simp [h]
    · have h' : ¬ t.1.name = k := fun e => h e.symm
      cases hf : tags.reverse.find? (fun t => decide (t.1.name = k)) <;> simp [h, h']

theorem toLabelValues_spec (tags : List (Key × Bytes)) (keys : List Key) :
    List.Forall₂ (LabelFor tags) keys (toLabelValues tags (keys.map Key.name)) := by
  unfold toLabelValues
  rw [List.map_map]
  induction keys with
  | nil => exact List.Forall₂.nil
  | cons k keys ih =>
    refine List.Forall₂.cons ?_ ih
    have hg := tagMap_get tags [] k.name
    simp only [Function.comp_apply, tagMap]
    rw [hg]
    cases hf : tags.reverse.find? (fun t => decide (t.1.name = k.name)) with
    | none =>
      refine ⟨by simp, fun _ => ⟨rfl, fun v hv => ?_⟩⟩
      rw [List.find?_eq_none] at hf
      have := hf (k, v) (by simpa using hv)
      simp at this
    | some t =>
      have h1 := List.find?_some hf
      have h2 := List.mem_of_find?_eq_some hf
      simp only [decide_eq_true_eq] at h1
      refine ⟨fun _ => ?_, by simp⟩
      have : k = t.1 := by obtain ⟨⟨kn⟩, v⟩ := t; cases k; simp_all
      rw [this]
      simpa using h2

theorem zipBuckets_ok (cs : List Int) (es : List (Option (Exemplar F64))) (h : cs.length = es.length) :
    ∃ bs, zipBuckets cs es = .ok bs ∧ bs.map (·.count) = cs ∧ bs.map (·.exemplar) = es := by
  induction cs generalizing es with
  | nil => cases es <;> simp_all [zipBuckets]
  | cons c cs ih =>
    cases es with
    | nil => simp at h
    | cons e es =>
      obtain ⟨bs, h1, h2, h3⟩ := ih es (by simpa using h)
      exact ⟨⟨c, e⟩ :: bs, by simp [zipBuckets, h1, Res.bind], by simp [h2], by simp [h3]⟩

/-- The data of an aggregation type. -/
def HasType : AggData F64 → AggType → Prop
  | .count _ _, .count => True
  | .sum _ _, .sum => True
  | .dist _, .distribution => True
  | .last _, .lastValue => True
  | _, _ => False

theorem mkData_type {a : Aggregation F64} {t : Int} {d : AggData F64} {ty : AggType}
    (hn : a.newData = some ty) (h : a.mkData t = .ok d) : HasType d ty := by
  unfold Aggregation.mkData at h
  rw [hn] at h
  cases ty <;> simp at h <;> subst h <;> trivial

theorem foldl_type (ss : List (Sample F64)) (d : AggData F64) (ty : AggType) (h : HasType d ty) :
    HasType (ss.foldl AggData.next d) ty := by
  induction ss generalizing d with
  | nil => exact h
  | cons s ss ih =>
    apply ih
    cases d <;> cases ty <;> exact h

theorem foldl_shape (ss : List (Sample F64)) (d : AggData F64) (h : d.Shape) :
    (ss.foldl AggData.next d).Shape := by
  induction ss generalizing d with
  | nil => exact h
  | cons s ss ih => exact ih _ (AggData.next_shape h s)

theorem toPoint_ok {m : Measure} {a : Aggregation F64} {t : MType} (ht : getType m a = .ok t)
    {d : AggData F64} (hd : HasType d a.type) (hs : d.Shape) :
    ∃ p, d.toPoint t = .ok p ∧ KindOf t p ∧
      Carries d p := by
  unfold getType at ht
  cases d with
  | count st n =>
    cases hty : a.type <;> rw [hty] at hd <;> try exact hd.elim
    cases hk : m.kind <;> simp [hty, hk] at ht <;> subst ht <;>
      exact ⟨_, rfl, trivial, rfl⟩
  | sum st x =>
    cases hty : a.type <;> rw [hty] at hd <;> try exact hd.elim
    cases hk : m.kind <;> simp [hty, hk] at ht <;> subst ht <;>
      first | exact ⟨_, rfl, trivial, toInt64_spec _⟩ | exact ⟨_, rfl, trivial, rfl⟩
  | last x =>
    cases hty : a.type <;> rw [hty] at hd <;> try exact hd.elim
    cases hk : m.kind <;> simp [hty, hk] at ht <;> subst ht <;>
      first | exact ⟨_, rfl, trivial, toInt64_spec _⟩ | exact ⟨_, rfl, trivial, rfl⟩
  | dist d =>
    cases hty : a.type <;> rw [hty] at hd <;> try exact hd.elim
    simp [hty] at ht
    subst ht
    obtain ⟨h1, h2⟩ := hs
    obtain ⟨bs, e1, e2, e3⟩ := zipBuckets_ok d.cpb d.epb (by omega)
    refine ⟨.distribution d.count d.sum d.ssd d.bounds bs, by simp [AggData.toPoint, e1, Res.bind], ?_,
      rfl, rfl, rfl, rfl, e2, e3⟩
    have := congrArg List.length e2
    simp only [List.length_map] at this
    simp only [KindOf]; omega

theorem rowsToTimeseries_ok (vi : VI) (now : Int) (keys : List Key)
    (rows : List (Row F64))
    (h : ∀ row ∈ rows, ∃ s, rowToTimeseries vi row now = .ok s ∧ SeriesOf keys vi.descriptor.type now row s) :
    ∃ ts, rowsToTimeseries vi now rows = .ok ts ∧
      List.Forall₂ (SeriesOf keys vi.descriptor.type now) rows ts := by
  induction rows with
  | nil => exact ⟨[], rfl, List.Forall₂.nil⟩
  | cons r rows ih =>
    obtain ⟨s, h1, h2⟩ := h r (by simp)
    obtain ⟨ts, h3, h4⟩ := ih (fun r hr => h r (by simp [hr]))
    exact ⟨s :: ts, by simp [rowsToTimeseries, h1, h3, Res.bind], List.Forall₂.cons h2 h4⟩

theorem getType_spec {m : Measure} {a : Aggregation F64} {t : MType} (h : getType m a = .ok t) :
    TypeOf a.type m.kind t := by
  unfold getType at h
  cases hty : a.type <;> cases hk : m.kind <;> simp [hty, hk] at h <;> simp [TypeOf, ← h]

theorem convertUnit_spec (m : Measure) (a : Aggregation F64) :
    UnitOf a.type m.unit (convertUnit m a) := by
  unfold convertUnit getUnit UnitOf
  have e1 : str "1" ≠ str "ms" := by decide
  have e2 : str "1" ≠ str "By" := by decide
  have e3 : str "ms" ≠ str "By" := by decide
  by_cases h1 : m.unit = str "1"
  · cases a.type <;> simp [h1, e1, e2]
  by_cases h2 : m.unit = str "ms"
  · cases a.type <;> simp [h2, e1.symm, e3]
  by_cases h3 : m.unit = str "By"
  · cases a.type <;> simp [h3, e2.symm, e3.symm]
  · cases a.type <;> simp [h1, h2, h3]

theorem view_metric {vi : VI} {x : SView} (h : VRel vi x) (now : Int) :
    ∃ r, toMetric vi now = .ok r ∧
      match r with
      | none => x.recs = []
      | some m => x.recs ≠ [] ∧ MetricOf x now m := by
  obtain ⟨rows, h1, h2⟩ := h.rows
  have hdesc := h.desc
  rw [h.view] at hdesc
  simp only [viewToMetricDescriptor, h.measure, h.agg] at hdesc
  cases ht : getType x.measure x.agg with
  | panic => rw [ht] at hdesc; simp [Res.bind] at hdesc
  | err => rw [ht] at hdesc; simp [Res.bind] at hdesc
  | ok t =>
    rw [ht] at hdesc
    simp only [Res.bind, Res.ok.injEq] at hdesc
    have hkeys : vi.descriptor.labelKeys = x.view.tagKeys.map Key.name := by rw [← hdesc]
    have htype : vi.descriptor.type = t := by rw [← hdesc]
    have hrow : ∀ row ∈ rows, ∃ s, rowToTimeseries vi row now = .ok s ∧
        SeriesOf x.view.tagKeys vi.descriptor.type now row s := by
      intro row hr
      obtain ⟨r, _, htags, s0, ss, d0, _, hd0, hd⟩ := (h2.2 row).mp hr
      rw [AggData.addAll_eq d0 (mkData_shape hd0)] at hd
      simp only [Res.ok.injEq] at hd
      have hty : HasType row.data x.agg.type := by
        rw [← hd]; exact foldl_type _ _ _ (mkData_type h.type.1 hd0)
      have hsh : row.data.Shape := by rw [← hd]; exact foldl_shape _ _ (mkData_shape hd0)
      obtain ⟨p, hp, hk, hm⟩ := toPoint_ok ht hty hsh
      refine ⟨_, by simp only [rowToTimeseries, htype, hp, Res.bind]; rfl, ?_, ?_, rfl, hm, ?_⟩
      · simp only [hkeys]; exact toLabelValues_spec _ _
      · rw [htype]; exact hk
      · cases row.data <;> rfl
    obtain ⟨ts, h3, h4⟩ := rowsToTimeseries_ok vi now x.view.tagKeys rows hrow
    have hempty : rows = [] ↔ x.recs = [] := by
      constructor
      · intro he
        cases hrs : x.recs with
        | nil => rfl
        | cons r rs =>
          exfalso
          have hmem : r ∈ x.recs := by rw [hrs]; simp
          have hne : rowSamples x.view.tagKeys x.recs r.1 ≠ [] := by
            intro hc
            have : r.2 ∈ rowSamples x.view.tagKeys x.recs r.1 :=
              List.mem_map_of_mem (List.mem_filter.mpr ⟨hmem, by simp [Agree]⟩)
            rw [hc] at this; simp at this
          obtain ⟨s0, ss, hs⟩ := List.exists_cons_of_ne_nil hne
          obtain ⟨d0, hd0⟩ := Aggregation.mkData_ok (a := x.agg) ⟨_, h.type.1, h.type.2⟩ s0.t
          have := (h2.2 ⟨specTags x.view.tagKeys r.1, (s0 :: ss).foldl AggData.next d0⟩).mpr
            ⟨r, hmem, rfl, s0, ss, d0, hs, hd0, by rw [AggData.addAll_eq d0 (mkData_shape hd0)]⟩
          rw [he] at this; simp at this
      · intro he
        cases hrs : rows with
        | nil => rfl
        | cons row rs =>
          obtain ⟨r, hr, _⟩ := (h2.2 row).mp (by rw [hrs]; simp)
          rw [he] at hr; simp at hr
    by_cases hr : rows.length = 0
    · refine ⟨none, ?_, hempty.mp (List.length_eq_zero_iff.mp hr)⟩
      simp [toMetric, h.sub, viewToMetric, h1, Res.bind, List.length_eq_zero_iff.mp hr]
    · refine ⟨some ⟨vi.descriptor, ts⟩, ?_, ?_, ?_, ?_, hkeys, ?_, ?_, rows, h2, h4⟩
      · simp only [toMetric, h.sub, viewToMetric, h1, Res.bind, if_neg hr, h3]; rfl
      · intro hc; exact hr (by rw [hempty.mpr hc]; rfl)
      · simp only; rw [← hdesc]
      · simp only; rw [← hdesc]
      · simp only; rw [htype]; exact getType_spec ht
      · simp only; rw [← hdesc]; exact convertUnit_spec _ _

/-- Reading the views of a worker that is in state `σ`. -/
theorem read_rel {w : Worker} {reg' : Measures} {σ : SState} (h2 : Rel w reg' σ) (now : Int) :
    ∃ ms names, w.read now = .ok ms ∧ names.Nodup ∧
      (∀ n, n ∈ names ↔ ∃ x, σ n = some x ∧ x.recs ≠ []) ∧
      List.Forall₂ (fun n m => ∃ x, σ n = some x ∧ MetricOf x now m) names ms := by
  have loop : ∀ l : List (Bytes × Nat), (∀ p ∈ l, GoMap.get w.views p.1 = some p.2) →
      (l.map Prod.fst).Nodup →
      ∃ ms names, w.readLoop now l = .ok ms ∧ names.Nodup ∧ (∀ n ∈ names, n ∈ l.map Prod.fst) ∧
        (∀ n ∈ l.map Prod.fst, (n ∈ names ↔ ∃ x, σ n = some x ∧ x.recs ≠ [])) ∧
        List.Forall₂ (fun n m => ∃ x, σ n = some x ∧ MetricOf x now m) names ms := by
    intro l
    induction l with
    | nil => intro _ _; exact ⟨[], [], rfl, by simp, by simp, by simp, List.Forall₂.nil⟩
    | cons p l ih =>
      intro hl hnd
      obtain ⟨n, a⟩ := p
      simp only [List.map_cons, List.nodup_cons] at hnd
      obtain ⟨ms, names, e1, e2, e3, e4, e5⟩ := ih (fun p hp => hl p (by simp [hp])) hnd.2
      obtain ⟨vi, x, f1, f2, f3, _⟩ := h2.some_iff n a (hl (n, a) (by simp))
      obtain ⟨r, g1, g2⟩ := view_metric f3 now
      have hn : n ∉ names := fun hc => hnd.1 (e3 n hc)
      cases r with
      | none =>
        refine ⟨ms, names, by simp [Worker.readLoop, f1, g1, e1, Res.bind], e2, ?_, ?_, e5⟩
        · intro k hk; simp only [List.map_cons, List.mem_cons]; exact Or.inr (e3 k hk)
        · intro k hk
          simp only [List.map_cons, List.mem_cons] at hk
          by_cases hkn : k = n
          · subst hkn
            simp only [hn, false_iff]
            rintro ⟨y, hy, hne⟩
            rw [f2] at hy; simp only [Option.some.injEq] at hy; subst hy
            exact hne g2
          · exact e4 k (by tauto)
      | some m =>
        refine ⟨m :: ms, n :: names, by simp [Worker.readLoop, f1, g1, e1, Res.bind], ?_, ?_, ?_, ?_⟩
        · exact List.nodup_cons.mpr ⟨hn, e2⟩
        · intro k hk
          simp only [List.map_cons, List.mem_cons] at hk ⊢
          rcases hk with rfl | hk
          · exact Or.inl rfl
          · exact Or.inr (e3 k hk)
        · intro k hk
          simp only [List.map_cons, List.mem_cons] at hk ⊢
          by_cases hkn : k = n
          · subst hkn
            simp only [true_or, true_iff]
            exact ⟨x, f2, g2.1⟩
          · simp only [hkn, false_or]
            exact e4 k (by tauto)
        · exact List.Forall₂.cons ⟨x, f2, g2.2⟩ e5
  obtain ⟨ms, names, e1, e2, e3, e4, e5⟩ := loop w.views
    (fun p hp => GoMap.get_of_mem h2.wf hp) h2.wf
  refine ⟨ms, names, e1, e2, ?_, e5⟩
  intro n
  by_cases hn : n ∈ w.views.map Prod.fst
  · exact e4 n hn
  · constructor
    · intro hc; exact absurd (e3 n hc) hn
    · rintro ⟨x, hx, _⟩
      have : GoMap.get w.views n = none := (GoMap.get_eq_none_iff _ _).mpr hn
      rw [h2.none_iff n this] at hx; simp at hx

/-- C21. After any history of commands, reading the views as metrics does not panic, and gives one
metric for each registered view that has recordings and nothing else; every series has one label
value per label key of the descriptor, in key order, present exactly when the row has a tag for that
key, and a point of the descriptor's type carrying the row's data. -/
theorem read_metrics (reg : Measures) (cs : List Cmd) (hg : ∀ c ∈ cs, GoodCmd reg c) (now : Int) :
    ∃ w reg' rs ms names, run newWorker reg cs = .ok (w, reg', rs) ∧ w.read now = .ok ms ∧
      names.Nodup ∧
      (∀ n, n ∈ names ↔ ∃ x, specRun Spec.empty cs n = some x ∧ x.recs ≠ []) ∧
      List.Forall₂ (fun n m => ∃ x, specRun Spec.empty cs n = some x ∧ MetricOf x now m) names ms := by
  obtain ⟨w, reg', rs, h1, h2, _, _⟩ := run_rel (rel_init reg) cs hg
  obtain ⟨ms, names, h⟩ := read_rel h2 now
  exact ⟨w, reg', rs, ms, names, h1, h⟩

/-- A measure type written by the user makes registering a view panic (on the worker's goroutine). -/
theorem custom_measure_panics (w : Worker) (n d u : Bytes) (a : Aggregation F64) (v : ViewDef)
    (hv : v.measure = some ⟨.other, n, d, u⟩) (ha : v.agg = some a) (ht : a.type ≠ .distribution) (now : Int) :
    w.tryRegisterView v now = .panic := by
  have : getType ⟨.other, n, d, u⟩ a = .panic := by
    cases hty : a.type <;> simp_all [getType]
  simp [Worker.tryRegisterView, newViewInternal, viewToMetricDescriptor, hv, ha, this, Res.bind]

/-- The hypotheses of `read_metrics` are met by a history with data in one of two views. -/
example : ∀ c ∈ ([.register 0 [Recording.view1], .record 1 Recording.req1] : List Cmd),
    GoodCmd Recording.regUnsub c := by
  intro c hc
  simp only [List.mem_cons, List.not_mem_nil, or_false] at hc
  rcases hc with rfl | rfl
  · intro v hv
    simp only [List.mem_singleton] at hv; subst hv
    refine ⟨?_, ?_⟩
    · intro m hm; simp only [Recording.view1, Option.some.injEq] at hm; subst hm
      exact ⟨by decide, _, rfl⟩
    · intro a ha; simp only [Recording.view1, Option.some.injEq] at ha; subst ha
      exact ⟨rfl, by decide⟩
  · intro tm htm p hp
    simp only [Recording.req1, Option.some.injEq] at htm; subst htm
    simp only [Recording.tagsAB, List.mem_singleton] at hp; subst hp
    decide

end Verif.Props.ViewMetric
