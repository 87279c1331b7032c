import Verif.Props.ViewMetric
import Verif.Props.Agg

/-!
# C103: the start times of the series of views
-/

namespace Verif.Props.StartTimes
open Verif Verif.Tag Verif.Stats Verif.View Verif.View.Spec Verif.Props.Rows Verif.Props.Worker
open Verif.Metric Verif.Props.ViewMetric

/-! ## Specification -/

/-- The times of the calls of `Record` whose recordings a meter handles, in the order in which it handles them. -/
def times (cs : List Cmd) : List Int := cs.filterMap fun c => match c with
  | .record t _ => some t
  | _ => none

/-- How many measurements these calls were given. -/
def measurements (cs : List Cmd) : Nat := (cs.map fun c => match c with
  | .record _ r => r.ms.length
  | _ => 0).sum

/-- A new meter that handled the commands `cs` and then is read at `now` gives the metric `m`, among others. -/
def Gives (reg : Measures) (cs : List Cmd) (now : Int) (m : MetricOut) : Prop :=
  ∃ w reg' rs ms, run newWorker reg cs = .ok (w, reg', rs) ∧ w.read now = .ok ms ∧ m ∈ ms

/-- The second point is not behind the first: no count in it is less. -/
def NotBehind : PointValue → PointValue → Prop
  | .int64 (some a), .int64 (some b) => a ≤ b
  | .distribution c _ _ bs hs, .distribution c' _ _ bs' hs' => c ≤ c' ∧ bs = bs' ∧ List.Forall₂ (fun h h' => h.count ≤ h'.count) hs hs'
  | _, _ => False

/-- The recordings that belong to a series of the view with these label values. -/
def Belongs (keys : List Key) (ls : List LabelValue) (tm : Option TMap) : Prop :=
  List.Forall₂ (fun k l => if l.present then given tm k = l.value ∧ l.value ≠ [] else given tm k = [] ∧ l.value = []) keys ls

/-! ## Data -/

/-- All counts are between 0 and `k`. -/
def Within (k : Nat) : AggData F64 → Prop
  | .count _ n => 0 ≤ n ∧ n ≤ k
  | .dist d => (0 ≤ d.count ∧ d.count ≤ k) ∧ ∀ c ∈ d.cpb, 0 ≤ c ∧ c ≤ (k : Int)
  | _ => True

/-- No count is less. -/
def LeData : AggData F64 → AggData F64 → Prop
  | .count _ n, .count _ n' => n ≤ n'
  | .dist d, .dist d' => d.count ≤ d'.count ∧ d.bounds = d'.bounds ∧ List.Forall₂ (· ≤ ·) d.cpb d'.cpb
  | .sum _ _, .sum _ _ => True
  | .last _, .last _ => True
  | _, _ => False

theorem forall₂_refl (l : List Int) : List.Forall₂ (· ≤ ·) l l := by
  induction l with
  | nil => exact .nil
  | cons a l ih => exact .cons (Int.le_refl a) ih

theorem LeData.refl (d : AggData F64) : LeData d d := by
  cases d with
  | count => exact Int.le_refl _
  | dist d => exact ⟨Int.le_refl _, rfl, forall₂_refl _⟩
  | _ => trivial

theorem forall₂_trans {a b c : List Int} (h : List.Forall₂ (· ≤ ·) a b) (h' : List.Forall₂ (· ≤ ·) b c) : List.Forall₂ (· ≤ ·) a c := by
  induction h generalizing c with
  | nil => cases h'; exact .nil
  | cons h1 _ ih => cases h' with | cons h2 h3 => exact .cons (Int.le_trans h1 h2) (ih h3)

theorem LeData.trans {a b c : AggData F64} (h : LeData a b) (h' : LeData b c) : LeData a c := by
  cases a <;> cases b <;> first | exact h.elim | skip
  all_goals cases c <;> first | exact h'.elim | skip
  · exact Int.le_trans h h'
  · trivial
  · exact ⟨Int.le_trans h.1 h'.1, h.2.1.trans h'.2.1, forall₂_trans h.2.2 h'.2.2⟩
  · trivial

theorem wrap_succ {k : Nat} {c : Int} (h0 : 0 ≤ c) (h1 : c ≤ k) (hk : k + 1 < 2 ^ 63) : wrap64 (c + 1) = c + 1 :=
  Agg.wrap64_id (by omega) (by omega)

theorem modify_succ {k : Nat} (hk : k + 1 < 2 ^ 63) (l : List Int) (i : Nat) (h : ∀ c ∈ l, 0 ≤ c ∧ c ≤ (k : Int)) :
    List.Forall₂ (· ≤ ·) l (l.modify i fun c => wrap64 (c + 1)) ∧ ∀ c ∈ l.modify i (fun c => wrap64 (c + 1)), 0 ≤ c ∧ c ≤ ((k + 1 : Nat) : Int) := by
  induction l generalizing i with
  | nil => simp
  | cons a l ih =>
    have ha := h a (by simp)
    have hl : ∀ c ∈ l, 0 ≤ c ∧ c ≤ (k : Int) := fun c hc => h c (by simp [hc])
    cases i with
    | zero =>
      simp only [List.modify_zero_cons, wrap_succ ha.1 ha.2 hk]
      refine ⟨.cons (by omega) (forall₂_refl l), ?_⟩
      intro c hc
      rcases List.mem_cons.1 hc with rfl | hc
      · constructor <;> push_cast <;> omega
      · have := hl c hc
        constructor <;> push_cast <;> omega
    | succ i =>
      simp only [List.modify_succ_cons]
      obtain ⟨h1, h2⟩ := ih i hl
      refine ⟨.cons (Int.le_refl a) h1, ?_⟩
      intro c hc
      rcases List.mem_cons.1 hc with rfl | hc
      · constructor <;> push_cast <;> omega
      · exact h2 c hc

theorem next_le {k : Nat} (hk : k + 1 < 2 ^ 63) {d : AggData F64} (h : Within k d) (s : Sample F64) :
    LeData d (d.next s) ∧ Within (k + 1) (d.next s) := by
  cases d with
  | count st n =>
    have e := wrap_succ h.1 h.2 hk
    have := h.1
    have := h.2
    simp only [AggData.next, LeData, Within, e]
    push_cast
    omega
  | sum st x => exact ⟨trivial, trivial⟩
  | last x => exact ⟨trivial, trivial⟩
  | dist d =>
    obtain ⟨⟨h0, h1⟩, hc⟩ := h
    have e := wrap_succ h0 h1 hk
    obtain ⟨m1, m2⟩ := modify_succ hk d.cpb (bucketIndex s.v d.bounds) hc
    refine ⟨⟨?_, rfl, m1⟩, ⟨?_, m2⟩⟩
    · simp only [Dist.next, e]; omega
    · simp only [Dist.next, e]; push_cast; omega

theorem fold_le (ss : List (Sample F64)) {k : Nat} {d : AggData F64} (hk : k + ss.length < 2 ^ 63) (h : Within k d) :
    LeData d (ss.foldl AggData.next d) ∧ Within (k + ss.length) (ss.foldl AggData.next d) := by
  induction ss generalizing k d with
  | nil => exact ⟨.refl d, h⟩
  | cons s ss ih =>
    simp only [List.length_cons] at hk
    obtain ⟨a1, a2⟩ := next_le (by omega) h s
    obtain ⟨b1, b2⟩ := ih (k := k + 1) (by omega) a2
    refine ⟨a1.trans b1, ?_⟩
    have : k + (s :: ss).length = k + 1 + ss.length := by simp only [List.length_cons]; omega
    rw [this]
    exact b2

theorem within_new {a : Aggregation F64} {t : Int} {d : AggData F64} (h : a.mkData t = .ok d) : Within 0 d := by
  unfold Aggregation.mkData at h
  split at h <;> simp at h <;> subst h <;> simp [Within, newDistributionData]

theorem start_fold (ss : List (Sample F64)) (d : AggData F64) : startOf (ss.foldl AggData.next d) = startOf d := by
  induction ss generalizing d with
  | nil => rfl
  | cons s ss ih =>
    rw [List.foldl_cons, ih]
    cases d <;> rfl

theorem start_new {a : Aggregation F64} {t u : Int} {d : AggData F64} (h : a.mkData t = .ok d) (hs : startOf d = some u) : u = t := by
  unfold Aggregation.mkData at h
  split at h <;> simp at h <;> subst h <;> simp_all [startOf, newDistributionData]

/-! ## The recordings of a view -/

theorem times_append (a b : List Cmd) : times (a ++ b) = times a ++ times b := by simp [times]

theorem samplesOf_append (mn : Bytes) (xs ys : List Cmd) : samplesOf mn (xs ++ ys) = samplesOf mn xs ++ samplesOf mn ys := by
  induction xs with
  | nil => rfl
  | cons c xs ih => rw [List.cons_append, samplesOf_cons, samplesOf_cons mn c xs, ih, List.append_assoc]

theorem samplesOf_times (mn : Bytes) (cs : List Cmd) : ∀ r ∈ samplesOf mn cs, r.2.t ∈ times cs := by
  induction cs with
  | nil => simp [samplesOf]
  | cons c cs ih =>
    rw [samplesOf_cons]
    intro r hr
    have e : times (c :: cs) = times [c] ++ times cs := times_append [c] cs
    rw [e]
    rcases List.mem_append.1 hr with hr | hr
    · refine List.mem_append.2 (.inl ?_)
      cases c <;> simp [samplesOf] at hr
      simp only [recorded, List.mem_filterMap] at hr
      obtain ⟨m, hm, he⟩ := hr
      cases m with
      | none => simp at he
      | some m =>
        simp only at he
        split at he
        · cases he; simp [times]
        · cases he
    · exact List.mem_append.2 (.inr (ih r hr))

theorem samplesOf_length (mn : Bytes) (cs : List Cmd) : (samplesOf mn cs).length ≤ measurements cs := by
  induction cs with
  | nil => simp [samplesOf]
  | cons c cs ih =>
    rw [samplesOf_cons, List.length_append]
    have e : measurements (c :: cs) = measurements [c] + measurements cs := by simp [measurements]
    rw [e]
    have : (samplesOf mn [c]).length ≤ measurements [c] := by
      cases c <;> simp [samplesOf, measurements, recorded]
      exact List.length_filterMap_le _ _
    omega

theorem samplesOf_sorted (mn : Bytes) (cs : List Cmd) (h : (times cs).Pairwise (· ≤ ·)) :
    (samplesOf mn cs).Pairwise fun a b => a.2.t ≤ b.2.t := by
  induction cs with
  | nil => simp [samplesOf]
  | cons c cs ih =>
    have e : times (c :: cs) = times [c] ++ times cs := times_append [c] cs
    rw [e, List.pairwise_append] at h
    rw [samplesOf_cons, List.pairwise_append]
    refine ⟨?_, ih h.2.1, fun a ha b hb => h.2.2 _ (samplesOf_times mn [c] a ha) _ (samplesOf_times mn cs b hb)⟩
    have : ∀ a ∈ samplesOf mn [c], ∀ b ∈ samplesOf mn [c], a.2.t ≤ b.2.t := by
      intro a ha b hb
      have ha := samplesOf_times mn [c] a ha
      have hb := samplesOf_times mn [c] b hb
      cases c <;> simp [times] at ha hb
      rw [ha, hb]
    exact List.Pairwise.imp_of_mem (R := fun _ _ => True) (fun ha hb _ => this _ ha _ hb) (List.pairwise_of_forall (by simp))

/-- A view that is registered after `cs` was registered at some point of `cs`, and has since collected what was recorded for its
measure. -/
theorem since (cs : List Cmd) {n : Bytes} {x : SView} (h : specRun Spec.empty cs n = some x) :
    ∃ pre post, cs = pre ++ post ∧ (∀ c ∈ post, ¬ Unregisters n c) ∧ x.recs = samplesOf x.measure.name post := by
  induction cs using List.reverseRecOn generalizing x with
  | nil => simp [specRun, Spec.empty] at h
  | append_singleton cs c ih =>
    rw [specRun_append] at h
    simp only [specRun] at h
    cases hσ : specRun Spec.empty cs n with
    | some y =>
      by_cases hu : Unregisters n c
      · exfalso
        cases c <;> simp only [Unregisters] at hu
        simp [Spec.step, unregister_get, hu] at h
      · have := step_keeps hσ hu
        rw [this] at h
        cases h
        obtain ⟨pre, post, rfl, h1, h2⟩ := ih hσ
        refine ⟨pre, post ++ [c], by simp, ?_, ?_⟩
        · intro c' hc'
          rcases List.mem_append.1 hc' with hc' | hc'
          · exact h1 c' hc'
          · rw [List.mem_singleton.1 hc']; exact hu
        · simp only [h2, samplesOf_append]
    | none =>
      refine ⟨cs ++ [c], [], by simp, by simp, ?_⟩
      simp only [samplesOf]
      cases c with
      | register now vs =>
        simp only [Spec.step] at h
        cases hc : canonicalizeAll vs with
        | error e => rw [hc] at h; simp only at h; rw [hσ] at h; cases h
        | ok vs' =>
          rw [hc] at h
          simp only at h
          clear ih hc
          have key : ∀ (vs : List ViewDef) (σ : SState), (∀ y, σ n = some y → y.recs = []) →
              ∀ y, (Spec.registerAll σ vs).1 n = some y → y.recs = [] := by
            intro vs
            induction vs with
            | nil => intro σ hσ y hy; exact hσ y hy
            | cons v vs ih =>
              intro σ hσ y hy
              simp only [Spec.registerAll] at hy
              split at hy
              · split at hy
                · exact ih σ hσ y hy
                · exact ih σ hσ y hy
              · refine ih _ ?_ y hy
                intro z hz
                simp only [Spec.update] at hz
                split at hz
                · cases hz; rfl
                · exact hσ z hz
              · exact ih σ hσ y hy
          exact key vs' _ (fun y hy => by rw [hσ] at hy; cases hy) x h
      | unregister now ns => simp only [Spec.step, unregister_get, hσ] at h; split at h <;> cases h
      | record t r => simp [Spec.step, record_get, hσ] at h
      | _ => simp only [Spec.step, hσ] at h; cases h

/-! ## The series -/

/-- The series of a metric and what it is made of. -/
structure Made (x : SView) (now : Int) (ty : MType) (s : TimeSeries) (s0 : Sample F64) (ss : List (Sample F64)) (tm : Option TMap) : Prop where
  data : ∃ d0 row, x.agg.mkData s0.t = .ok d0 ∧ row.data = (s0 :: ss).foldl AggData.next d0 ∧ row.tags = specTags x.view.tagKeys tm ∧
    SeriesOf x.view.tagKeys ty now row s
  samples : rowSamples x.view.tagKeys x.recs tm = s0 :: ss

theorem made {reg : Measures} {cs : List Cmd} (hg : ∀ c ∈ cs, GoodCmd reg c) {now : Int} {m : MetricOut} (h : Gives reg cs now m) :
    ∃ x, specRun Spec.empty cs m.descriptor.name = some x ∧ TypeOf x.agg.type x.measure.kind m.descriptor.type ∧
      (x.agg.newData = some x.agg.type) ∧
      ∀ s ∈ m.series, ∃ s0 ss tm, Made x now m.descriptor.type s s0 ss tm := by
  obtain ⟨w, reg', rs, ms, h1, h2, h3⟩ := h
  obtain ⟨w', reg'', rs', g1, g2, _, _⟩ := run_rel (rel_init reg) cs hg
  rw [h1] at g1
  cases g1
  obtain ⟨ms', names, e1, _, _, e4⟩ := read_rel g2 now
  rw [h2] at e1
  cases e1
  obtain ⟨i, hi, rfl⟩ := List.mem_iff_getElem.1 h3
  have hlen := e4.length_eq
  have hx := List.forall₂_iff_get.1 e4 |>.2 i (by omega) hi
  simp only [List.get_eq_getElem] at hx
  obtain ⟨x, hx, hm⟩ := hx
  have hvn : x.view.name = names[i] ∧ x.agg.newData = some x.agg.type := by
    cases hv : GoMap.get w.views names[i] with
    | none => rw [g2.none_iff _ hv] at hx; cases hx
    | some a =>
      obtain ⟨vi, y, _, hy, hr, hn⟩ := g2.some_iff _ a hv
      rw [hx] at hy
      cases hy
      exact ⟨hn, hr.type.1⟩
  obtain ⟨m1, _, _, m4, _, rows, m6, m7⟩ := hm
  refine ⟨x, by rw [m1, hvn.1]; exact hx, m4, hvn.2, ?_⟩
  intro s hs
  obtain ⟨j, hj, rfl⟩ := List.mem_iff_getElem.1 hs
  have hl := m7.length_eq
  have hrow := List.forall₂_iff_get.1 m7 |>.2 j (by omega) hj
  simp only [List.get_eq_getElem] at hrow
  obtain ⟨r, _, k2, s0, ss, d0, k3, k4, k5⟩ := (m6.2 rows[j]).1 (List.getElem_mem _)
  rw [AggData.addAll_eq d0 (mkData_shape k4)] at k5
  exact ⟨s0, ss, r.1, ⟨d0, rows[j], k4, by simpa using k5.symm, k2, hrow⟩, k3⟩

theorem mem_specTags (keys : List Key) (tm : Option TMap) {k : Key} (hk : k ∈ keys) (v : Bytes) :
    (k, v) ∈ specTags keys tm ↔ given tm k = v ∧ v ≠ [] := by
  simp only [specTags, List.mem_filter, List.mem_map, Prod.mk.injEq, decide_eq_true_eq]
  constructor
  · rintro ⟨⟨k', _, rfl, rfl⟩, h2⟩; exact ⟨rfl, h2⟩
  · rintro ⟨rfl, h2⟩; exact ⟨⟨k, hk, rfl, rfl⟩, h2⟩

theorem belongs_of {keys keys' : List Key} (hsub : ∀ k ∈ keys', k ∈ keys) {tm : Option TMap} {ls : List LabelValue}
    (h : List.Forall₂ (LabelFor (specTags keys tm)) keys' ls) : Belongs keys' ls tm := by
  unfold Belongs
  induction h with
  | nil => exact .nil
  | @cons k l ks ls h1 h2 ih =>
    refine .cons ?_ (ih fun k hk => hsub k (by simp [hk]))
    have hk := hsub k (by simp)
    cases hp : l.present with
    | true => simp only [if_true]; exact (mem_specTags keys tm hk _).1 (h1.1 hp)
    | false =>
      simp only [Bool.false_eq_true, if_false]
      refine ⟨?_, (h1.2 hp).1⟩
      by_cases hv : given tm k = []
      · exact hv
      · exact absurd ((mem_specTags keys tm hk _).2 ⟨rfl, hv⟩) ((h1.2 hp).2 _)

theorem agree_of {keys : List Key} {ls : List LabelValue} {tm tm' : Option TMap} (h : Belongs keys ls tm) (h' : Belongs keys ls tm') :
    Agree keys tm' tm := by
  unfold Belongs at h h'
  induction h with
  | nil => intro k hk; cases hk
  | @cons k l ks ls h1 h2 ih =>
    cases h' with
    | cons g1 g2 =>
      intro k' hk'
      rcases List.mem_cons.1 hk' with rfl | hk'
      · cases hp : l.present with
        | true => simp only [hp, if_true] at h1 g1; rw [h1.1, g1.1]
        | false => simp only [hp, Bool.false_eq_true, if_false] at h1 g1; rw [h1.1, g1.1]
      · exact ih g2 k' hk'

theorem belongs_iff {keys : List Key} {ls : List LabelValue} {tm tm' : Option TMap} (h : Belongs keys ls tm) :
    Agree keys tm' tm ↔ Belongs keys ls tm' := by
  refine ⟨fun ha => ?_, fun h' => agree_of h h'⟩
  unfold Belongs at h ⊢
  induction h with
  | nil => exact .nil
  | @cons k l ks ls h1 h2 ih =>
    refine .cons ?_ (ih fun k hk => ha k (by simp [hk]))
    rw [ha k (by simp)]
    exact h1

theorem rowSamples_agree {keys : List Key} {recs : List (Option TMap × Sample F64)} {tm tm' : Option TMap} (h : Agree keys tm' tm) :
    rowSamples keys recs tm' = rowSamples keys recs tm := by
  unfold rowSamples
  congr 1
  apply List.filter_congr
  intro r _
  have : Agree keys r.1 tm' ↔ Agree keys r.1 tm :=
    ⟨fun g k hk => (g k hk).trans (h k hk), fun g k hk => (g k hk).trans (h k hk).symm⟩
  simp [this]

theorem rowSamples_prefix {keys : List Key} {a b : List (Option TMap × Sample F64)} (h : a <+: b) (tm : Option TMap) :
    rowSamples keys a tm <+: rowSamples keys b tm := by
  obtain ⟨c, rfl⟩ := h
  exact ⟨rowSamples keys c tm, by simp [rowSamples]⟩

theorem Made.belongs {x : SView} {now : Int} {ty : MType} {s : TimeSeries} {s0 : Sample F64} {ss : List (Sample F64)} {tm : Option TMap}
    (h : Made x now ty s s0 ss tm) : Belongs x.view.tagKeys s.labelValues tm := by
  obtain ⟨d0, row, _, _, h3, h4⟩ := h.data
  have := h4.1
  rw [h3] at this
  exact belongs_of (fun _ h => h) this

theorem Made.start {x : SView} {now : Int} {ty : MType} {s : TimeSeries} {s0 : Sample F64} {ss : List (Sample F64)} {tm : Option TMap}
    (h : Made x now ty s s0 ss tm) {t : Int} (ht : s.startTime = some t) : t = s0.t := by
  obtain ⟨d0, row, h1, h2, _, h4⟩ := h.data
  have := h4.2.2.2.2
  rw [ht, h2, start_fold] at this
  exact start_new h1 this.symm

theorem Made.mem {x : SView} {now : Int} {ty : MType} {s : TimeSeries} {s0 : Sample F64} {ss : List (Sample F64)} {tm : Option TMap}
    (h : Made x now ty s s0 ss tm) : ∃ r ∈ x.recs, r.2 = s0 ∧ Agree x.view.tagKeys r.1 tm := by
  have : s0 ∈ rowSamples x.view.tagKeys x.recs tm := by rw [h.samples]; simp
  simp only [rowSamples, List.mem_map, List.mem_filter, decide_eq_true_eq] at this
  obtain ⟨r, ⟨h1, h2⟩, h3⟩ := this
  exact ⟨r, h1, h3, h2⟩

/-- C103. The start time of a series is the time of a recording that belongs to it. If the recordings were handled in the order of
their times, none that belongs to it, since the view was registered, is earlier. Last values have no start. -/
theorem start_time_partial {reg : Measures} {cs : List Cmd} (hg : ∀ c ∈ cs, GoodCmd reg c) {now : Int} {m : MetricOut}
    (h : Gives reg cs now m) {s : TimeSeries} (hs : s ∈ m.series) :
    ∃ x, specRun Spec.empty cs m.descriptor.name = some x ∧
      (s.startTime = none ↔ x.agg.type = .lastValue) ∧
      ∀ t, s.startTime = some t →
        (∃ r ∈ x.recs, Belongs x.view.tagKeys s.labelValues r.1 ∧ r.2.t = t) ∧
        ((times cs).Pairwise (· ≤ ·) → ∀ r ∈ x.recs, Belongs x.view.tagKeys s.labelValues r.1 → t ≤ r.2.t) := by
  obtain ⟨x, h1, _, h3, h4⟩ := made hg h
  obtain ⟨s0, ss, tm, hm⟩ := h4 s hs
  refine ⟨x, h1, ?_, ?_⟩
  · obtain ⟨d0, row, e1, e2, _, e4⟩ := hm.data
    rw [e4.2.2.2.2, e2, start_fold]
    have := mkData_type h3 e1
    cases d0 <;> cases hx : x.agg.type <;> rw [hx] at this <;> first | exact this.elim | simp [startOf]
  · intro t ht
    obtain rfl := hm.start ht
    have hb := hm.belongs
    obtain ⟨r, r1, r2, r3⟩ := hm.mem
    refine ⟨⟨r, r1, (belongs_iff hb).1 r3, by rw [r2]⟩, ?_⟩
    intro hp r' hr' hb'
    obtain ⟨pre, post, rfl, _, hrec⟩ := since cs h1
    rw [times_append, List.pairwise_append] at hp
    have hsort := samplesOf_sorted x.measure.name post hp.2.1
    rw [← hrec] at hsort
    have hsort' : (rowSamples x.view.tagKeys x.recs tm).Pairwise fun a b => a.t ≤ b.t := by
      unfold rowSamples
      rw [List.pairwise_map]
      exact hsort.filter _
    have hmem : r'.2 ∈ rowSamples x.view.tagKeys x.recs tm := by
      simp only [rowSamples, List.mem_map, List.mem_filter, decide_eq_true_eq]
      exact ⟨r', ⟨hr', (belongs_iff hb).2 hb'⟩, rfl⟩
    rw [hm.samples] at hsort' hmem
    rcases List.mem_cons.1 hmem with he | hmem
    · rw [he]
    · exact (List.pairwise_cons.1 hsort').1 _ hmem

theorem carries_le {d d' : AggData F64} (h : LeData d d') {p p' : PointValue} (hp : Carries d p) (hp' : Carries d' p')
    (hne : (∃ st n, d = .count st n) ∨ ∃ x, d = .dist x) : NotBehind p p' := by
  rcases hne with ⟨st, n, rfl⟩ | ⟨x, rfl⟩
  · cases d' <;> first | exact h.elim | skip
    simp only [Carries] at hp hp'
    rw [hp, hp']
    exact h
  · cases d' <;> first | exact h.elim | skip
    cases p <;> first | exact hp.elim | skip
    cases p' <;> first | exact hp'.elim | skip
    obtain ⟨a1, _, _, a4, a5, _⟩ := hp
    obtain ⟨b1, _, _, b4, b5, _⟩ := hp'
    obtain ⟨c1, c2, c3⟩ := h
    refine ⟨by rw [a1, b1]; exact c1, by rw [a4, b4]; exact c2, ?_⟩
    rw [← a5, ← b5, List.forall₂_map_left_iff, List.forall₂_map_right_iff] at c3
    exact c3

/-- C103. Two readings of a meter, the second after more commands, and in both a series of the view of one name with the same label
values. If the view was not unregistered in between, the two have the same start time, and, for counts and distributions, the second
is not behind the first. -/
theorem same_start {reg : Measures} {cs1 cs2 : List Cmd} (hg : ∀ c ∈ cs1 ++ cs2, GoodCmd reg c)
    (hlen : measurements (cs1 ++ cs2) < 2 ^ 63) {now1 now2 : Int} {m1 m2 : MetricOut}
    (h1 : Gives reg cs1 now1 m1) (h2 : Gives reg (cs1 ++ cs2) now2 m2) (hname : m1.descriptor.name = m2.descriptor.name)
    {s1 s2 : TimeSeries} (hs1 : s1 ∈ m1.series) (hs2 : s2 ∈ m2.series) (hl : s1.labelValues = s2.labelValues)
    (hu : ∀ c ∈ cs2, ¬ Unregisters m1.descriptor.name c) :
    s1.startTime = s2.startTime ∧
    ∀ x, specRun Spec.empty cs1 m1.descriptor.name = some x → x.agg.type = .count ∨ x.agg.type = .distribution →
      NotBehind s1.point s2.point := by
  obtain ⟨x1, a1, _, a3, a4⟩ := made (fun c hc => hg c (by simp [hc])) h1
  obtain ⟨x2, b1, _, _, b4⟩ := made hg h2
  obtain ⟨s0, ss, tm, hm1⟩ := a4 s1 hs1
  obtain ⟨s0', ss', tm', hm2⟩ := b4 s2 hs2
  have hrun := specRun_collects a1 cs2 hu
  rw [← specRun_append, hname, b1] at hrun
  cases hrun
  have hb1 := hm1.belongs
  have hb2 := hm2.belongs
  simp only at hb2
  rw [← hl] at hb2
  have hag := agree_of hb1 hb2
  have hsm := hm2.samples
  simp only at hsm
  rw [rowSamples_agree hag] at hsm
  have hpre : s0 :: ss <+: s0' :: ss' := by
    rw [← hm1.samples, ← hsm]
    exact rowSamples_prefix ⟨_, rfl⟩ tm
  obtain ⟨rest, hrest⟩ := hpre
  obtain ⟨d0, row, e1, e2, _, e4⟩ := hm1.data
  obtain ⟨d0', row', f1, f2, _, f4⟩ := hm2.data
  simp only at f1 f4
  have h0 : s0 = s0' := by simp only [List.cons_append, List.cons.injEq] at hrest; exact hrest.1
  rw [← h0, e1] at f1
  cases f1
  have hd : row'.data = rest.foldl AggData.next row.data := by
    rw [f2, e2, ← hrest, List.foldl_append]
  refine ⟨by rw [e4.2.2.2.2, f4.2.2.2.2, hd, start_fold], ?_⟩
  intro x hx hty
  rw [a1] at hx
  cases hx
  have hlen2 : (s0' :: ss').length ≤ measurements (cs1 ++ cs2) := by
    rw [← hsm]
    obtain ⟨pre, post, hcs, _, hrec⟩ := since _ b1
    simp only at hrec
    have l1 : (rowSamples x1.view.tagKeys (x1.recs ++ samplesOf x1.measure.name cs2) tm).length ≤
        (x1.recs ++ samplesOf x1.measure.name cs2).length := by
      unfold rowSamples
      rw [List.length_map]
      exact List.length_filter_le _ _
    have l2 := samplesOf_length x1.measure.name post
    have l3 : measurements post ≤ measurements (cs1 ++ cs2) := by rw [hcs]; simp [measurements]
    rw [hrec] at l1 ⊢
    omega
  have hw := fold_le (s0 :: ss) (k := 0) (by rw [← hrest, List.length_append] at hlen2; omega) (within_new e1)
  rw [← e2] at hw
  have hle := fold_le rest (k := 0 + (s0 :: ss).length) (by rw [← hrest, List.length_append] at hlen2; omega) hw.2
  refine carries_le (d := row.data) (d' := row'.data) (by rw [hd]; exact hle.1) e4.2.2.2.1 f4.2.2.2.1 ?_
  have ht := foldl_type (s0 :: ss) d0 _ (mkData_type a3 e1)
  rw [← e2] at ht
  rcases hty with hty | hty <;> rw [hty] at ht <;> cases hr : row.data <;> rw [hr] at ht <;> first | exact ht.elim | simp

/-- C103. If the recordings are handled in the order of their times and no two have the same, then data that was started afresh, the view
having been unregistered, starts later than anything the first reading was made of. -/
theorem restart_partial {reg : Measures} {cs1 cs2 : List Cmd} (hg : ∀ c ∈ cs1 ++ cs2, GoodCmd reg c)
    (htimes : (times (cs1 ++ cs2)).Pairwise (· < ·)) {now1 now2 : Int} {m1 m2 : MetricOut}
    (h1 : Gives reg cs1 now1 m1) (h2 : Gives reg (cs1 ++ cs2) now2 m2) (hname : m1.descriptor.name = m2.descriptor.name)
    {s1 s2 : TimeSeries} (hs1 : s1 ∈ m1.series) (hs2 : s2 ∈ m2.series)
    (hu : ∃ c ∈ cs2, Unregisters m1.descriptor.name c) {t2 : Int} (ht2 : s2.startTime = some t2) :
    (∀ t1, s1.startTime = some t1 → t1 < t2) ∧
    ∀ x, specRun Spec.empty cs1 m1.descriptor.name = some x → ∀ r ∈ x.recs, r.2.t < t2 := by
  obtain ⟨x1, a1, _, _, a4⟩ := made (fun c hc => hg c (by simp [hc])) h1
  obtain ⟨x2, b1, _, _, b4⟩ := made hg h2
  obtain ⟨s0, ss, tm, hm1⟩ := a4 s1 hs1
  obtain ⟨s0', ss', tm', hm2⟩ := b4 s2 hs2
  obtain rfl := hm2.start ht2
  -- the second reading is made of what was handled after the unregistration
  obtain ⟨pre, post, hcs, hp, hrec⟩ := since _ b1
  obtain ⟨c, hc, huc⟩ := hu
  rw [hname] at huc
  have hpost : ∃ q, cs2 = q ++ post := by
    rcases List.append_eq_append_iff.1 hcs with ⟨q, h3, h4⟩ | ⟨q, h3, h4⟩
    · exact ⟨q, h4⟩
    · exact absurd huc (hp c (by rw [h4]; simp [hc]))
  obtain ⟨q, rfl⟩ := hpost
  obtain ⟨r2, k1, k2, _⟩ := hm2.mem
  rw [hrec] at k1
  have t2mem := samplesOf_times _ _ _ k1
  rw [k2] at t2mem
  rw [times_append, List.pairwise_append] at htimes
  have all : ∀ r ∈ x1.recs, r.2.t < s0'.t := by
    intro r hr
    obtain ⟨pre', post', hcs', _, hrec'⟩ := since _ a1
    rw [hrec'] at hr
    have := samplesOf_times _ _ _ hr
    refine htimes.2.2 _ (by rw [hcs', times_append]; simp [this]) _ (by rw [times_append]; simp [t2mem])
  refine ⟨?_, fun x hx => by rw [a1] at hx; cases hx; exact all⟩
  intro t1 ht1
  obtain rfl := hm1.start ht1
  obtain ⟨r, r1, r2, _⟩ := hm1.mem
  rw [← r2]
  exact all r r1

/-! ## Witnesses -/

section
open Recording

/-- The aggregation of the view as registered. -/
def agg' : Aggregation F64 := { distAgg with buckets := [.fin 5, .fin 10] }

/-- One measurement with the tags of `req1`. -/
def one : RecordReq := ⟨some tagsAB, [some ⟨.fin 7, latency⟩], []⟩

/-- Recordings handled in another order than that of their times: the goroutine that recorded at 1 was slower to put its command on the
channel. -/
def disorder : List Cmd := [.register 0 [view1], .record 2 one, .record 1 one]

def first : List Cmd := [.register 0 [view1], .record 2 one]
def againEarlier : List Cmd := [.unregister 3 [str "latency"], .register 4 [view1], .record 1 one]

def twice : List Cmd := [.register 0 [view1], .record 2 one, .record 2 one]
def againSame : List Cmd := [.unregister 2 [str "latency"], .register 2 [view1], .record 2 one]

theorem good_view1 : GoodView regUnsub view1 := by
  refine ⟨?_, ?_⟩
  · intro m hm; simp only [view1, Option.some.injEq] at hm; subst hm
    exact ⟨by decide, _, rfl⟩
  · intro a ha; simp only [view1, Option.some.injEq] at ha; subst ha
    exact ⟨rfl, by decide⟩

theorem good_one : TagsFit one.tags := by
  intro tm htm p hp
  simp only [one, Option.some.injEq] at htm; subst htm
  simp only [tagsAB, List.mem_singleton] at hp; subst hp
  decide

theorem good_all {cs : List Cmd} (h : ∀ c ∈ cs, (∃ t, c = .register t [view1]) ∨ (∃ t, c = .record t one) ∨ ∃ t ns, c = .unregister t ns) :
    ∀ c ∈ cs, GoodCmd regUnsub c := by
  intro c hc
  rcases h c hc with ⟨t, rfl⟩ | ⟨t, rfl⟩ | ⟨t, ns, rfl⟩
  · intro v hv
    rw [List.mem_singleton.1 hv]
    exact good_view1
  · exact good_one
  · trivial

theorem registered {σ : SState} (t : Int) (h : σ (str "latency") = none) :
    Spec.step σ (.register t [view1]) (str "latency") = some ⟨view1', agg', latency, []⟩ := by
  have hn : view1'.name = str "latency" := rfl
  simp only [Spec.step, canonicalizeAll, canon_view1, Spec.registerAll, hn, h]
  simp [Spec.update, view1', agg']

/-- The metric of the view, read after commands that leave it registered with these recordings, all with the same tags. -/
theorem shown {cs : List Cmd} (hg : ∀ c ∈ cs, GoodCmd regUnsub c) (now : Int) {s0 : Sample F64} {ss : List (Sample F64)}
    (hx : specRun Spec.empty cs (str "latency") = some ⟨view1', agg', latency, (s0 :: ss).map fun s => (some tagsAB, s)⟩) :
    ∃ m s, Gives regUnsub cs now m ∧ m.descriptor.name = str "latency" ∧ s ∈ m.series ∧ s.startTime = some s0.t ∧
      s.labelValues = [⟨str "1", true⟩, ⟨[], false⟩] ∧
      ∃ sum ssd bs hs, s.point = .distribution (((s0 :: ss).foldl Dist.next (newDistributionData [.fin 5, .fin 10] s0.t)).count) sum ssd bs hs := by
  obtain ⟨w, reg', rs, ms, names, h1, h2, h3, h4, h5⟩ := read_metrics regUnsub cs hg now
  have hmem : str "latency" ∈ names := (h4 _).2 ⟨_, hx, by simp⟩
  obtain ⟨i, hi, he⟩ := List.mem_iff_getElem.1 hmem
  have hlen := h5.length_eq
  have hm := (List.forall₂_iff_get.1 h5).2 i hi (by omega)
  simp only [List.get_eq_getElem] at hm
  rw [he] at hm
  obtain ⟨x, hx', hm⟩ := hm
  rw [hx] at hx'
  cases hx'
  have hgives : Gives regUnsub cs now ms[i] := ⟨w, reg', rs, ms, h1, h2, List.getElem_mem _⟩
  have hname : (ms[i]).descriptor.name = str "latency" := hm.1
  obtain ⟨x, g1, _, _, g4⟩ := made hg hgives
  rw [hname, hx] at g1
  cases g1
  obtain ⟨_, _, _, _, _, rows, r1, r2⟩ := hm
  have hrow : ∃ row, row ∈ rows := by
    have := (r1.2 ⟨specTags view1'.tagKeys (some tagsAB), (s0 :: ss).foldl AggData.next (.dist (newDistributionData agg'.buckets s0.t))⟩).2
      ⟨(some tagsAB, s0), by simp, rfl, s0, ss, _, by
        simp only [rowSamples, List.filter_map, Function.comp_def]
        simp [Agree, Function.comp_def], rfl, AggData.addAll_eq _ (by exact newDistributionData_shape agg'.buckets s0.t) _⟩
    exact ⟨_, this⟩
  obtain ⟨row, hrow⟩ := hrow
  obtain ⟨j, hj, _⟩ := List.mem_iff_getElem.1 hrow
  have hl := r2.length_eq
  have hs : (ms[i]).series[j] ∈ (ms[i]).series := List.getElem_mem (by omega)
  obtain ⟨q0, qs, tm, hq⟩ := g4 _ hs
  refine ⟨ms[i], (ms[i]).series[j], hgives, hname, hs, ?_⟩
  obtain ⟨r, k1, k2, k3⟩ := hq.mem
  simp only [List.mem_map] at k1
  obtain ⟨s', _, rfl⟩ := k1
  have hsam := hq.samples
  rw [← rowSamples_agree k3] at hsam
  simp only [rowSamples, List.filter_map, Function.comp_def] at hsam
  simp only [Agree, implies_true, decide_true, List.filter_true, List.map_map, Function.comp_def, List.map_id'] at hsam
  cases hsam
  obtain ⟨d0, row', e1, e2, e3, e4⟩ := hq.data
  have hd0 : d0 = .dist (newDistributionData [.fin 5, .fin 10] s0.t) := by
    simp only [Aggregation.mkData, agg', distAgg] at e1
    cases e1; rfl
  subst hd0
  have hfold : ∀ (l : List (Sample F64)) (d : Dist F64), l.foldl AggData.next (.dist d) = .dist (l.foldl Dist.next d) := by
    intro l
    induction l with
    | nil => intro d; rfl
    | cons s l ih => intro d; exact ih _
  rw [hfold] at e2
  refine ⟨?_, ?_, ?_⟩
  · rw [e4.2.2.2.2, e2, ← hfold, start_fold]; rfl
  · have hb := hq.belongs
    have hag := (belongs_iff hb).1 k3
    unfold Belongs at hag
    simp only [view1'] at hag
    generalize (ms[i]).series[j].labelValues = ls at hag
    cases hag with
    | cons a1 a2 => cases a2 with
      | cons b1 b2 =>
        cases b2
        rename_i l1 l2
        obtain ⟨v1, p1⟩ := l1
        obtain ⟨v2, p2⟩ := l2
        have ga : given (some tagsAB) ⟨str "a"⟩ = str "1" := by decide +kernel
        have gb : given (some tagsAB) ⟨str "b"⟩ = [] := by decide +kernel
        rw [ga] at a1
        rw [gb] at b1
        have ne : str "1" ≠ [] := by decide
        cases p1 with
        | false => simp only [Bool.false_eq_true, if_false] at a1; exact absurd a1.1 ne
        | true => cases p2 with
          | false =>
            simp only [Bool.false_eq_true, if_false, if_true] at a1 b1
            rw [a1.1, b1.2]
          | true => simp only [if_true] at b1; exact absurd b1.1.symm b1.2
  · have hc := e4.2.2.2.1
    rw [e2] at hc
    generalize (ms[i]).series[j].point = p at hc
    cases p <;> first | exact hc.elim | skip
    obtain ⟨c1, _⟩ := hc
    exact ⟨_, _, _, _, by rw [c1]⟩

/-- A series may be made of a recording from before its start: recordings of several goroutines are not handled in the order of their
times. -/
theorem recording_before_start : ∃ m s, Gives regUnsub disorder 5 m ∧ s ∈ m.series ∧ s.startTime = some 2 ∧
    ∃ x, specRun Spec.empty disorder m.descriptor.name = some x ∧ ∃ r ∈ x.recs, Belongs x.view.tagKeys s.labelValues r.1 ∧ r.2.t = 1 := by
  have hx : specRun Spec.empty disorder (str "latency") =
      some ⟨view1', agg', latency, [⟨.fin 7, [], 2⟩, ⟨.fin 7, [], 1⟩].map fun s => (some tagsAB, s)⟩ := by
    have h0 := registered 0 (σ := Spec.empty) rfl
    exact specRun_collects h0 [.record 2 one, .record 1 one] (by simp [Unregisters])
  obtain ⟨m, s, h1, h2, h3, h4, h5, _⟩ := shown (good_all (by simp [disorder])) 5 hx
  refine ⟨m, s, h1, h3, h4, _, by rw [h2]; exact hx, (some tagsAB, ⟨.fin 7, [], 1⟩), by simp, ?_, rfl⟩
  rw [h5]
  exact .cons ⟨by decide +kernel, by decide +kernel⟩ (.cons ⟨by decide +kernel, rfl⟩ .nil)

/-- Data that was started afresh may have an earlier start than what was read before. -/
theorem restart_goes_back : ∃ m1 s1 m2 s2, Gives regUnsub first 2 m1 ∧ Gives regUnsub (first ++ againEarlier) 5 m2 ∧
    m1.descriptor.name = m2.descriptor.name ∧ s1 ∈ m1.series ∧ s2 ∈ m2.series ∧ s1.labelValues = s2.labelValues ∧
    s1.startTime = some 2 ∧ s2.startTime = some 1 := by
  have h0 := registered 0 (σ := Spec.empty) rfl
  have hx1 : specRun Spec.empty first (str "latency") =
      some ⟨view1', agg', latency, [⟨.fin 7, [], 2⟩].map fun s => (some tagsAB, s)⟩ :=
    specRun_collects h0 [.record 2 one] (by simp [Unregisters])
  have hx2 : specRun Spec.empty (first ++ againEarlier) (str "latency") =
      some ⟨view1', agg', latency, [⟨.fin 7, [], 1⟩].map fun s => (some tagsAB, s)⟩ := by
    rw [specRun_append]
    have h3 : Spec.step (specRun Spec.empty first) (.unregister 3 [str "latency"]) (str "latency") = none := by
      simp [Spec.step, unregister_get]
    exact specRun_collects (registered 4 h3) [.record 1 one] (by simp [Unregisters])
  obtain ⟨m1, s1, a1, a2, a3, a4, a5, _⟩ := shown (good_all (by simp [first])) 2 hx1
  obtain ⟨m2, s2, b1, b2, b3, b4, b5, _⟩ := shown (good_all (by simp [first, againEarlier])) 5 hx2
  exact ⟨m1, s1, m2, s2, a1, b1, a2.trans b2.symm, a3, b3, a5.trans b5.symm, a4, b4⟩

/-- With a clock that stands still, data that was started afresh may have the same start as before, and be behind. -/
theorem restart_unnoticed : ∃ m1 s1 m2 s2, Gives regUnsub twice 2 m1 ∧ Gives regUnsub (twice ++ againSame) 5 m2 ∧
    m1.descriptor.name = m2.descriptor.name ∧ s1 ∈ m1.series ∧ s2 ∈ m2.series ∧ s1.labelValues = s2.labelValues ∧
    s1.startTime = s2.startTime ∧ ¬ NotBehind s1.point s2.point := by
  have h0 := registered 0 (σ := Spec.empty) rfl
  have hx1 : specRun Spec.empty twice (str "latency") =
      some ⟨view1', agg', latency, [⟨.fin 7, [], 2⟩, ⟨.fin 7, [], 2⟩].map fun s => (some tagsAB, s)⟩ :=
    specRun_collects h0 [.record 2 one, .record 2 one] (by simp [Unregisters])
  have hx2 : specRun Spec.empty (twice ++ againSame) (str "latency") =
      some ⟨view1', agg', latency, [⟨.fin 7, [], 2⟩].map fun s => (some tagsAB, s)⟩ := by
    rw [specRun_append]
    have h3 : Spec.step (specRun Spec.empty twice) (.unregister 2 [str "latency"]) (str "latency") = none := by
      simp [Spec.step, unregister_get]
    exact specRun_collects (registered 2 h3) [.record 2 one] (by simp [Unregisters])
  obtain ⟨m1, s1, a1, a2, a3, a4, a5, _, _, _, _, a6⟩ := shown (good_all (by simp [twice])) 2 hx1
  obtain ⟨m2, s2, b1, b2, b3, b4, b5, _, _, _, _, b6⟩ := shown (good_all (by simp [twice, againSame])) 5 hx2
  refine ⟨m1, s1, m2, s2, a1, b1, a2.trans b2.symm, a3, b3, a5.trans b5.symm, a4.trans b4.symm, ?_⟩
  rw [a6, b6]
  rintro ⟨h, _⟩
  revert h
  have c1 : (List.foldl Dist.next (newDistributionData [.fin 5, .fin 10] 2) [⟨.fin 7, [], 2⟩, ⟨.fin 7, [], 2⟩] : Dist F64).count = 2 := by decide +kernel
  have c2 : (List.foldl Dist.next (newDistributionData [.fin 5, .fin 10] 2) [⟨.fin 7, [], 2⟩] : Dist F64).count = 1 := by decide +kernel
  rw [c1, c2]
  decide

def more : List Cmd := [.tick 3, .record 4 one]
def againLater : List Cmd := [.unregister 3 [str "latency"], .register 4 [view1], .record 5 one]

/-- The hypotheses of `start_time_partial`, `same_start` and `restart_partial` can be met. -/
example : (∀ c ∈ first ++ more, GoodCmd regUnsub c) ∧ measurements (first ++ more) < 2 ^ 63 ∧ (times (first ++ more)).Pairwise (· ≤ ·) ∧
    (∀ c ∈ more, ¬ Unregisters (str "latency") c) ∧
    (∃ m1 s1 m2 s2, Gives regUnsub first 2 m1 ∧ Gives regUnsub (first ++ more) 6 m2 ∧ m1.descriptor.name = str "latency" ∧
      m1.descriptor.name = m2.descriptor.name ∧ s1 ∈ m1.series ∧ s2 ∈ m2.series ∧ s1.labelValues = s2.labelValues ∧ s1.startTime = some 2) ∧
    (∀ c ∈ first ++ againLater, GoodCmd regUnsub c) ∧ (times (first ++ againLater)).Pairwise (· < ·) ∧
    (∃ c ∈ againLater, Unregisters (str "latency") c) ∧
    ∃ m1 s1 m2 s2, Gives regUnsub first 2 m1 ∧ Gives regUnsub (first ++ againLater) 6 m2 ∧ m1.descriptor.name = str "latency" ∧
      m1.descriptor.name = m2.descriptor.name ∧ s1 ∈ m1.series ∧ s2 ∈ m2.series ∧ s2.startTime = some 5 := by
  have h0 := registered 0 (σ := Spec.empty) rfl
  have hx1 : specRun Spec.empty first (str "latency") =
      some ⟨view1', agg', latency, [⟨.fin 7, [], 2⟩].map fun s => (some tagsAB, s)⟩ :=
    specRun_collects h0 [.record 2 one] (by simp [Unregisters])
  have hx2 : specRun Spec.empty (first ++ more) (str "latency") =
      some ⟨view1', agg', latency, [⟨.fin 7, [], 2⟩, ⟨.fin 7, [], 4⟩].map fun s => (some tagsAB, s)⟩ :=
    specRun_collects h0 [.record 2 one, .tick 3, .record 4 one] (by simp [Unregisters])
  have hx3 : specRun Spec.empty (first ++ againLater) (str "latency") =
      some ⟨view1', agg', latency, [⟨.fin 7, [], 5⟩].map fun s => (some tagsAB, s)⟩ := by
    rw [specRun_append]
    have h3 : Spec.step (specRun Spec.empty first) (.unregister 3 [str "latency"]) (str "latency") = none := by
      simp [Spec.step, unregister_get]
    exact specRun_collects (registered 4 h3) [.record 5 one] (by simp [Unregisters])
  have g1 : ∀ c ∈ first, GoodCmd regUnsub c := good_all (by simp [first])
  have g2 : ∀ c ∈ first ++ more, GoodCmd regUnsub c := by
    intro c hc
    rcases List.mem_append.1 hc with hc | hc
    · exact g1 c hc
    · simp only [more, List.mem_cons, List.not_mem_nil, or_false] at hc
      rcases hc with rfl | rfl
      · trivial
      · exact good_one
  have g3 : ∀ c ∈ first ++ againLater, GoodCmd regUnsub c := good_all (by simp [first, againLater])
  obtain ⟨m1, s1, a1, a2, a3, a4, a5, _⟩ := shown g1 2 hx1
  obtain ⟨m2, s2, b1, b2, b3, b4, b5, _⟩ := shown g2 6 hx2
  obtain ⟨m3, s3, c1, c2, c3, c4, c5, _⟩ := shown g3 6 hx3
  refine ⟨g2, by decide, by decide, by simp [more, Unregisters], ⟨m1, s1, m2, s2, a1, b1, a2, a2.trans b2.symm, a3, b3, a5.trans b5.symm, a4⟩, g3,
    by decide, ⟨.unregister 3 [str "latency"], by simp [againLater], by simp [Unregisters]⟩, m1, s1, m3, s3, a1, c1, a2, a2.trans c2.symm, a3, c3, c4⟩

end

end Verif.Props.StartTimes
