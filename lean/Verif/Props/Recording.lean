import Verif.Props.Canon

/-!
# Properties of recording, view validation and measures (C10, C20, C22), and instances of the
hypotheses of the worker theorems
-/

namespace Verif.Props.Recording
open Verif Verif.Tag Verif.Stats Verif.View Verif.View.Spec Verif.Props.Rows Verif.Props.Worker
open Verif.Props.Tag (view specMut CtxOK GoodMut GoodValue viewMap)

/-! ## C10 -/

/-- The tag values a context shows have at most 255 bytes. -/
def ViewFits (v : Props.Tag.View) : Prop := ∀ k b t, v k = some (b, t) → b.length ≤ 255

theorem viewFits_specMut (v : Props.Tag.View) (mu : Mutator) (hv : ViewFits v) (hm : GoodMut mu) :
    ViewFits (specMut v mu) := by
  intro k b t h
  cases mu with
  | insert k0 b0 mds =>
    simp only [specMut] at h
    split at h
    · simp only [Option.some.injEq, Prod.mk.injEq] at h; rw [← h.1]; exact hm.1
    · exact hv k b t h
  | update k0 b0 mds =>
    simp only [specMut] at h
    split at h
    · simp only [Option.some.injEq, Prod.mk.injEq] at h; rw [← h.1]; exact hm.1
    · exact hv k b t h
  | upsert k0 b0 mds =>
    simp only [specMut] at h
    split at h
    · simp only [Option.some.injEq, Prod.mk.injEq] at h; rw [← h.1]; exact hm.1
    · exact hv k b t h
  | delete k0 =>
    simp only [specMut] at h
    split at h
    · simp at h
    · exact hv k b t h

theorem viewFits_foldl (mus : List Mutator) (v : Props.Tag.View) (hv : ViewFits v)
    (hm : ∀ mu ∈ mus, GoodMut mu) : ViewFits (mus.foldl specMut v) := by
  induction mus generalizing v with
  | nil => exact hv
  | cons mu mus ih =>
    exact ih _ (viewFits_specMut v mu hv (hm mu (by simp))) (fun m h => hm m (by simp [h]))

theorem tagsFit_of_view {α : Type} {h : Heap} {ctx : Ctx α} (hc : CtxOK h ctx)
    (hv : ViewFits (view h ctx)) : TagsFit (ctx.tags.bind fun a => h[a]?) := by
  intro tm htm p hp
  obtain ⟨a, ha, hm⟩ := Option.bind_eq_some_iff.mp htm
  obtain ⟨m, hm', hw⟩ := hc a ha
  rw [hm] at hm'
  simp only [Option.some.injEq] at hm'
  subst hm'
  have := Props.Tag.view_eq h ctx ha hm
  have hg : viewMap tm p.1 = some (p.2.value, p.2.m.ttl) := by
    unfold viewMap
    rw [GoMap.get_of_mem hw (k := p.1) (v := p.2) hp]; rfl
  exact hv p.1 _ _ (by rw [this]; exact hg)

/-- The value a context carries for a key, absent counting as empty. -/
def tagOf (v : Props.Tag.View) (k : Key) : Bytes := ((v k).map Prod.fst).getD []

theorem given_of_view {α : Type} {h : Heap} {ctx : Ctx α} (hc : CtxOK h ctx) (k : Key) :
    given (ctx.tags.bind fun a => h[a]?) k = tagOf (view h ctx) k := by
  cases ha : ctx.tags with
  | none => simp [given, tagOf, view, ha]
  | some a =>
    obtain ⟨m, hm, _⟩ := hc a ha
    rw [Props.Tag.view_eq h ctx ha hm, given_eq]
    simp only [Option.bind_some, hm, valueOf, tagOf, viewMap]
    cases GoMap.get m k <;> simp

/-- Every measurement was made with a measure of the package. -/
def RealMeasurements (reg : Measures) (ms : List (Option Measurement)) : Prop :=
  ∀ m ∈ ms, ∃ x d, m = some x ∧ GoMap.get reg x.m.name = some d

theorem anySubscribed_eq {reg : Measures} {ms : List (Option Measurement)} (h : RealMeasurements reg ms) :
    ∃ b, anySubscribed reg ms = .ok b ∧
      (b = true ↔ ∃ x d, some x ∈ ms ∧ GoMap.get reg x.m.name = some d ∧ d.subs = true) := by
  induction ms with
  | nil => exact ⟨false, rfl, by simp⟩
  | cons m ms ih =>
    obtain ⟨x, d, rfl, hd⟩ := h m (by simp)
    obtain ⟨b, hb, hiff⟩ := ih (fun m hm => h m (by simp [hm]))
    by_cases hs : d.subs = true
    · refine ⟨true, by simp [anySubscribed, subscribed, hd, Res.bind, hs], ?_⟩
      simp only [true_iff]
      exact ⟨x, d, by simp, hd, hs⟩
    · refine ⟨b, by simp [anySubscribed, subscribed, hd, Res.bind, hs, hb], ?_⟩
      rw [hiff]
      constructor
      · rintro ⟨y, e, hy, hye, hes⟩; exact ⟨y, e, by simp [hy], hye, hes⟩
      · rintro ⟨y, e, hy, hye, hes⟩
        simp only [List.mem_cons, Option.some.injEq] at hy
        rcases hy with rfl | hy
        · rw [hd] at hye; simp only [Option.some.injEq] at hye; subst hye; exact absurd hes hs
        · exact ⟨y, e, hy, hye, hes⟩

/-- Nothing is recorded for a view none of whose measures is subscribed. -/
theorem unsubscribed_records_nothing {w : Worker} {reg : Measures} {σ : SState} (hr : Rel w reg σ)
    {ms : List (Option Measurement)} (hb : ¬ ∃ x d, some x ∈ ms ∧ GoMap.get reg x.m.name = some d ∧ d.subs = true)
    (tm : Option TMap) (att : Attachments) (t : Int) : Spec.record σ tm att t ms = σ := by
  funext n
  rw [record_get]
  cases hn : σ n with
  | none => rfl
  | some x =>
    obtain ⟨d, hd, hs⟩ := hr.subs n x hn
    have : recorded tm att t x.measure.name ms = [] := by
      rw [recorded, List.filterMap_eq_nil_iff]
      intro m hm
      cases m with
      | none => rfl
      | some m =>
        simp only
        rw [if_neg]
        intro he
        exact hb ⟨m, d, hm, by rw [he]; exact hd, hs⟩
    simp [this]

/-- The worker handling what a `Record` call sent to it, if anything. -/
def deliver (w : Worker) (t : Int) : Option (Option Nat × RecordReq) → Res Worker
  | none => .ok w
  | some (_, r) => w.record r t

/-- C10 for measurements made with measures of the package. `RecordWithOptions` never panics. Either
it returns an error, which happens only if `tag.New` with the given mutators fails, and then nothing
is sent; or it returns no error, and once what it sent is handled every registered view has in
addition exactly the given measurements of its measure, in order, all under one tag map, which shows
the incoming tags modified by the mutators (a view whose measure is not among them, or not
subscribed, gets nothing). Missing: a zero `Measurement{}` in the list, see
`zero_measurement_panics`; and mutators are not evaluated, so cannot fail, when no measure in the
list is subscribed, see `failing_mutator_unnoticed`. -/
theorem record_with_options_partial {α : Type} (iter : TMap → List (Key × Content))
    (hiter : ∀ m, (iter m).Perm m) (h : Heap) (ctx : Ctx α) (hctx : CtxOK h ctx)
    (hfit : ViewFits (view h ctx)) (w : Worker) (reg : Measures) (σ : SState) (hr : Rel w reg σ)
    (ros : List Option') (o : RecordOptions) (ho : createRecordOption ros = o)
    (hms : RealMeasurements reg o.measurements) (t : Int) :
    ∃ h' res, recordWithOptions iter reg h ctx ros = .ok (h', res) ∧
      match res.err with
      | some _ => res.sent = none ∧ ∃ e, (Tag.new iter h ctx o.mutators).2.2 = some e
      | none => ∃ w' σ' tm, deliver w t res.sent = .ok w' ∧ Rel w' reg σ' ∧
          (∀ n, σ' n = (σ n).map fun x =>
            { x with recs := x.recs ++ recorded tm o.attachments t x.measure.name o.measurements }) ∧
          (res.sent ≠ none → ∀ k, given tm k = tagOf (o.mutators.foldl specMut (view h ctx)) k) := by
  unfold recordWithOptions
  simp only [ho]
  by_cases h0 : o.measurements.length = 0
  · rw [if_pos h0]
    refine ⟨h, _, rfl, w, σ, none, rfl, hr, ?_, by simp⟩
    have : o.measurements = [] := List.length_eq_zero_iff.mp h0
    intro n
    cases σ n <;> simp [this, recorded]
  · rw [if_neg h0]
    obtain ⟨b, hb, hiff⟩ := anySubscribed_eq hms
    simp only [hb, Res.bind]
    cases b with
    | false =>
      refine ⟨h, _, rfl, w, σ, none, rfl, hr, ?_, by simp⟩
      intro n
      have := unsubscribed_records_nothing hr (ms := o.measurements) (by rw [← hiff]; simp)
        none o.attachments t
      conv_lhs => rw [← this]
      rw [record_get]
    | true =>
      simp only [Bool.not_true, Bool.false_eq_true, if_false]
      -- the command that is sent
      have fin : ∀ (h' : Heap) (ctx' : Ctx α), CtxOK h' ctx' →
          view h' ctx' = o.mutators.foldl specMut (view h ctx) →
          ViewFits (view h' ctx') →
          ∃ w' σ' tm, deliver w t (some (o.recorder,
              ⟨ctx'.tags.bind (fun a => h'[a]?), o.measurements, o.attachments⟩)) = .ok w' ∧ Rel w' reg σ' ∧
            (∀ n, σ' n = (σ n).map fun x =>
              { x with recs := x.recs ++ recorded tm o.attachments t x.measure.name o.measurements }) ∧
            (∀ k, given tm k = tagOf (o.mutators.foldl specMut (view h ctx)) k) := by
        intro h' ctx' hc' hv' hf'
        obtain ⟨w', h1, h2, _⟩ := recordLoop_rel (ctx'.tags.bind fun a => h'[a]?) o.attachments t
          (tagsFit_of_view hc' hf') o.measurements hr
        refine ⟨w', _, ctx'.tags.bind fun a => h'[a]?, h1, h2, ?_, ?_⟩
        · intro n; rw [record_get]
        · intro k; rw [given_of_view hc', hv']
      by_cases hmu : o.mutators.length > 0
      · rw [if_pos hmu]
        rcases hn : Tag.new iter h ctx o.mutators with ⟨h', ctx', _ | e⟩
        · simp only
          obtain ⟨hv, _, hc'⟩ := Props.Tag.new_refines_spec iter hiter h ctx hctx o.mutators h' ctx' hn
          have hgood : ∀ mu ∈ o.mutators, GoodMut mu := by
            intro mu hmu'
            by_contra hbad
            obtain ⟨e, he⟩ := (Props.Tag.new_fails_iff iter hiter h ctx hctx o.mutators).mpr
              (Or.inr ⟨mu, hmu', hbad⟩)
            rw [hn] at he; simp at he
          obtain ⟨w', σ', tm, h1, h2, h3, h4⟩ := fin h' ctx' hc' hv (by
            rw [hv]; exact viewFits_foldl _ _ hfit hgood)
          exact ⟨h', _, rfl, w', σ', tm, h1, h2, h3, fun _ => h4⟩
        · exact ⟨h', _, rfl, rfl, e, rfl⟩
      · rw [if_neg hmu]
        have hnil : o.mutators = [] := List.length_eq_zero_iff.mp (by omega)
        obtain ⟨w', σ', tm, h1, h2, h3, h4⟩ := fin h ctx hctx (by rw [hnil]; rfl) hfit
        exact ⟨h, _, rfl, w', σ', tm, h1, h2, h3, fun _ => h4⟩

/-- C10, `stats.Record`: no error to return; every registered view gets exactly the given
measurements of its measure under the context's tags. -/
theorem record_partial {α : Type} (h : Heap) (ctx : Ctx α) (hctx : CtxOK h ctx)
    (hfit : ViewFits (view h ctx)) (w : Worker) (reg : Measures) (σ : SState) (hr : Rel w reg σ)
    (ms : List (Option Measurement)) (hms : RealMeasurements reg ms) (t : Int) :
    ∃ sent w' σ', Stats.record reg (ctx.tags.bind fun a => h[a]?) ms = .ok sent ∧
      deliver w t (sent.map fun r => (none, r)) = .ok w' ∧ Rel w' reg σ' ∧
      ∀ n, σ' n = (σ n).map fun x =>
        { x with recs := x.recs ++ recorded (ctx.tags.bind fun a => h[a]?) [] t x.measure.name ms } := by
  unfold Stats.record
  by_cases h0 : ms.length = 0
  · rw [if_pos h0]
    refine ⟨none, w, σ, rfl, rfl, hr, ?_⟩
    have : ms = [] := List.length_eq_zero_iff.mp h0
    intro n
    cases σ n <;> simp [this, recorded]
  · rw [if_neg h0]
    obtain ⟨b, hb, hiff⟩ := anySubscribed_eq hms
    simp only [hb, Res.bind]
    cases b with
    | false =>
      refine ⟨none, w, σ, rfl, rfl, hr, ?_⟩
      intro n
      have := unsubscribed_records_nothing hr (ms := ms) (by rw [← hiff]; simp)
        (ctx.tags.bind fun a => h[a]?) [] t
      conv_lhs => rw [← this]
      rw [record_get]
    | true =>
      obtain ⟨w', h1, h2, _⟩ := recordLoop_rel (ctx.tags.bind fun a => h[a]?) [] t
          (tagsFit_of_view hctx hfit) ms hr
      refine ⟨_, w', _, rfl, h1, h2, ?_⟩
      intro n; rw [record_get]

/-- C10 fails for a zero measurement: the call panics, although the worker would have skipped it. -/
theorem zero_measurement_panics (reg : Measures) (tags : Option TMap) (ms : List (Option Measurement)) :
    Stats.record reg tags (none :: ms) = .panic := by
  simp [Stats.record, anySubscribed, subscribed, Res.bind]

def latency : Measure := ⟨.float64, str "latency", [], str "ms"⟩

def regUnsub : Measures := [(str "latency", ⟨false, str "latency", [], str "ms"⟩)]

/-- C10 fails when no measure is subscribed: the mutator is invalid (a newline is not printable) but
no error is returned. -/
theorem failing_mutator_unnoticed :
    let mu := Mutator.insert ⟨str "k"⟩ [10] []
    ¬ GoodMut mu ∧
    ∃ h' res, recordWithOptions id regUnsub [] (⟨(), none⟩ : Ctx Unit)
        [.tags [mu], .measurements [some ⟨.fin 1, latency⟩]] = .ok (h', res) ∧
      res.err = none ∧ res.sent = none := by
  refine ⟨?_, [], ⟨none, none⟩, ?_, rfl, rfl⟩
  · unfold GoodMut GoodValue; decide
  · rfl

/-! ## Instances of the hypotheses -/

def countAgg : Aggregation F64 := ⟨1, .count, [], some .count⟩

def distAgg : Aggregation F64 := ⟨2, .distribution, [.fin 0, .fin 10, .fin 5], some .distribution⟩

def view1 : ViewDef := ⟨10, [], [], [⟨str "b"⟩, ⟨str "a"⟩], some latency, some distAgg⟩

def view1' : ViewDef := ⟨10, str "latency", [], [⟨str "a"⟩, ⟨str "b"⟩], some latency,
    some { distAgg with buckets := [.fin 5, .fin 10] }⟩

theorem canon_view1 : canonicalize view1 = (view1', none) := by
  rw [Canon.canonicalize_iff]
  refine ⟨⟨latency, distAgg, rfl, rfl, by decide, by decide, by decide⟩,
    latency, distAgg, _, rfl, rfl, rfl, rfl, rfl, rfl, rfl, by decide, by simp [view1']; decide, rfl, rfl, rfl, ?_, ?_⟩
  · decide
  · simp [F64.lt]; norm_num

def tagsAB : TMap := [(⟨str "a"⟩, ⟨str "1", ⟨-1⟩⟩)]

def req1 : RecordReq := ⟨some tagsAB, [some ⟨.fin 7, latency⟩, none, some ⟨.fin 1, latency⟩], []⟩

/-- A history with a registration, recordings, a conflicting registration and an unregistration of
another view meets the hypotheses of `view_collects_exactly`. -/
example :
    let v' := (canonicalize view1).1
    let pre : List Cmd := [.record 0 req1, .tick 1]
    let mid : List Cmd := [.record 2 req1, .register 3 [{ view1 with ptr := 11, agg := some countAgg }],
      .unregister 4 [str "other"], .record 5 req1]
    canonicalize view1 = (v', none) ∧ v'.name = str "latency" ∧
    v'.tagKeys = [⟨str "a"⟩, ⟨str "b"⟩] ∧
    (∀ c ∈ pre ++ [.register 1 [view1]] ++ mid ++ [.retrieve v'.name], GoodCmd regUnsub c) ∧
    specRun Spec.empty pre v'.name = none ∧ (∀ c ∈ mid, ¬ Unregisters v'.name c) ∧
    (samplesOf (str "latency") mid).length = 4 := by
  have hv : canonicalize view1 = ((canonicalize view1).1, none) ∧
      (canonicalize view1).1.name = str "latency" ∧
      (canonicalize view1).1.tagKeys = [⟨str "a"⟩, ⟨str "b"⟩] := by
    rw [canon_view1]; exact ⟨rfl, rfl, rfl⟩
  obtain ⟨h1, h2, h3⟩ := hv
  refine ⟨h1, h2, h3, ?_, rfl, ?_, by decide⟩
  · rw [h2]
    have g1 : GoodView regUnsub view1 := by
      refine ⟨?_, ?_⟩
      · intro m hm; simp only [view1, Option.some.injEq] at hm; subst hm
        exact ⟨by decide, _, rfl⟩
      · intro a ha; simp only [view1, Option.some.injEq] at ha; subst ha
        exact ⟨rfl, by decide⟩
    have g2 : GoodView regUnsub { view1 with ptr := 11, agg := some countAgg } := by
      refine ⟨g1.1, ?_⟩
      intro a ha; simp only [Option.some.injEq] at ha; subst ha
      exact ⟨rfl, by decide⟩
    have g3 : TagsFit req1.tags := by
      intro tm htm p hp
      simp only [req1, Option.some.injEq] at htm; subst htm
      simp only [tagsAB, List.mem_singleton] at hp; subst hp
      decide
    intro c hc
    simp only [List.cons_append, List.nil_append, List.mem_cons, List.not_mem_nil, or_false] at hc
    rcases hc with rfl | rfl | rfl | rfl | rfl | rfl | rfl | rfl
    · exact g3
    · trivial
    · intro v hv; simp only [List.mem_singleton] at hv; subst hv; exact g1
    · exact g3
    · intro v hv; simp only [List.mem_singleton] at hv; subst hv; exact g2
    · trivial
    · exact g3
    · trivial
  · rw [h2]
    intro c hc
    simp only [List.mem_cons, List.not_mem_nil, or_false] at hc
    rcases hc with rfl | rfl | rfl | rfl <;> simp [Unregisters]
    decide

/-- The hypotheses of `record_with_options_partial` hold in the initial state with one mutator, and
`tag.New` succeeds there. -/
example : Rel newWorker regUnsub Spec.empty ∧
    RealMeasurements regUnsub (createRecordOption [.tags [.upsert ⟨str "k"⟩ (str "v") []],
      .measurements [some ⟨.fin 1, latency⟩]]).measurements ∧
    ViewFits (view [] (⟨(), none⟩ : Ctx Unit)) ∧
    (Tag.new id [] (⟨(), none⟩ : Ctx Unit) [.upsert ⟨str "k"⟩ (str "v") []]).2.2 = none := by
  refine ⟨rel_init _, ?_, ?_, by decide⟩
  · intro m hm
    simp only [createRecordOption, List.foldl, applyOption, List.mem_singleton] at hm
    subst hm
    exact ⟨_, ⟨false, str "latency", [], str "ms"⟩, rfl, by decide⟩
  · intro k b t h; simp [view] at h

/-! ## C16, what "the same view" means -/

/-- After registering `view1` the hypotheses of `register_existing` hold, both for the same view and
for a conflicting one. -/
example : ∃ x, specRun Spec.empty [.register 0 [view1]] view1'.name = some x ∧ Same x view1' ∧
    ¬ Same x { view1' with ptr := 11, agg := some countAgg } := by
  refine ⟨⟨view1', { distAgg with buckets := [.fin 5, .fin 10] }, latency, []⟩, ?_, by decide, by decide⟩
  simp only [specRun, Spec.step, canonicalizeAll, canon_view1]
  simp [Spec.registerAll, Spec.empty, view1', Spec.update]

/-- A view like the one registered, but with other tag keys, counts as the same if it uses the same
aggregation object: `Register` reports success and the tag keys of the first one stay. -/
theorem other_keys_same_view :
    let x : SView := ⟨{ view1 with name := str "latency" }, distAgg, latency, []⟩
    let v : ViewDef := ⟨99, str "latency", [], [⟨str "zzz"⟩], some latency, some distAgg⟩
    Same x v ∧ x.view.tagKeys ≠ v.tagKeys := by
  decide

/-- A view made by the same code again, with a new `view.Distribution(...)`, is a different view. -/
theorem fresh_aggregation_conflicts :
    let x : SView := ⟨{ view1 with name := str "latency" }, distAgg, latency, []⟩
    let v : ViewDef := { view1 with name := str "latency", ptr := 99, agg := some { distAgg with id := 77 } }
    ¬ Same x v := by
  decide

/-! ## C22 -/

/-- A call of `stats.Int64` or `stats.Float64`. -/
structure Creation where
  kind : MKind
  name : Bytes
  description : Bytes
  unit : Bytes

/-- A history of creations: the handles returned, in order. -/
def createAll (reg : Measures) : List Creation → Measures × List Measure
  | [] => (reg, [])
  | c :: cs =>
    let (reg, m) := newMeasure reg c.kind c.name c.description c.unit
    let (reg, ms) := createAll reg cs
    (reg, m :: ms)

/-- The first creation with a name. -/
def firstOf (cs : List Creation) (n : Bytes) : Option Creation := cs.find? (fun c => decide (c.name = n))

/-- C22. Whatever measures are created in whatever order, the i-th handle has the name asked for, and
the description and unit given when that name was created first. -/
theorem first_creation_wins (cs : List Creation) (i : Nat) (c : Creation) (hc : cs[i]? = some c) :
    ∃ m f, (createAll [] cs).2[i]? = some m ∧ firstOf cs c.name = some f ∧
      m = ⟨c.kind, c.name, f.description, f.unit⟩ := by
  -- with names already in the registry
  have gen : ∀ (cs : List Creation) (reg : Measures) (i : Nat) (c : Creation), cs[i]? = some c →
      (∀ n d, GoMap.get reg n = some d → d.name = n) →
      ∃ m, (createAll reg cs).2[i]? = some m ∧ m.kind = c.kind ∧ m.name = c.name ∧
        match GoMap.get reg c.name with
        | some d => m.description = d.description ∧ m.unit = d.unit
        | none => ∃ f, firstOf cs c.name = some f ∧ m.description = f.description ∧ m.unit = f.unit := by
    intro cs
    induction cs with
    | nil => intro reg i c hc; simp at hc
    | cons e cs ih =>
      intro reg i c hc hreg
      cases hg : GoMap.get reg e.name with
      | some d =>
        have hd := hreg _ _ hg
        have e1 : newMeasure reg e.kind e.name e.description e.unit =
            (reg, ⟨e.kind, d.name, d.description, d.unit⟩) := by
          simp [newMeasure, registerMeasureHandle, hg]
        cases i with
        | zero =>
          simp only [List.getElem?_cons_zero, Option.some.injEq] at hc
          subst hc
          refine ⟨⟨e.kind, d.name, d.description, d.unit⟩, by simp [createAll, e1], rfl, hd, ?_⟩
          simp [hg]
        | succ i =>
          simp only [List.getElem?_cons_succ] at hc
          obtain ⟨m, h1, h2, h3, h4⟩ := ih reg i c hc hreg
          refine ⟨m, by simpa [createAll, e1] using h1, h2, h3, ?_⟩
          cases hgc : GoMap.get reg c.name with
          | some d' => rw [hgc] at h4; exact h4
          | none =>
            rw [hgc] at h4
            obtain ⟨f, hf, h5⟩ := h4
            refine ⟨f, ?_, h5⟩
            have hne : e.name ≠ c.name := by intro he; rw [he, hgc] at hg; simp at hg
            simpa [firstOf, hne] using hf
      | none =>
        have e1 : newMeasure reg e.kind e.name e.description e.unit =
            (GoMap.set reg e.name ⟨false, e.name, e.description, e.unit⟩,
              ⟨e.kind, e.name, e.description, e.unit⟩) := by
          simp [newMeasure, registerMeasureHandle, hg]
        cases i with
        | zero =>
          simp only [List.getElem?_cons_zero, Option.some.injEq] at hc
          subst hc
          refine ⟨⟨e.kind, e.name, e.description, e.unit⟩, by simp [createAll, e1], rfl, rfl, ?_⟩
          rw [hg]
          exact ⟨e, by simp [firstOf], rfl, rfl⟩
        | succ i =>
          simp only [List.getElem?_cons_succ] at hc
          obtain ⟨m, h1, h2, h3, h4⟩ := ih (GoMap.set reg e.name ⟨false, e.name, e.description, e.unit⟩) i c hc (by
            intro n d hd
            rw [GoMap.get_set] at hd
            split at hd
            · next he => simp only [Option.some.injEq] at hd; subst hd; exact he.symm
            · exact hreg n d hd)
          refine ⟨m, by simpa [createAll, e1] using h1, h2, h3, ?_⟩
          rw [GoMap.get_set] at h4
          by_cases he : c.name = e.name
          · rw [if_pos he] at h4
            rw [he, hg]
            exact ⟨e, by simp [firstOf], h4⟩
          · rw [if_neg he] at h4
            cases hgc : GoMap.get reg c.name with
            | some d' => rw [hgc] at h4; exact h4
            | none =>
              rw [hgc] at h4
              obtain ⟨f, hf, h5⟩ := h4
              refine ⟨f, ?_, h5⟩
              simpa [firstOf, Ne.symm he] using hf
  obtain ⟨m, h1, h2, h3, f, h4, h5, h6⟩ := gen cs [] i c hc (by simp)
  refine ⟨m, f, h1, h4, ?_⟩
  cases m
  simp_all

/-- C22. A view registered through one handle collects the recordings made through any handle of the
same name, whatever its kind: two recordings that differ only in the handle used are handled
identically. -/
theorem handles_interchangeable (w : Worker) (t : Int) (r r' : RecordReq)
    (htags : r.tags = r'.tags) (hatt : r.attachments = r'.attachments)
    (hms : r.ms.map (fun m => m.map fun x => (x.v, x.m.name)) =
      r'.ms.map (fun m => m.map fun x => (x.v, x.m.name))) :
    w.record r t = w.record r' t := by
  obtain ⟨tags, ms, att⟩ := r
  obtain ⟨tags', ms', att'⟩ := r'
  simp only at htags hatt hms
  subst htags hatt
  unfold Worker.record
  simp only
  induction ms generalizing w ms' with
  | nil => cases ms' <;> simp_all
  | cons m ms ih =>
    cases ms' with
    | nil => simp at hms
    | cons m' ms' =>
      simp only [List.map_cons, List.cons.injEq] at hms
      obtain ⟨h1, h2⟩ := hms
      cases m with
      | none =>
        cases m' with
        | none => exact ih w ms' h2
        | some m' => simp at h1
      | some m =>
        cases m' with
        | none => simp at h1
        | some m' =>
          simp only [Option.map_some, Option.some.injEq, Prod.mk.injEq] at h1
          simp only [Worker.recordLoop, h1.1, h1.2]
          congr 1
          funext w'
          exact ih w' ms' h2

/-- The second creation of a name keeps the first unit; the kinds differ. -/
example : (createAll [] [⟨.int64, str "m", str "one", str "By"⟩, ⟨.float64, str "n", [], []⟩,
    ⟨.float64, str "m", str "two", str "ms"⟩]).2[2]? = some ⟨.float64, str "m", str "one", str "By"⟩ := by
  decide

end Verif.Props.Recording
