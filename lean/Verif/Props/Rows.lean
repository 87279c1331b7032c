import Verif.View.Collector
import Verif.Metric.Labels
import Verif.Props.Agg

/-!
# Properties C08, C09 and C11: what identifies a row and a time series, and what a row holds
-/

namespace Verif.Props.Rows
open Verif Verif.Tag Verif.View Verif.TagEncoding

/-! ## Specification -/

/-- The value a recording carries for a key; an absent tag, or no tag map, counts as the empty
value. -/
def given (m : Option TMap) (k : Key) : Bytes :=
  (((m.getD []).find? (fun p => decide (p.1 = k))).map (fun p => p.2.value)).getD []

/-- Two recordings agree on the keys of the view. -/
def Agree (keys : List Key) (m m' : Option TMap) : Prop := ∀ k ∈ keys, given m k = given m' k

instance (keys : List Key) (m m' : Option TMap) : Decidable (Agree keys m m') := by
  unfold Agree; infer_instance

/-- The tags a row should be reported with: the non-empty values, in key order. -/
def specTags (keys : List Key) (m : Option TMap) : List (Key × Bytes) :=
  (keys.map fun k => (k, given m k)).filter (fun p => decide (p.2 ≠ []))

/-- Tag values have at most 255 bytes: what the tag package guarantees (C03). -/
def ValuesFit (keys : List Key) (m : Option TMap) : Prop := ∀ k ∈ keys, (given m k).length ≤ 255

/-- Keys in the order a registered view has them. -/
def KeysSorted (keys : List Key) : Prop := keys.Pairwise (fun a b => a.name ≤ b.name)

theorem given_eq (m : Option TMap) (k : Key) : given m k = valueOf m k := by
  cases m with
  | none => rfl
  | some m =>
    simp only [given, valueOf, Option.getD_some]
    induction m with
    | nil => rfl
    | cons p m ih =>
      obtain ⟨k', c⟩ := p
      by_cases h : k' = k
      · simp [GoMap.get, h]
      · simp only [GoMap.get, List.find?_cons, h, decide_false]
        exact ih

theorem map_given_inj {keys : List Key} {m m' : Option TMap} :
    keys.map (given m) = keys.map (given m') ↔ Agree keys m m' := by
  rw [List.map_inj_left]; rfl

/-! ## C08 -/

/-- C08. Two recordings get the same signature, hence the same row, if and only if they agree on
every key of the view. -/
theorem same_signature_iff (keys : List Key) (m m' : Option TMap)
    (h : ValuesFit keys m) (h' : ValuesFit keys m') :
    encodeWithKeys m keys = encodeWithKeys m' keys ↔ Agree keys m m' := by
  rw [encodeWithKeys_eq, encodeWithKeys_eq, ← map_given_inj]
  have e : ∀ m : Option TMap, keys.map (valueOf m) = keys.map (given m) := by
    intro m; apply List.map_congr_left; intro k _; exact (given_eq m k).symm
  rw [e, e]
  constructor
  · intro hh
    simp only [Res.ok.injEq] at hh
    apply sigOf_inj _ _ (by simp) _ _ hh
    · intro v hv; simp at hv; obtain ⟨k, hk, rfl⟩ := hv; exact h k hk
    · intro v hv; simp at hv; obtain ⟨k, hk, rfl⟩ := hv; exact h' k hk
  · intro hh; rw [hh]

theorem filter_map_tags (f : Key → Bytes) (keys : List Key) :
    (keys.filter (fun k => decide (f k ≠ []))).map (fun k => (k, f k)) =
      (keys.map fun k => (k, f k)).filter (fun p => decide (p.2 ≠ [])) := by
  rw [List.filter_map]; rfl

/-- C08. Decoding a row's signature gives exactly the non-empty values the recording carried. -/
theorem decoded_tags (keys : List Key) (hs : KeysSorted keys) (m : Option TMap)
    (h : ValuesFit keys m) :
    ∃ sig, encodeWithKeys m keys = .ok sig ∧ decodeTags sig keys = .ok (specTags keys m) := by
  refine ⟨_, encodeWithKeys_eq m keys, ?_⟩
  have e : keys.map (valueOf m) = keys.map (given m) := by
    apply List.map_congr_left; intro k _; exact (given_eq m k).symm
  have := decodeLoop_sig (given m) keys h []
  rw [List.append_nil] at this
  unfold decodeTags
  rw [e, this, filter_map_tags]
  simp only [Res.bind]
  rw [List.mergeSort_of_pairwise]
  · rfl
  · apply List.Pairwise.filter
    rw [List.pairwise_map]
    exact hs.imp (fun h => by simpa [tagLe] using h)

/-- C08. Whatever the order of the view's keys, the reported tags are sorted by key name and are a
rearrangement of the non-empty values. -/
theorem decoded_tags_any_order (keys : List Key) (m : Option TMap) (h : ValuesFit keys m) :
    ∃ sig tags, encodeWithKeys m keys = .ok sig ∧ decodeTags sig keys = .ok tags ∧
      tags.Perm (specTags keys m) ∧ tags.Pairwise (fun a b => a.1.name ≤ b.1.name) := by
  have e : keys.map (valueOf m) = keys.map (given m) := by
    apply List.map_congr_left; intro k _; exact (given_eq m k).symm
  have := decodeLoop_sig (given m) keys h []
  rw [List.append_nil, filter_map_tags] at this
  refine ⟨_, (specTags keys m).mergeSort tagLe, encodeWithKeys_eq m keys, ?_, List.mergeSort_perm _ _, ?_⟩
  · unfold decodeTags; rw [e, this]; rfl
  · have := List.pairwise_mergeSort (le := tagLe)
      (by intro a b c; simp only [tagLe, decide_eq_true_eq]; exact List.le_trans)
      (by intro a b; simp only [tagLe, Bool.or_eq_true, decide_eq_true_eq]; exact List.le_total _ _)
      (specTags keys m)
    exact this.imp (fun h => by simpa [tagLe] using h)

/-- Two recordings are reported with the same tags if and only if they agree on the keys. -/
theorem same_tags_iff (keys : List Key) (m m' : Option TMap) :
    specTags keys m = specTags keys m' ↔ Agree keys m m' := by
  constructor
  · intro h k hk
    have mem : ∀ (m : Option TMap) v, v ≠ [] → ((k, v) ∈ specTags keys m ↔ given m k = v) := by
      intro m v hv
      simp only [specTags, List.mem_filter, List.mem_map]
      constructor
      · rintro ⟨⟨k', hk', he⟩, _⟩
        simp only [Prod.mk.injEq] at he
        rw [← he.1]; exact he.2
      · intro hg; exact ⟨⟨k, hk, by rw [hg]⟩, by simpa using hv⟩
    by_cases h1 : given m k = []
    · by_cases h2 : given m' k = []
      · rw [h1, h2]
      · have := (mem m' _ h2).mpr rfl
        rw [← h, mem m _ h2] at this
        exact this
    · have := (mem m _ h1).mpr rfl
      rw [h, mem m' _ h1] at this
      exact this.symm
  · intro h
    unfold specTags
    congr 1
    apply List.map_congr_left
    intro k hk
    rw [h k hk]

/-! ## C11 (and C08 at the level of rows) -/

variable {F : Type} [Arith F]

/-- Recording samples into a view: `(*viewInternal).addSample` of a subscribed view,
stats/view/view.go:156-162, for each sample. -/
def recordAll (c : Collector F) (keys : List Key) : List (Option TMap × Sample F) → Res (Collector F)
  | [] => .ok c
  | (m, s) :: l => (encodeWithKeys m keys).bind fun sig => (c.addSample sig s).bind fun c =>
      recordAll c keys l

/-- The samples recorded with tags agreeing with `m`, in order. -/
def rowSamples (keys : List Key) (recs : List (Option TMap × Sample F)) (m : Option TMap) :
    List (Sample F) :=
  (recs.filter (fun r => decide (Agree keys r.1 m))).map Prod.snd

theorem recordAll_eq (c : Collector F) (keys : List Key) (recs : List (Option TMap × Sample F)) :
    recordAll c keys recs = c.addAll (recs.map fun r => (sigOf (keys.map (given r.1)), r.2)) := by
  induction recs generalizing c with
  | nil => rfl
  | cons r recs ih =>
    obtain ⟨m, s⟩ := r
    have e : keys.map (valueOf m) = keys.map (given m) := by
      apply List.map_congr_left; intro k _; exact (given_eq m k).symm
    simp only [recordAll, encodeWithKeys_eq, Res.bind, e, List.map_cons, Collector.addAll]
    cases c.addSample (sigOf (keys.map (given m))) s <;> simp [ih]

/-- The rows a view should have after the recordings `recs`: one per class of recordings agreeing on
the view's keys, with the class's tags, holding the aggregation's initial datum fed with exactly the
samples of the class in order; and no two rows with the same tags. -/
def RowsOf (a : Aggregation F) (keys : List Key) (recs : List (Option TMap × Sample F))
    (rows : List (Row F)) : Prop :=
  (rows.map (·.tags)).Nodup ∧
  ∀ row, row ∈ rows ↔ ∃ r ∈ recs, row.tags = specTags keys r.1 ∧
    ∃ s0 ss d0, rowSamples keys recs r.1 = s0 :: ss ∧ a.mkData s0.t = .ok d0 ∧
      d0.addAll (s0 :: ss) = .ok row.data

/-- The recordings as the collector sees them. -/
def sigRecs (keys : List Key) (recs : List (Option TMap × Sample F)) : List (Bytes × Sample F) :=
  recs.map fun r => (sigOf (keys.map (given r.1)), r.2)

/-- A collector that was fed exactly `recs` reports the rows of `recs`. -/
theorem holds_rows (c : Collector F) (ha : c.a.Usable) (keys : List Key) (hs : KeysSorted keys)
    (recs : List (Option TMap × Sample F)) (hfit : ∀ r ∈ recs, ValuesFit keys r.1)
    (hc : c.Holds (sigRecs keys recs)) :
    ∃ rows, c.collectedRows keys = .ok rows ∧ RowsOf c.a keys recs rows := by
  obtain ⟨hwf, hget⟩ := hc
  generalize haa : c.a = a at *
  set l := sigRecs keys recs with hl
  -- samples at a recording's signature are those of its class
  have hsamp : ∀ r ∈ recs, samplesAt l (sigOf (keys.map (given r.1))) = rowSamples keys recs r.1 := by
    intro r hr
    unfold samplesAt rowSamples
    rw [hl, sigRecs, List.filter_map, List.map_map]
    congr 1
    apply List.filter_congr
    intro r' hr'
    simp only [Function.comp_apply]
    rw [decide_eq_decide, ← map_given_inj]
    constructor
    · intro hh
      apply sigOf_inj _ _ (by simp) _ _ hh
      · intro v hv; simp at hv; obtain ⟨k, hk, rfl⟩ := hv; exact hfit r' hr' k hk
      · intro v hv; simp at hv; obtain ⟨k, hk, rfl⟩ := hv; exact hfit r hr k hk
    · intro hh; rw [hh]
  -- every signature in the map is that of a recording
  have hkeys : ∀ p ∈ c.signatures, ∃ r ∈ recs, p.1 = sigOf (keys.map (given r.1)) ∧
      rowData a (rowSamples keys recs r.1) = some p.2 := by
    intro p hp
    have hg := GoMap.get_of_mem hwf (k := p.1) (v := p.2) hp
    rw [hget p.1] at hg
    have hne : samplesAt l p.1 ≠ [] := by
      intro h0; rw [h0] at hg; simp [rowData] at hg
    obtain ⟨s, hs'⟩ := List.exists_mem_of_ne_nil _ hne
    simp only [samplesAt, List.mem_map, List.mem_filter, decide_eq_true_eq] at hs'
    obtain ⟨q, ⟨hq, hq1⟩, _⟩ := hs'
    rw [hl, sigRecs, List.mem_map] at hq
    obtain ⟨r, hr, hrq⟩ := hq
    have hsig : p.1 = sigOf (keys.map (given r.1)) := by rw [← hq1, ← hrq]
    refine ⟨r, hr, hsig, ?_⟩
    rw [← hsamp r hr, ← hsig]; exact hg
  have hdec : ∀ r ∈ recs, decodeTags (sigOf (keys.map (given r.1))) keys = .ok (specTags keys r.1) := by
    intro r hr
    obtain ⟨sig, h1, h2⟩ := decoded_tags keys hs r.1 (hfit r hr)
    have e : keys.map (valueOf r.1) = keys.map (given r.1) := by
      apply List.map_congr_left; intro k _; exact (given_eq r.1 k).symm
    rw [encodeWithKeys_eq, e] at h1
    simp only [Res.ok.injEq] at h1
    rw [h1]; exact h2
  let dec : Bytes → List (Key × Bytes) := fun sig =>
    match decodeTags sig keys with
    | .ok t => t
    | _ => []
  have hdec' : ∀ p ∈ c.signatures, decodeTags p.1 keys = .ok (dec p.1) := by
    intro p hp
    obtain ⟨r, hr, h1, _⟩ := hkeys p hp
    simp only [dec]
    rw [h1, hdec r hr]
  refine ⟨_, collectRows_ok keys c.signatures dec hdec', ?_, ?_⟩
  · rw [List.map_map]
    have hnd : (c.signatures.map Prod.fst).Nodup := hwf
    rw [List.nodup_iff_pairwise_ne, List.pairwise_map] at hnd ⊢
    refine List.Pairwise.imp_of_mem ?_ hnd
    intro p q hp hq hne heq
    apply hne
    obtain ⟨r, hr, h1, _⟩ := hkeys p hp
    obtain ⟨r', hr', h1', _⟩ := hkeys q hq
    simp only [Function.comp_apply] at heq
    have e1 : dec p.1 = specTags keys r.1 := by simp only [dec]; rw [h1, hdec r hr]
    have e2 : dec q.1 = specTags keys r'.1 := by simp only [dec]; rw [h1', hdec r' hr']
    rw [e1, e2, same_tags_iff, ← map_given_inj] at heq
    rw [h1, h1', heq]
  · intro row
    rw [List.mem_map]
    constructor
    · rintro ⟨p, hp, rfl⟩
      obtain ⟨r, hr, h1, h2⟩ := hkeys p hp
      refine ⟨r, hr, ?_, ?_⟩
      · simp only [dec]; rw [h1, hdec r hr]
      · cases hrs : rowSamples keys recs r.1 with
        | nil => rw [hrs] at h2; simp [rowData] at h2
        | cons s0 ss =>
          rw [hrs] at h2
          obtain ⟨d0, hd0⟩ := Aggregation.mkData_ok ha s0.t
          simp only [rowData, hd0, Option.some.injEq] at h2
          refine ⟨s0, ss, d0, rfl, hd0, ?_⟩
          rw [AggData.addAll_eq d0 (mkData_shape hd0), h2]
    · rintro ⟨r, hr, ht, s0, ss, d0, hrs, hd0, hd⟩
      have hg := hget (sigOf (keys.map (given r.1)))
      rw [hsamp r hr, hrs] at hg
      rw [AggData.addAll_eq d0 (mkData_shape hd0)] at hd
      simp only [Res.ok.injEq] at hd
      simp only [rowData, hd0] at hg
      rw [hd] at hg
      refine ⟨_, GoMap.mem_of_get hg, ?_⟩
      have : dec (sigOf (keys.map (given r.1))) = row.tags := by
        simp only [dec]; rw [hdec r hr, ht]
      rw [this]

/-- C11 and C08. After any sequence of recordings into an empty view, its rows are those of the
recordings (`RowsOf`); without a recording there is no row. -/
theorem view_rows (a : Aggregation F) (ha : a.Usable) (keys : List Key) (hs : KeysSorted keys)
    (recs : List (Option TMap × Sample F)) (hfit : ∀ r ∈ recs, ValuesFit keys r.1) :
    ∃ c rows, recordAll ⟨[], a⟩ keys recs = .ok c ∧ c.collectedRows keys = .ok rows ∧
      RowsOf a keys recs rows := by
  obtain ⟨c, hc, hca, hh⟩ := Collector.addAll_holds (c := ⟨[], a⟩) (l := []) ha
    (Collector.holds_nil a) (sigRecs keys recs)
  simp only at hca
  obtain ⟨rows, h1, h2⟩ := holds_rows c (by rw [hca]; exact ha) keys hs recs hfit hh
  rw [hca] at h2
  exact ⟨c, rows, by rw [recordAll_eq]; exact hc, h1, h2⟩

/-- A non-trivial instance of the hypotheses: keys a, b; one recording with both tags, one with
only `a`, one without a tag map. -/
example : KeysSorted [⟨str "a"⟩, ⟨str "b"⟩] ∧
    ValuesFit [⟨str "a"⟩, ⟨str "b"⟩] (some [(⟨str "a"⟩, ⟨str "1", ⟨0⟩⟩), (⟨str "b"⟩, ⟨str "2", ⟨0⟩⟩)]) ∧
    ValuesFit [⟨str "a"⟩, ⟨str "b"⟩] none ∧
    ¬ Agree [⟨str "a"⟩, ⟨str "b"⟩] (some [(⟨str "a"⟩, ⟨str "1", ⟨0⟩⟩)]) none ∧
    Agree [⟨str "b"⟩] (some [(⟨str "a"⟩, ⟨str "1", ⟨0⟩⟩)]) none ∧
    (⟨0, .count, [], some .count⟩ : Aggregation F64).Usable := by
  refine ⟨?_, ?_, ?_, by decide, by decide, ⟨.count, rfl, by simp⟩⟩
  · simp [KeysSorted]; decide
  · unfold ValuesFit; decide
  · unfold ValuesFit; decide

/-! ## C09 -/

open Verif.Metric

/-- The label value a series is reported with: an absent value carries no string. -/
def shown (v : LabelValue) : Option Bytes := if v.present then some v.value else none

/-- Label values that survive the encoding: at most 254 bytes. -/
def LabelsFit (vs : List LabelValue) : Prop := ∀ v ∈ vs, v.present = true → v.value.length ≤ 254

/-- C09 restricted to label values of at most 254 bytes: two calls give the same series exactly if
the label values are equal, absent being different from every present value. Missing: longer values,
see `label_collision`. -/
theorem same_series_iff_partial (vs ws : List LabelValue) (hl : vs.length = ws.length)
    (hv : LabelsFit vs) (hw : LabelsFit ws) :
    encodeLabelVals vs = encodeLabelVals ws ↔ vs.map shown = ws.map shown := by
  rw [encodeLabelVals_eq, encodeLabelVals_eq]
  have e : ∀ (l : List LabelValue), (l.map fun v => frame (labelBytes v)) = (l.map labelBytes).map frame := by
    intro l; rw [List.map_map]; rfl
  rw [e, e]
  have lb : ∀ v w : LabelValue, labelBytes v = labelBytes w ↔ shown v = shown w := by
    intro v w
    rcases v with ⟨a, p⟩
    rcases w with ⟨b, q⟩
    cases p <;> cases q <;> simp [labelBytes, shown]
  constructor
  · intro h
    simp only [Res.ok.injEq] at h
    have := sigOf_inj (vs.map labelBytes) (ws.map labelBytes) (by simpa using hl)
      (by intro v hv'; simp at hv'; obtain ⟨x, hx, rfl⟩ := hv'; exact labelBytes_length x (hv x hx))
      (by intro v hv'; simp at hv'; obtain ⟨x, hx, rfl⟩ := hv'; exact labelBytes_length x (hw x hx)) h
    clear hv hw h e
    induction vs generalizing ws with
    | nil => cases ws with
      | nil => rfl
      | cons _ _ => simp at hl
    | cons v vs ih => cases ws with
      | nil => simp at hl
      | cons w ws =>
        simp only [List.map_cons, List.cons.injEq] at this ⊢
        exact ⟨(lb v w).mp this.1, ih ws (by simpa using hl) this.2⟩
  · intro h
    have : vs.map labelBytes = ws.map labelBytes := by
      clear hv hw e
      induction vs generalizing ws with
      | nil => cases ws with
        | nil => rfl
        | cons _ _ => simp at hl
      | cons v vs ih => cases ws with
        | nil => simp at hl
        | cons w ws =>
          simp only [List.map_cons, List.cons.injEq] at h ⊢
          exact ⟨(lb v w).mpr h.1, ih ws (by simpa using hl) h.2⟩
    rw [this]

/-- C09 restricted to label values of at most 254 bytes: a read reports each series with the label
values it was created with. -/
theorem read_labels_partial (vs : List LabelValue) (hv : LabelsFit vs) :
    ∃ sig ws, encodeLabelVals vs = .ok sig ∧ decodeLabelVals sig vs.length = .ok ws ∧
      ws.map shown = vs.map shown := by
  refine ⟨_, vs.map fun v => if v.present then v else ⟨[], false⟩, encodeLabelVals_eq vs, ?_, ?_⟩
  · have := decodeLabelVals_frames vs hv []
    rwa [List.append_nil] at this
  · rw [List.map_map]
    apply List.map_congr_left
    intro v _
    rcases v with ⟨a, p⟩
    cases p <;> simp [shown]

/-- The code violates C09: after `GetEntry` with any label value of 255 bytes (more generally a
length that is 255 modulo 256), every later read of the metric panics. -/
theorem label_255_read_panics (v : Bytes) (h : v.length % 256 = 255) :
    ∃ sig, encodeLabelVals [⟨v, true⟩] = .ok sig ∧ decodeLabelVals sig 1 = .panic := by
  refine ⟨_, encodeLabelVals_eq _, ?_⟩
  have e : ([⟨v, true⟩] : List LabelValue).map (fun v => frame (labelBytes v)) = [frame (1 :: v)] := rfl
  rw [e]
  have := readValue_frame (1 :: v) []
  rw [List.append_nil] at this
  have hl : (List.length (1 :: v)) % 256 = 0 := by simp only [List.length_cons]; omega
  simp only [List.flatten_cons, List.flatten_nil, List.append_nil, decodeLabelVals, this, Res.bind]
  rw [if_pos hl]

/-- The code violates C09: any value of 256 bytes shares its series with the empty value, and is
reported as the empty value. -/
theorem label_collision (v : Bytes) (h : v.length = 256) :
    encodeLabelVals [⟨v, true⟩] = encodeLabelVals [⟨[], true⟩] ∧
    ∃ sig, encodeLabelVals [⟨v, true⟩] = .ok sig ∧ decodeLabelVals sig 1 = .ok [⟨[], true⟩] := by
  have hf : frame (1 :: v) = frame [1] := by
    simp [frame, h]
  have h1 : encodeLabelVals [⟨v, true⟩] = .ok (frame (1 :: v)) := by
    rw [encodeLabelVals_eq]; simp [labelBytes]
  have h2 : encodeLabelVals [⟨[], true⟩] = .ok (frame [1]) := by
    rw [encodeLabelVals_eq]; simp [labelBytes]
  refine ⟨by rw [h1, h2, hf], _, h1, ?_⟩
  rw [hf]; decide

example : LabelsFit [⟨str "GET", true⟩, ⟨[], false⟩, ⟨[], true⟩] ∧
    [⟨str "GET", true⟩, ⟨[], false⟩].map shown ≠ [⟨str "GET", true⟩, ⟨[], true⟩].map shown := by
  refine ⟨by unfold LabelsFit; decide, by decide⟩
example : (List.replicate 255 (65 : UInt8)).length % 256 = 255 := by
  rw [List.length_replicate]

end Verif.Props.Rows
