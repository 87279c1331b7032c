import Verif.Trace.MachineInv

/-! # What each step does to the ended flags and the export log -/

namespace Verif.Trace
open Verif

/-- The three kinds of steps. -/
inductive StepKind (st st' : State) (op : Op) : Prop where
  | quiet (h1 : views st' = views st) (h2 : st'.exported = st.exported)
      (h3 : ∀ i order s, op = .endSpan (some i) order → st.spans[i]? = some s → s.data = none ∨ s.ended = true)
  | start (v : View) (h1 : views st' = views st ++ [v]) (h2 : v.ended = false) (h3 : st'.exported = st.exported)
      (h4 : v.start.isSome = (st.localStore || v.ctx.isSampled)) (h5 : ∀ i order, op ≠ .endSpan (some i) order)
  | ended (i : Nat) (order : List Bytes) (s : Span) (r : Rec) (h1 : op = .endSpan (some i) order)
      (h2 : st.spans[i]? = some s) (h3 : s.data = some r) (h4 : s.ended = false) (h5 : Ended st i s r order st')

theorem step_kind_start {st st' : State} {op : Op} {name : Bytes} {hasParent : Bool} {parent : SpanContext}
    {remote : Bool} {o : StartOptions} {tid sid : Bytes} (st0 : State) (hv : views st = views st0)
    (hx : st.exported = st0.exported) (hl : st.localStore = st0.localStore)
    (hs : startSpanInternal st name hasParent parent remote o tid sid = .ok st')
    (ho : ∀ i order, op ≠ .endSpan (some i) order) : StepKind st0 st' op := by
  obtain ⟨s, h1, h2, h3, h4, h5, h6⟩ := startSpanInternal_ok hs
  refine .start s.view ?_ h3 ?_ ?_ ho
  · rw [← hv]; unfold views; rw [h1]; simp
  · unfold startSpanInternal at hs
    rw [← hx]
    split at hs
    · simp at hs
    · split at hs
      · simp at hs
      · simp only at hs
        split at hs
        · cases hs; rfl
        · split at hs <;> (cases hs; rfl)
  · simp [Span.view, h4, hl]

theorem step_kind {st st' : State} {op : Op} (h : step st op = .ok st') : StepKind st st' op := by
  have mod : ∀ (s : Option Nat) (f : Rec → Res Rec), KeepsData f → (∀ i order, op ≠ .endSpan (some i) order) →
      (onSpan st s fun i => modifyRec st i f) = .ok st' → StepKind st st' op := by
    intro s f hf ho hm
    cases s with
    | none => cases hm; exact .quiet rfl rfl (fun i order s he => absurd he (ho i order))
    | some i =>
      obtain ⟨e1, e2, e3⟩ := modifyRec_views hf hm
      refine .quiet e1 ?_ (fun i order s he => absurd he (ho i order))
      rw [(modifyRec_ok hf hm).2.2]
  cases op with
  | start p name opts tid sid =>
    cases p with
    | none => exact step_kind_start st rfl rfl rfl h (by simp)
    | some p =>
      simp only [step, startSpan] at h
      cases hp : st.spans[p]? with
      | none => rw [hp] at h; simp at h
      | some ps =>
        rw [hp] at h
        simp only at h
        obtain ⟨st1, hm, h⟩ := Res_bind_ok h
        obtain ⟨e1, e2, e3⟩ := modifyRec_views keeps_addChild hm
        have k := (modifyRec_ok keeps_addChild hm).2.2
        exact step_kind_start st e1 (by rw [k]) (by rw [k]) h (by simp)
  | startRemote sc name opts tid sid => exact step_kind_start st rfl rfl rfl h (by simp)
  | setName s name => exact mod s _ (keeps_setName _) (by simp) h
  | setStatus s x => exact mod s _ (keeps_setStatus _) (by simp) h
  | addAttributes s l => exact mod s _ (keeps_addAttributes _) (by simp) h
  | annotate s l m => exact mod s _ (keeps_annotate _ _ _) (by simp) h
  | addMessageEvent s t a b c => exact mod s _ (keeps_addMessageEvent _ _ _ _ _) (by simp) h
  | addLink s l => exact mod s _ (keeps_addLink _) (by simp) h
  | endSpan s order =>
    cases s with
    | none => cases h; exact .quiet rfl rfl (by simp)
    | some i =>
      obtain ⟨s, hi, ⟨rfl, hx⟩ | ⟨r, hd, he, hE⟩⟩ := endSpan_cases h
      · refine .quiet rfl rfl ?_
        intro j o s' hj hs'
        cases hj
        rw [hi] at hs'; cases hs'
        exact hx
      · exact .ended i order s r rfl hi hd he hE
  | registerExporter e => cases h; exact .quiet rfl rfl (by simp)
  | unregisterExporter e => cases h; exact .quiet rfl rfl (by simp)
  | applyConfig c => cases h; exact .quiet rfl rfl (by simp)
  | configure bcs =>
    obtain ⟨stores, h1, h⟩ := Res_bind_ok h
    cases h; exact .quiet rfl rfl (by simp)
  | reportActive name orders =>
    obtain ⟨⟨st1, out⟩, h1, h⟩ := Res_bind_ok h
    cases h
    unfold reportActive at h1
    split at h1
    · cases h1; exact .quiet rfl rfl (by simp)
    · exact .quiet (reportActiveLoop_views h1) (by rw [(reportActiveLoop_spans h1).2.2]) (by simp)
  | enableStore => cases h; exact .quiet rfl rfl (by simp)
  | tick d => cases h; exact .quiet rfl rfl (by simp)

theorem Ended.views {st st' : State} {i : Nat} {s : Span} {r : Rec} {order : List Bytes} (hd : s.data = some r)
    (h : Ended st i s r order st') : views st' = (views st).set i { s.view with ended := true } := by
  cases h with
  | quiet h1 h2 => unfold Trace.views; simp only; rw [map_set_view]; rfl
  | full r' sd hm stores hst =>
    unfold Trace.views; simp only; rw [map_set_view, view_ended hd (makeSpanData_ok hm).1]

theorem Ended.exported {st st' : State} {i : Nat} {s : Span} {r : Rec} {order : List Bytes}
    (h : Ended st i s r order st') : ∃ sd, st'.exported = st.exported ++ if s.ctx.isSampled then
      st.exporters.map (fun e => (e, i, sd)) else [] := by
  cases h with
  | quiet h1 h2 =>
    refine ⟨r.data, ?_⟩
    simp only
    cases hs : s.ctx.isSampled with
    | false => simp
    | true =>
      rw [hs] at h2
      have : st.exporters = [] := by
        cases he : st.exporters with
        | nil => rfl
        | cons a l => rw [he] at h2; simp at h2
      simp [this]
  | full r' sd hm stores hst => exact ⟨_, rfl⟩

theorem views_some {st : State} {i : Nat} {v : View} (h : (views st)[i]? = some v) :
    ∃ s, st.spans[i]? = some s ∧ s.view = v := by
  simp only [views, List.getElem?_map] at h
  cases hs : st.spans[i]? with
  | none => rw [hs] at h; simp at h
  | some s => rw [hs] at h; simp at h; exact ⟨s, rfl, h⟩

/-- The invariant of the export log after `ops`. -/
structure XInv (ops : List Op) (st : State) : Prop where
  /-- a recording span has ended exactly when `End` was called on it -/
  ended : ∀ (i : Nat) (v : View), (views st)[i]? = some v →
    (v.ended = true ↔ v.start.isSome ∧ ∃ order, Op.endSpan (some i) order ∈ ops)
  /-- only ended spans are exported -/
  log : ∀ x ∈ st.exported, ∃ v : View, (views st)[x.2.1]? = some v ∧ v.ended = true
  /-- a span that is not recording is not sampled -/
  unrecorded : ∀ (i : Nat) (v : View), (views st)[i]? = some v → v.start = none → v.ctx.isSampled = false
  /-- calls refer to spans that exist -/
  refs : ∀ i order, Op.endSpan (some i) order ∈ ops → i < (views st).length

theorem xinv_init (t : Int) : XInv [] (State.init t) := by
  constructor <;> simp [State.init, views]

theorem XInv.step {ops : List Op} {st st' : State} (h : XInv ops st) {op : Op} (hs : Trace.step st op = .ok st') :
    XInv (ops ++ [op]) st' := by
  cases step_kind hs with
  | quiet h1 h2 h3 =>
    refine ⟨?_, ?_, ?_, ?_⟩
    · intro i v hv
      rw [h1] at hv
      rw [h.ended i v hv]
      constructor
      · rintro ⟨a, o, ho⟩; exact ⟨a, o, by simp [ho]⟩
      · rintro ⟨a, o, ho⟩
        rcases List.mem_append.mp ho with ho | ho
        · exact ⟨a, o, ho⟩
        · simp at ho
          obtain ⟨s, hs', rfl⟩ := views_some hv
          rcases h3 i o s ho.symm hs' with hd | he
          · simp [Span.view, hd] at a
          · exact (h.ended i s.view hv).mp he
    · intro x hx; rw [h2] at hx; rw [h1]; exact h.log x hx
    · intro i v hv; rw [h1] at hv; exact h.unrecorded i v hv
    · intro i o ho
      rw [h1]
      rcases List.mem_append.mp ho with ho | ho
      · exact h.refs i o ho
      · simp at ho
        subst ho
        simp only [Trace.step, onSpan] at hs
        obtain ⟨s, hs', _⟩ := endSpan_cases hs
        have := getElem?_lt hs'
        simpa [views] using this
  | start v h1 h2 h3 h4 h5 =>
    have hget : ∀ j w, (views st')[j]? = some w → (views st)[j]? = some w ∨ (j = (views st).length ∧ w = v) := by
      intro j w hj
      rw [h1] at hj
      rcases Nat.lt_trichotomy j (views st).length with hlt | heq | hgt
      · rw [List.getElem?_append_left hlt] at hj; exact .inl hj
      · subst heq
        rw [List.getElem?_append_right (Nat.le_refl _)] at hj
        simp at hj; exact .inr ⟨rfl, hj.symm⟩
      · rw [List.getElem?_eq_none (by simp; omega)] at hj; cases hj
    have hops : ∀ i o, Op.endSpan (some i) o ∈ ops ++ [op] → Op.endSpan (some i) o ∈ ops := by
      intro i o ho
      rcases List.mem_append.mp ho with ho | ho
      · exact ho
      · simp at ho; exact absurd ho.symm (h5 i o)
    refine ⟨?_, ?_, ?_, ?_⟩
    · intro i w hw
      rcases hget i w hw with hw | ⟨rfl, rfl⟩
      · rw [h.ended i w hw]
        constructor
        · rintro ⟨a, o, ho⟩; exact ⟨a, o, by simp [ho]⟩
        · rintro ⟨a, o, ho⟩; exact ⟨a, o, hops i o ho⟩
      · rw [h2]
        simp only [Bool.false_eq_true, false_iff, not_and, not_exists]
        intro _ o ho
        have := h.refs _ o (hops _ o ho)
        omega
    · intro x hx
      rw [h3] at hx
      obtain ⟨w, hw, he⟩ := h.log x hx
      exact ⟨w, by rw [h1, List.getElem?_append_left (getElem?_lt hw)]; exact hw, he⟩
    · intro i w hw hn
      rcases hget i w hw with hw | ⟨rfl, rfl⟩
      · exact h.unrecorded i w hw hn
      · rw [hn] at h4
        simp only [Option.isSome_none] at h4
        have := h4.symm
        rw [Bool.or_eq_false_iff] at this
        exact this.2
    · intro i o ho
      rw [h1, List.length_append]
      have := h.refs i o (hops i o ho)
      omega
  | ended i order s r h1 h2 h3 h4 h5 =>
    have hv := h5.views h3
    have hlt : i < (views st).length := by have := getElem?_lt h2; simpa [views] using this
    have hget : ∀ j, (views st')[j]? = if i = j then some { s.view with ended := true } else (views st)[j]? := by
      intro j; rw [hv, List.getElem?_set]; simp [hlt]
    refine ⟨?_, ?_, ?_, ?_⟩
    · intro j w hw
      rw [hget] at hw
      split at hw
      · next e =>
        subst e
        cases hw
        simp only [true_iff]
        exact ⟨by simp [Span.view, h3], order, by rw [h1]; simp⟩
      · next e =>
        rw [h.ended j w hw]
        constructor
        · rintro ⟨a, o, ho⟩; exact ⟨a, o, by simp [ho]⟩
        · rintro ⟨a, o, ho⟩
          rcases List.mem_append.mp ho with ho | ho
          · exact ⟨a, o, ho⟩
          · simp [h1] at ho; exact absurd ho.1.symm e
    · intro x hx
      obtain ⟨sd, he⟩ := h5.exported
      rw [he] at hx
      rcases List.mem_append.mp hx with hx | hx
      · obtain ⟨w, hw, hwe⟩ := h.log x hx
        rw [hget]
        split
        · exact ⟨_, rfl, rfl⟩
        · exact ⟨w, hw, hwe⟩
      · split at hx
        · obtain ⟨e, _, rfl⟩ := List.mem_map.mp hx
          simp only
          rw [hget, if_pos rfl]
          exact ⟨_, rfl, rfl⟩
        · simp at hx
    · intro j w hw hn
      rw [hget] at hw
      split at hw
      · cases hw
        simp [Span.view, h3] at hn
      · exact h.unrecorded j w hw hn
    · intro j o ho
      rw [hv, List.length_set]
      rcases List.mem_append.mp ho with ho | ho
      · exact h.refs j o ho
      · simp [h1] at ho; rw [ho.1]; exact hlt

theorem xinv_run {t : Int} {ops : List Op} {st : State} (h : run (State.init t) ops = .ok st) : XInv ops st := by
  induction ops using List.reverseRecOn generalizing st with
  | nil => cases h; exact xinv_init t
  | append_singleton ops op ih =>
    obtain ⟨mid, h1, h2⟩ := run_snoc_ok h
    exact (ih h1).step h2

/-- Once a span has ended nothing more is exported for it. -/
theorem ended_stays {st st' : State} {i : Nat} {v : View} (hv : (views st)[i]? = some v) (he : v.ended = true)
    {op : Op} (hs : step st op = .ok st') :
    (∃ w : View, (views st')[i]? = some w ∧ w.ended = true) ∧
      st'.exported.filter (fun x => decide (x.2.1 = i)) = st.exported.filter (fun x => decide (x.2.1 = i)) := by
  cases step_kind hs with
  | quiet h1 h2 h3 => rw [h1, h2]; exact ⟨⟨v, hv, he⟩, rfl⟩
  | start v' h1 h2 h3 h4 h5 =>
    rw [h1, h3, List.getElem?_append_left (getElem?_lt hv)]
    exact ⟨⟨v, hv, he⟩, rfl⟩
  | ended j order s r h1 h2 h3 h4 h5 =>
    have hji : j ≠ i := by
      rintro rfl
      obtain ⟨s', hs', rfl⟩ := views_some hv
      rw [h2] at hs'; cases hs'
      simp [Span.view, h4] at he
    obtain ⟨sd, hx⟩ := h5.exported
    rw [h5.views h3, hx, List.getElem?_set_ne hji, List.filter_append]
    refine ⟨⟨v, hv, he⟩, ?_⟩
    have : (if s.ctx.isSampled = true then st.exporters.map (fun e => (e, j, sd)) else []).filter
        (fun x : Exporter × Nat × SpanData => decide (x.2.1 = i)) = [] := by
      apply List.filter_eq_nil_iff.mpr
      intro x hx
      split at hx
      · obtain ⟨e, _, rfl⟩ := List.mem_map.mp hx
        simp [hji]
      · simp at hx
    rw [this, List.append_nil]

theorem ended_stays_run {st st' : State} {i : Nat} {v : View} (hv : (views st)[i]? = some v) (he : v.ended = true)
    {ops : List Op} (hs : run st ops = .ok st') :
    st'.exported.filter (fun x => decide (x.2.1 = i)) = st.exported.filter (fun x => decide (x.2.1 = i)) := by
  induction ops generalizing st v with
  | nil => cases hs; rfl
  | cons op ops ih =>
    obtain ⟨st1, h1, h2⟩ := Res_bind_ok hs
    obtain ⟨⟨w, hw, hwe⟩, hf⟩ := ended_stays hv he h1
    rw [ih hw hwe h2, hf]

/-! ## The registered exporters -/

/-- Whether an exporter is registered after a program, read off the program. -/
def registered (e : Exporter) (ops : List Op) : Bool :=
  ops.foldl (fun b op => match op with
    | .registerExporter x => if x = e then true else b
    | .unregisterExporter x => if x = e then false else b
    | _ => b) false

theorem registered_snoc (e : Exporter) (ops : List Op) (op : Op) : registered e (ops ++ [op]) =
    match op with
    | .registerExporter x => if x = e then true else registered e ops
    | .unregisterExporter x => if x = e then false else registered e ops
    | _ => registered e ops := by
  simp only [registered, List.foldl_append, List.foldl_cons, List.foldl_nil]

theorem step_exporters {st st' : State} {op : Op} (h : step st op = .ok st') : st'.exporters =
    match op with
    | .registerExporter x => if x ∈ st.exporters then st.exporters else st.exporters ++ [x]
    | .unregisterExporter x => st.exporters.filter (fun y => decide (y ≠ x))
    | _ => st.exporters := by
  have mod : ∀ (s : Option Nat) (f : Rec → Res Rec), KeepsData f →
      (onSpan st s fun i => modifyRec st i f) = .ok st' → st'.exporters = st.exporters := by
    intro s f hf hm
    cases s with
    | none => cases hm; rfl
    | some i => rw [(modifyRec_ok hf hm).2.2]
  have int : ∀ (st0 : State) (name : Bytes) (hp : Bool) (parent : SpanContext) (remote : Bool) (o : StartOptions) (tid sid : Bytes),
      startSpanInternal st0 name hp parent remote o tid sid = .ok st' → st'.exporters = st0.exporters := by
    intro st0 name hp parent remote o tid sid hs
    unfold startSpanInternal at hs
    split at hs
    · simp at hs
    · split at hs
      · simp at hs
      · simp only at hs
        split at hs
        · cases hs; rfl
        · split at hs <;> (cases hs; rfl)
  cases op with
  | start p name opts tid sid =>
    cases p with
    | none => exact int _ _ _ _ _ _ _ _ h
    | some p =>
      simp only [step, startSpan] at h
      cases hp : st.spans[p]? with
      | none => rw [hp] at h; simp at h
      | some ps =>
        rw [hp] at h
        simp only at h
        obtain ⟨st1, hm, h⟩ := Res_bind_ok h
        simp only
        rw [int _ _ _ _ _ _ _ _ h, (modifyRec_ok keeps_addChild hm).2.2]
  | startRemote sc name opts tid sid => exact int _ _ _ _ _ _ _ _ h
  | setName s name => exact mod s _ (keeps_setName _) h
  | setStatus s x => exact mod s _ (keeps_setStatus _) h
  | addAttributes s l => exact mod s _ (keeps_addAttributes _) h
  | annotate s l m => exact mod s _ (keeps_annotate _ _ _) h
  | addMessageEvent s t a b c => exact mod s _ (keeps_addMessageEvent _ _ _ _ _) h
  | addLink s l => exact mod s _ (keeps_addLink _) h
  | endSpan s order =>
    cases s with
    | none => cases h; rfl
    | some i =>
      obtain ⟨s, hi, ⟨rfl, _⟩ | ⟨r, hd, he, hE⟩⟩ := endSpan_cases h
      · rfl
      · cases hE <;> rfl
  | registerExporter e => cases h; rfl
  | unregisterExporter e => cases h; rfl
  | applyConfig c => cases h; rfl
  | configure bcs => obtain ⟨stores, _, h⟩ := Res_bind_ok h; cases h; rfl
  | reportActive name orders =>
    obtain ⟨⟨st1, out⟩, h1, h⟩ := Res_bind_ok h
    cases h
    unfold reportActive at h1
    split at h1
    · cases h1; rfl
    · simp only; rw [(reportActiveLoop_spans h1).2.2]
  | enableStore => cases h; rfl
  | tick d => cases h; rfl

theorem exporters_run {t : Int} {ops : List Op} {st : State} (h : run (State.init t) ops = .ok st) :
    st.exporters.Nodup ∧ ∀ e, e ∈ st.exporters ↔ registered e ops = true := by
  induction ops using List.reverseRecOn generalizing st with
  | nil => cases h; simp [State.init, registered]
  | append_singleton ops op ih =>
    obtain ⟨mid, h1, h2⟩ := run_snoc_ok h
    obtain ⟨i1, i2⟩ := ih h1
    have he := step_exporters h2
    simp only [registered_snoc]
    cases op with
    | registerExporter x =>
      simp only at he ⊢
      rw [he]
      refine ⟨?_, ?_⟩
      · split
        · exact i1
        · next hx =>
          rw [List.nodup_append]
          refine ⟨i1, by simp, ?_⟩
          intro a ha b hb hab
          simp at hb
          subst hab; subst hb
          exact hx ha
      · intro e
        by_cases hxe : x = e
        · subst hxe
          split
          · next hx => simpa using hx
          · simp
        · split
          · rw [i2]
          · rw [List.mem_append, i2]; simp [Ne.symm hxe]
    | unregisterExporter x =>
      simp only at he ⊢
      rw [he]
      refine ⟨i1.filter _, ?_⟩
      intro e
      rw [List.mem_filter, i2]
      by_cases hxe : x = e
      · subst hxe; simp
      · simp [hxe, Ne.symm hxe]
    | _ => simp only at he ⊢; rw [he]; exact ⟨i1, i2⟩

end Verif.Trace
