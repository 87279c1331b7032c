import Verif.Trace.StoreInv

/-! # The invariants along every run, and absence of panics -/

namespace Verif.Trace
open Verif

def views (st : State) : List View := st.spans.map Span.view

/-- The invariant of the stores. -/
def Good (st : State) : Prop := SInv (views st) st.stores st.now

theorem good_init (t : Int) : Good (State.init t) := by
  constructor <;> simp [State.init, views]

theorem SInv.later {vs : List View} {stores : GoMap Bytes Store} {now : Int} (h : SInv vs stores now) (d : Nat) :
    SInv vs stores (now + d) :=
  ⟨h.ok, h.has, fun i v x h1 h2 => by have := h.time i v x h1 h2; omega, h.ctx⟩

theorem views_set {st : State} {i : Nat} {s : Span} (h : st.spans[i]? = some s) {s' : Span} (hv : s'.view = s.view) :
    (st.spans.set i s').map Span.view = st.spans.map Span.view := by
  apply List.ext_getElem?
  intro j
  rw [List.getElem?_map, List.getElem?_map, List.getElem?_set]
  split
  · next e =>
    subst e
    rw [if_pos (getElem?_lt h), h]; simp [hv]
  · rfl

theorem modifyRec_views {st st' : State} {i : Nat} {f : Rec → Res Rec} (hf : KeepsData f)
    (h : modifyRec st i f = .ok st') : views st' = views st ∧ st'.stores = st.stores ∧ st'.now = st.now := by
  obtain ⟨s, hs, ⟨_, rfl⟩ | ⟨r, r', hd, hr, rfl⟩⟩ := modifyRec_cases h
  · exact ⟨rfl, rfl, rfl⟩
  · refine ⟨views_set hs ?_, rfl, rfl⟩
    have hx := hf r r' hr
    simp [Span.view, hd, hx.ctx, hx.start]

theorem reportActiveLoop_views {st st' : State} {is : List Nat} {orders : List (List Bytes)} {out : List SpanData}
    (h : reportActiveLoop st is orders = .ok (st', out)) : views st' = views st := by
  induction is generalizing st orders out with
  | nil => cases h; rfl
  | cons i is ih =>
    cases orders with
    | nil => simp [reportActiveLoop] at h
    | cons order orders =>
      simp only [reportActiveLoop] at h
      cases hs : st.spans[i]? with
      | none => rw [hs] at h; simp at h
      | some s =>
        rw [hs] at h
        simp only at h
        cases hd : s.data with
        | none => rw [hd] at h; simp at h
        | some r =>
          rw [hd] at h
          simp only at h
          obtain ⟨⟨r', sd⟩, hm, h⟩ := Res_bind_ok h
          simp only at h
          obtain ⟨⟨st1, out1⟩, h1, h⟩ := Res_bind_ok h
          cases h
          rw [ih h1]
          refine views_set hs ?_
          simp [Span.view, hd, (makeSpanData_ok hm).1]

theorem makeSpanData_fields {r r' : Rec} {order : List Bytes} {sd : SpanData}
    (h : r.makeSpanData order = .ok (r', sd)) :
    sd.ctx = r.data.ctx ∧ sd.startTime = r.data.startTime ∧ sd.status = r.data.status ∧
    sd.parentSpanID = r.data.parentSpanID ∧ sd.name = r.data.name ∧ sd.kind = r.data.kind ∧
    sd.childSpanCount = r.data.childSpanCount ∧ sd.hasRemoteParent = r.data.hasRemoteParent := by
  unfold Rec.makeSpanData at h
  split at h
  · simp at h
  · simp only [Res.ok.injEq, Prod.mk.injEq] at h
    obtain ⟨_, h⟩ := h
    subst h
    split <;> split <;> split <;> split <;> exact ⟨rfl, rfl, rfl, rfl, rfl, rfl, rfl, rfl⟩

theorem view_get {st : State} {i : Nat} {s : Span} (h : st.spans[i]? = some s) : (views st)[i]? = some s.view := by
  simp [views, h]

theorem Good.start {st st' : State} (h : Good st) {name : Bytes} {hasParent : Bool} {parent : SpanContext}
    {remote : Bool} {o : StartOptions} {tid sid : Bytes}
    (hs : startSpanInternal st name hasParent parent remote o tid sid = .ok st') : Good st' := by
  unfold startSpanInternal at hs
  split at hs
  · simp at hs
  · split at hs
    · simp at hs
    · simp only at hs
      split at hs
      · cases hs
        unfold Good views
        simp only [List.map_append, List.map_cons, List.map_nil]
        exact SInv.push h rfl (by simp [Span.view]) (by simp [Span.view])
      · split at hs
        · cases hs
          unfold Good views
          simp only [List.map_append, List.map_cons, List.map_nil]
          have := SInv.pushStore h (v := Span.view ⟨(startContext name hasParent parent remote o
            (st.cfg.sampler.getD neverSample) tid sid).1, some ⟨newSpanData (startContext name hasParent parent remote o
            (st.cfg.sampler.getD neverSample) tid sid).1 st.now o.spanKind name remote hasParent parent,
              LruMap.new st.cfg.maxAttributes, EvictedQueue.new st.cfg.maxAnnotations,
              EvictedQueue.new st.cfg.maxMessageEvents, EvictedQueue.new st.cfg.maxLinks⟩, some name, false⟩)
            (name := name) rfl rfl rfl (by simp [Span.view, newSpanData]) (by simp [Span.view, newSpanData])
          simp only [views, List.length_map] at this
          exact this
        · cases hs
          unfold Good views
          simp only [List.map_append, List.map_cons, List.map_nil]
          exact SInv.push h rfl (by simp [Span.view, newSpanData]) (by simp [Span.view, newSpanData])

/-- What is stored and exported when a span ends. -/
def finalData (sd : SpanData) (now : Int) : SpanData := { sd with endTime := monotonicEndTime sd.startTime now }

theorem Good.endFacts {st : State} (h : Good st) {i : Nat} {s : Span} {r : Rec} (hs : st.spans[i]? = some s)
    (hd : s.data = some r) {order : List Bytes} {r' : Rec} {sd : SpanData} (hm : r.makeSpanData order = .ok (r', sd)) :
    (finalData sd st.now).startTime ≤ (finalData sd st.now).endTime ∧ (finalData sd st.now).ctx = s.ctx := by
  obtain ⟨h1, h2, _⟩ := makeSpanData_fields hm
  have ht := SInv.time h i s.view r.data.startTime (view_get hs) (by simp [Span.view, hd])
  have hc := SInv.ctx h i s.view r.data.ctx (view_get hs) (by simp [Span.view, hd])
  refine ⟨?_, ?_⟩
  · simp only [finalData, monotonicEndTime, h2]; omega
  · simp only [finalData, h1]; exact hc

theorem view_ended {s : Span} {r r' : Rec} (hd : s.data = some r) (e : r'.data = r.data) :
    Span.view { s with data := some r', ended := true } = { s.view with ended := true } := by
  simp [Span.view, hd, e]

theorem map_set_view (l : List Span) (i : Nat) (s : Span) :
    (l.set i s).map Span.view = (l.map Span.view).set i s.view := by
  rw [List.map_set]

theorem Good.ended {st st' : State} (h : Good st) {i : Nat} {s : Span} {r : Rec} (hs : st.spans[i]? = some s)
    (hd : s.data = some r) {order : List Bytes} (hE : Ended st i s r order st') : Good st' := by
  cases hE with
  | quiet h1 h2 =>
    unfold Good views
    simp only
    rw [map_set_view]
    exact SInv.endNone h (view_get hs) h1
  | full r' sd hm stores hst =>
    obtain ⟨f1, f2⟩ := h.endFacts hs hd hm
    unfold Good views
    simp only
    rw [map_set_view, view_ended hd (makeSpanData_ok hm).1]
    rcases hst with ⟨h1, rfl⟩ | ⟨name, store, store', h1, h2, h3, rfl⟩
    · exact SInv.endNone h (view_get hs) h1
    · obtain ⟨s', h4, h5⟩ := SInv.endStore h (view_get hs) h1 h2 f1 f2
      rw [show store.finished i (finalData sd st.now) = .ok store' from h3] at h4
      cases h4
      exact h5

theorem Good.step {st st' : State} (h : Good st) {op : Op} (hs : Trace.step st op = .ok st') : Good st' := by
  have mod : ∀ (s : Option Nat) (f : Rec → Res Rec), KeepsData f →
      (onSpan st s fun i => modifyRec st i f) = .ok st' → Good st' := by
    intro s f hf hm
    cases s with
    | none => cases hm; exact h
    | some i =>
      obtain ⟨e1, e2, e3⟩ := modifyRec_views hf hm
      unfold Good; rw [e1, e2, e3]; exact h
  cases op with
  | start p name opts tid sid =>
    cases p with
    | none => exact h.start hs
    | some p =>
      simp only [Trace.step, startSpan] at hs
      cases hp : st.spans[p]? with
      | none => rw [hp] at hs; simp at hs
      | some ps =>
        rw [hp] at hs
        simp only at hs
        obtain ⟨st1, hm, hs⟩ := Res_bind_ok hs
        obtain ⟨e1, e2, e3⟩ := modifyRec_views keeps_addChild hm
        have h1 : Good st1 := by unfold Good; rw [e1, e2, e3]; exact h
        exact h1.start hs
  | startRemote sc name opts tid sid => exact h.start hs
  | setName s name => exact mod s _ (keeps_setName _) hs
  | setStatus s x => exact mod s _ (keeps_setStatus _) hs
  | addAttributes s l => exact mod s _ (keeps_addAttributes _) hs
  | annotate s l m => exact mod s _ (keeps_annotate _ _ _) hs
  | addMessageEvent s t a b c => exact mod s _ (keeps_addMessageEvent _ _ _ _ _) hs
  | addLink s l => exact mod s _ (keeps_addLink _) hs
  | endSpan s order =>
    cases s with
    | none => cases hs; exact h
    | some i =>
      obtain ⟨s, hi, ⟨rfl, _⟩ | ⟨r, hd, he, hE⟩⟩ := endSpan_cases hs
      · exact h
      · exact h.ended hi hd hE
  | registerExporter e => cases hs; exact h
  | unregisterExporter e => cases hs; exact h
  | applyConfig c => cases hs; exact h
  | configure bcs =>
    obtain ⟨stores, h1, hs⟩ := Res_bind_ok hs
    cases hs
    obtain ⟨stores', h2, h3⟩ := SInv.configure h bcs
    rw [h1] at h2; cases h2
    exact h3
  | reportActive name orders =>
    obtain ⟨⟨st1, out⟩, h1, hs⟩ := Res_bind_ok hs
    cases hs
    unfold reportActive at h1
    split at h1
    · cases h1; exact h
    · obtain ⟨_, _, k3⟩ := reportActiveLoop_spans h1
      have := reportActiveLoop_views h1
      unfold Good
      rw [this, k3]; exact h
  | enableStore => cases hs; exact h
  | tick d => cases hs; exact h.later d

theorem good_run {t : Int} {ops : List Op} {st : State} (h : run (State.init t) ops = .ok st) : Good st := by
  induction ops using List.reverseRecOn generalizing st with
  | nil => cases h; exact good_init t
  | append_singleton ops op ih =>
    obtain ⟨mid, h1, h2⟩ := run_snoc_ok h
    exact (ih h1).step h2

/-! ## No panics -/

theorem makeSpanData_not_panic (r : Rec) (order : List Bytes) : r.makeSpanData order ≠ .panic := by
  unfold Rec.makeSpanData
  split <;> simp

theorem bind_not_panic {α β : Type} {x : Res α} {f : α → Res β} (h1 : x ≠ .panic)
    (h2 : ∀ a, x = .ok a → f a ≠ .panic) : x.bind f ≠ .panic := by
  cases x with
  | ok a => exact h2 a rfl
  | err => simp [Res.bind]
  | panic => exact absurd rfl h1

theorem modifyRec_not_panic {st : State} {i : Nat} {f : Rec → Res Rec}
    (hf : ∀ s r, st.spans[i]? = some s → s.data = some r → f r ≠ .panic) : modifyRec st i f ≠ .panic := by
  unfold modifyRec
  cases hs : st.spans[i]? with
  | none => simp
  | some s =>
    simp only
    cases hd : s.data with
    | none => simp
    | some r => exact bind_not_panic (hf s r hs hd) (fun _ _ => by simp)

theorem startSpanInternal_not_panic {st : State} (h : Usable st.cfg) (name : Bytes) (hasParent : Bool)
    (parent : SpanContext) (remote : Bool) (o : StartOptions) (tid sid : Bytes) :
    startSpanInternal st name hasParent parent remote o tid sid ≠ .panic := by
  unfold startSpanInternal
  have h1 := h.idGenerator
  have h2 := h.sampler
  rw [if_neg (by simp [Option.isSome_iff_ne_none.mp h1]), if_neg (by simp [Option.isSome_iff_ne_none.mp h2])]
  simp only
  split
  · simp
  · split <;> simp

theorem reportActiveLoop_not_panic {st : State} {is : List Nat} {orders : List (List Bytes)}
    (h : ∀ i ∈ is, ∃ v, (views st)[i]? = some v ∧ v.start.isSome) : reportActiveLoop st is orders ≠ .panic := by
  induction is generalizing st orders with
  | nil => simp [reportActiveLoop]
  | cons i is ih =>
    cases orders with
    | nil => simp [reportActiveLoop]
    | cons order orders =>
      simp only [reportActiveLoop]
      obtain ⟨v, h1, h2⟩ := h i (by simp)
      simp only [views, List.getElem?_map] at h1
      cases hs : st.spans[i]? with
      | none => rw [hs] at h1; simp at h1
      | some s =>
        rw [hs] at h1
        simp at h1
        subst h1
        simp only
        cases hd : s.data with
        | none => simp [Span.view, hd] at h2
        | some r =>
          simp only
          refine bind_not_panic (makeSpanData_not_panic _ _) ?_
          rintro ⟨r', sd⟩ hm
          simp only
          refine bind_not_panic (ih ?_) (fun _ _ => by simp)
          intro j hj
          obtain ⟨w, hw, hw2⟩ := h j (by simp [hj])
          refine ⟨w, ?_, hw2⟩
          rw [show views { st with spans := st.spans.set i { s with data := some r' } } = views st from
            views_set hs (by simp [Span.view, hd, (makeSpanData_ok hm).1])]
          exact hw

theorem step_not_panic {t : Int} {ops : List Op} {st : State} (h : HInv t ops st) (hg : Good st) (op : Op) :
    step st op ≠ .panic := by
  have mod : ∀ (s : Option Nat) (f : Rec → Res Rec), (∀ i r, RecInv r (adds i t ops) → f r ≠ .panic) →
      (onSpan st s fun i => modifyRec st i f) ≠ .panic := by
    intro s f hf
    cases s with
    | none => simp [onSpan]
    | some i => exact modifyRec_not_panic (fun s r hs hd => hf i r (h.recs i s r hs hd))
  cases op with
  | start p name opts tid sid =>
    cases p with
    | none => exact startSpanInternal_not_panic h.cfg _ _ _ _ _ _ _
    | some p =>
      simp only [step, startSpan]
      cases hp : st.spans[p]? with
      | none => simp
      | some ps =>
        simp only
        refine bind_not_panic (modifyRec_not_panic (fun _ _ _ _ => by simp [Rec.addChild])) ?_
        intro st1 hm
        refine startSpanInternal_not_panic ?_ _ _ _ _ _ _ _
        rw [(modifyRec_ok keeps_addChild hm).2.2]
        exact h.cfg
  | startRemote sc name opts tid sid => exact startSpanInternal_not_panic h.cfg _ _ _ _ _ _ _
  | setName s name => exact mod s _ (fun _ _ _ => by simp [Rec.setName])
  | setStatus s x => exact mod s _ (fun _ _ _ => by simp [Rec.setStatus])
  | addAttributes s l => exact mod s _ (fun _ _ _ => by simp [Rec.addAttributes])
  | annotate s l m =>
    refine mod s _ (fun i r hr => bind_not_panic ?_ (fun _ _ => by simp))
    obtain ⟨q, hq, _⟩ := hr.anns.add ⟨st.now, m, attrMap l⟩
    rw [hq]; simp
  | addMessageEvent s ty a b c =>
    refine mod s _ (fun i r hr => bind_not_panic ?_ (fun _ _ => by simp))
    obtain ⟨q, hq, _⟩ := hr.msgs.add ⟨st.now, ty, a, b, c⟩
    rw [hq]; simp
  | addLink s l =>
    refine mod s _ (fun i r hr => bind_not_panic ?_ (fun _ _ => by simp))
    obtain ⟨q, hq, _⟩ := hr.links.add l
    rw [hq]; simp
  | endSpan s order =>
    cases s with
    | none => simp [step, onSpan]
    | some i =>
      simp only [step, onSpan, endSpan]
      cases hs : st.spans[i]? with
      | none => simp
      | some s =>
        simp only
        cases hd : s.data with
        | none => simp
        | some r =>
          simp only
          split
          · simp
          · unfold endBody
            simp only
            split
            · refine bind_not_panic (makeSpanData_not_panic _ _) ?_
              rintro ⟨r', sd⟩ hm
              simp only
              cases hst : s.store with
              | none => simp
              | some name =>
                simp only
                have hh := (SInv.has hg i s.view name (view_get hs) hst).1
                cases hgs : GoMap.get st.stores name with
                | none => rw [hgs] at hh; cases hh
                | some store =>
                  simp only
                  obtain ⟨f1, f2⟩ := hg.endFacts hs hd hm
                  obtain ⟨s', h4, _⟩ := SInv.endStore hg (view_get hs) hst hgs f1 f2
                  rw [show store.finished i { sd with endTime := monotonicEndTime sd.startTime st.now } = .ok s' from h4]
                  simp [Res.bind]
            · simp
  | registerExporter e => simp [step]
  | unregisterExporter e => simp [step]
  | applyConfig c => simp [step]
  | configure bcs =>
    obtain ⟨stores', h2, h3⟩ := SInv.configure hg bcs
    simp [step, h2, Res.bind]
  | reportActive name orders =>
    simp only [step]
    refine bind_not_panic ?_ (fun _ _ => by simp)
    unfold reportActive
    cases hgs : GoMap.get st.stores name with
    | none => simp
    | some s =>
      simp only
      refine reportActiveLoop_not_panic ?_
      intro i hi
      obtain ⟨v, h1, h2, _⟩ := ((SInv.ok hg name s hgs).active i).mp hi
      exact ⟨v, h1, (SInv.has hg i v name h1 h2).2⟩
  | enableStore => simp [step]
  | tick d => simp [step]

theorem run_not_panic_from {t : Int} {ops0 : List Op} {st : State} (h : HInv t ops0 st) (hg : Good st) (ops : List Op) :
    run st ops ≠ .panic := by
  induction ops generalizing st ops0 with
  | nil => simp [run]
  | cons op ops ih =>
    exact bind_not_panic (step_not_panic h hg op) (fun st1 h1 => ih (h.step h1) (hg.step h1))

end Verif.Trace
