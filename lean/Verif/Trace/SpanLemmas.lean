import Verif.Trace.Span
import Mathlib.Tactic.ByContra

/-! # Facts about the span machine used by several property files -/

namespace Verif.Trace
open Verif

theorem Res_bind_ok {α β : Type} {x : Res α} {f : α → Res β} {b : β} (h : x.bind f = .ok b) :
    ∃ a, x = .ok a ∧ f a = .ok b := by
  cases x with
  | ok a => exact ⟨a, rfl, h⟩
  | err => simp [Res.bind] at h
  | panic => simp [Res.bind] at h

/-- What cannot change about a recording span. -/
structure Fixed (r r' : Rec) : Prop where
  parent : r'.data.parentSpanID = r.data.parentSpanID
  ctx : r'.data.ctx = r.data.ctx
  start : r'.data.startTime = r.data.startTime
  kind : r'.data.kind = r.data.kind
  remote : r'.data.hasRemoteParent = r.data.hasRemoteParent
  capA : r'.annotations.capacity = r.annotations.capacity
  capM : r'.messageEvents.capacity = r.messageEvents.capacity
  capL : r'.links.capacity = r.links.capacity
  capT : r'.attrs.maxEntries = r.attrs.maxEntries
  raw : r'.data = { r.data with name := r'.data.name, status := r'.data.status, childSpanCount := r'.data.childSpanCount }

theorem Fixed.refl (r : Rec) : Fixed r r := ⟨rfl, rfl, rfl, rfl, rfl, rfl, rfl, rfl, rfl, rfl⟩

theorem Fixed.trans {a b c : Rec} (h : Fixed a b) (h' : Fixed b c) : Fixed a c :=
  ⟨h'.parent.trans h.parent, h'.ctx.trans h.ctx, h'.start.trans h.start, h'.kind.trans h.kind,
    h'.remote.trans h.remote, h'.capA.trans h.capA, h'.capM.trans h.capM, h'.capL.trans h.capL, h'.capT.trans h.capT, by rw [h'.raw, h.raw]⟩

/-- What an operation cannot change about a span. -/
def Same (s s' : Span) : Prop :=
  s'.ctx = s.ctx ∧ (s'.data.isSome = s.data.isSome) ∧ (s'.store = s.store) ∧
    (∀ r r', s.data = some r → s'.data = some r' → Fixed r r')

theorem Same.refl (s : Span) : Same s s :=
  ⟨rfl, rfl, rfl, fun r r' h h' => by rw [h] at h'; cases h'; exact Fixed.refl _⟩

theorem Same.trans {a b c : Span} (h : Same a b) (h' : Same b c) : Same a c := by
  refine ⟨h'.1.trans h.1, h'.2.1.trans h.2.1, h'.2.2.1.trans h.2.2.1, ?_⟩
  intro r r' hr hr'
  have : b.data.isSome := by rw [h.2.1, hr]; rfl
  obtain ⟨rb, hb⟩ := Option.isSome_iff_exists.mp this
  exact (h.2.2.2 r rb hr hb).trans (h'.2.2.2 rb r' hb hr')

/-- The spans of `l` are still there, unchanged in what cannot change. -/
def Keeps (l l' : List Span) : Prop := ∀ (i : Nat) (s : Span), l[i]? = some s → ∃ s', l'[i]? = some s' ∧ Same s s'

theorem Keeps.refl (l : List Span) : Keeps l l := fun _ s h => ⟨s, h, Same.refl s⟩

theorem Keeps.trans {a b c : List Span} (h : Keeps a b) (h' : Keeps b c) : Keeps a c := by
  intro i s hs
  obtain ⟨s1, h1, e1⟩ := h i s hs
  obtain ⟨s2, h2, e2⟩ := h' i s1 h1
  exact ⟨s2, h2, e1.trans e2⟩

theorem Keeps.snoc (l : List Span) (x : Span) : Keeps l (l ++ [x]) := by
  intro i s h
  refine ⟨s, ?_, Same.refl s⟩
  have : i < l.length := by
    by_contra hc
    rw [List.getElem?_eq_none (by omega)] at h; cases h
  rw [List.getElem?_append_left this, h]

theorem Keeps.set {l : List Span} {i : Nat} {s s' : Span} (h : l[i]? = some s) (e : Same s s') :
    Keeps l (l.set i s') := by
  intro j t ht
  by_cases hj : i = j
  · subst hj
    rw [h] at ht; cases ht
    refine ⟨s', ?_, e⟩
    rw [List.getElem?_set_self]
    by_contra hc
    rw [List.getElem?_eq_none (by omega)] at h; cases h
  · exact ⟨t, by rw [List.getElem?_set_ne hj, ht], Same.refl t⟩

/-- A mutator that leaves the fixed fields alone. -/
def KeepsData (f : Rec → Res Rec) : Prop := ∀ r r', f r = .ok r' → Fixed r r'

theorem modifyRec_ok {st st' : State} {i : Nat} {f : Rec → Res Rec} (hf : KeepsData f)
    (h : modifyRec st i f = .ok st') :
    Keeps st.spans st'.spans ∧ st'.spans.length = st.spans.length ∧
      st' = { st with spans := st'.spans } := by
  unfold modifyRec at h
  cases hs : st.spans[i]? with
  | none => rw [hs] at h; simp at h
  | some s =>
    rw [hs] at h
    simp only at h
    cases hd : s.data with
    | none => rw [hd] at h; cases h; exact ⟨Keeps.refl _, rfl, rfl⟩
    | some r =>
      rw [hd] at h
      simp only at h
      obtain ⟨r', hr', h2⟩ := Res_bind_ok h
      cases h2
      refine ⟨Keeps.set hs ⟨rfl, by simp [hd], rfl, ?_⟩, by simp, rfl⟩
      intro a b ha hb
      rw [hd] at ha; cases ha; cases hb
      exact hf _ _ hr'

theorem EvictedQueue.add_capacity {α : Type} {q q' : EvictedQueue α} {v : α} (h : q.add v = .ok q') :
    q'.capacity = q.capacity := by
  unfold EvictedQueue.add at h
  split at h
  · split at h
    · simp at h
    · cases h; rfl
  · cases h; rfl

theorem LruMap.add_max {V : Type} (m : LruMap V) (k : Bytes) (v : V) : (m.add k v).maxEntries = m.maxEntries := by
  unfold LruMap.add LruMap.cacheAdd
  simp only
  split
  · rfl
  · split
    · split <;> rfl
    · rfl

theorem foldl_add_max (l : List Attribute) (m : LruMap AttrVal) :
    (l.foldl (fun m a => m.add a.key a.value) m).maxEntries = m.maxEntries := by
  induction l generalizing m with
  | nil => rfl
  | cons a l ih => rw [List.foldl_cons, ih, LruMap.add_max]

theorem LruMap.get_max {V : Type} (m : LruMap V) (k : Bytes) : (m.get k).1.maxEntries = m.maxEntries := by
  unfold LruMap.get
  split <;> rfl

theorem LruMap.readLoop_max {V : Type} (m : LruMap V) (acc : GoMap Bytes V) (l : List Bytes) :
    (m.readLoop acc l).1.maxEntries = m.maxEntries := by
  induction l generalizing m acc with
  | nil => rfl
  | cons k l ih =>
    simp only [LruMap.readLoop]
    have := LruMap.get_max m k
    split
    · next h => rw [ih]; rw [h] at this; exact this
    · next h => rw [ih]; rw [h] at this; exact this

theorem keeps_addChild : KeepsData Rec.addChild := by intro r r' h; cases h; exact ⟨rfl, rfl, rfl, rfl, rfl, rfl, rfl, rfl, rfl, rfl⟩
theorem keeps_setName (n) : KeepsData (Rec.setName n) := by intro r r' h; cases h; exact ⟨rfl, rfl, rfl, rfl, rfl, rfl, rfl, rfl, rfl, rfl⟩
theorem keeps_setStatus (n) : KeepsData (Rec.setStatus n) := by intro r r' h; cases h; exact ⟨rfl, rfl, rfl, rfl, rfl, rfl, rfl, rfl, rfl, rfl⟩
theorem keeps_addAttributes (n) : KeepsData (Rec.addAttributes n) := by
  intro r r' h; cases h; exact ⟨rfl, rfl, rfl, rfl, rfl, rfl, rfl, rfl, foldl_add_max _ _, rfl⟩
theorem keeps_annotate (n l m) : KeepsData (Rec.annotate n l m) := by
  intro r r' h; obtain ⟨q, hq, h⟩ := Res_bind_ok h; cases h
  exact ⟨rfl, rfl, rfl, rfl, rfl, EvictedQueue.add_capacity hq, rfl, rfl, rfl, rfl⟩
theorem keeps_addMessageEvent (n t a b c) : KeepsData (Rec.addMessageEvent n t a b c) := by
  intro r r' h; obtain ⟨q, hq, h⟩ := Res_bind_ok h; cases h
  exact ⟨rfl, rfl, rfl, rfl, rfl, rfl, EvictedQueue.add_capacity hq, rfl, rfl, rfl⟩
theorem keeps_addLink (l) : KeepsData (Rec.addLink l) := by
  intro r r' h; obtain ⟨q, hq, h⟩ := Res_bind_ok h; cases h
  exact ⟨rfl, rfl, rfl, rfl, rfl, rfl, rfl, EvictedQueue.add_capacity hq, rfl, rfl⟩

theorem makeSpanData_ok {r r' : Rec} {order : List Bytes} {sd : SpanData}
    (h : r.makeSpanData order = .ok (r', sd)) : r'.data = r.data ∧
      r'.annotations = r.annotations ∧ r'.messageEvents = r.messageEvents ∧ r'.links = r.links ∧
      order.Perm (GoMap.keys r.attrs.cacheKeys) := by
  unfold Rec.makeSpanData at h
  split at h
  · simp at h
  · next hp =>
    simp only [Res.ok.injEq, Prod.mk.injEq] at h
    obtain ⟨h1, _⟩ := h
    subst h1
    refine ⟨?_, ?_, ?_, ?_, List.isPerm_iff.mp (by simpa using hp)⟩ <;> split <;> rfl

theorem makeSpanData_fixed {r r' : Rec} {order : List Bytes} {sd : SpanData}
    (h : r.makeSpanData order = .ok (r', sd)) : Fixed r r' := by
  obtain ⟨h1, h2, h3, h4, _⟩ := makeSpanData_ok h
  refine ⟨by rw [h1], by rw [h1], by rw [h1], by rw [h1], by rw [h1], by rw [h2], by rw [h3], by rw [h4], ?_, by rw [h1]⟩
  unfold Rec.makeSpanData at h
  split at h
  · simp at h
  · simp only [Res.ok.injEq, Prod.mk.injEq] at h
    obtain ⟨h, _⟩ := h
    subst h
    split
    · exact LruMap.readLoop_max _ _ _
    · rfl

theorem same_read {s : Span} {r r' : Rec} (hd : s.data = some r) (e : Fixed r r') (b : Bool) :
    Same s { s with data := some r', ended := b } := by
  refine ⟨rfl, by simp [hd], rfl, ?_⟩
  intro x y hx hy
  rw [hd] at hx; cases hx; cases hy
  exact e

theorem endSpan_spans {st st' : State} {i : Nat} {order : List Bytes} (h : endSpan st i order = .ok st') :
    Keeps st.spans st'.spans ∧ st'.spans.length = st.spans.length := by
  unfold endSpan at h
  cases hs : st.spans[i]? with
  | none => rw [hs] at h; simp at h
  | some s =>
    rw [hs] at h
    simp only at h
    cases hd : s.data with
    | none => rw [hd] at h; cases h; exact ⟨Keeps.refl _, rfl⟩
    | some r =>
      rw [hd] at h
      simp only at h
      split at h
      · cases h; exact ⟨Keeps.refl _, rfl⟩
      · unfold endBody at h
        simp only at h
        split at h
        · obtain ⟨⟨r', sd⟩, hm, h⟩ := Res_bind_ok h
          simp only at h
          have hk : Keeps st.spans (st.spans.set i { s with data := some r', ended := true }) :=
            Keeps.set hs (same_read hd (makeSpanData_fixed hm) true)
          cases hst : s.store with
          | none =>
            rw [hst] at h
            simp only [Res.ok.injEq] at h
            subst h
            split <;> (rw [hst] at hk; exact ⟨hk, by simp⟩)
          | some name =>
            rw [hst] at h
            simp only at h
            cases hg : GoMap.get st.stores name with
            | none => rw [hg] at h; simp at h
            | some store =>
              rw [hg] at h
              simp only at h
              obtain ⟨store', _, h⟩ := Res_bind_ok h
              cases h
              split <;> (rw [hst] at hk; exact ⟨hk, by simp⟩)
        · cases h
          exact ⟨Keeps.set hs (by have := same_read hd (r' := r) (Fixed.refl _) true; rwa [← hd] at this), by simp⟩

theorem reportActiveLoop_spans {st st' : State} {is : List Nat} {orders : List (List Bytes)} {out : List SpanData}
    (h : reportActiveLoop st is orders = .ok (st', out)) :
    Keeps st.spans st'.spans ∧ st'.spans.length = st.spans.length ∧ st' = { st with spans := st'.spans } := by
  induction is generalizing st orders out with
  | nil => cases h; exact ⟨Keeps.refl _, rfl, rfl⟩
  | cons i is ih =>
    cases orders with
    | nil => simp [reportActiveLoop] at h
    | cons order orders =>
      simp only [reportActiveLoop] at h
      cases hs : st.spans[i]? with
      | none => rw [hs] at h; simp at h
      | some s =>
        rw [hs] at h
        simp only at h
        cases hd : s.data with
        | none => rw [hd] at h; simp at h
        | some r =>
          rw [hd] at h
          simp only at h
          obtain ⟨⟨r', sd⟩, hm, h⟩ := Res_bind_ok h
          simp only at h
          obtain ⟨⟨st1, out1⟩, h1, h⟩ := Res_bind_ok h
          cases h
          obtain ⟨k1, k2, k3⟩ := ih h1
          refine ⟨Keeps.trans (Keeps.set hs (same_read hd (makeSpanData_fixed hm) s.ended)) k1, by simpa using k2, ?_⟩
          rw [k3]

/-- The context `startSpanInternal` gives. -/
def newCtx (st : State) (name : Bytes) (hasParent : Bool) (parent : SpanContext) (remote : Bool)
    (o : StartOptions) (tid sid : Bytes) : SpanContext :=
  (startContext name hasParent parent remote o (st.cfg.sampler.getD neverSample) tid sid).1

theorem startSpanInternal_ok {st st' : State} {name : Bytes} {hasParent : Bool} {parent : SpanContext}
    {remote : Bool} {o : StartOptions} {tid sid : Bytes}
    (h : startSpanInternal st name hasParent parent remote o tid sid = .ok st') :
    ∃ s, st'.spans = st.spans ++ [s] ∧ s.ctx = newCtx st name hasParent parent remote o tid sid ∧
      s.ended = false ∧ (s.data.isSome = (st.localStore || s.ctx.isSampled)) ∧
      (s.store = if st.localStore then some name else none) ∧
      (∀ r, s.data = some r → r = ⟨newSpanData s.ctx st.now o.spanKind name remote hasParent parent,
        LruMap.new st.cfg.maxAttributes, EvictedQueue.new st.cfg.maxAnnotations,
        EvictedQueue.new st.cfg.maxMessageEvents, EvictedQueue.new st.cfg.maxLinks⟩) := by
  unfold startSpanInternal at h
  split at h
  · simp at h
  · split at h
    · simp at h
    · simp only at h
      cases hl : st.localStore <;>
        cases hs : (newCtx st name hasParent parent remote o tid sid).isSampled <;>
        (have hs' := hs; unfold newCtx at hs') <;>
        simp only [hl, hs', Bool.not_false, Bool.not_true, Bool.and_self, Bool.and_false, Bool.and_true, if_true,
          Bool.false_eq_true, if_false, Res.ok.injEq] at h <;> subst h
      · exact ⟨_, rfl, rfl, rfl, by simp [hs'], rfl, by simp⟩
      · exact ⟨_, rfl, rfl, rfl, by simp [hs'], rfl, fun r hr => by simpa using hr.symm⟩
      · exact ⟨_, rfl, rfl, rfl, by simp, rfl, fun r hr => by simpa using hr.symm⟩
      · exact ⟨_, rfl, rfl, rfl, by simp, rfl, fun r hr => by simpa using hr.symm⟩

end Verif.Trace
