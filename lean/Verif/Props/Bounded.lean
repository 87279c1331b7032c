import Verif.Trace.ExportInv

/-!
# C110: what is kept does not grow with the number of calls

The span stores: their memory is bounded by the names and status codes in use and the configured sizes, whatever the number of
spans; a span holds no more than the limits allow. That a name once used is kept for ever is a theorem too.
-/

namespace Verif.Props.Bounded
open Verif Verif.Trace

/-! ## Specification -/

/-- Upper limits: attributes, annotations, message events and links of a span; size of a bucket; the names and the status codes other
than 0 that a program uses. -/
structure Limits where
  attributes : Int
  annotations : Int
  messageEvents : Int
  links : Int
  bucket : Nat
  names : List Bytes
  codes : List Int

/-- The defaults are within the limits. -/
structure Limits.Default (B : Limits) : Prop where
  attributes : 32 ≤ B.attributes
  annotations : 32 ≤ B.annotations
  messageEvents : 128 ≤ B.messageEvents
  links : 32 ≤ B.links
  bucket : 10 ≤ B.bucket

/-- A call within the limits. -/
def Fits (B : Limits) : Op → Prop
  | .start _ name _ _ _ => name ∈ B.names
  | .startRemote _ name _ _ _ => name ∈ B.names
  | .setStatus _ s => s.code = 0 ∨ s.code ∈ B.codes
  | .applyConfig c => c.maxAttributes ≤ B.attributes ∧ c.maxAnnotations ≤ B.annotations ∧ c.maxMessageEvents ≤ B.messageEvents ∧
      c.maxLinks ≤ B.links
  | .configure bcs => ∀ bc ∈ bcs, bc.name ∈ B.names ∧ (bc.succeeded ≤ B.bucket ∨ 100000 ≤ B.bucket) ∧
      (bc.errors ≤ B.bucket ∨ 100000 ≤ B.bucket)
  | _ => True

/-- The data of a span are within the limits. -/
structure Within (B : Limits) (sd : SpanData) : Prop where
  attributes : (sd.attributes.length : Int) ≤ B.attributes
  annotations : (sd.annotations.length : Int) ≤ B.annotations
  messageEvents : (sd.messageEvents.length : Int) ≤ B.messageEvents
  links : (sd.links.length : Int) ≤ B.links

/-- The places for finished spans in the span stores, used or not: they are allocated when a bucket is made. -/
def slots (st : State) : Nat :=
  (st.stores.map fun p => (p.2.latency.map fun b => b.buffer.length).sum + (p.2.errors.map fun e => e.2.buffer.length).sum).sum

/-- A finished span that is kept. -/
def Held (st : State) (sd : SpanData) : Prop :=
  ∃ p ∈ st.stores, (∃ b ∈ p.2.latency, some sd ∈ b.buffer) ∨ ∃ e ∈ p.2.errors, some sd ∈ e.2.buffer

/-! ## Invariant -/

structure RecSmall (B : Limits) (r : Rec) : Prop where
  attributes : r.attrs.maxEntries ≤ B.attributes
  annotations : r.annotations.capacity ≤ B.annotations
  messageEvents : r.messageEvents.capacity ≤ B.messageEvents
  links : r.links.capacity ≤ B.links
  data : Within B r.data
  code : r.data.status.code = 0 ∨ r.data.status.code ∈ B.codes

def BucketSmall (B : Limits) (b : Bucket SpanData) : Prop :=
  b.buffer.length ≤ B.bucket ∧ ∀ sd, some sd ∈ b.buffer → Within B sd

structure StoreSmall (B : Limits) (s : Store) : Prop where
  count : s.latency.length = 9
  latency : ∀ b ∈ s.latency, BucketSmall B b
  errors : ∀ e ∈ s.errors, e.1 ∈ B.codes ∧ BucketSmall B e.2
  wf : GoMap.WF s.errors
  maxErr : s.maxErr ≤ B.bucket

structure Kept (B : Limits) (st : State) : Prop where
  stores : ∀ p ∈ st.stores, p.1 ∈ B.names ∧ StoreSmall B p.2
  wf : GoMap.WF st.stores
  spans : ∀ (i : Nat) (s : Span), st.spans[i]? = some s → ∀ r, s.data = some r → RecSmall B r
  exported : ∀ x ∈ st.exported, Within B x.2.2
  attributes : st.cfg.maxAttributes ≤ B.attributes
  annotations : st.cfg.maxAnnotations ≤ B.annotations
  messageEvents : st.cfg.maxMessageEvents ≤ B.messageEvents
  links : st.cfg.maxLinks ≤ B.links

theorem kept_init {B : Limits} (h : B.Default) (t : Int) : Kept B (State.init t) := by
  constructor <;> simp [State.init, GoMap.WF, Config.initial, h.attributes, h.annotations, h.messageEvents, h.links]

theorem RecSmall.fixed {B : Limits} {r r' : Rec} (h : RecSmall B r) (hf : Fixed r r')
    (hc : r'.data.status.code = 0 ∨ r'.data.status.code ∈ B.codes) : RecSmall B r' := by
  refine ⟨by rw [hf.capT]; exact h.attributes, by rw [hf.capA]; exact h.annotations, by rw [hf.capM]; exact h.messageEvents,
    by rw [hf.capL]; exact h.links, ?_, hc⟩
  rw [hf.raw]
  exact ⟨h.data.attributes, h.data.annotations, h.data.messageEvents, h.data.links⟩

/-- Replacing a span. -/
theorem Kept.set {B : Limits} {st : State} (h : Kept B st) {i : Nat} {s' : Span} (hs : ∀ r, s'.data = some r → RecSmall B r) :
    Kept B { st with spans := st.spans.set i s' } := by
  refine ⟨h.stores, h.wf, ?_, h.exported, h.attributes, h.annotations, h.messageEvents, h.links⟩
  intro j x hx
  simp only [List.getElem?_set] at hx
  split at hx
  · split at hx
    · cases hx; exact hs
    · cases hx
  · exact h.spans j x hx

theorem Kept.modify {B : Limits} {st st' : State} (h : Kept B st) {i : Nat} {f : Rec → Res Rec} (hf : KeepsData f)
    (hc : ∀ r r', f r = .ok r' → RecSmall B r → r'.data.status.code = 0 ∨ r'.data.status.code ∈ B.codes)
    (hs : modifyRec st i f = .ok st') : Kept B st' := by
  obtain ⟨s, h1, ⟨_, rfl⟩ | ⟨r, r', h2, h3, rfl⟩⟩ := modifyRec_cases hs
  · exact h
  · refine h.set fun x hx => ?_
    cases hx
    have := h.spans i s h1 r h2
    exact this.fixed (hf r r' h3) (hc r r' h3 this)

theorem Kept.onSpan {B : Limits} {st st' : State} (h : Kept B st) {s : Option Nat} {f : Rec → Res Rec} (hf : KeepsData f)
    (hc : ∀ r r', f r = .ok r' → RecSmall B r → r'.data.status.code = 0 ∨ r'.data.status.code ∈ B.codes)
    (hs : (onSpan st s fun i => modifyRec st i f) = .ok st') : Kept B st' := by
  cases s with
  | none => cases hs; exact h
  | some i => exact h.modify hf hc hs

theorem makeBucket_small {B : Limits} {n : Nat} (h : n ≤ B.bucket) : BucketSmall B (makeBucket n) := by
  refine ⟨by simpa [makeBucket] using h, ?_⟩
  intro sd hsd
  simp [makeBucket] at hsd

theorem new_small {B : Limits} {l e : Nat} (hl : l ≤ B.bucket) (he : e ≤ B.bucket) : StoreSmall B (Store.new l e) := by
  refine ⟨by simp [Store.new, defaultLatencies], ?_, by simp [Store.new], by simp [Store.new, GoMap.WF], he⟩
  intro b hb
  rw [List.eq_of_mem_replicate hb]
  exact makeBucket_small hl

theorem Kept.start {B : Limits} (hB : B.Default) {st st' : State} (h : Kept B st) {name : Bytes} (hn : name ∈ B.names) {hasParent : Bool}
    {parent : SpanContext} {remote : Bool} {o : StartOptions} {tid sid : Bytes}
    (hs : startSpanInternal st name hasParent parent remote o tid sid = .ok st') : Kept B st' := by
  obtain ⟨s, g1, -, -, -, -, g6⟩ := startSpanInternal_ok hs
  have hspans : ∀ (i : Nat) (x : Span), st'.spans[i]? = some x → ∀ r, x.data = some r → RecSmall B r := by
    intro i x hx r hr
    rw [g1, List.getElem?_append] at hx
    split at hx
    · exact h.spans i x hx r hr
    · have : x = s := by
        rcases hk : i - st.spans.length with _ | k
        · rw [hk] at hx; simpa using hx.symm
        · rw [hk] at hx; simp at hx
      subst this
      rw [g6 r hr]
      have hA := hB.attributes
      have hB1 := hB.annotations
      have hB2 := hB.messageEvents
      have hB3 := hB.links
      exact ⟨h.attributes, h.annotations, h.messageEvents, h.links,
        ⟨by simp [newSpanData]; omega, by simp [newSpanData]; omega, by simp [newSpanData]; omega, by simp [newSpanData]; omega⟩,
        .inl rfl⟩
  unfold startSpanInternal at hs
  split at hs
  · cases hs
  · split at hs
    · cases hs
    · simp only at hs
      split at hs
      · cases hs
        exact ⟨h.stores, h.wf, hspans, h.exported, h.attributes, h.annotations, h.messageEvents, h.links⟩
      · split at hs
        · cases hs
          refine ⟨?_, GoMap.WF_set h.wf _ _, hspans, h.exported, h.attributes, h.annotations, h.messageEvents, h.links⟩
          intro p hp
          rcases GoMap.mem_set hp with rfl | hp
          · refine ⟨hn, ?_⟩
            have : StoreSmall B (storeFor st.stores name) := by
              unfold storeFor
              cases hg : GoMap.get st.stores name with
              | none => exact new_small hB.bucket hB.bucket
              | some x => exact (h.stores _ (GoMap.mem_of_get hg)).2
            exact ⟨this.count, this.latency, this.errors, this.wf, this.maxErr⟩
          · exact h.stores p hp
        · cases hs
          exact ⟨h.stores, h.wf, hspans, h.exported, h.attributes, h.annotations, h.messageEvents, h.links⟩

/-! ## Reading a span -/

theorem readLoop_length {m : LruMap AttrVal} {acc : GoMap Bytes AttrVal} : ∀ {order : List Bytes},
    (m.readLoop acc order).2.length ≤ acc.length + order.length := by
  intro order
  induction order generalizing m acc with
  | nil => simp [LruMap.readLoop]
  | cons k ks ih =>
    have hset : ∀ v : AttrVal, (GoMap.set acc k v).length ≤ acc.length + 1 := by
      intro v
      induction acc with
      | nil => simp [GoMap.set]
      | cons q acc ih2 =>
        simp only [GoMap.set]
        split
        · simp
        · simp only [List.length_cons]; have := ih2; omega
    simp only [LruMap.readLoop]
    split
    · next m' v _ => have := ih (m := m') (acc := GoMap.set acc k v); have := hset v; simp only [List.length_cons]; omega
    · next m' _ => have := ih (m := m') (acc := acc); simp only [List.length_cons]; omega

theorem queue_le {α : Type} {q : EvictedQueue α} {l : List α} (h : QInv q l) : (q.queue.length : Int) ≤ q.capacity := by
  have := h.cap
  rw [h.queue, lastN_length]
  omega

theorem read_within {B : Limits} {r r' : Rec} {order : List Bytes} {sd : SpanData} {a : Adds} (hr : RecInv r a) (hs : RecSmall B r)
    (h : r.makeSpanData order = .ok (r', sd)) : Within B sd := by
  have hp := (makeSpanData_ok h).2.2.2.2
  have hk : (order.length : Int) ≤ B.attributes := by
    have h1 : (GoMap.keys r.attrs.cacheKeys).length ≤ (r.attrs.entries.map Prod.fst).length :=
      (List.subperm_of_subset hr.attrs.wf fun k hk => (hr.attrs.keys k).mp hk).length_le
    have h2 := hr.attrs.len
    have h3 := hs.attributes
    rw [hp.length_eq]
    rw [List.length_map] at h1
    omega
  have q1 := queue_le hr.anns
  have q2 := queue_le hr.msgs
  have q3 := queue_le hr.links
  have c1 := hs.annotations
  have c2 := hs.messageEvents
  have c3 := hs.links
  have c4 := hs.data
  have ha : ((r.attrs.toAttributeMap order).2.length : Int) ≤ B.attributes := by
    have := readLoop_length (m := r.attrs) (acc := []) (order := order)
    simp only [List.length_nil] at this
    unfold LruMap.toAttributeMap
    omega
  unfold Rec.makeSpanData at h
  split at h
  · cases h
  · simp only [Res.ok.injEq, Prod.mk.injEq] at h
    obtain ⟨_, h⟩ := h
    subst h
    have d1 := c4.attributes
    have d2 := c4.annotations
    have d3 := c4.messageEvents
    have d4 := c4.links
    split <;> split <;> split <;> split <;> constructor <;> (simp only; omega)

theorem Within.endTime {B : Limits} {sd : SpanData} (h : Within B sd) (t : Int) : Within B { sd with endTime := t } :=
  ⟨h.attributes, h.annotations, h.messageEvents, h.links⟩

/-! ## Buckets -/

theorem add_small {B : Limits} {b b' : Bucket SpanData} (h : BucketSmall B b) {sd : SpanData} (hsd : Within B sd)
    (ha : b.add SpanData.endTime sd = .ok b') : BucketSmall B b' := by
  unfold Bucket.add at ha
  have key : BucketSmall B ⟨0, b.buffer.set b.nextIndex (some sd), 0, true⟩ := by
    refine ⟨by simpa using h.1, ?_⟩
    intro x hx
    rcases List.mem_or_eq_of_mem_set hx with hx | hx
    · exact h.2 x hx
    · cases hx; exact hsd
  split at ha
  · cases ha; exact h
  · split at ha
    · cases ha; exact h
    · split at ha
      · simp only at ha
        split at ha <;> (cases ha; exact key)
      · cases ha

theorem span_mem {b : Bucket SpanData} {i : Nat} {x : Option SpanData} (h : b.span i = .ok x) : x ∈ b.buffer := by
  unfold Bucket.span at h
  simp only at h
  have fin : ∀ {j : Nat} {y : Option SpanData}, b.buffer[j]? = some y → Res.ok y = .ok x → x ∈ b.buffer := by
    intro j y hy e; cases e; exact List.mem_of_getElem? hy
  split at h
  · split at h
    · next hy => exact fin hy h
    · cases h
  · split at h
    · split at h
      · next hy => exact fin hy h
      · cases h
    · split at h
      · split at h
        · next hy => exact fin hy h
        · cases h
      · cases h

theorem copy_mem {b : Bucket SpanData} {off : Nat} : ∀ {n : Nat} {l : List (Option SpanData)}, b.copy off n = .ok l →
    l.length = n ∧ ∀ x ∈ l, x ∈ b.buffer
  | 0, l, h => by cases h; simp
  | n + 1, l, h => by
    simp only [Bucket.copy] at h
    obtain ⟨l1, h1, h⟩ := Res_bind_ok h
    obtain ⟨x, h2, h⟩ := Res_bind_ok h
    cases h
    obtain ⟨g1, g2⟩ := copy_mem h1
    refine ⟨by simp [g1], ?_⟩
    intro y hy
    rcases List.mem_append.mp hy with hy | hy
    · exact g2 y hy
    · rw [List.mem_singleton] at hy; subst hy; exact span_mem h2

theorem resize_small {B : Limits} {b b' : Bucket SpanData} (h : BucketSmall B b) {n : Nat} (hn : n ≤ B.bucket)
    (hr : b.resize n = .ok b') : BucketSmall B b' := by
  unfold Bucket.resize at hr
  simp only at hr
  split at hr
  · next hc =>
    obtain ⟨l, h1, hr⟩ := Res_bind_ok hr
    cases hr
    obtain ⟨g1, g2⟩ := copy_mem h1
    refine ⟨by simp [g1]; omega, ?_⟩
    intro sd hsd
    rcases List.mem_append.mp hsd with hsd | hsd
    · exact h.2 sd (g2 _ hsd)
    · have := List.eq_of_mem_replicate hsd; cases this
  · obtain ⟨l, h1, hr⟩ := Res_bind_ok hr
    cases hr
    obtain ⟨g1, g2⟩ := copy_mem h1
    exact ⟨by simp [g1]; omega, fun sd hsd => h.2 sd (g2 _ hsd)⟩

theorem mapRes_mem {α β : Type} {f : α → Res β} : ∀ {l : List α} {m : List β}, mapRes f l = .ok m →
    m.length = l.length ∧ ∀ y ∈ m, ∃ x ∈ l, f x = .ok y
  | [], m, h => by cases h; simp
  | a :: l, m, h => by
    simp only [mapRes] at h
    obtain ⟨b, h1, h⟩ := Res_bind_ok h
    obtain ⟨bs, h2, h⟩ := Res_bind_ok h
    cases h
    obtain ⟨g1, g2⟩ := mapRes_mem h2
    refine ⟨by simp [g1], ?_⟩
    intro y hy
    rcases List.mem_cons.mp hy with rfl | hy
    · exact ⟨a, by simp, h1⟩
    · obtain ⟨x, hx, hy⟩ := g2 y hy
      exact ⟨x, by simp [hx], hy⟩

theorem mapRes_keys {f : Bucket SpanData → Res (Bucket SpanData)} : ∀ {l m : GoMap Int (Bucket SpanData)},
    mapRes (fun e : Int × Bucket SpanData => (f e.2).bind fun b => .ok (e.1, b)) l = .ok m → GoMap.keys m = GoMap.keys l
  | [], m, h => by cases h; rfl
  | a :: l, m, h => by
    simp only [mapRes] at h
    obtain ⟨b, h1, h⟩ := Res_bind_ok h
    obtain ⟨bs, h2, h⟩ := Res_bind_ok h
    cases h
    obtain ⟨b', h3, h1⟩ := Res_bind_ok h1
    cases h1
    simp only [GoMap.keys_cons, mapRes_keys h2]

theorem store_resize_small {B : Limits} {s s' : Store} (h : StoreSmall B s) {l e : Nat} (hl : l ≤ B.bucket) (he : e ≤ B.bucket)
    (hr : s.resize l e = .ok s') : StoreSmall B s' := by
  unfold Store.resize at hr
  obtain ⟨lat, h1, hr⟩ := Res_bind_ok hr
  obtain ⟨errs, h2, hr⟩ := Res_bind_ok hr
  cases hr
  obtain ⟨g1, g2⟩ := mapRes_mem h1
  obtain ⟨-, g4⟩ := mapRes_mem h2
  refine ⟨g1.trans h.count, ?_, ?_, ?_, he⟩
  · intro b hb
    obtain ⟨x, hx, hb⟩ := g2 b hb
    exact resize_small (h.latency x hx) hl hb
  · intro p hp
    obtain ⟨x, hx, hp⟩ := g4 p hp
    obtain ⟨b, hb, hp⟩ := Res_bind_ok hp
    cases hp
    exact ⟨(h.errors x hx).1, resize_small (h.errors x hx).2 he hb⟩
  · have := mapRes_keys (f := fun b => b.resize e) h2
    unfold GoMap.WF
    rw [this]
    exact h.wf

theorem finished_small {B : Limits} {s s' : Store} (h : StoreSmall B s) {i : Nat} {sd : SpanData} (hsd : Within B sd)
    (hc : sd.status.code = 0 ∨ sd.status.code ∈ B.codes) (hf : s.finished i sd = .ok s') : StoreSmall B s' := by
  unfold Store.finished at hf
  simp only at hf
  split at hf
  · split at hf
    · cases hf
    · next b hb =>
      obtain ⟨b', h1, hf⟩ := Res_bind_ok hf
      cases hf
      refine ⟨by simpa using h.count, ?_, h.errors, h.wf, h.maxErr⟩
      intro x hx
      rcases List.mem_or_eq_of_mem_set hx with hx | rfl
      · exact h.latency x hx
      · exact add_small (h.latency b (List.mem_of_getElem? hb)) hsd h1
  · next hne =>
    obtain ⟨b', h1, hf⟩ := Res_bind_ok hf
    cases hf
    refine ⟨h.count, h.latency, ?_, GoMap.WF_set h.wf _ _, h.maxErr⟩
    intro e he
    rcases GoMap.mem_set he with rfl | he
    · refine ⟨hc.resolve_left hne, add_small ?_ hsd h1⟩
      unfold Store.errorBucket
      simp only
      cases hg : GoMap.get s.errors sd.status.code with
      | none => exact makeBucket_small h.maxErr
      | some b => exact (h.errors _ (GoMap.mem_of_get hg)).2
    · exact h.errors e he

theorem clamp_le {B : Limits} {n : Int} (h : n ≤ B.bucket ∨ 100000 ≤ B.bucket) : clampSize n ≤ B.bucket := by
  unfold clampSize
  simp only
  split <;> split <;> omega

theorem configure_small {B : Limits} : ∀ {bcs : List BucketConfiguration} {stores stores' : GoMap Bytes Store},
    (∀ p ∈ stores, p.1 ∈ B.names ∧ StoreSmall B p.2) → GoMap.WF stores → Fits B (.configure bcs) →
    configureBucketSizes stores bcs = .ok stores' → (∀ p ∈ stores', p.1 ∈ B.names ∧ StoreSmall B p.2) ∧ GoMap.WF stores'
  | [], stores, stores', h, hw, _, hc => by cases hc; exact ⟨h, hw⟩
  | bc :: bcs, stores, stores', h, hw, hf, hc => by
    simp only [configureBucketSizes] at hc
    obtain ⟨mid, h1, hc⟩ := Res_bind_ok hc
    obtain ⟨f1, f2, f3⟩ := hf bc (by simp)
    have hmid : ∃ s, mid = GoMap.set stores bc.name s ∧ StoreSmall B s := by
      unfold setSize at h1
      split at h1
      · next s hs =>
        obtain ⟨s', h2, h1⟩ := Res_bind_ok h1
        cases h1
        exact ⟨s', rfl, store_resize_small (h _ (GoMap.mem_of_get hs)).2 (clamp_le f2) (clamp_le f3) h2⟩
      · cases h1
        exact ⟨_, rfl, new_small (clamp_le f2) (clamp_le f3)⟩
    obtain ⟨s, rfl, hs⟩ := hmid
    refine configure_small ?_ (GoMap.WF_set hw _ _) (fun x hx => hf x (by simp [hx])) hc
    intro p hp
    rcases GoMap.mem_set hp with rfl | hp
    · exact ⟨f1, hs⟩
    · exact h p hp

theorem reportLoop_kept {B : Limits} : ∀ {is : List Nat} {st st' : State} {orders : List (List Bytes)} {out : List SpanData}, Kept B st →
    reportActiveLoop st is orders = .ok (st', out) → Kept B st'
  | [], st, st', orders, out, h, hr => by cases hr; exact h
  | i :: is, st, st', [], out, h, hr => by simp [reportActiveLoop] at hr
  | i :: is, st, st', order :: orders, out, h, hr => by
    simp only [reportActiveLoop] at hr
    split at hr
    · cases hr
    · next s hs =>
      split at hr
      · cases hr
      · next r hd =>
        obtain ⟨⟨r', sd⟩, hm, hr⟩ := Res_bind_ok hr
        obtain ⟨⟨st1, out1⟩, h1, hr⟩ := Res_bind_ok hr
        cases hr
        refine reportLoop_kept (h.set (i := i) ?_) h1
        intro x hx
        cases hx
        have := h.spans i s hs r hd
        exact this.fixed (makeSpanData_fixed hm) (by rw [(makeSpanData_ok hm).1]; exact this.code)

/-! ## Steps -/

theorem Kept.step {B : Limits} (hB : B.Default) {t : Int} {ops : List Op} {st st' : State} (h : Kept B st) (hi : HInv t ops st) {op : Op}
    (ho : Fits B op) (hs : Trace.step st op = .ok st') : Kept B st' := by
  have same : ∀ {f : Rec → Res Rec}, KeepsData f → (∀ r r', f r = .ok r' → r'.data.status = r.data.status) →
      ∀ r r', f r = .ok r' → RecSmall B r → r'.data.status.code = 0 ∨ r'.data.status.code ∈ B.codes := by
    intro f _ hf r r' h1 h2
    rw [hf r r' h1]; exact h2.code
  cases op with
  | start p name opts tid sid =>
    simp only [Trace.step, startSpan] at hs
    cases p with
    | none => exact h.start hB ho hs
    | some p =>
      simp only at hs
      split at hs
      · cases hs
      · obtain ⟨mid, h1, hs⟩ := Res_bind_ok hs
        refine (h.modify keeps_addChild ?_ h1).start hB ho hs
        intro r r' h1 h2; cases h1; exact h2.code
  | startRemote p name opts tid sid => exact h.start hB ho hs
  | setName s name => exact h.onSpan (keeps_setName _) (same (keeps_setName _) fun r r' h1 => by cases h1; rfl) hs
  | setStatus s status => exact h.onSpan (keeps_setStatus _) (fun r r' h1 _ => by cases h1; exact ho) hs
  | addAttributes s l => exact h.onSpan (keeps_addAttributes _) (same (keeps_addAttributes _) fun r r' h1 => by cases h1; rfl) hs
  | annotate s l msg =>
    refine h.onSpan (keeps_annotate _ _ _) (same (keeps_annotate _ _ _) fun r r' h1 => ?_) hs
    unfold Rec.annotate at h1
    obtain ⟨q, _, h1⟩ := Res_bind_ok h1
    cases h1; rfl
  | addMessageEvent s a b c d =>
    refine h.onSpan (keeps_addMessageEvent _ _ _ _ _) (same (keeps_addMessageEvent _ _ _ _ _) fun r r' h1 => ?_) hs
    unfold Rec.addMessageEvent at h1
    obtain ⟨q, _, h1⟩ := Res_bind_ok h1
    cases h1; rfl
  | addLink s l =>
    refine h.onSpan (keeps_addLink _) (same (keeps_addLink _) fun r r' h1 => ?_) hs
    unfold Rec.addLink at h1
    obtain ⟨q, _, h1⟩ := Res_bind_ok h1
    cases h1; rfl
  | endSpan s order =>
    cases s with
    | none => cases hs; exact h
    | some i =>
      obtain ⟨s, h1, ⟨rfl, _⟩ | ⟨r, h2, _, h3⟩⟩ := endSpan_cases hs
      · exact h
      · have hr := h.spans i s h1 r h2
        cases h3 with
        | quiet => exact h.set fun x hx => h.spans i s h1 x hx
        | full r' sd hm stores hst =>
          have hsd := (read_within (hi.recs i s r h1 h2) hr hm).endTime (monotonicEndTime sd.startTime st.now)
          have hr' := hr.fixed (makeSpanData_fixed hm) (by rw [(makeSpanData_ok hm).1]; exact hr.code)
          have hset := h.set (i := i) (s' := { s with data := some r', ended := true }) fun x hx => by cases hx; exact hr'
          have hx : ∀ x ∈ st.exported ++ (if s.ctx.isSampled then
              st.exporters.map fun e => (e, i, { sd with endTime := monotonicEndTime sd.startTime st.now }) else []), Within B x.2.2 := by
            intro x hx
            rcases List.mem_append.mp hx with hx | hx
            · exact h.exported x hx
            · split at hx
              · obtain ⟨e, _, rfl⟩ := List.mem_map.mp hx; exact hsd
              · cases hx
          have hstores : (∀ p ∈ stores, p.1 ∈ B.names ∧ StoreSmall B p.2) ∧ GoMap.WF stores := by
            rcases hst with ⟨_, rfl⟩ | ⟨name, store, store', _, g1, g2, rfl⟩
            · exact ⟨h.stores, h.wf⟩
            · refine ⟨?_, GoMap.WF_set h.wf _ _⟩
              have g3 := h.stores _ (GoMap.mem_of_get g1)
              intro p hp
              rcases GoMap.mem_set hp with rfl | hp
              · exact ⟨g3.1, finished_small g3.2 hsd (by
                  have := (makeSpanData_fields hm).2.2.1
                  simp only [this]; exact hr.code) g2⟩
              · exact h.stores p hp
          exact ⟨hstores.1, hstores.2, hset.spans, hx, h.attributes, h.annotations, h.messageEvents, h.links⟩
  | registerExporter e => cases hs; exact ⟨h.stores, h.wf, h.spans, h.exported, h.attributes, h.annotations, h.messageEvents, h.links⟩
  | unregisterExporter e => cases hs; exact ⟨h.stores, h.wf, h.spans, h.exported, h.attributes, h.annotations, h.messageEvents, h.links⟩
  | applyConfig c =>
    cases hs
    obtain ⟨f1, f2, f3, f4⟩ := ho
    refine ⟨h.stores, h.wf, h.spans, h.exported, ?_, ?_, ?_, ?_⟩ <;> simp only [Config.apply] <;> split
    all_goals first
      | assumption
      | exact h.attributes
      | exact h.annotations
      | exact h.messageEvents
      | exact h.links
  | configure bcs =>
    obtain ⟨stores, h1, hs⟩ := Res_bind_ok hs
    cases hs
    obtain ⟨g1, g2⟩ := configure_small h.stores h.wf ho h1
    exact ⟨g1, g2, h.spans, h.exported, h.attributes, h.annotations, h.messageEvents, h.links⟩
  | reportActive name orders =>
    obtain ⟨⟨st1, out⟩, h1, hs⟩ := Res_bind_ok hs
    cases hs
    unfold reportActive at h1
    split at h1
    · cases h1; exact h
    · exact reportLoop_kept h h1
  | enableStore => cases hs; exact ⟨h.stores, h.wf, h.spans, h.exported, h.attributes, h.annotations, h.messageEvents, h.links⟩
  | tick d => cases hs; exact ⟨h.stores, h.wf, h.spans, h.exported, h.attributes, h.annotations, h.messageEvents, h.links⟩

theorem kept_run {B : Limits} (hB : B.Default) {t : Int} {ops : List Op} {st : State} (ho : ∀ op ∈ ops, Fits B op)
    (h : run (State.init t) ops = .ok st) : Kept B st := by
  induction ops using List.reverseRecOn generalizing st with
  | nil => cases h; exact kept_init hB t
  | append_singleton ops op ih =>
    obtain ⟨mid, h1, h2⟩ := run_snoc_ok h
    exact (ih (fun x hx => ho x (by simp [hx])) h1).step hB (hinv_run h1) (ho op (by simp)) h2

/-! ## Theorems on spans -/

theorem length_of_keys {K V : Type} [DecidableEq K] {m : GoMap K V} (hw : GoMap.WF m) {l : List K} (h : ∀ p ∈ m, p.1 ∈ l) :
    m.length ≤ l.length := by
  have : (GoMap.keys m).length ≤ l.length := (List.subperm_of_subset hw fun k hk => by
    obtain ⟨p, hp, rfl⟩ := List.mem_map.mp hk; exact h p hp).length_le
  simpa [GoMap.keys] using this

theorem sum_le {α : Type} {f : α → Nat} {n : Nat} : ∀ {l : List α}, (∀ x ∈ l, f x ≤ n) → (l.map f).sum ≤ l.length * n
  | [], _ => by simp
  | x :: l, h => by
    have h1 := h x (by simp)
    have h2 := sum_le (l := l) fun y hy => h y (by simp [hy])
    simp only [List.map_cons, List.sum_cons, List.length_cons, Nat.add_mul, Nat.one_mul]
    omega

/-- C110. However many spans were started and ended: the stores have no more places than there are names, times nine latencies and the
status codes in use, times the largest size of a bucket. -/
theorem slots_bounded {B : Limits} (hB : B.Default) {t : Int} {ops : List Op} {st : State} (ho : ∀ op ∈ ops, Fits B op)
    (h : run (State.init t) ops = .ok st) : slots st ≤ B.names.length * ((9 + B.codes.length) * B.bucket) := by
  have hk := kept_run hB ho h
  refine (sum_le fun p hp => ?_).trans (Nat.mul_le_mul_right _ (length_of_keys hk.wf fun p hp => (hk.stores p hp).1))
  have hs := (hk.stores p hp).2
  have h1 := sum_le (f := fun b : Bucket SpanData => b.buffer.length) fun b hb => (hs.latency b hb).1
  have h2 := (sum_le (f := fun e : Int × Bucket SpanData => e.2.buffer.length) fun e he => (hs.errors e he).2.1).trans
    (Nat.mul_le_mul_right _ (length_of_keys hs.wf fun e he => (hs.errors e he).1))
  rw [hs.count] at h1
  rw [Nat.add_mul]
  omega

/-- C110. No span that is exported or kept holds more than the limits allow. -/
theorem data_bounded {B : Limits} (hB : B.Default) {t : Int} {ops : List Op} {st : State} (ho : ∀ op ∈ ops, Fits B op)
    (h : run (State.init t) ops = .ok st) : (∀ x ∈ st.exported, Within B x.2.2) ∧ ∀ sd, Held st sd → Within B sd := by
  have hk := kept_run hB ho h
  refine ⟨hk.exported, ?_⟩
  rintro sd ⟨p, hp, ⟨b, hb, hx⟩ | ⟨e, he, hx⟩⟩
  · exact ((hk.stores p hp).2.latency b hb).2 sd hx
  · exact ((hk.stores p hp).2.errors e he).2.2 sd hx

/-- C110. A span that has ended is no longer among the running ones that the stores keep, and none is kept twice. -/
theorem ended_let_go {t : Int} {ops : List Op} {st : State} (h : run (State.init t) ops = .ok st) {n : Bytes} {s : Store}
    (hs : GoMap.get st.stores n = some s) : s.active.Nodup ∧ ∀ i ∈ s.active, ∃ x, st.spans[i]? = some x ∧ x.ended = false := by
  have hok := (good_run h).ok n s hs
  refine ⟨hok.nodup, fun i hi => ?_⟩
  obtain ⟨v, h1, _, h3⟩ := (hok.active i).mp hi
  obtain ⟨x, h4, rfl⟩ := views_some h1
  exact ⟨x, h4, h3⟩

/-! ## Names are kept for ever -/

theorem keys_configure : ∀ {bcs : List BucketConfiguration} {stores stores' : GoMap Bytes Store},
    configureBucketSizes stores bcs = .ok stores' → ∀ n, n ∈ GoMap.keys stores → n ∈ GoMap.keys stores'
  | [], stores, stores', hc => by cases hc; exact fun _ h => h
  | bc :: bcs, stores, stores', hc => by
    simp only [configureBucketSizes] at hc
    obtain ⟨mid, h1, hc⟩ := Res_bind_ok hc
    intro n hn
    refine keys_configure hc n ?_
    unfold setSize at h1
    split at h1
    · obtain ⟨s', _, h1⟩ := Res_bind_ok h1
      cases h1
      exact (GoMap.keys_set_mem _ _ _ _).mpr (.inr hn)
    · cases h1
      exact (GoMap.keys_set_mem _ _ _ _).mpr (.inr hn)

theorem start_keys {st st' : State} {name : Bytes} {hasParent : Bool} {parent : SpanContext} {remote : Bool} {o : StartOptions}
    {tid sid : Bytes} (hs : startSpanInternal st name hasParent parent remote o tid sid = .ok st') :
    (∀ n, n ∈ GoMap.keys st.stores → n ∈ GoMap.keys st'.stores) ∧ st'.localStore = st.localStore ∧
    (st.localStore = true → name ∈ GoMap.keys st'.stores) := by
  unfold startSpanInternal at hs
  split at hs
  · cases hs
  · split at hs
    · cases hs
    · simp only at hs
      split at hs
      · next hc =>
        cases hs
        refine ⟨fun _ h => h, rfl, fun h => ?_⟩
        rw [h] at hc; simp at hc
      · split at hs
        · cases hs
          exact ⟨fun n hn => (GoMap.keys_set_mem _ _ _ _).mpr (.inr hn), rfl, fun _ => (GoMap.keys_set_mem _ _ _ _).mpr (.inl rfl)⟩
        · next hl => cases hs; exact ⟨fun _ h => h, rfl, fun h => absurd h hl⟩

theorem modify_stores {st st' : State} {i : Nat} {f : Rec → Res Rec} (hs : modifyRec st i f = .ok st') :
    st'.stores = st.stores ∧ st'.localStore = st.localStore := by
  obtain ⟨s, _, ⟨_, rfl⟩ | ⟨r, r', _, _, rfl⟩⟩ := modifyRec_cases hs <;> exact ⟨rfl, rfl⟩

theorem onSpan_stores {st st' : State} {s : Option Nat} {f : Rec → Res Rec} (hs : (onSpan st s fun i => modifyRec st i f) = .ok st') :
    st'.stores = st.stores ∧ st'.localStore = st.localStore := by
  cases s with
  | none => cases hs; exact ⟨rfl, rfl⟩
  | some i => exact modify_stores hs

theorem reportLoop_stores : ∀ {is : List Nat} {st st' : State} {orders : List (List Bytes)} {out : List SpanData},
    reportActiveLoop st is orders = .ok (st', out) → st'.stores = st.stores ∧ st'.localStore = st.localStore
  | [], st, st', orders, out, hr => by cases hr; exact ⟨rfl, rfl⟩
  | i :: is, st, st', [], out, hr => by simp [reportActiveLoop] at hr
  | i :: is, st, st', order :: orders, out, hr => by
    simp only [reportActiveLoop] at hr
    split at hr
    · cases hr
    · split at hr
      · cases hr
      · obtain ⟨⟨r', sd⟩, hm, hr⟩ := Res_bind_ok hr
        obtain ⟨⟨st1, out1⟩, h1, hr⟩ := Res_bind_ok hr
        cases hr
        have := reportLoop_stores h1
        exact this

/-- The name a call starts a span under. -/
def started : Op → Option Bytes
  | .start _ name _ _ _ => some name
  | .startRemote _ name _ _ _ => some name
  | _ => none

theorem step_keys {st st' : State} {op : Op} (hs : Trace.step st op = .ok st') :
    (∀ n, n ∈ GoMap.keys st.stores → n ∈ GoMap.keys st'.stores) ∧ (st.localStore = true → st'.localStore = true) ∧
    (st.localStore = true → ∀ n, started op = some n → n ∈ GoMap.keys st'.stores) := by
  have quiet : st'.stores = st.stores ∧ st'.localStore = st.localStore → started op = none →
      (∀ n, n ∈ GoMap.keys st.stores → n ∈ GoMap.keys st'.stores) ∧ (st.localStore = true → st'.localStore = true) ∧
      (st.localStore = true → ∀ n, started op = some n → n ∈ GoMap.keys st'.stores) := by
    rintro ⟨h1, h2⟩ h3
    rw [h1, h2, h3]
    exact ⟨fun _ h => h, fun h => h, fun _ _ h => by cases h⟩
  cases op with
  | start p name opts tid sid =>
    simp only [Trace.step, startSpan] at hs
    have fin : ∀ {st1 : State}, st1.stores = st.stores ∧ st1.localStore = st.localStore → ∀ {hp : Bool} {pc : SpanContext},
        startSpanInternal st1 name hp pc false (applyOptions opts) tid sid = .ok st' →
        (∀ n, n ∈ GoMap.keys st.stores → n ∈ GoMap.keys st'.stores) ∧ (st.localStore = true → st'.localStore = true) ∧
        (st.localStore = true → ∀ n, started (.start p name opts tid sid) = some n → n ∈ GoMap.keys st'.stores) := by
      intro st1 h1 hp pc hs
      obtain ⟨g1, g2, g3⟩ := start_keys hs
      rw [h1.1] at g1
      rw [h1.2] at g2 g3
      exact ⟨g1, fun h => g2.trans h, fun h n hn => by cases hn; exact g3 h⟩
    cases p with
    | none => exact fin ⟨rfl, rfl⟩ hs
    | some p =>
      simp only at hs
      split at hs
      · cases hs
      · obtain ⟨mid, h1, hs⟩ := Res_bind_ok hs
        exact fin (modify_stores h1) hs
  | startRemote p name opts tid sid =>
    obtain ⟨g1, g2, g3⟩ := start_keys hs
    exact ⟨g1, fun h => g2.trans h, fun h n hn => by cases hn; exact g3 h⟩
  | endSpan s order =>
    cases s with
    | none => cases hs; exact quiet ⟨rfl, rfl⟩ rfl
    | some i =>
      obtain ⟨s, h1, ⟨rfl, _⟩ | ⟨r, h2, _, h3⟩⟩ := endSpan_cases hs
      · exact quiet ⟨rfl, rfl⟩ rfl
      · cases h3 with
        | quiet => exact quiet ⟨rfl, rfl⟩ rfl
        | full r' sd hm stores hst =>
          refine ⟨?_, fun h => h, fun _ n hn => by cases hn⟩
          rcases hst with ⟨_, rfl⟩ | ⟨name, store, store', _, g1, g2, rfl⟩
          · exact fun _ h => h
          · exact fun n hn => (GoMap.keys_set_mem _ _ _ _).mpr (.inr hn)
  | configure bcs =>
    obtain ⟨stores, h1, hs⟩ := Res_bind_ok hs
    cases hs
    exact ⟨keys_configure h1, fun h => h, fun _ n hn => by cases hn⟩
  | reportActive name orders =>
    obtain ⟨⟨st1, out⟩, h1, hs⟩ := Res_bind_ok hs
    cases hs
    unfold reportActive at h1
    split at h1
    · cases h1; exact quiet ⟨rfl, rfl⟩ rfl
    · exact quiet (reportLoop_stores h1) rfl
  | enableStore => cases hs; exact ⟨fun _ h => h, fun _ => rfl, fun _ n hn => by cases hn⟩
  | registerExporter => cases hs; exact quiet ⟨rfl, rfl⟩ rfl
  | unregisterExporter => cases hs; exact quiet ⟨rfl, rfl⟩ rfl
  | applyConfig => cases hs; exact quiet ⟨rfl, rfl⟩ rfl
  | tick => cases hs; exact quiet ⟨rfl, rfl⟩ rfl
  | setName => exact quiet (onSpan_stores hs) rfl
  | setStatus => exact quiet (onSpan_stores hs) rfl
  | addAttributes => exact quiet (onSpan_stores hs) rfl
  | annotate => exact quiet (onSpan_stores hs) rfl
  | addMessageEvent => exact quiet (onSpan_stores hs) rfl
  | addLink => exact quiet (onSpan_stores hs) rfl

theorem run_keys : ∀ {ops : List Op} {st st' : State}, run st ops = .ok st' →
    (∀ n, n ∈ GoMap.keys st.stores → n ∈ GoMap.keys st'.stores) ∧ (st.localStore = true → st'.localStore = true) ∧
    (st.localStore = true → ∀ op ∈ ops, ∀ n, started op = some n → n ∈ GoMap.keys st'.stores)
  | [], st, st', h => by cases h; exact ⟨fun _ h => h, fun h => h, fun _ _ h => by cases h⟩
  | op :: ops, st, st', h => by
    obtain ⟨mid, h1, h2⟩ := Res_bind_ok h
    obtain ⟨g1, g2, g3⟩ := step_keys h1
    obtain ⟨k1, k2, k3⟩ := run_keys h2
    refine ⟨fun n hn => k1 n (g1 n hn), fun hl => k2 (g2 hl), fun hl x hx n hn => ?_⟩
    rcases List.mem_cons.mp hx with rfl | hx
    · exact k1 n (g3 hl n hn)
    · exact k3 (g2 hl) x hx n hn

/-- C110. The bound by names is not too generous: once z-pages are served, every name under which a span is started stays in memory
for ever, with nine buckets, though all its spans have ended. So a program that makes up names (a URL with an identifier in it)
grows without bound. -/
theorem names_kept {t : Int} {xs ys : List Op} {st : State} (h : run (State.init t) (xs ++ .enableStore :: ys) = .ok st)
    {ns : List Bytes} (hn : ns.Nodup) (hs : ∀ n ∈ ns, ∃ op ∈ ys, started op = some n) :
    ns.length ≤ st.stores.length ∧ ∀ n ∈ ns, ∃ s, GoMap.get st.stores n = some s ∧ s.latency.length = 9 := by
  have hg := good_run h
  rw [run_append] at h
  obtain ⟨mid, _, h⟩ := Res_bind_ok h
  obtain ⟨mid2, h1, h2⟩ := Res_bind_ok h
  cases h1
  obtain ⟨_, _, k3⟩ := run_keys h2
  have hmem : ∀ n ∈ ns, n ∈ GoMap.keys st.stores := fun n hn => by
    obtain ⟨op, h3, h4⟩ := hs n hn
    exact k3 rfl op h3 n h4
  refine ⟨?_, fun n hn => ?_⟩
  · have := (List.subperm_of_subset hn hmem).length_le
    simpa [GoMap.keys] using this
  · cases hgn : GoMap.get st.stores n with
    | none => exact absurd (hmem n hn) ((GoMap.get_eq_none_iff _ _).mp hgn)
    | some s => exact ⟨s, rfl, (hg.ok n s hgn).nbuckets⟩

/-! ## Examples -/

/-- A program: z-pages, a configuration, two spans of different names, one with an error. -/
def prog : List Op := [.enableStore, .applyConfig ⟨none, none, 2, 0, 0, 0⟩, .start none (str "a") [] [1] [1], .annotate (some 0) [] [],
  .annotate (some 0) [] [], .annotate (some 0) [] [], .endSpan (some 0) [], .tick 5000000000, .start none (str "b") [] [2] [2],
  .setStatus (some 1) ⟨3, []⟩, .endSpan (some 1) [], .configure [⟨str "a", 20, -1⟩]]

def lims : Limits := ⟨32, 32, 128, 32, 20, [str "a", str "b"], [3]⟩

example : lims.Default ∧ ∀ op ∈ prog, Fits lims op := by
  refine ⟨by constructor <;> decide, ?_⟩
  intro op hop
  simp only [prog, List.mem_cons, List.not_mem_nil, or_false] at hop
  rcases hop with rfl | rfl | rfl | rfl | rfl | rfl | rfl | rfl | rfl | rfl | rfl | rfl <;> simp [Fits, lims]

/-- It runs; two names and 9 * 20 + 9 * 10 + 10 places are kept, and no span runs. -/
example : (match run (State.init 0) prog with
    | .ok st => some (st.stores.length, slots st, (st.stores.map fun p => p.2.active.length).sum)
    | _ => none) = some (2, 280, 0) := by decide +kernel

end Verif.Props.Bounded
