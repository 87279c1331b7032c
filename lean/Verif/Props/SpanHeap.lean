import Verif.Trace.Heap

/-!
# C76: the data of a span is as it was when it was made
-/

namespace Verif.Trace.Mem
open Verif Verif.Trace

/-! ## Specification: spans and their data as values

A `SpanData` is a value taken when it is made; a link holds the attributes its map had when the caller made it. -/

structure Spec where
  spans : List Rec
  made : List SpanData
  maps : List (GoMap Bytes AttrVal)

def Spec.on (p : Spec) (i : Nat) (f : Rec → Res Rec) : Res Spec := match p.spans[i]? with
  | none => .err
  | some r => (f r).bind fun r => .ok { p with spans := p.spans.set i r }

def Spec.step (p : Spec) : Op → Res Spec
  | .start sc now kind name remote hasParent parent a n m l => .ok { p with spans := p.spans ++
      [⟨newSpanData sc now kind name remote hasParent parent, LruMap.new a, EvictedQueue.new n, EvictedQueue.new m, EvictedQueue.new l⟩] }
  | .setName i name => p.on i (Rec.setName name)
  | .setStatus i x => p.on i (Rec.setStatus x)
  | .addChild i => p.on i Rec.addChild
  | .addAttributes i l => p.on i (Rec.addAttributes l)
  | .annotate i now l msg _ => p.on i (Rec.annotate now l msg)
  | .addMessageEvent i now t id un co _ => p.on i (Rec.addMessageEvent now t id un co)
  | .addLink i tid sid ty k _ => match k with
    | none => p.on i (Rec.addLink ⟨tid, sid, ty, none⟩)
    | some k => match p.maps[k]? with
      | none => .err
      | some m => p.on i (Rec.addLink ⟨tid, sid, ty, some m⟩)
  | .makeSpanData i order endTime => match p.spans[i]? with
    | none => .err
    | some r => (r.makeSpanData order).bind fun (r, sd) =>
        .ok { p with spans := p.spans.set i r, made := p.made ++ [{ sd with endTime := endTime }] }
  | .newMap m => .ok { p with maps := p.maps ++ [m] }
  | .write k _ _ => if k < p.maps.length then .ok p else .err

def Spec.run (p : Spec) : List Op → Res Spec
  | [] => .ok p
  | op :: ops => (p.step op).bind fun p => Spec.run p ops

def Spec.init : Spec := ⟨[], [], []⟩

/-- The caller writes to map `k`. -/
def writes (k : Nat) (ops : List Op) : Prop := ∃ key v, Op.write k key v ∈ ops

/-- The caller puts map `k` in a link. -/
def linked (k : Nat) (ops : List Op) : Prop := ∃ i tid sid ty sp, Op.addLink i tid sid ty (some k) sp ∈ ops

/-- All but the attributes of the links. -/
def butLinkAttributes (d : SpanData) : SpanData := { d with links := d.links.map fun l => { l with attributes := none } }

/-! ## The heap changes only in cells of one owner -/

def Ext (t : Tag) (h h' : Heap) : Prop := ∀ (a : Addr) (c : Cell), h[a]? = some c → c.tag ≠ t → h'[a]? = some c

theorem Ext.refl (t : Tag) (h : Heap) : Ext t h h := fun _ _ e _ => e

theorem Ext.trans {t : Tag} {h h' h'' : Heap} (e : Ext t h h') (e' : Ext t h' h'') : Ext t h h'' :=
  fun a c x n => e' a c (e a c x n) n

theorem get_append {h : Heap} {a : Nat} {c d : Cell} (e : h[a]? = some c) : (h ++ [d])[a]? = some c := by
  have := (List.getElem?_eq_some_iff.mp e).1
  rw [List.getElem?_append_left this, e]

theorem Ext.append (t : Tag) (h : Heap) (d : Cell) : Ext t h (h ++ [d]) := fun _ _ e _ => get_append e

theorem get_new (h : Heap) (d : Cell) : (h ++ [d])[h.length]? = some d := by simp

theorem Ext.set {t : Tag} {h : Heap} {a : Nat} {c d : Cell} (e : h[a]? = some c) (ht : c.tag = t) : Ext t h (h.set a d) := by
  intro a' c' e' n
  have : a ≠ a' := by
    rintro rfl
    rw [e] at e'
    cases e'
    exact n ht
  rw [List.getElem?_set_ne this, e']

theorem get_set {h : Heap} {a : Nat} {c d : Cell} (e : h[a]? = some c) : (h.set a d)[a]? = some d := by
  have := (List.getElem?_eq_some_iff.mp e).1
  rw [List.getElem?_set_self this]

/-! ## Queues -/

structure QRel {α : Type} (rel : Item → α → Prop) (h : Heap) (t : Tag) (q : HQueue) (pq : EvictedQueue α) : Prop where
  capacity : q.capacity = pq.capacity
  dropped : q.droppedCount = pq.droppedCount
  nil : q.arr = none → q.len = 0
  arr : ∀ a, q.arr = some a → ∃ xs, h[a]? = some ⟨t, .items xs⟩ ∧ q.off + q.len ≤ xs.length
  items : ∃ l, q.slots h = l.map some ∧ List.Forall₂ rel l pq.queue

variable {α : Type} {rel rel' : Item → α → Prop} {h h' : Heap} {t t' : Tag} {q : HQueue} {pq : EvictedQueue α}

theorem QRel.length (r : QRel rel h t q pq) : q.len = pq.queue.length := by
  obtain ⟨l, hl, hf⟩ := r.items
  have h1 : (q.slots h).length = l.length := by rw [hl]; simp
  rw [← hf.length_eq, ← h1]
  unfold HQueue.slots
  cases ha : q.arr with
  | none => simp [array, r.nil ha]
  | some a =>
    obtain ⟨xs, hx, hle⟩ := r.arr a ha
    simp only [array, hx, List.length_take, List.length_drop]
    omega

theorem QRel.mono (e : Ext t' h h') (n : t ≠ t') (hr : ∀ x y, rel x y → rel' x y) (r : QRel rel h t q pq) :
    QRel rel' h' t q pq := by
  refine ⟨r.capacity, r.dropped, r.nil, ?_, ?_⟩
  · intro a ha
    obtain ⟨xs, hx, hle⟩ := r.arr a ha
    exact ⟨xs, e _ _ hx n, hle⟩
  · obtain ⟨l, hl, hf⟩ := r.items
    refine ⟨l, ?_, hf.imp hr⟩
    rw [← hl]
    unfold HQueue.slots
    cases ha : q.arr with
    | none => rfl
    | some a =>
      obtain ⟨xs, hx, hle⟩ := r.arr a ha
      simp [array, hx, e _ _ hx n]

theorem append_rel (r : QRel rel h t q pq) {v : Item} {w : α} (hv : rel v w) (spare : Nat) {h' : Heap} {q' : HQueue}
    (e : append h t q v spare = (h', q')) :
    Ext t h h' ∧ QRel rel h' t q' { pq with queue := pq.queue ++ [w] } := by
  obtain ⟨l, hl, hf⟩ := r.items
  have hlen : (q.slots h).length = q.len := by rw [hl, r.length, ← hf.length_eq]; simp
  have new : (h', q') = (h ++ [⟨t, .items (q.slots h ++ [some v] ++ List.replicate spare none)⟩],
      { q with arr := some h.length, off := 0, len := q.len + 1 }) →
      Ext t h h' ∧ QRel rel h' t q' { pq with queue := pq.queue ++ [w] } := by
    intro hq
    injection hq with hq1 hq2
    subst hq1 hq2
    refine ⟨Ext.append _ _ _, r.capacity, r.dropped, by simp, ?_, ?_⟩
    · intro a ha
      have ha' : h.length = a := by simpa using ha
      subst ha'
      refine ⟨_, get_new _ _, ?_⟩
      simp only [List.length_append, hlen]
      simp
    · refine ⟨l ++ [v], ?_, List.rel_append hf (.cons hv .nil)⟩
      simp only [HQueue.slots, array, get_new, List.drop_zero]
      rw [List.take_append_of_le_length, List.take_of_length_le]
      · change q.slots h ++ _ = _
        rw [hl]; simp
      · change (q.slots h ++ _).length ≤ _
        simp [hlen]
      · change _ ≤ (q.slots h ++ _).length
        simp [hlen]
  unfold append at e
  cases ha : q.arr with
  | none => simp only [ha] at e; exact new e.symm
  | some a =>
    obtain ⟨xs, hx, hle⟩ := r.arr a ha
    have hxs : array h q.arr = xs := by simp [array, ha, hx]
    simp only [ha] at e
    rw [show array h (some a) = xs by simp [array, hx]] at e
    split at e
    · rename_i hlt
      injection e with e1 e2
      subst e1 e2
      refine ⟨Ext.set hx rfl, r.capacity, r.dropped, by simp [ha], ?_, ?_⟩
      · intro b hb
        have hab : a = b := by simpa [ha] using hb
        subst hab
        refine ⟨_, get_set hx, ?_⟩
        simp only [List.length_set]
        omega
      · refine ⟨l ++ [v], ?_, List.rel_append hf (.cons hv .nil)⟩
        rw [List.map_append, ← hl]
        simp only [HQueue.slots, array, ha, get_set hx, hx]
        rw [List.take_add_one, List.drop_set]
        rw [if_neg (by omega), show q.off + q.len - q.off = q.len by omega]
        rw [List.getElem?_set_self (by simp; omega)]
        rw [List.take_set_of_le (Nat.le_refl _)]
        rfl
    · exact new e.symm

theorem add_rel (r : QRel rel h t q pq) {v : Item} {w : α} (hv : rel v w) (spare : Nat) :
    (∃ h' q' pq', q.add h t v spare = .ok (h', q') ∧ pq.add w = .ok pq' ∧ Ext t h h' ∧ QRel rel h' t q' pq') ∨
    (q.add h t v spare = .panic ∧ pq.add w = .panic) := by
  have hl := r.length
  unfold HQueue.add EvictedQueue.add
  rw [← r.capacity, hl]
  by_cases hc : (pq.queue.length : Int) = q.capacity
  · rw [if_pos hc, if_pos hc]
    obtain ⟨l, hsl, hf⟩ := r.items
    cases hy : pq.queue with
    | nil => exact .inr ⟨by simp, rfl⟩
    | cons y ys =>
      have hr : QRel rel h t { q with off := q.off + 1, len := ys.length, droppedCount := q.droppedCount + 1 }
          ⟨ys, q.capacity, pq.droppedCount + 1⟩ := by
        refine ⟨rfl, by simp [r.dropped], fun hn => absurd (r.nil hn) (by rw [hl, hy]; simp), ?_, ?_⟩
        · intro a ha
          obtain ⟨xs, hx, hle⟩ := r.arr a ha
          refine ⟨xs, hx, ?_⟩
          rw [hl, hy, List.length_cons] at hle
          simp only
          omega
        · rw [hy] at hf
          cases hf with
          | cons h1 h2 =>
            rename_i x l'
            refine ⟨l', ?_, h2⟩
            have : (q.slots h).tail = l'.map some := by rw [hsl]; rfl
            rw [← this]
            unfold HQueue.slots
            simp only
            rw [← List.drop_one, List.drop_take, List.drop_drop, hl, hy]
            rfl
      obtain ⟨h', q', e⟩ : ∃ h' q', append h t
          { q with off := q.off + 1, len := ys.length, droppedCount := q.droppedCount + 1 } v spare = (h', q') := ⟨_, _, rfl⟩
      have ha := append_rel hr hv spare e
      exact .inl ⟨h', q', _, by simp [e], rfl, ha.1, ha.2⟩
  · rw [if_neg hc, if_neg hc]
    obtain ⟨h', q', e⟩ : ∃ h' q', append h t q v spare = (h', q') := ⟨_, _, rfl⟩
    have ha := append_rel r hv spare e
    rw [← r.capacity] at ha
    exact .inl ⟨h', q', _, by rw [e], rfl, ha.1, ha.2⟩

/-! ## Items, data and states -/

def mapRel (h : Heap) : Option Addr → Option (GoMap Bytes AttrVal) → Prop
  | none, none => True
  | some a, some m => h[a]? = some ⟨.lib, .map m⟩
  | _, _ => False

def annRel (h : Heap) (x : HAnnotation) (y : Annotation) : Prop :=
  x.time = y.time ∧ x.message = y.message ∧ mapRel h x.attributes y.attributes

/-- `u k`: the caller's map `k` may be in links. -/
def linkMapRel (maps : List Addr) (pm : List (GoMap Bytes AttrVal)) (u : Nat → Prop) :
    Option Addr → Option (GoMap Bytes AttrVal) → Prop
  | none, none => True
  | some a, some m => ∃ k, u k ∧ maps[k]? = some a ∧ pm[k]? = some m
  | _, _ => False

def linkRel (maps : List Addr) (pm : List (GoMap Bytes AttrVal)) (u : Nat → Prop) (x : HLink) (y : Link) : Prop :=
  x.traceID = y.traceID ∧ x.spanID = y.spanID ∧ x.type = y.type ∧ linkMapRel maps pm u x.attributes y.attributes

def itemAnn (h : Heap) (it : Item) (y : Annotation) : Prop := ∃ x, it = .annotation x ∧ annRel h x y
def itemMsg (it : Item) (y : MessageEvent) : Prop := it = .messageEvent y
def itemLink (maps : List Addr) (pm : List (GoMap Bytes AttrVal)) (u : Nat → Prop) (it : Item) (y : Link) : Prop :=
  ∃ x, it = .link x ∧ linkRel maps pm u x y

structure SpanRel (h : Heap) (maps : List Addr) (pm : List (GoMap Bytes AttrVal)) (u : Nat → Prop) (i : Nat) (s : HSpan) (r : Rec) :
    Prop where
  data : s.data = r.data
  empty : r.data.attributes = [] ∧ r.data.annotations = [] ∧ r.data.messageEvents = [] ∧ r.data.links = []
  attrs : s.attrs = r.attrs
  annotations : QRel (itemAnn h) h (.queue i .annotations) s.annotations r.annotations
  messageEvents : QRel itemMsg h (.queue i .messageEvents) s.messageEvents r.messageEvents
  links : QRel (itemLink maps pm u) h (.queue i .links) s.links r.links

def attrsRel (h : Heap) : Option Addr → GoMap Bytes AttrVal → Prop
  | none, m => m = []
  | some a, m => h[a]? = some ⟨.lib, .map m⟩

def annsRel (h : Heap) : Option Addr → List Annotation → Prop
  | none, l => l = []
  | some a, l => ∃ xs, h[a]? = some ⟨.lib, .annotations xs⟩ ∧ List.Forall₂ (annRel h) xs l

def msgsRel (h : Heap) : Option Addr → List MessageEvent → Prop
  | none, l => l = []
  | some a, l => h[a]? = some ⟨.lib, .messageEvents l⟩

def linksRel (h : Heap) (maps : List Addr) (pm : List (GoMap Bytes AttrVal)) (u : Nat → Prop) : Option Addr → List Link → Prop
  | none, l => l = []
  | some a, l => ∃ xs, h[a]? = some ⟨.lib, .links xs⟩ ∧ List.Forall₂ (linkRel maps pm u) xs l

structure DataRel (h : Heap) (maps : List Addr) (pm : List (GoMap Bytes AttrVal)) (u : Nat → Prop) (d : HData) (sd : SpanData) :
    Prop where
  base : sd = { d.base with attributes := sd.attributes, annotations := sd.annotations, messageEvents := sd.messageEvents, links := sd.links }
  attributes : attrsRel h d.attributes sd.attributes
  annotations : annsRel h d.annotations sd.annotations
  messageEvents : msgsRel h d.messageEvents sd.messageEvents
  links : linksRel h maps pm u d.links sd.links

/-- `w k`: the caller may write to its map `k`. -/
structure StRel (w u : Nat → Prop) (st : State) (p : Spec) : Prop where
  len : st.spans.length = p.spans.length
  spans : ∀ i s r, st.spans[i]? = some s → p.spans[i]? = some r → SpanRel st.heap st.maps p.maps u i s r
  made : List.Forall₂ (DataRel st.heap st.maps p.maps u) st.made p.made
  mapsLen : st.maps.length = p.maps.length
  maps : ∀ k a, st.maps[k]? = some a → ∃ m, st.heap[a]? = some ⟨.caller k, .map m⟩ ∧ (¬ w k → p.maps[k]? = some m)

/-- What may happen around a span or data: cells of another owner change, the caller makes maps. -/
structure Grow (t : Tag) (h h' : Heap) (maps maps' : List Addr) (pm pm' : List (GoMap Bytes AttrVal)) : Prop where
  ext : Ext t h h'
  lib : t ≠ .lib
  maps : ∀ (k : Nat) (a : Addr), maps[k]? = some a → maps'[k]? = some a
  pm : ∀ (k : Nat) (m : GoMap Bytes AttrVal), pm[k]? = some m → pm'[k]? = some m

variable {maps maps' : List Addr} {pm pm' : List (GoMap Bytes AttrVal)} {w u : Nat → Prop}

theorem Grow.same (e : Ext t h h') (n : t ≠ .lib) : Grow t h h' maps maps pm pm := ⟨e, n, fun _ _ x => x, fun _ _ x => x⟩

theorem Grow.mapRel (g : Grow t h h' maps maps' pm pm') {a m} (r : mapRel h a m) : mapRel h' a m := by
  cases a <;> cases m <;> simp only [Mem.mapRel] at r ⊢
  exact g.ext _ _ r (Ne.symm g.lib)

theorem Grow.annRel (g : Grow t h h' maps maps' pm pm') {x y} (r : annRel h x y) : annRel h' x y :=
  ⟨r.1, r.2.1, g.mapRel r.2.2⟩

theorem Grow.itemAnn (g : Grow t h h' maps maps' pm pm') {x y} (r : itemAnn h x y) : itemAnn h' x y :=
  r.imp fun _ r => ⟨r.1, g.annRel r.2⟩

theorem Grow.linkRel (g : Grow t h h' maps maps' pm pm') {x y} (r : linkRel maps pm u x y) : linkRel maps' pm' u x y := by
  refine ⟨r.1, r.2.1, r.2.2.1, ?_⟩
  have := r.2.2.2
  cases hx : x.attributes <;> cases hy : y.attributes <;> simp only [hx, hy, linkMapRel] at this ⊢
  obtain ⟨k, hu, h1, h2⟩ := this
  exact ⟨k, hu, g.maps _ _ h1, g.pm _ _ h2⟩

theorem Grow.itemLink (g : Grow t h h' maps maps' pm pm') {x y} (r : itemLink maps pm u x y) : itemLink maps' pm' u x y :=
  r.imp fun _ r => ⟨r.1, g.linkRel r.2⟩

theorem Grow.dataRel (g : Grow t h h' maps maps' pm pm') {d sd} (r : DataRel h maps pm u d sd) : DataRel h' maps' pm' u d sd := by
  have hl := Ne.symm g.lib
  refine ⟨r.base, ?_, ?_, ?_, ?_⟩
  · have := r.attributes
    cases hd : d.attributes <;> simp only [hd, attrsRel] at this ⊢
    · exact this
    · exact g.ext _ _ this hl
  · have := r.annotations
    cases hd : d.annotations <;> simp only [hd, annsRel] at this ⊢
    · exact this
    · obtain ⟨xs, h1, h2⟩ := this
      exact ⟨xs, g.ext _ _ h1 hl, h2.imp fun _ _ => g.annRel⟩
  · have := r.messageEvents
    cases hd : d.messageEvents <;> simp only [hd, msgsRel] at this ⊢
    · exact this
    · exact g.ext _ _ this hl
  · have := r.links
    cases hd : d.links <;> simp only [hd, linksRel] at this ⊢
    · exact this
    · obtain ⟨xs, h1, h2⟩ := this
      exact ⟨xs, g.ext _ _ h1 hl, h2.imp fun _ _ => g.linkRel⟩

/-- A span none of whose queues is the owner of what changes. -/
theorem Grow.spanRel (g : Grow t h h' maps maps' pm pm') {i s r} (n : ∀ k, t ≠ .queue i k) (x : SpanRel h maps pm u i s r) :
    SpanRel h' maps' pm' u i s r :=
  ⟨x.data, x.empty, x.attrs, x.annotations.mono g.ext (Ne.symm (n _)) fun _ _ => g.itemAnn,
    x.messageEvents.mono g.ext (Ne.symm (n _)) fun _ _ r => r, x.links.mono g.ext (Ne.symm (n _)) fun _ _ => g.itemLink⟩

/-- Span `i` becomes `s'`, what else there is stays. -/
theorem StRel.set {st : State} {p : Spec} (R : StRel w u st p) {i : Nat} {t : Tag} {h' : Heap} {s' : HSpan} {r' : Rec}
    (e : Ext t st.heap h') (ht : ∃ k, t = .queue i k)
    (x : SpanRel h' st.maps p.maps u i s' r') :
    StRel w u { st with heap := h', spans := st.spans.set i s' } { p with spans := p.spans.set i r' } := by
  obtain ⟨k', rfl⟩ := ht
  have g : Grow (.queue i k') st.heap h' st.maps st.maps p.maps p.maps := Grow.same e (by simp)
  refine ⟨by simp [R.len], ?_, R.made.imp fun _ _ => g.dataRel, R.mapsLen, ?_⟩
  · intro j s r hs hr
    by_cases hj : i = j
    · subst hj
      obtain ⟨hlt, -⟩ := List.getElem?_eq_some_iff.mp hs
      obtain ⟨hlt', -⟩ := List.getElem?_eq_some_iff.mp hr
      simp only [List.length_set] at hlt hlt'
      simp only [List.getElem?_set_self hlt, List.getElem?_set_self hlt', Option.some.injEq] at hs hr
      subst hs hr
      exact x
    · simp only [List.getElem?_set_ne hj] at hs hr
      refine g.spanRel ?_ (R.spans j s r hs hr)
      intro k hk
      cases hk; exact hj rfl
  · intro k a hk
    obtain ⟨m, h1, h2⟩ := R.maps k a hk
    exact ⟨m, e _ _ h1 (by simp), h2⟩

/-- The span of the model and the one of the specification. -/
theorem StRel.both {st : State} {p : Spec} (R : StRel w u st p) (i : Nat) :
    (st.spans[i]? = none ∧ p.spans[i]? = none) ∨
    ∃ s r, st.spans[i]? = some s ∧ p.spans[i]? = some r ∧ SpanRel st.heap st.maps p.maps u i s r := by
  cases hs : st.spans[i]? with
  | none =>
    left
    refine ⟨rfl, ?_⟩
    rw [List.getElem?_eq_none_iff] at hs ⊢
    rw [← R.len]; exact hs
  | some s =>
    right
    have hlt := (List.getElem?_eq_some_iff.mp hs).1
    rw [R.len] at hlt
    exact ⟨s, _, rfl, List.getElem?_eq_getElem hlt, R.spans i s _ hs (List.getElem?_eq_getElem hlt)⟩

/-! ## Making the data -/

theorem asAnnotations_rel {l : List Item} {ys : List Annotation} (f : List.Forall₂ (itemAnn h) l ys) :
    ∃ xs, asAnnotations (l.map some) = .ok xs ∧ List.Forall₂ (annRel h) xs ys := by
  induction f with
  | nil => exact ⟨[], rfl, .nil⟩
  | cons h1 _ ih =>
    obtain ⟨x, rfl, hx⟩ := h1
    obtain ⟨xs, e, hf⟩ := ih
    exact ⟨x :: xs, by simp [asAnnotations, e, Res.bind], .cons hx hf⟩

theorem asMessageEvents_rel {l : List Item} {ys : List MessageEvent} (f : List.Forall₂ itemMsg l ys) :
    asMessageEvents (l.map some) = .ok ys := by
  induction f with
  | nil => rfl
  | cons h1 _ ih =>
    rw [itemMsg] at h1
    subst h1
    simp [asMessageEvents, ih, Res.bind]

theorem asLinks_rel {l : List Item} {ys : List Link} (f : List.Forall₂ (itemLink maps pm u) l ys) :
    ∃ xs, asLinks (l.map some) = .ok xs ∧ List.Forall₂ (linkRel maps pm u) xs ys := by
  induction f with
  | nil => exact ⟨[], rfl, .nil⟩
  | cons h1 _ ih =>
    obtain ⟨x, rfl, hx⟩ := h1
    obtain ⟨xs, e, hf⟩ := ih
    exact ⟨x :: xs, by simp [asLinks, e, Res.bind], .cons hx hf⟩

def New (h h' : Heap) : Prop := ∀ t, Ext t h h'

theorem New.append (h : Heap) (c : Cell) : New h (h ++ [c]) := fun _ => Ext.append _ _ _

theorem New.trans {h h' h'' : Heap} (a : New h h') (b : New h' h'') : New h h'' := fun t => (a t).trans (b t)

theorem New.grow (n : New h h') : Grow (.caller 0) h h' maps maps pm pm := Grow.same (n _) (by simp)

theorem New.spanRel (n : New h h') {i s r} (x : SpanRel h maps pm u i s r) : SpanRel h' maps pm u i s r :=
  n.grow.spanRel (by simp) x

variable {d : HData} {sd : SpanData}

theorem stageAnnotations {q : HQueue} {pq : EvictedQueue Annotation} (x : QRel (itemAnn h) h t q pq) (D : DataRel h maps pm u d sd) :
    ∃ h' d', (if q.len > 0 then (asAnnotations (q.slots h)).bind fun xs =>
        Res.ok (h ++ [⟨.lib, .annotations xs⟩], { d with
          annotations := some h.length, base := { d.base with droppedAnnotations := q.droppedCount } })
      else .ok (h, d)) = .ok (h', d') ∧ New h h' ∧ DataRel h' maps pm u d'
        (if pq.queue.length > 0 then { sd with annotations := pq.queue, droppedAnnotations := pq.droppedCount } else sd) := by
  rw [← x.length]
  by_cases hz : q.len > 0
  · simp only [if_pos hz]
    obtain ⟨l, hl, hf⟩ := x.items
    obtain ⟨xs, e, hf'⟩ := asAnnotations_rel hf
    refine ⟨_, _, by rw [hl, e]; rfl, New.append _ _, ?_⟩
    have g : Grow (.caller 0) h (h ++ [(⟨.lib, .annotations xs⟩ : Cell)]) maps maps pm pm := (New.append _ _).grow
    have D' := g.dataRel D
    refine ⟨?_, D'.attributes, ⟨xs, get_new _ _, hf'.imp fun _ _ => g.annRel⟩, D'.messageEvents, D'.links⟩
    have hb := D.base
    cases sd
    cases hb
    simp [x.dropped]
  · simp only [if_neg hz]
    exact ⟨_, _, rfl, fun t => Ext.refl t _, D⟩

theorem stageMessageEvents {q : HQueue} {pq : EvictedQueue MessageEvent} (x : QRel itemMsg h t q pq) (D : DataRel h maps pm u d sd) :
    ∃ h' d', (if q.len > 0 then (asMessageEvents (q.slots h)).bind fun xs =>
        Res.ok (h ++ [⟨.lib, .messageEvents xs⟩], { d with
          messageEvents := some h.length, base := { d.base with droppedMessageEvents := q.droppedCount } })
      else .ok (h, d)) = .ok (h', d') ∧ New h h' ∧ DataRel h' maps pm u d'
        (if pq.queue.length > 0 then { sd with messageEvents := pq.queue, droppedMessageEvents := pq.droppedCount } else sd) := by
  rw [← x.length]
  by_cases hz : q.len > 0
  · simp only [if_pos hz]
    obtain ⟨l, hl, hf⟩ := x.items
    refine ⟨_, _, by rw [hl, asMessageEvents_rel hf]; rfl, New.append _ _, ?_⟩
    have g : Grow (.caller 0) h (h ++ [(⟨.lib, .messageEvents pq.queue⟩ : Cell)]) maps maps pm pm := (New.append _ _).grow
    have D' := g.dataRel D
    refine ⟨?_, D'.attributes, D'.annotations, get_new _ _, D'.links⟩
    have hb := D.base
    cases sd
    cases hb
    simp [x.dropped]
  · simp only [if_neg hz]
    exact ⟨_, _, rfl, fun t => Ext.refl t _, D⟩

theorem stageLinks {q : HQueue} {pq : EvictedQueue Link} (x : QRel (itemLink maps pm u) h t q pq) (D : DataRel h maps pm u d sd) :
    ∃ h' d', (if q.len > 0 then (asLinks (q.slots h)).bind fun xs =>
        Res.ok (h ++ [⟨.lib, .links xs⟩], { d with
          links := some h.length, base := { d.base with droppedLinks := q.droppedCount } })
      else .ok (h, d)) = .ok (h', d') ∧ New h h' ∧ DataRel h' maps pm u d'
        (if pq.queue.length > 0 then { sd with links := pq.queue, droppedLinks := pq.droppedCount } else sd) := by
  rw [← x.length]
  by_cases hz : q.len > 0
  · simp only [if_pos hz]
    obtain ⟨l, hl, hf⟩ := x.items
    obtain ⟨xs, e, hf'⟩ := asLinks_rel hf
    refine ⟨_, _, by rw [hl, e]; rfl, New.append _ _, ?_⟩
    have g : Grow (.caller 0) h (h ++ [(⟨.lib, .links xs⟩ : Cell)]) maps maps pm pm := (New.append _ _).grow
    have D' := g.dataRel D
    refine ⟨?_, D'.attributes, D'.annotations, D'.messageEvents, ⟨xs, get_new _ _, hf'.imp fun _ _ => g.linkRel⟩⟩
    have hb := D.base
    cases sd
    cases hb
    simp [x.dropped]
  · simp only [if_neg hz]
    exact ⟨_, _, rfl, fun t => Ext.refl t _, D⟩

theorem bind_ok {α β : Type} {x : Res α} {a : α} {f : α → Res β} {y : Res β} (e : x = .ok a) (e' : f a = y) : x.bind f = y := by
  subst e; exact e'

theorem makeSpanData_rel {i : Nat} {s : HSpan} {r : Rec} (x : SpanRel h maps pm u i s r) (order : List Bytes) :
    (∃ h' s' d r' sd, Mem.makeSpanData h s order = .ok (h', s', d) ∧ r.makeSpanData order = .ok (r', sd) ∧ New h h' ∧
      SpanRel h' maps pm u i s' r' ∧ DataRel h' maps pm u d sd) ∨
    (Mem.makeSpanData h s order = .err ∧ r.makeSpanData order = .err) := by
  unfold Mem.makeSpanData Rec.makeSpanData
  rw [x.attrs]
  by_cases ho : (!(order.isPerm (GoMap.keys r.attrs.cacheKeys))) = true
  · simp [ho]
  left
  simp only [ho, Bool.false_eq_true, if_false]
  have fin : ∀ (h1 : Heap) (s1 : HSpan) (r1 : Rec) (d1 : HData) (sd1 : SpanData), New h h1 → SpanRel h1 maps pm u i s1 r1 →
      DataRel h1 maps pm u d1 sd1 → ∃ h' d',
      ((if s1.annotations.len > 0 then (asAnnotations (s1.annotations.slots h1)).bind fun xs =>
        .ok (h1 ++ [⟨.lib, .annotations xs⟩], { d1 with
          annotations := some h1.length, base := { d1.base with droppedAnnotations := s1.annotations.droppedCount } })
      else .ok (h1, d1)).bind fun (h, d) =>
    (if s1.messageEvents.len > 0 then (asMessageEvents (s1.messageEvents.slots h)).bind fun xs =>
        .ok (h ++ [⟨.lib, .messageEvents xs⟩], { d with
          messageEvents := some h.length, base := { d.base with droppedMessageEvents := s1.messageEvents.droppedCount } })
      else .ok (h, d)).bind fun (h, d) =>
    (if s1.links.len > 0 then (asLinks (s1.links.slots h)).bind fun xs =>
        .ok (h ++ [⟨.lib, .links xs⟩], { d with
          links := some h.length, base := { d.base with droppedLinks := s1.links.droppedCount } })
      else .ok (h, d)).bind fun (h, d) => Res.ok (h, s1, d)) = .ok (h', s1, d') ∧ New h h' ∧ SpanRel h' maps pm u i s1 r1 ∧
      DataRel h' maps pm u d'
        (let sd := if r1.annotations.queue.length > 0 then
          { sd1 with annotations := r1.annotations.queue, droppedAnnotations := r1.annotations.droppedCount } else sd1
        let sd := if r1.messageEvents.queue.length > 0 then
          { sd with messageEvents := r1.messageEvents.queue, droppedMessageEvents := r1.messageEvents.droppedCount } else sd
        if r1.links.queue.length > 0 then
          { sd with links := r1.links.queue, droppedLinks := r1.links.droppedCount } else sd) := by
    intro h1 s1 r1 d1 sd1 n1 x1 D1
    obtain ⟨h2, d2, e2, n2, D2⟩ := stageAnnotations x1.annotations D1
    have x2 := n2.spanRel x1
    obtain ⟨h3, d3, e3, n3, D3⟩ := stageMessageEvents x2.messageEvents D2
    have x3 := n3.spanRel x2
    obtain ⟨h4, d4, e4, n4, D4⟩ := stageLinks x3.links D3
    exact ⟨h4, d4, bind_ok e2 (bind_ok e3 (bind_ok e4 rfl)), ((n1.trans n2).trans n3).trans n4, n4.spanRel x3, D4⟩
  by_cases ha : r.attrs.len > 0
  · simp only [ha, if_true]
    have n1 : New h (h ++ [(⟨.lib, .map (r.attrs.toAttributeMap order).2⟩ : Cell)]) := New.append _ _
    have x1 := n1.spanRel x
    obtain ⟨h', d', e, n, x', D⟩ := fin _ { s with attrs := (r.attrs.toAttributeMap order).1 }
      { r with attrs := (r.attrs.toAttributeMap order).1 }
      ⟨{ s.data with droppedAttributes := (r.attrs.toAttributeMap order).1.droppedCount }, some h.length, none, none, none⟩
      { r.data with attributes := (r.attrs.toAttributeMap order).2, droppedAttributes := (r.attrs.toAttributeMap order).1.droppedCount }
      n1 ⟨x1.data, x1.empty, rfl, x1.annotations, x1.messageEvents, x1.links⟩
      ⟨by simp [x.data], get_new _ _, x.empty.2.1, x.empty.2.2.1, x.empty.2.2.2⟩
    exact ⟨h', _, d', _, _, e, rfl, n, x', D⟩
  · simp only [ha, if_false]
    obtain ⟨h', d', e, n, x', D⟩ := fin h s r ⟨s.data, none, none, none, none⟩ r.data (fun t => Ext.refl t _) x
      ⟨by simp [x.data], x.empty.1, x.empty.2.1, x.empty.2.2.1, x.empty.2.2.2⟩
    exact ⟨h', _, d', _, _, e, rfl, n, x', D⟩

/-! ## Steps -/

/-- What a step from `st` to `st'` leaves. -/
structure Leaves (op : Op) (st st' : State) : Prop where
  heap : ∃ t, t ≠ .lib ∧ Ext t st.heap st'.heap ∧ ∀ k, t = .caller k → writes k [op]
  made : ∃ l, st'.made = st.made ++ l

/-- Two results agree: both are states that agree, or both are no execution, or both panic. -/
def ResRel (w u : Nat → Prop) (op : Op) (st : State) (p : Spec) : Res State → Res Spec → Prop
  | .ok st', .ok p' => StRel w u st' p' ∧ Leaves op st st' ∧ ∃ l, p'.made = p.made ++ l
  | .err, .err => True
  | .panic, .panic => True
  | _, _ => False

theorem resRel_on {st : State} {p : Spec} (R : StRel w u st p) (op : Op) (i : Nat) (f : HSpan → HSpan) (g : Rec → Res Rec)
    (hg : ∀ s r, SpanRel st.heap st.maps p.maps u i s r → ∃ r', g r = .ok r' ∧ SpanRel st.heap st.maps p.maps u i (f s) r') :
    ResRel w u op st p (match st.spans[i]? with
      | none => .err
      | some s => .ok { st with spans := st.spans.set i (f s) }) (p.on i g) := by
  rcases R.both i with ⟨h1, h2⟩ | ⟨s, r, h1, h2, x⟩
  · simp only [h1, Spec.on, h2, ResRel]
  · obtain ⟨r', e, x'⟩ := hg s r x
    simp only [h1, Spec.on, h2, e, Res.bind, ResRel]
    refine ⟨R.set (Ext.refl (.queue i .links) _) ⟨_, rfl⟩ x', ⟨⟨.queue i .links, by simp, Ext.refl _ _, by simp⟩, [], by simp⟩, [], by simp⟩

theorem itemLink_new {st : State} {p : Spec} (R : StRel w u st p) {k : Nat} (hu : u k) (tid sid : Bytes) (ty : Int) :
    (st.maps[k]? = none ∧ p.maps[k]? = none) ∨ ∃ a m, st.maps[k]? = some a ∧ p.maps[k]? = some m ∧
      itemLink st.maps p.maps u (.link ⟨tid, sid, ty, some a⟩) ⟨tid, sid, ty, some m⟩ := by
  cases hk : st.maps[k]? with
  | none =>
    left
    refine ⟨rfl, ?_⟩
    rw [List.getElem?_eq_none_iff] at hk ⊢
    rw [← R.mapsLen]; exact hk
  | some a =>
    right
    have hlt := (List.getElem?_eq_some_iff.mp hk).1
    rw [R.mapsLen] at hlt
    exact ⟨a, _, rfl, List.getElem?_eq_getElem hlt, _, rfl, rfl, rfl, rfl, k, hu, hk, List.getElem?_eq_getElem hlt⟩

theorem addLink_rel {st : State} {p : Spec} (R : StRel w u st p) {i : Nat} {s : HSpan} {r : Rec} (op : Op)
    (h1 : st.spans[i]? = some s) (h2 : p.spans[i]? = some r)
    (x : SpanRel st.heap st.maps p.maps u i s r) {a : HLink} {b : Link} (hab : itemLink st.maps p.maps u (.link a) b) (spare : Nat) :
    ResRel w u op st p ((s.links.add st.heap (.queue i .links) (.link a) spare).bind
        fun (h, q) => .ok { st with heap := h, spans := st.spans.set i { s with links := q } }) (p.on i (Rec.addLink b)) := by
  simp only [Spec.on, h2, Rec.addLink]
  rcases add_rel x.links hab spare with ⟨h', q', pq', e1, e2, ex, qr⟩ | ⟨e1, e2⟩
  · simp only [e1, e2, Res.bind, ResRel]
    have g : Grow (.queue i .links) st.heap h' st.maps st.maps p.maps p.maps := Grow.same ex (by simp)
    refine ⟨R.set ex ⟨_, rfl⟩ ⟨x.data, x.empty, x.attrs, x.annotations.mono ex (by simp) fun _ _ => g.itemAnn,
      x.messageEvents.mono ex (by simp) fun _ _ r => r, qr⟩, ⟨⟨_, by simp, ex, by simp⟩, [], by simp⟩, [], by simp⟩
  · simp only [e1, e2, Res.bind, ResRel]

theorem step_rel {st : State} {p : Spec} (R : StRel w u st p) (op : Op) (hw : ∀ k, writes k [op] → w k)
    (hu : ∀ k, linked k [op] → u k) : ResRel w u op st p (step st op) (p.step op) := by
  cases op with
  | start sc now kind name remote hasParent parent a n m l =>
    refine ⟨⟨by simp [R.len], ?_, R.made, R.mapsLen, R.maps⟩,
      ⟨⟨.queue 0 .links, by simp, Ext.refl _ _, by simp⟩, [], by simp⟩, [], by simp⟩
    intro i s r hs hr
    simp only at hs hr
    by_cases hi : i < st.spans.length
    · rw [List.getElem?_append_left hi] at hs
      rw [List.getElem?_append_left (R.len ▸ hi)] at hr
      exact R.spans i s r hs hr
    · have hi' : i = st.spans.length := by
        have := (List.getElem?_eq_some_iff.mp hs).1
        simp at this
        omega
      subst hi'
      rw [R.len] at hr
      simp only [List.getElem?_concat_length, Option.some.injEq] at hs hr
      subst hs hr
      have q0 : ∀ {α : Type} (rel : Item → α → Prop) (t : Tag) (c : Int), QRel rel st.heap t (.new c) (EvictedQueue.new c) := by
        intro α rel t c
        exact ⟨rfl, rfl, fun _ => rfl, by simp [HQueue.new], [], by simp [HQueue.slots, HQueue.new], .nil⟩
      exact ⟨rfl, ⟨rfl, rfl, rfl, rfl⟩, rfl, q0 _ _ _, q0 _ _ _, q0 _ _ _⟩
  | setName i name =>
    refine resRel_on R _ i (fun s => { s with data := { s.data with name := name } }) _ fun s r x => ⟨_, rfl, ?_⟩
    exact ⟨by simp [x.data], x.empty, x.attrs, x.annotations, x.messageEvents, x.links⟩
  | setStatus i y =>
    refine resRel_on R _ i (fun s => { s with data := { s.data with status := y } }) _ fun s r x => ⟨_, rfl, ?_⟩
    exact ⟨by simp [x.data], x.empty, x.attrs, x.annotations, x.messageEvents, x.links⟩
  | addChild i =>
    refine resRel_on R _ i (fun s => { s with data := { s.data with childSpanCount := wrap64 (s.data.childSpanCount + 1) } }) _
      fun s r x => ⟨_, rfl, ?_⟩
    exact ⟨by simp [x.data], x.empty, x.attrs, x.annotations, x.messageEvents, x.links⟩
  | addAttributes i l =>
    refine resRel_on R _ i (fun s => { s with attrs := l.foldl (fun m a => m.add a.key a.value) s.attrs }) _
      fun s r x => ⟨_, rfl, ?_⟩
    exact ⟨x.data, x.empty, by simp [x.attrs], x.annotations, x.messageEvents, x.links⟩
  | annotate i now l msg spare =>
    simp only [step, Spec.step]
    rcases R.both i with ⟨h1, h2⟩ | ⟨s, r, h1, h2, x⟩
    · simp only [h1, Spec.on, h2, ResRel]
    · simp only [h1, Spec.on, h2, Rec.annotate]
      obtain ⟨h0, am, e0, n0, hm⟩ : ∃ h0 am, annotationMap st.heap l = (h0, am) ∧ New st.heap h0 ∧ mapRel h0 am (attrMap l) := by
        unfold annotationMap
        cases attrMap l with
        | none => exact ⟨_, _, rfl, fun t => Ext.refl t _, trivial⟩
        | some m => exact ⟨_, _, rfl, New.append _ _, get_new _ _⟩
      have x0 := n0.spanRel x
      simp only [e0]
      rcases add_rel (v := .annotation ⟨now, msg, am⟩) (w := ⟨now, msg, attrMap l⟩) x0.annotations ⟨_, rfl, rfl, rfl, hm⟩ spare
        with ⟨h', q', pq', e1, e2, ex, qr⟩ | ⟨e1, e2⟩
      · simp only [e1, e2, Res.bind, ResRel]
        have g : Grow (.queue i .annotations) h0 h' st.maps st.maps p.maps p.maps := Grow.same ex (by simp)
        refine ⟨R.set ((n0 _).trans ex) ⟨_, rfl⟩ ⟨x0.data, x0.empty, x0.attrs, ?_,
          x0.messageEvents.mono ex (by simp) fun _ _ r => r, x0.links.mono ex (by simp) fun _ _ r => r⟩,
          ⟨⟨_, by simp, (n0 _).trans ex, by simp⟩, [], by simp⟩, [], by simp⟩
        exact qr.mono (Ext.refl (.caller 0) _) (by simp) fun _ _ => g.itemAnn
      · simp only [e1, e2, Res.bind, ResRel]
  | addMessageEvent i now t id un co spare =>
    simp only [step, Spec.step]
    rcases R.both i with ⟨h1, h2⟩ | ⟨s, r, h1, h2, x⟩
    · simp only [h1, Spec.on, h2, ResRel]
    · simp only [h1, Spec.on, h2, Rec.addMessageEvent]
      rcases add_rel (v := .messageEvent ⟨now, t, id, un, co⟩) (w := ⟨now, t, id, un, co⟩) x.messageEvents rfl spare
        with ⟨h', q', pq', e1, e2, ex, qr⟩ | ⟨e1, e2⟩
      · simp only [e1, e2, Res.bind, ResRel]
        have g : Grow (.queue i .messageEvents) st.heap h' st.maps st.maps p.maps p.maps := Grow.same ex (by simp)
        exact ⟨R.set ex ⟨_, rfl⟩ ⟨x.data, x.empty, x.attrs, x.annotations.mono ex (by simp) fun _ _ => g.itemAnn, qr,
          x.links.mono ex (by simp) fun _ _ r => r⟩, ⟨⟨_, by simp, ex, by simp⟩, [], by simp⟩, [], by simp⟩
      · simp only [e1, e2, Res.bind, ResRel]
  | addLink i tid sid ty k spare =>
    simp only [step, Spec.step]
    cases k with
    | none =>
      rcases R.both i with ⟨h1, h2⟩ | ⟨s, r, h1, h2, x⟩
      · simp only [h1, Option.map_none, Spec.on, h2, ResRel]
      · simp only [h1, Option.map_none]
        exact addLink_rel R _ h1 h2 x (a := ⟨tid, sid, ty, none⟩) (b := ⟨tid, sid, ty, none⟩) ⟨_, rfl, rfl, rfl, rfl, trivial⟩ spare
    | some k =>
      have huk : u k := hu k ⟨_, _, _, _, _, List.mem_singleton.mpr rfl⟩
      rcases itemLink_new R huk tid sid ty with ⟨m1, m2⟩ | ⟨a, m, m1, m2, hi⟩
      · simp only [Option.map_some, m1, m2]
        cases st.spans[i]? <;> simp only [ResRel]
      · simp only [Option.map_some, m1, m2]
        rcases R.both i with ⟨h1, h2⟩ | ⟨s, r, h1, h2, x⟩
        · simp only [h1, Spec.on, h2, ResRel]
        · simp only [h1]
          exact addLink_rel R _ h1 h2 x hi spare
  | makeSpanData i order endTime =>
    simp only [step, Spec.step]
    rcases R.both i with ⟨h1, h2⟩ | ⟨s, r, h1, h2, x⟩
    · simp only [h1, h2, ResRel]
    · simp only [h1, h2]
      rcases makeSpanData_rel x order with ⟨h', s', d, r', sd, e1, e2, n, x', D⟩ | ⟨e1, e2⟩
      · simp only [e1, e2, Res.bind, ResRel]
        have R' := R.set (n (.queue i .links)) ⟨_, rfl⟩ x'
        refine ⟨⟨R'.len, R'.spans, ?_, R'.mapsLen, R'.maps⟩, ⟨⟨.queue i .links, by simp, n _, by simp⟩, _, rfl⟩, _, rfl⟩
        refine List.rel_append R'.made (.cons ⟨?_, D.attributes, D.annotations, D.messageEvents, D.links⟩ .nil)
        have hb := D.base
        cases sd
        cases hb
        rfl
      · simp only [e1, e2, Res.bind, ResRel]
  | newMap m =>
    have g : Grow (.queue 0 .links) st.heap (st.heap ++ [(⟨.caller st.maps.length, .map m⟩ : Cell)]) st.maps (st.maps ++ [st.heap.length])
        p.maps (p.maps ++ [m]) := by
      refine ⟨Ext.append _ _ _, by simp, ?_, ?_⟩
      · intro k a hk
        rw [List.getElem?_append_left (List.getElem?_eq_some_iff.mp hk).1, hk]
      · intro k a hk
        rw [List.getElem?_append_left (List.getElem?_eq_some_iff.mp hk).1, hk]
    have g' : Grow (.caller 0) st.heap (st.heap ++ [(⟨.caller st.maps.length, .map m⟩ : Cell)]) st.maps (st.maps ++ [st.heap.length])
        p.maps (p.maps ++ [m]) := ⟨Ext.append _ _ _, by simp, g.maps, g.pm⟩
    refine ⟨⟨R.len, fun i s r hs hr => g'.spanRel (by simp) (R.spans i s r hs hr), R.made.imp fun _ _ => g.dataRel,
      by simp [R.mapsLen], ?_⟩, ⟨⟨_, by simp, g.ext, by simp⟩, [], by simp⟩, [], by simp⟩
    intro k a hk
    simp only at hk
    by_cases hlt : k < st.maps.length
    · rw [List.getElem?_append_left hlt] at hk
      obtain ⟨m', h1, h2⟩ := R.maps k a hk
      exact ⟨m', get_append h1, fun hn => g.pm _ _ (h2 hn)⟩
    · have : k = st.maps.length := by
        have := (List.getElem?_eq_some_iff.mp hk).1
        simp at this
        omega
      subst this
      simp only [List.getElem?_concat_length, Option.some.injEq] at hk
      subst hk
      refine ⟨m, get_new _ _, fun _ => ?_⟩
      rw [R.mapsLen]
      simp
  | write k key v =>
    simp only [step, Spec.step]
    have hwk : w k := hw k ⟨_, _, List.mem_singleton.mpr rfl⟩
    cases hk : st.maps[k]? with
    | none =>
      rw [List.getElem?_eq_none_iff, R.mapsLen] at hk
      rw [if_neg (by omega)]
      trivial
    | some a =>
      have hlt := (List.getElem?_eq_some_iff.mp hk).1
      rw [R.mapsLen] at hlt
      obtain ⟨m, h1, -⟩ := R.maps k a hk
      simp only [h1, if_pos hlt, ResRel]
      have ex : Ext (.caller k) st.heap (st.heap.set a ⟨.caller k, .map (GoMap.set m key v)⟩) := Ext.set h1 rfl
      have g : Grow (.caller k) st.heap _ st.maps st.maps p.maps p.maps := Grow.same ex (by simp)
      refine ⟨⟨R.len, fun i s r hs hr => g.spanRel (by simp) (R.spans i s r hs hr), R.made.imp fun _ _ => g.dataRel, R.mapsLen, ?_⟩,
        ⟨⟨_, by simp, ex, ?_⟩, [], by simp⟩, [], by simp⟩
      · intro k' a' hk'
        obtain ⟨m', h1', h2'⟩ := R.maps k' a' hk'
        by_cases hkk : k' = k
        · subst hkk
          rw [hk] at hk'
          cases hk'
          exact ⟨_, get_set h1, fun hn => absurd hwk hn⟩
        · exact ⟨m', ex _ _ h1' (by simp [hkk]), h2'⟩
      · intro k' hk'
        cases hk'
        exact ⟨_, _, List.mem_singleton.mpr rfl⟩

/-! ## Runs -/

/-- Cells of data, and of the caller's maps with `K`, stay. -/
def Kept (K : Nat → Prop) (h h' : Heap) : Prop :=
  ∀ (a : Addr) (c : Cell), h[a]? = some c → (c.tag = .lib ∨ ∃ k, c.tag = .caller k ∧ K k) → h'[a]? = some c

structure RunsTo (w u : Nat → Prop) (ops : List Op) (st : State) (p : Spec) (st' : State) (p' : Spec) : Prop where
  rel : StRel w u st' p'
  kept : Kept (fun k => ¬ writes k ops) st.heap st'.heap
  made : ∃ l, st'.made = st.made ++ l
  made' : ∃ l, p'.made = p.made ++ l

def RunRel (w u : Nat → Prop) (ops : List Op) (st : State) (p : Spec) : Res State → Res Spec → Prop
  | .ok st', .ok p' => RunsTo w u ops st p st' p'
  | .err, .err => True
  | .panic, .panic => True
  | _, _ => False

theorem run_rel (ops : List Op) : ∀ {st : State} {p : Spec}, StRel w u st p → (∀ k, writes k ops → w k) →
    (∀ k, linked k ops → u k) → RunRel w u ops st p (run st ops) (p.run ops) := by
  induction ops with
  | nil => exact fun R _ _ => ⟨R, fun _ _ e _ => e, ⟨[], by simp⟩, [], by simp⟩
  | cons op ops ih =>
    intro st p R hw hu
    have hs := step_rel R op (fun k ⟨key, v, hk⟩ => hw k ⟨key, v, by simp only [List.mem_singleton] at hk; simp [hk]⟩)
      (fun k ⟨i, a, b, c, d, hk⟩ => hu k ⟨i, a, b, c, d, by simp only [List.mem_singleton] at hk; simp [hk]⟩)
    unfold run Spec.run
    cases h1 : step st op <;> cases h2 : p.step op <;> simp only [h1, h2, ResRel, Res.bind, RunRel] at hs ⊢
    rename_i st1 p1
    obtain ⟨R1, L, l1, hl1⟩ := hs
    have hr := ih R1 (fun k ⟨key, v, hk⟩ => hw k ⟨key, v, List.mem_cons_of_mem _ hk⟩)
      (fun k ⟨i, a, b, c, d, hk⟩ => hu k ⟨i, a, b, c, d, List.mem_cons_of_mem _ hk⟩)
    cases h3 : run st1 ops <;> cases h4 : p1.run ops <;> simp only [h3, h4, RunRel] at hr ⊢
    obtain ⟨t, ht, ex, htw⟩ := L.heap
    obtain ⟨l2, hl2⟩ := L.made
    obtain ⟨l3, hl3⟩ := hr.made
    obtain ⟨l4, hl4⟩ := hr.made'
    refine ⟨hr.rel, ?_, ⟨l2 ++ l3, by rw [hl3, hl2, List.append_assoc]⟩, l1 ++ l4, by rw [hl4, hl1, List.append_assoc]⟩
    intro a c e hc
    refine hr.kept a c (ex a c e ?_) ?_
    · rintro rfl
      rcases hc with hc | ⟨k, hk, hn⟩
      · exact ht hc
      · obtain ⟨key, v, hm⟩ := htw k hk
        exact hn ⟨key, v, by simp only [List.mem_singleton] at hm; simp [hm]⟩
    · refine hc.imp id ?_
      rintro ⟨k, hk, hn⟩
      exact ⟨k, hk, fun ⟨key, v, hm⟩ => hn ⟨key, v, List.mem_cons_of_mem _ hm⟩⟩

theorem init_rel (w u : Nat → Prop) : StRel w u .init .init :=
  ⟨rfl, by simp [State.init], .nil, rfl, by simp [State.init]⟩

/-! ## What is seen -/

theorem seeAnnotations_rel {xs : List HAnnotation} {ys : List Annotation} (f : List.Forall₂ (annRel h) xs ys) :
    xs.mapM (seeAnnotation h) = some ys := by
  induction f with
  | nil => rfl
  | @cons x y xs ys h1 _ ih =>
    have : seeAnnotation h x = some y := by
      obtain ⟨a1, a2, a3⟩ := h1
      obtain ⟨t, m, at'⟩ := x
      obtain ⟨t', m', at''⟩ := y
      simp only at a1 a2 a3
      subst a1 a2
      cases at' <;> cases at'' <;> simp only [mapRel] at a3
      · rfl
      · simp [seeAnnotation, seeMap, a3]
    simp [this, ih]

theorem seeLinks_rel {xs : List HLink} {ys : List Link} (f : List.Forall₂ (linkRel maps pm u) xs ys)
    (hm : ∀ k a, maps[k]? = some a → ∃ m, h[a]? = some ⟨.caller k, .map m⟩ ∧ (¬ w k → pm[k]? = some m)) :
    ∃ zs, xs.mapM (seeLink h) = some zs ∧
      zs.map (fun l => { l with attributes := none }) = ys.map (fun l => { l with attributes := none }) ∧
      ((∀ k, u k → ¬ w k) → zs = ys) := by
  induction f with
  | nil => exact ⟨[], rfl, rfl, fun _ => rfl⟩
  | @cons x y xs ys h1 _ ih =>
    obtain ⟨zs, e, e1, e2⟩ := ih
    obtain ⟨a1, a2, a3, a4⟩ := h1
    obtain ⟨t, s, ty, at'⟩ := x
    obtain ⟨t', s', ty', at''⟩ := y
    simp only at a1 a2 a3 a4
    subst a1 a2 a3
    cases at' <;> cases at'' <;> simp only [linkMapRel] at a4
    · exact ⟨⟨t, s, ty, none⟩ :: zs, by simp [seeLink, seeMap, e], by simp [e1], fun hh => by rw [e2 hh]⟩
    · obtain ⟨k, hu, k1, k2⟩ := a4
      obtain ⟨m, m1, m2⟩ := hm k _ k1
      refine ⟨⟨t, s, ty, some m⟩ :: zs, by simp [seeLink, seeMap, m1, e], by simp [e1], fun hh => ?_⟩
      have := m2 (hh k hu)
      rw [k2] at this
      cases this
      rw [e2 hh]

theorem see_rel (D : DataRel h maps pm u d sd)
    (hm : ∀ k a, maps[k]? = some a → ∃ m, h[a]? = some ⟨.caller k, .map m⟩ ∧ (¬ w k → pm[k]? = some m)) :
    ∃ x, see h d = some x ∧ butLinkAttributes x = butLinkAttributes sd ∧ ((∀ k, u k → ¬ w k) → x = sd) := by
  obtain ⟨o1, e1, g1⟩ : ∃ o, seeMap h d.attributes = some o ∧ o.getD [] = sd.attributes := by
    have := D.attributes
    cases hd : d.attributes <;> simp only [hd, attrsRel] at this
    · exact ⟨none, rfl, by simp [this]⟩
    · exact ⟨some sd.attributes, by simp [seeMap, this], rfl⟩
  obtain ⟨zs, e4, g4, f4⟩ : ∃ zs, seeLinks h d.links = some zs ∧
      zs.map (fun l => { l with attributes := none }) = sd.links.map (fun l => { l with attributes := none }) ∧
      ((∀ k, u k → ¬ w k) → zs = sd.links) := by
    have := D.links
    cases hd : d.links <;> simp only [hd, linksRel] at this
    · exact ⟨[], rfl, by simp [this], fun _ => this.symm⟩
    · obtain ⟨xs, h1, h2⟩ := this
      simp only [seeLinks, seeAnnotations, h1]
      exact seeLinks_rel h2 hm
  have e2 : seeAnnotations h d.annotations = some sd.annotations := by
    have := D.annotations
    cases hd : d.annotations <;> simp only [hd, annsRel] at this
    · simp [seeAnnotations, this]
    · obtain ⟨xs, h1, h2⟩ := this
      simp only [seeLinks, seeAnnotations, h1]
      exact seeAnnotations_rel h2
  have e3 : seeMessageEvents h d.messageEvents = some sd.messageEvents := by
    have := D.messageEvents
    cases hd : d.messageEvents <;> simp only [hd, msgsRel] at this
    · simp [seeMessageEvents, this]
    · simp only [seeMessageEvents, this]
  unfold see
  rw [e1, e2, e3, e4]
  refine ⟨_, rfl, ?_, fun hh => ?_⟩
  · rw [D.base]
    simp only [butLinkAttributes, g1, g4]
  · rw [g1, f4 hh]
    exact D.base.symm

/-- Data whose link maps stay is seen the same. -/
theorem see_kept {K : Nat → Prop} (D : DataRel h maps pm u d sd) (hk : Kept K h h') (hu : ∀ k, u k → K k)
    (hm : ∀ k a, maps[k]? = some a → ∃ m, h[a]? = some ⟨.caller k, .map m⟩ ∧ (¬ w k → pm[k]? = some m)) :
    see h' d = see h d := by
  have lib : ∀ (a : Addr) (b : Body), h[a]? = some ⟨.lib, b⟩ → h'[a]? = some ⟨.lib, b⟩ := fun a b e => hk a _ e (.inl rfl)
  have e1 : seeMap h' d.attributes = seeMap h d.attributes := by
    have := D.attributes
    cases hd : d.attributes <;> simp only [hd, attrsRel] at this
    · rfl
    · simp [seeMap, this, lib _ _ this]
  have e2 : seeAnnotations h' d.annotations = seeAnnotations h d.annotations := by
    have := D.annotations
    cases hd : d.annotations <;> simp only [hd, annsRel] at this
    · rfl
    · obtain ⟨xs, h1, h2⟩ := this
      simp only [seeAnnotations, h1, lib _ _ h1]
      rw [seeAnnotations_rel h2]
      refine seeAnnotations_rel (h2.imp fun x y r => ⟨r.1, r.2.1, ?_⟩)
      have := r.2.2
      cases hx : x.attributes <;> cases hy : y.attributes <;> simp only [hx, hy, mapRel] at this ⊢
      exact lib _ _ this
  have e3 : seeMessageEvents h' d.messageEvents = seeMessageEvents h d.messageEvents := by
    have := D.messageEvents
    cases hd : d.messageEvents <;> simp only [hd, msgsRel] at this
    · rfl
    · simp [seeMessageEvents, this, lib _ _ this]
  have e4 : seeLinks h' d.links = seeLinks h d.links := by
    have := D.links
    cases hd : d.links <;> simp only [hd, linksRel] at this
    · rfl
    · obtain ⟨xs, h1, h2⟩ := this
      simp only [seeLinks, h1, lib _ _ h1]
      generalize sd.links = ys at h2
      clear h1
      induction h2 with
      | nil => rfl
      | @cons x y xs ys r _ ih =>
        have : seeLink h' x = seeLink h x := by
          have := r.2.2.2
          cases hx : x.attributes <;> cases hy : y.attributes <;> simp only [hx, hy, linkMapRel] at this
          · simp [seeLink, hx, seeMap]
          · obtain ⟨k, k0, k1, -⟩ := this
            obtain ⟨m, m1, -⟩ := hm k _ k1
            simp [seeLink, hx, seeMap, m1, hk _ _ m1 (.inr ⟨k, rfl, hu k k0⟩)]
        simp [this, ih]
  unfold see
  rw [e1, e2, e3, e4]

/-! ## The theorems -/

/-- The code panics, or is not an execution, exactly when the specification is: `add` on a queue of capacity 0. -/
theorem run_outcome (ops : List Op) :
    (run .init ops = .panic ↔ Spec.init.run ops = .panic) ∧ (run .init ops = .err ↔ Spec.init.run ops = .err) := by
  have := run_rel (w := fun _ => True) (u := fun _ => True) ops (init_rel _ _) (fun _ _ => trivial) (fun _ _ => trivial)
  cases h1 : run .init ops <;> cases h2 : Spec.init.run ops <;> simp_all [RunRel]

/-- All the data made so far, by any number of spans, is seen now as it was when it was made, but for the attributes of
links; and with them if the caller never writes to a map it has put in a link. -/
theorem made_data {ops : List Op} {st : State} (hr : run .init ops = .ok st) :
    ∃ p, Spec.init.run ops = .ok p ∧ ∃ seen, st.made.mapM (see st.heap) = some seen ∧
      seen.map butLinkAttributes = p.made.map butLinkAttributes ∧
      ((∀ k, linked k ops → ¬ writes k ops) → seen = p.made) := by
  have := run_rel (w := fun k => writes k ops) (u := fun k => linked k ops) ops (init_rel _ _) (fun _ => id) (fun _ => id)
  rw [hr] at this
  cases h2 : Spec.init.run ops with
  | err => simp [h2, RunRel] at this
  | panic => simp [h2, RunRel] at this
  | ok p =>
    simp only [h2, RunRel] at this
    refine ⟨p, rfl, ?_⟩
    have R := this.rel
    have hm := R.made
    generalize st.made = l at hm
    generalize p.made = l' at hm
    induction hm with
    | nil => exact ⟨[], rfl, rfl, fun _ => rfl⟩
    | cons h1 _ ih =>
      obtain ⟨zs, e, e1, e2⟩ := ih
      obtain ⟨x, f, f1, f2⟩ := see_rel h1 R.maps
      exact ⟨x :: zs, by simp [e, f], by simp [e1, f1], fun hh => by rw [e2 hh, f2 hh]⟩

/-- Data once made is not changed by anything that is called or done later, on the same span or on others, but for the
attributes of links; and not changed at all if the caller does not write any more to the maps in links. -/
theorem data_kept_partial {ops ops' : List Op} {st st' : State} (hr : run .init ops = .ok st) (hr' : run st ops' = .ok st') {i : Nat} {d : HData}
    (hd : st.made[i]? = some d) :
    st'.made[i]? = some d ∧ ∃ x x', see st.heap d = some x ∧ see st'.heap d = some x' ∧
      butLinkAttributes x' = butLinkAttributes x ∧ ((∀ k, linked k ops → ¬ writes k ops') → x' = x) := by
  have r1 := run_rel (w := fun _ => True) (u := fun k => linked k ops) ops (init_rel _ _) (fun _ _ => trivial) (fun _ => id)
  have r1' := run_rel (w := fun _ => True) (u := fun _ => True) ops (init_rel _ _) (fun _ _ => trivial) (fun _ _ => trivial)
  rw [hr] at r1 r1'
  cases h2 : Spec.init.run ops with
  | err => simp [h2, RunRel] at r1
  | panic => simp [h2, RunRel] at r1
  | ok p =>
    simp only [h2, RunRel] at r1 r1'
    have r2 := run_rel (w := fun _ => True) (u := fun _ => True) ops' r1'.rel (fun _ _ => trivial) (fun _ _ => trivial)
    rw [hr'] at r2
    cases h3 : p.run ops' with
    | err => simp [h3, RunRel] at r2
    | panic => simp [h3, RunRel] at r2
    | ok p' =>
      simp only [h3, RunRel] at r2
      obtain ⟨l, hl⟩ := r2.made
      obtain ⟨l', hl'⟩ := r2.made'
      have hlt := (List.getElem?_eq_some_iff.mp hd).1
      have hd' : st'.made[i]? = some d := by rw [hl, List.getElem?_append_left hlt, hd]
      have at_ : ∀ {u : Nat → Prop} {st : State} {p : Spec}, StRel (fun _ => True) u st p → st.made[i]? = some d →
          ∃ sd, p.made[i]? = some sd ∧ DataRel st.heap st.maps p.maps u d sd := by
        intro u st p R hd
        obtain ⟨hlt, he⟩ := List.getElem?_eq_some_iff.mp hd
        have hlt' : i < p.made.length := by rw [← R.made.length_eq]; exact hlt
        refine ⟨p.made[i], List.getElem?_eq_getElem hlt', ?_⟩
        have := List.Forall₂.get R.made hlt hlt'
        simpa [he] using this
      obtain ⟨sd, hsd, D⟩ := at_ r1.rel hd
      obtain ⟨sd', hsd', D'⟩ := at_ r2.rel hd'
      have : sd' = sd := by
        rw [hl', List.getElem?_append_left (List.getElem?_eq_some_iff.mp hsd).1, hsd] at hsd'
        cases hsd'; rfl
      subst this
      obtain ⟨x, e, e1, -⟩ := see_rel D r1.rel.maps
      obtain ⟨x', e', e1', -⟩ := see_rel D' r2.rel.maps
      refine ⟨hd', x, x', e, e', by rw [e1', e1], fun hh => ?_⟩
      have := see_kept D r2.kept hh r1.rel.maps
      rw [e, e'] at this
      cases this; rfl

/-! ## A history -/

def exAttr : List Attribute := [⟨str "k", str "v"⟩]

/-- Two annotations in a queue of one, a link with a map, data; then more annotations, a map written to, data again. -/
def exOps : List Op := [.start .zero 5 0 (str "span") false false .zero 2 1 2 2, .newMap [(str "a", str "1")],
  .annotate 0 6 exAttr (str "first") 3, .annotate 0 7 [] (str "second") 0, .addLink 0 [1] [2] 1 (some 0) 0,
  .addMessageEvent 0 8 .sent 1 10 10 0, .addAttributes 0 exAttr, .makeSpanData 0 [str "k"] 9]

def exOps' : List Op := [.annotate 0 10 exAttr (str "third") 0, .setName 0 (str "other"), .addMessageEvent 0 11 .recv 2 1 1 4,
  .addAttributes 0 [⟨str "k", str "w"⟩], .makeSpanData 0 [str "k"] 12]

example : ∃ st st' d x, run .init exOps = .ok st ∧ run st exOps' = .ok st' ∧ st.made[0]? = some d ∧ see st.heap d = some x ∧
    see st'.heap d = some x ∧ x.annotations.length = 1 ∧ x.links.length = 1 ∧ (st'.made.map (fun d => (see st'.heap d).map (·.name))) =
      [some (str "span"), some (str "other")] ∧ (∀ k, linked k exOps → ¬ writes k exOps') := by
  refine ⟨_, _, _, _, rfl, rfl, rfl, rfl, rfl, by decide +kernel, by decide +kernel, by decide +kernel, ?_⟩
  rintro k - ⟨key, v, hm⟩
  simp [exOps'] at hm

/-- The code does not have the property in full: a link's map is the caller's, and what the caller writes to it after the data
was exported changes the exported data. -/
theorem link_attributes_change : ∃ st st' d x x', run .init exOps = .ok st ∧ run st [.write 0 (str "a") (str "2")] = .ok st' ∧
    st.made[0]? = some d ∧ st'.made[0]? = some d ∧ see st.heap d = some x ∧ see st'.heap d = some x' ∧
    x.links.map (·.attributes) = [some [(str "a", str "1")]] ∧ x'.links.map (·.attributes) = [some [(str "a", str "2")]] :=
  ⟨_, _, _, _, _, rfl, rfl, rfl, rfl, rfl, rfl, by decide +kernel, by decide +kernel⟩

end Verif.Trace.Mem
