import Verif.Trace.SpanInv

/-! # The span stores: invariant -/

namespace Verif.Trace
open Verif

/-- What the stores care about in a span. -/
structure View where
  ctx : SpanContext
  store : Option Bytes
  ended : Bool
  start : Option Int
  dataCtx : Option SpanContext

def Span.view (s : Span) : View := ⟨s.ctx, s.store, s.ended, s.data.map (·.data.startTime), s.data.map (·.data.ctx)⟩

/-- A stored span: one that ended, under the name of the store. -/
def StoredFrom (vs : List View) (name : Bytes) (sd : SpanData) : Prop :=
  ∃ (i : Nat) (v : View), vs[i]? = some v ∧ v.store = some name ∧ v.ended = true ∧ sd.ctx = v.ctx

/-- The latency of a finished span. -/
def SpanData.latency (sd : SpanData) : Int := sd.endTime - sd.startTime

structure StoreOK (vs : List View) (name : Bytes) (s : Store) : Prop where
  nbuckets : s.latency.length = 9
  latency : ∀ (k : Nat) (b : Bucket SpanData), s.latency[k]? = some b → ∃ xs, Rep b xs ∧
    ∀ sd ∈ xs, sd.status.code = 0 ∧ 0 ≤ sd.latency ∧ latencyBucket sd.latency = k ∧ StoredFrom vs name sd
  errWF : GoMap.WF s.errors
  errors : ∀ e ∈ s.errors, e.1 ≠ 0 ∧ ∃ xs, Rep e.2 xs ∧ ∀ sd ∈ xs, sd.status.code = e.1 ∧ StoredFrom vs name sd
  nodup : s.active.Nodup
  active : ∀ i, i ∈ s.active ↔ ∃ v, vs[i]? = some v ∧ v.store = some name ∧ v.ended = false

structure SInv (vs : List View) (stores : GoMap Bytes Store) (now : Int) : Prop where
  ok : ∀ name s, GoMap.get stores name = some s → StoreOK vs name s
  has : ∀ (i : Nat) (v : View) (name : Bytes), vs[i]? = some v → v.store = some name →
    (GoMap.get stores name).isSome ∧ v.start.isSome
  time : ∀ (i : Nat) (v : View) (x : Int), vs[i]? = some v → v.start = some x → x ≤ now
  ctx : ∀ (i : Nat) (v : View) (c : SpanContext), vs[i]? = some v → v.dataCtx = some c → c = v.ctx

theorem latencyBucket_lt (x : Int) : latencyBucket x < 9 := by
  have : ∀ l : List Int, latencyBucketLoop x l ≤ l.length := by
    intro l
    induction l with
    | nil => simp [latencyBucketLoop]
    | cons b l ih => simp only [latencyBucketLoop]; split <;> (simp; try omega)
  have h := this defaultLatencies
  simp [defaultLatencies] at h
  simp only [latencyBucket, defaultLatencies]
  omega

/-- More views do not hurt stored spans. -/
theorem StoredFrom.mono {vs vs' : List View} {name : Bytes} {sd : SpanData} (h : StoredFrom vs name sd)
    (hm : ∀ (i : Nat) (v : View), vs[i]? = some v → v.ended = true → vs'[i]? = some v) : StoredFrom vs' name sd := by
  obtain ⟨i, v, h1, h2, h3, h4⟩ := h
  exact ⟨i, v, hm i v h1 h3, h2, h3, h4⟩

theorem StoreOK.mono {vs vs' : List View} {name : Bytes} {s : Store} (h : StoreOK vs name s)
    (hm : ∀ (i : Nat) (v : View), vs[i]? = some v → v.ended = true → vs'[i]? = some v)
    (ha : ∀ i : Nat, (∃ v : View, vs[i]? = some v ∧ v.store = some name ∧ v.ended = false) ↔
      ∃ v : View, vs'[i]? = some v ∧ v.store = some name ∧ v.ended = false) : StoreOK vs' name s := by
  refine ⟨h.nbuckets, ?_, h.errWF, ?_, h.nodup, fun i => (h.active i).trans (ha i)⟩
  · intro k b hb
    obtain ⟨xs, h1, h2⟩ := h.latency k b hb
    exact ⟨xs, h1, fun sd hsd => ⟨(h2 sd hsd).1, (h2 sd hsd).2.1, (h2 sd hsd).2.2.1, (h2 sd hsd).2.2.2.mono hm⟩⟩
  · intro e he
    obtain ⟨h0, xs, h1, h2⟩ := h.errors e he
    exact ⟨h0, xs, h1, fun sd hsd => ⟨(h2 sd hsd).1, (h2 sd hsd).2.mono hm⟩⟩

theorem storeOK_new {vs : List View} {name : Bytes} (l e : Nat)
    (h : ∀ (i : Nat) (v : View), vs[i]? = some v → v.store ≠ some name) : StoreOK vs name (Store.new l e) := by
  refine ⟨by simp [Store.new, defaultLatencies], ?_, by simp [Store.new, GoMap.WF], by simp [Store.new],
    by simp [Store.new], ?_⟩
  · intro k b hb
    simp only [Store.new, List.getElem?_replicate] at hb
    split at hb
    · cases hb
      exact ⟨[], rep_make l, by simp⟩
    · cases hb
  · intro i
    simp only [Store.new, List.not_mem_nil, false_iff]
    rintro ⟨v, h1, h2, _⟩
    exact h i v h1 h2

theorem mem_lastN {α : Type} {n : Nat} {l : List α} {x : α} (h : x ∈ lastN n l) : x ∈ l :=
  (lastN_suffix n l).subset h

/-- The effect of offering a span to a bucket. -/
theorem add_rep {b : Bucket SpanData} {xs : List SpanData} (h : Rep b xs) (sd : SpanData) :
    ∃ b' xs', b.add SpanData.endTime sd = .ok b' ∧ Rep b' xs' ∧ ∀ x ∈ xs', x = sd ∨ x ∈ xs := by
  obtain ⟨b', h1, _, h2⟩ := h.add SpanData.endTime sd
  split at h2
  · exact ⟨b', xs, h1, by rw [h2]; exact h, fun x hx => .inr hx⟩
  · refine ⟨b', _, h1, h2.2, ?_⟩
    intro x hx
    rcases List.mem_append.mp (mem_lastN hx) with hx | hx
    · exact .inr hx
    · exact .inl (by simpa using hx)

theorem StoreOK.finished {vs vs' : List View} {name : Bytes} {s : Store} (h : StoreOK vs name s) {i : Nat} {v : View}
    (hi : vs[i]? = some v) (hst : v.store = some name) (hvs : vs' = vs.set i { v with ended := true }) {sd : SpanData}
    (hlat : sd.startTime ≤ sd.endTime) (hctx : sd.ctx = v.ctx) :
    ∃ s', s.finished i sd = .ok s' ∧ StoreOK vs' name s' := by
  have hlt := getElem?_lt hi
  have hset : ∀ j, vs'[j]? = if i = j then some { v with ended := true } else vs[j]? := by
    intro j; rw [hvs, List.getElem?_set]; simp [hlt]
  have hm : ∀ (j : Nat) (w : View), vs[j]? = some w → w.ended = true → vs'[j]? = some w := by
    intro j w hj hw
    rw [hset]
    split
    · next e =>
      subst e
      rw [hi] at hj; cases hj
      cases v
      simp only at hw
      subst hw
      rfl
    · exact hj
  have hsd : StoredFrom vs' name sd := ⟨i, { v with ended := true }, by rw [hset]; simp, hst, rfl, hctx⟩
  have hact : ∀ j, j ∈ s.active.filter (fun j => decide (j ≠ i)) ↔
      ∃ w, vs'[j]? = some w ∧ w.store = some name ∧ w.ended = false := by
    intro j
    rw [List.mem_filter, h.active j, hset]
    by_cases hij : i = j
    · subst hij; simp
    · simp [hij, Ne.symm hij]
  unfold Store.finished
  have hl : (if sd.endTime - sd.startTime < 0 then 0 else sd.endTime - sd.startTime) = sd.latency := by
    rw [if_neg (by omega)]; rfl
  simp only [hl]
  by_cases hc : sd.status.code = 0
  · rw [if_pos hc]
    have hk : latencyBucket sd.latency < s.latency.length := by rw [h.nbuckets]; exact latencyBucket_lt _
    have hb := List.getElem?_eq_getElem hk
    rw [hb]
    obtain ⟨xs, hx1, hx2⟩ := h.latency _ _ hb
    obtain ⟨b', xs', hb', hr', hsub⟩ := add_rep hx1 sd
    simp only [hb', Res.bind]
    refine ⟨_, rfl, ⟨by simp [h.nbuckets], ?_, h.errWF, ?_, h.nodup.filter _, hact⟩⟩
    · intro k b hkb
      simp only at hkb
      rw [List.getElem?_set] at hkb
      split at hkb
      · next e =>
        subst e
        cases hkb
        refine ⟨xs', hr', ?_⟩
        intro x hx
        rcases hsub x hx with rfl | hx
        · exact ⟨hc, by unfold SpanData.latency; omega, rfl, hsd⟩
        · obtain ⟨a1, a2, a3, a4⟩ := hx2 x hx
          exact ⟨a1, a2, a3, a4.mono hm⟩
      · obtain ⟨ys, hy1, hy2⟩ := h.latency k b hkb
        refine ⟨ys, hy1, fun x hx => ?_⟩
        obtain ⟨a1, a2, a3, a4⟩ := hy2 x hx
        exact ⟨a1, a2, a3, a4.mono hm⟩
    · intro e he
      obtain ⟨h0, ys, hy1, hy2⟩ := h.errors e he
      exact ⟨h0, ys, hy1, fun x hx => ⟨(hy2 x hx).1, (hy2 x hx).2.mono hm⟩⟩
  · rw [if_neg hc]
    have hb : ∃ b xs, s.errorBucket sd.status.code = b ∧ Rep b xs ∧
        ∀ x ∈ xs, x.status.code = sd.status.code ∧ StoredFrom vs name x := by
      unfold Store.errorBucket
      cases hg : GoMap.get s.errors sd.status.code with
      | none => exact ⟨_, [], rfl, rep_make _, by simp⟩
      | some b =>
        obtain ⟨_, xs, hx1, hx2⟩ := h.errors _ (GoMap.mem_of_get hg)
        exact ⟨b, xs, rfl, hx1, hx2⟩
    obtain ⟨b, xs, hbe, hx1, hx2⟩ := hb
    obtain ⟨b', xs', hb', hr', hsub⟩ := add_rep hx1 sd
    simp only [show ∀ a, ({ s with active := a } : Store).errorBucket sd.status.code = b from fun _ => hbe, hb', Res.bind]
    refine ⟨_, rfl, ⟨h.nbuckets, ?_, GoMap.WF_set h.errWF _ _, ?_, h.nodup.filter _, hact⟩⟩
    · intro k b hkb
      obtain ⟨ys, hy1, hy2⟩ := h.latency k b hkb
      refine ⟨ys, hy1, fun x hx => ?_⟩
      obtain ⟨a1, a2, a3, a4⟩ := hy2 x hx
      exact ⟨a1, a2, a3, a4.mono hm⟩
    · intro e he
      rcases GoMap.mem_set he with rfl | he
      · refine ⟨hc, xs', hr', ?_⟩
        intro x hx
        rcases hsub x hx with rfl | hx
        · exact ⟨rfl, hsd⟩
        · exact ⟨(hx2 x hx).1, (hx2 x hx).2.mono hm⟩
      · obtain ⟨h0, ys, hy1, hy2⟩ := h.errors e he
        exact ⟨h0, ys, hy1, fun x hx => ⟨(hy2 x hx).1, (hy2 x hx).2.mono hm⟩⟩

/-! ## Resizing -/

theorem mapRes_ok {α β : Type} {f : α → Res β} {P : α → β → Prop} {l : List α}
    (h : ∀ a ∈ l, ∃ b, f a = .ok b ∧ P a b) : ∃ bs, mapRes f l = .ok bs ∧ List.Forall₂ P l bs := by
  induction l with
  | nil => exact ⟨[], rfl, .nil⟩
  | cons a l ih =>
    obtain ⟨b, h1, h2⟩ := h a (by simp)
    obtain ⟨bs, h3, h4⟩ := ih (fun x hx => h x (by simp [hx]))
    exact ⟨b :: bs, by simp [mapRes, h1, h3, Res.bind], .cons h2 h4⟩

theorem forall₂_getElem? {α β : Type} {P : α → β → Prop} {l : List α} {m : List β} (h : List.Forall₂ P l m)
    {i : Nat} {b : β} (hb : m[i]? = some b) : ∃ a, l[i]? = some a ∧ P a b := by
  induction h generalizing i with
  | nil => simp at hb
  | @cons a b' l m hp _ ih =>
    cases i with
    | zero => simp at hb; subst hb; exact ⟨a, by simp, hp⟩
    | succ i => simp at hb ⊢; exact ih hb

theorem StoreOK.resize {vs : List View} {name : Bytes} {s : Store} (h : StoreOK vs name s) (l e : Nat) :
    ∃ s', s.resize l e = .ok s' ∧ StoreOK vs name s' := by
  obtain ⟨bs, h1, h2⟩ := mapRes_ok (f := fun b : Bucket SpanData => b.resize l)
    (P := fun b b' => ∀ xs, Rep b xs → Rep b' (lastN l xs)) (l := s.latency) (by
      intro b hb
      obtain ⟨k, hk⟩ := List.mem_iff_getElem?.mp hb
      obtain ⟨xs, hx, _⟩ := h.latency k b hk
      obtain ⟨b', hb', _, _, _⟩ := hx.resize l
      refine ⟨b', hb', ?_⟩
      intro ys hy
      obtain ⟨b'', hb'', _, _, hr⟩ := hy.resize l
      rw [hb'] at hb''; cases hb''
      exact hr)
  obtain ⟨es, h3, h4⟩ := mapRes_ok (f := fun x : Int × Bucket SpanData => (x.2.resize e).bind fun b => .ok (x.1, b))
    (P := fun x x' => x'.1 = x.1 ∧ ∀ xs, Rep x.2 xs → Rep x'.2 (lastN e xs)) (l := s.errors) (by
      intro x hx
      obtain ⟨_, xs, hxs, _⟩ := h.errors x hx
      obtain ⟨b', hb', _, _, _⟩ := hxs.resize e
      refine ⟨(x.1, b'), by simp [hb', Res.bind], rfl, ?_⟩
      intro ys hy
      obtain ⟨b'', hb'', _, _, hr⟩ := hy.resize e
      rw [hb'] at hb''; cases hb''
      exact hr)
  refine ⟨{ s with latency := bs, errors := es, maxErr := e }, by unfold Store.resize; rw [h1]; simp only [Res.bind] at h3 ⊢; rw [h3], ?_⟩
  refine ⟨by rw [← h2.length_eq]; exact h.nbuckets, ?_, ?_, ?_, h.nodup, h.active⟩
  · intro k b hb
    obtain ⟨b0, hb0, hp⟩ := forall₂_getElem? h2 hb
    obtain ⟨xs, hx1, hx2⟩ := h.latency k b0 hb0
    exact ⟨_, hp xs hx1, fun sd hsd => hx2 sd (mem_lastN hsd)⟩
  · have : ∀ (l : List (Int × Bucket SpanData)) (m : List (Int × Bucket SpanData)),
        List.Forall₂ (fun x x' => x'.1 = x.1 ∧ ∀ xs, Rep x.2 xs → Rep x'.2 (lastN e xs)) l m → GoMap.keys m = GoMap.keys l := by
      intro l m hlm
      induction hlm with
      | nil => rfl
      | cons hp _ ih => simp [hp.1, ih]
    unfold GoMap.WF
    simp only
    rw [this _ _ h4]; exact h.errWF
  · intro x hx
    obtain ⟨k, hk⟩ := List.mem_iff_getElem?.mp hx
    obtain ⟨x0, hx0, hp⟩ := forall₂_getElem? h4 hk
    obtain ⟨h0, xs, hx1, hx2⟩ := h.errors x0 (List.mem_of_getElem? hx0)
    refine ⟨by rw [hp.1]; exact h0, _, hp.2 xs hx1, fun sd hsd => ?_⟩
    rw [hp.1]
    exact hx2 sd (mem_lastN hsd)

theorem SInv.setSize {vs : List View} {stores : GoMap Bytes Store} {now : Int} (h : SInv vs stores now)
    (name : Bytes) (l e : Nat) : ∃ stores', setSize stores name l e = .ok stores' ∧ SInv vs stores' now := by
  have key : ∀ s', StoreOK vs name s' → SInv vs (GoMap.set stores name s') now := by
    intro s' hs'
    refine ⟨?_, ?_, h.time, h.ctx⟩
    · intro n s hn
      rw [GoMap.get_set] at hn
      split at hn
      · next hnn => subst hnn; cases hn; exact hs'
      · exact h.ok n s hn
    · intro i v n hi hv
      have := h.has i v n hi hv
      refine ⟨?_, this.2⟩
      rw [GoMap.get_set]
      split
      · rfl
      · exact this.1
  unfold Trace.setSize
  cases hg : GoMap.get stores name with
  | some s =>
    obtain ⟨s', h1, h2⟩ := (h.ok name s hg).resize l e
    simp only [h1, Res.bind]
    exact ⟨_, rfl, key s' h2⟩
  | none =>
    refine ⟨_, rfl, key _ (storeOK_new l e ?_)⟩
    intro i v hi hv
    have := (h.has i v name hi hv).1
    rw [hg] at this; cases this

theorem SInv.configure {vs : List View} {stores : GoMap Bytes Store} {now : Int} (h : SInv vs stores now)
    (bcs : List BucketConfiguration) : ∃ stores', configureBucketSizes stores bcs = .ok stores' ∧ SInv vs stores' now := by
  induction bcs generalizing stores with
  | nil => exact ⟨stores, rfl, h⟩
  | cons bc bcs ih =>
    obtain ⟨s1, h1, h2⟩ := h.setSize bc.name (clampSize bc.succeeded) (clampSize bc.errors)
    obtain ⟨s2, h3, h4⟩ := ih h2
    exact ⟨s2, by simp [configureBucketSizes, h1, h3, Res.bind], h4⟩

/-! ## Starting and ending -/

/-- A new span that belongs to no store. -/
theorem SInv.push {vs : List View} {stores : GoMap Bytes Store} {now : Int} (h : SInv vs stores now) {v : View}
    (hv : v.store = none) (ht : ∀ x, v.start = some x → x ≤ now) (hc : ∀ c, v.dataCtx = some c → c = v.ctx) :
    SInv (vs ++ [v]) stores now := by
  have hget : ∀ j w, (vs ++ [v])[j]? = some w → vs[j]? = some w ∨ (j = vs.length ∧ w = v) := by
    intro j w hj
    rcases Nat.lt_trichotomy j vs.length with hlt | heq | hgt
    · rw [List.getElem?_append_left hlt] at hj; exact .inl hj
    · subst heq
      rw [List.getElem?_append_right (Nat.le_refl _)] at hj
      simp at hj; exact .inr ⟨rfl, hj.symm⟩
    · rw [List.getElem?_eq_none (by simp; omega)] at hj; cases hj
  have hold : ∀ (j : Nat) (w : View), vs[j]? = some w → (vs ++ [v])[j]? = some w := by
    intro j w hj; rw [List.getElem?_append_left (getElem?_lt hj)]; exact hj
  refine ⟨?_, ?_, ?_, ?_⟩
  · intro name s hs
    refine (h.ok name s hs).mono (fun j w hj _ => hold j w hj) ?_
    intro j
    constructor
    · rintro ⟨w, h1, h2⟩; exact ⟨w, hold j w h1, h2⟩
    · rintro ⟨w, h1, h2, h3⟩
      rcases hget j w h1 with h1 | ⟨_, rfl⟩
      · exact ⟨w, h1, h2, h3⟩
      · rw [hv] at h2; cases h2
  · intro j w name hj hw
    rcases hget j w hj with hj | ⟨_, rfl⟩
    · exact h.has j w name hj hw
    · rw [hv] at hw; cases hw
  · intro j w x hj hw
    rcases hget j w hj with hj | ⟨_, rfl⟩
    · exact h.time j w x hj hw
    · exact ht x hw
  · intro j w x hj hw
    rcases hget j w hj with hj | ⟨_, rfl⟩
    · exact h.ctx j w x hj hw
    · exact hc x hw

/-- A new span in the store of its name. -/
theorem SInv.pushStore {vs : List View} {stores : GoMap Bytes Store} {now : Int} (h : SInv vs stores now) {v : View}
    {name : Bytes} (hv : v.store = some name) (hs : v.start.isSome) (he : v.ended = false)
    (ht : ∀ x, v.start = some x → x ≤ now) (hc : ∀ c, v.dataCtx = some c → c = v.ctx) :
    SInv (vs ++ [v]) (GoMap.set stores name { storeFor stores name with
      active := (storeFor stores name).active ++ [vs.length] }) now := by
  have hget : ∀ j w, (vs ++ [v])[j]? = some w → vs[j]? = some w ∨ (j = vs.length ∧ w = v) := by
    intro j w hj
    rcases Nat.lt_trichotomy j vs.length with hlt | heq | hgt
    · rw [List.getElem?_append_left hlt] at hj; exact .inl hj
    · subst heq
      rw [List.getElem?_append_right (Nat.le_refl _)] at hj
      simp at hj; exact .inr ⟨rfl, hj.symm⟩
    · rw [List.getElem?_eq_none (by simp; omega)] at hj; cases hj
  have hold : ∀ (j : Nat) (w : View), vs[j]? = some w → (vs ++ [v])[j]? = some w := by
    intro j w hj; rw [List.getElem?_append_left (getElem?_lt hj)]; exact hj
  have hfor : StoreOK vs name (storeFor stores name) := by
    unfold storeFor
    cases hg : GoMap.get stores name with
    | some s => exact h.ok name s hg
    | none =>
      refine storeOK_new _ _ ?_
      intro i w hi hw
      have := (h.has i w name hi hw).1
      rw [hg] at this; cases this
  refine ⟨?_, ?_, ?_, ?_⟩
  · intro n s hn
    rw [GoMap.get_set] at hn
    split at hn
    · next hnn =>
      subst hnn
      cases hn
      refine ⟨hfor.nbuckets, ?_, hfor.errWF, ?_, ?_, ?_⟩
      · intro k b hb
        obtain ⟨xs, h1, h2⟩ := hfor.latency k b hb
        exact ⟨xs, h1, fun sd hsd => ⟨(h2 sd hsd).1, (h2 sd hsd).2.1, (h2 sd hsd).2.2.1,
          (h2 sd hsd).2.2.2.mono (fun j w hj _ => hold j w hj)⟩⟩
      · intro e he
        obtain ⟨h0, xs, h1, h2⟩ := hfor.errors e he
        exact ⟨h0, xs, h1, fun sd hsd => ⟨(h2 sd hsd).1, (h2 sd hsd).2.mono (fun j w hj _ => hold j w hj)⟩⟩
      · simp only
        rw [List.nodup_append]
        refine ⟨hfor.nodup, by simp, ?_⟩
        intro a ha b hb hab
        simp at hb
        subst hab; subst hb
        obtain ⟨w, hw, _⟩ := (hfor.active _).mp ha
        have := getElem?_lt hw
        omega
      · intro i
        simp only
        rw [List.mem_append, hfor.active i]
        constructor
        · rintro (⟨w, h1, h2⟩ | hi)
          · exact ⟨w, hold i w h1, h2⟩
          · simp at hi
            subst hi
            exact ⟨v, by simp, hv, he⟩
        · rintro ⟨w, h1, h2, h3⟩
          rcases hget i w h1 with h1 | ⟨rfl, _⟩
          · exact .inl ⟨w, h1, h2, h3⟩
          · exact .inr (by simp)
    · next hnn =>
      refine (h.ok n s hn).mono (fun j w hj _ => hold j w hj) ?_
      intro j
      constructor
      · rintro ⟨w, h1, h2⟩; exact ⟨w, hold j w h1, h2⟩
      · rintro ⟨w, h1, h2, h3⟩
        rcases hget j w h1 with h1 | ⟨_, rfl⟩
        · exact ⟨w, h1, h2, h3⟩
        · rw [hv] at h2; cases h2; exact absurd rfl hnn
  · intro j w n hj hw
    rcases hget j w hj with hj | ⟨_, rfl⟩
    · have := h.has j w n hj hw
      refine ⟨?_, this.2⟩
      rw [GoMap.get_set]
      split
      · rfl
      · exact this.1
    · rw [hv] at hw; cases hw
      exact ⟨by simp, hs⟩
  · intro j w x hj hw
    rcases hget j w hj with hj | ⟨_, rfl⟩
    · exact h.time j w x hj hw
    · exact ht x hw
  · intro j w x hj hw
    rcases hget j w hj with hj | ⟨_, rfl⟩
    · exact h.ctx j w x hj hw
    · exact hc x hw

/-- Ending a span of no store. -/
theorem SInv.endNone {vs : List View} {stores : GoMap Bytes Store} {now : Int} (h : SInv vs stores now) {i : Nat}
    {v : View} (hi : vs[i]? = some v) (hv : v.store = none) :
    SInv (vs.set i { v with ended := true }) stores now := by
  have hset : ∀ j : Nat, (vs.set i { v with ended := true })[j]? = if i = j then some { v with ended := true } else vs[j]? := by
    intro j; rw [List.getElem?_set]; simp [getElem?_lt hi]
  refine ⟨?_, ?_, ?_, ?_⟩
  · intro name s hs
    refine (h.ok name s hs).mono ?_ ?_
    · intro j w hj hw
      rw [hset]
      split
      · next e =>
        subst e
        rw [hi] at hj; cases hj
        cases v; simp only at hw; subst hw; rfl
      · exact hj
    · intro j
      rw [hset]
      by_cases hij : i = j
      · subst hij; simp [hi, hv]
      · simp [hij]
  · intro j w n hj hw
    rw [hset] at hj
    split at hj
    · cases hj; simp only at hw; rw [hv] at hw; cases hw
    · exact h.has j w n hj hw
  · intro j w x hj hw
    rw [hset] at hj
    split at hj
    · cases hj; exact h.time i v x hi hw
    · exact h.time j w x hj hw
  · intro j w x hj hw
    rw [hset] at hj
    split at hj
    · cases hj; exact h.ctx i v x hi hw
    · exact h.ctx j w x hj hw

/-- Ending a span of a store. -/
theorem SInv.endStore {vs : List View} {stores : GoMap Bytes Store} {now : Int} (h : SInv vs stores now) {i : Nat}
    {v : View} {name : Bytes} (hi : vs[i]? = some v) (hv : v.store = some name) {store : Store}
    (hg : GoMap.get stores name = some store) {sd : SpanData} (hlat : sd.startTime ≤ sd.endTime)
    (hctx : sd.ctx = v.ctx) : ∃ store', store.finished i sd = .ok store' ∧
      SInv (vs.set i { v with ended := true }) (GoMap.set stores name store') now := by
  have hset : ∀ j : Nat, (vs.set i { v with ended := true })[j]? = if i = j then some { v with ended := true } else vs[j]? := by
    intro j; rw [List.getElem?_set]; simp [getElem?_lt hi]
  obtain ⟨s', h1, h2⟩ := (h.ok name store hg).finished hi hv rfl hlat hctx
  refine ⟨s', h1, ?_, ?_, ?_, ?_⟩
  · intro n s hn
    rw [GoMap.get_set] at hn
    split at hn
    · next hnn => subst hnn; cases hn; exact h2
    · next hnn =>
      refine (h.ok n s hn).mono ?_ ?_
      · intro j w hj hw
        rw [hset]
        split
        · next e =>
          subst e
          rw [hi] at hj; cases hj
          cases v; simp only at hw; subst hw; rfl
        · exact hj
      · intro j
        rw [hset]
        by_cases hij : i = j
        · subst hij; simp [hi, hv, Ne.symm hnn]
        · simp [hij]
  · intro j w n hj hw
    rw [GoMap.get_set]
    rw [hset] at hj
    split at hj
    · cases hj
      simp only at hw; rw [hv] at hw; cases hw
      exact ⟨by simp, (h.has i v _ hi hv).2⟩
    · refine ⟨?_, (h.has j w n hj hw).2⟩
      split
      · rfl
      · exact (h.has j w n hj hw).1
  · intro j w x hj hw
    rw [hset] at hj
    split at hj
    · cases hj; exact h.time i v x hi hw
    · exact h.time j w x hj hw
  · intro j w x hj hw
    rw [hset] at hj
    split at hj
    · cases hj; exact h.ctx i v x hi hw
    · exact h.ctx j w x hj hw

end Verif.Trace
