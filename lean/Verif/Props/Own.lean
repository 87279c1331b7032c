import Verif.Tag.Own

/-!
# C113: who can change the tags of a context

The map of a context is changed exactly by those who have its pointer: `Mutate` called on it, and mutators that the program implements which
use it or return it in the place of the map they were given. If the program does neither, the tags of a context are for ever those that
`New` gave it, recordings are collected under the tags they were made with, and nothing panics.
-/

namespace Verif.Tag.Own
open Verif Verif.Tag

/-! ## Specification -/

/-- A map as a user sees it. -/
abbrev View := Key → Option Content

/-- Values that a tag can have. -/
def Fits (v : Bytes) : Prop := v.length ≤ 255 ∧ ∀ c ∈ v, 32 ≤ c.toNat ∧ c.toNat ≤ 126

instance (v : Bytes) : Decidable (Fits v) := by unfold Fits; infer_instance

/-- The value a mutator of the package brings along. -/
def newValue : Mutator → Option Bytes
  | .insert _ v _ | .update _ v _ | .upsert _ v _ => some v
  | .delete _ => none

/-- A mutator that does not report an error. -/
def Accepted (mu : Mutator) : Prop := ∀ v, newValue mu = some v → Fits v

instance (mu : Mutator) : Decidable (Accepted mu) :=
  match h : newValue mu with
  | none => isTrue (fun v hv => by simp [h] at hv)
  | some v => if hv : Fits v then isTrue (fun w hw => by rw [h] at hw; cases hw; exact hv) else isFalse (fun ha => hv (ha v h))

/-- What the documentation of the mutators says. -/
def edit (f : View) (mu : Mutator) : View := fun x => match mu with
  | .insert k v mds => if x = k ∧ f k = none then some ⟨v, createMetadatas mds⟩ else f x
  | .update k v mds => if x = k ∧ f k ≠ none then some ⟨v, createMetadatas mds⟩ else f x
  | .upsert k v mds => if x = k then some ⟨v, createMetadatas mds⟩ else f x
  | .delete k => if x = k then none else f x

/-- The tags behind a pointer, as a user sees them. -/
def view (st : St) (p : Ptr) : View := GoMap.get (tagsAt st.heap p)

/-- The call is given the map at `a` by the program: it is `Mutate` on it, or an implemented mutator uses it or returns it. -/
def Names (a : Nat) : Op → Prop
  | .mutate p _ => p = some a
  | .new _ mus => ∃ s, Mu.own s ∈ mus ∧ ((∃ mu, (Ref.ptr (some a), mu) ∈ s.steps) ∨ s.result = some (.ptr (some a)))
  | _ => False

/-- An implemented mutator that uses only the map it is given, and returns it or an error. -/
def OwnMap : Mu → Prop
  | .pkg _ => True
  | .own s => (∀ x ∈ s.steps, x.1 = .given) ∧ (s.result = none ∨ s.result = some .given)

/-- A call as the documentation wants it. -/
def Clean : Op → Prop
  | .mutate _ _ => False
  | .new _ mus => ∀ mu ∈ mus, OwnMap mu
  | _ => True

/-- All pointers are to maps that there are. -/
def Alive (st : St) : Prop := ∀ a, (some a ∈ st.ctxs ∨ some a ∈ st.queue) → a < st.heap.length

/-- The tags with which the recordings of a history are made. -/
def recordedWith (st : St) : List Op → List TMap
  | [] => []
  | op :: ops => (match op with
      | .record c => (st.ctxs[c]?.map (tagsAt st.heap)).toList
      | _ => []) ++ (match step st op with
      | .ok st' => recordedWith st' ops
      | _ => [])

/-- What a call of `New` with clean mutators makes of the tags; `none` if it reports an error. Errors that an implemented mutator gets from
`Mutate` are ignored by it. -/
def editAll (f : View) : List Mu → Option View
  | [] => some f
  | .pkg mu :: mus => if Accepted mu then editAll (edit f mu) mus else none
  | .own s :: mus =>
    let g := s.steps.foldl (fun f x => if Accepted x.2 then edit f x.2 else f) f
    if s.result = none then none else editAll g mus

/-! ## One mutator -/

theorem isASCII_iff (v : Bytes) : isASCII v = true ↔ ∀ c ∈ v, 32 ≤ c.toNat ∧ c.toNat ≤ 126 := by
  simp [isASCII]

theorem checkValue_iff (v : Bytes) : checkValue v = true ↔ Fits v := by
  unfold checkValue Fits maxKeyLength
  split
  · constructor
    · intro h; cases h
    · intro h; omega
  · rw [isASCII_iff]
    constructor
    · intro h; exact ⟨by omega, h⟩
    · exact fun h => h.2

theorem valid_iff (mu : Mutator) : valid mu = true ↔ Accepted mu := by
  cases mu <;> simp [valid, Accepted, newValue, checkValue_iff]

theorem effect_edit (m : TMap) (mu : Mutator) : GoMap.get (effect m mu) = edit (GoMap.get m) mu := by
  funext x
  cases mu with
  | insert k v mds =>
    simp only [effect, Tag.insert, edit]
    cases h : GoMap.get m k with
    | none => simp [GoMap.get_set]
    | some c => simp
  | update k v mds =>
    simp only [effect, Tag.update, edit]
    cases h : GoMap.get m k with
    | none => simp
    | some c => simp [GoMap.get_set]
  | upsert k v mds => simp [effect, Tag.upsert, edit, GoMap.get_set]
  | delete k => simp [effect, Tag.delete, edit, GoMap.get_del]

theorem mutate_other {h h' : Heap} {p : Ptr} {mu : Mutator} {b : Bool} (e : mutate h p mu = .ok (h', b)) :
    h'.length = h.length ∧ ∀ a, p ≠ some a → h'[a]? = h[a]? := by
  unfold mutate at e
  split at e
  · cases e; exact ⟨rfl, fun _ _ => rfl⟩
  · split at e
    · cases e
    · next a =>
      split at e
      · cases e
      · split at e
        · cases e
        · cases e; exact ⟨rfl, fun _ _ => rfl⟩
      · cases e
        refine ⟨by simp, fun x hx => ?_⟩
        rw [List.getElem?_set_ne]
        intro hh; exact hx (by rw [hh])

theorem bind_ok {α β : Type} {r : Res α} {f : α → Res β} {b : β} (h : r.bind f = .ok b) : ∃ a, r = .ok a ∧ f a = .ok b := by
  cases r with
  | ok a => exact ⟨a, rfl, h⟩
  | err => cases h
  | panic => cases h

theorem runSteps_other (given : Ptr) : ∀ (ss : List (Ref × Mutator)) {h h' : Heap}, runSteps h given ss = .ok h' →
    h'.length = h.length ∧ ∀ a, given ≠ some a → (∀ mu, (Ref.ptr (some a), mu) ∉ ss) → h'[a]? = h[a]?
  | [], h, h', e => by cases e; exact ⟨rfl, fun _ _ _ => rfl⟩
  | (r, mu) :: ss, h, h', e => by
    obtain ⟨⟨h1, b⟩, e1, e2⟩ := bind_ok e
    obtain ⟨l1, f1⟩ := mutate_other e1
    obtain ⟨l2, f2⟩ := runSteps_other given ss e2
    refine ⟨by rw [l2, l1], fun a hg hn => ?_⟩
    rw [f2 a hg (fun mu' hm => hn mu' (List.mem_cons_of_mem _ hm)), f1 a]
    cases r with
    | given => exact hg
    | ptr p =>
      intro hp
      simp only [Ref.of] at hp
      subst hp
      exact hn mu List.mem_cons_self

theorem apply_other : ∀ (mus : List Mu) {h h' : Heap} {p : Ptr} {r : Option Ptr}, apply h p mus = .ok (h', r) →
    h'.length = h.length ∧ ∀ a, p ≠ some a → (∀ c, ¬ Names a (.new c mus)) → h'[a]? = h[a]?
  | [], h, h', p, r, e => by cases e; exact ⟨rfl, fun _ _ _ => rfl⟩
  | .pkg mu :: mus, h, h', p, r, e => by
    obtain ⟨⟨h1, b⟩, e1, e2⟩ := bind_ok e
    obtain ⟨l1, f1⟩ := mutate_other e1
    cases b with
    | false => cases e2; exact ⟨l1, fun a hp _ => f1 a hp⟩
    | true =>
      obtain ⟨l2, f2⟩ := apply_other mus e2
      refine ⟨by rw [l2, l1], fun a hp hn => ?_⟩
      rw [f2 a hp (fun c ⟨s, hs, hh⟩ => hn c ⟨s, List.mem_cons_of_mem _ hs, hh⟩), f1 a hp]
  | .own s :: mus, h, h', p, r, e => by
    obtain ⟨h1, e1, e2⟩ := bind_ok e
    obtain ⟨l1, f1⟩ := runSteps_other p s.steps e1
    have hs1 : ∀ a, (∀ c, ¬ Names a (.new c (.own s :: mus))) → ∀ mu, (Ref.ptr (some a), mu) ∉ s.steps :=
      fun a hn mu hm => hn 0 ⟨s, List.mem_cons_self, .inl ⟨mu, hm⟩⟩
    cases hr : s.result with
    | none => simp only [hr] at e2; cases e2; exact ⟨l1, fun a hp hn => f1 a hp (hs1 a hn)⟩
    | some q =>
      simp only [hr] at e2
      obtain ⟨l2, f2⟩ := apply_other mus e2
      refine ⟨by rw [l2, l1], fun a hp hn => ?_⟩
      rw [f2 a ?_ (fun c ⟨s, hs, hh⟩ => hn c ⟨s, List.mem_cons_of_mem _ hs, hh⟩), f1 a hp (hs1 a hn)]
      cases q with
      | given => exact hp
      | ptr q =>
        intro hq
        simp only [Ref.of] at hq
        subst hq
        exact hn 0 ⟨s, List.mem_cons_self, .inr hr⟩

/-! ## The frame -/

theorem step_frame {st st' : St} {op : Op} {a : Nat} (ha : a < st.heap.length) (hn : ¬ Names a op) (e : step st op = .ok st') :
    st'.heap[a]? = st.heap[a]? ∧ st.heap.length ≤ st'.heap.length := by
  cases op with
  | new c mus =>
    simp only [step, new] at e
    split at e
    · cases e; exact ⟨rfl, Nat.le_refl _⟩
    · split at e
      · cases e; exact ⟨List.getElem?_append_left ha, by simp⟩
      · next m _ =>
        obtain ⟨⟨h, r⟩, e1, e2⟩ := bind_ok e
        obtain ⟨l, f⟩ := apply_other mus e1
        have hh : h[a]? = st.heap[a]? := by
          rw [f a (by simp; omega) (fun c' hc => hn hc), List.getElem?_append_left ha]
        have hl : st.heap.length ≤ h.length := by rw [l]; simp
        cases r with
        | none => cases e2; exact ⟨hh, hl⟩
        | some p => cases e2; exact ⟨hh, hl⟩
  | zero => cases e; exact ⟨List.getElem?_append_left ha, by simp⟩
  | newContext p =>
    simp only [step] at e
    split at e <;> (cases e; exact ⟨rfl, Nat.le_refl _⟩)
  | mutate p mu =>
    obtain ⟨⟨h, b⟩, e1, e2⟩ := bind_ok e
    cases e2
    obtain ⟨l, f⟩ := mutate_other e1
    exact ⟨f a hn, by simp [l]⟩
  | record c =>
    simp only [step] at e
    split at e <;> (cases e; exact ⟨rfl, Nat.le_refl _⟩)
  | handle =>
    simp only [step] at e
    split at e <;> (cases e; exact ⟨rfl, Nat.le_refl _⟩)

/-- **C113.** Whatever else the program does, with whatever mutators: as long as no call is given the map at `a`, its tags stay. -/
theorem frame {a : Nat} : ∀ (ops : List Op) {st st' : St}, a < st.heap.length → (∀ op ∈ ops, ¬ Names a op) → run st ops = .ok st' →
    view st' (some a) = view st (some a) := by
  intro ops
  have key : ∀ (ops : List Op) {st st' : St}, a < st.heap.length → (∀ op ∈ ops, ¬ Names a op) → run st ops = .ok st' →
      st'.heap[a]? = st.heap[a]? := by
    intro ops
    induction ops with
    | nil => intro st st' _ _ e; cases e; rfl
    | cons op ops ih =>
      intro st st' ha hn e
      obtain ⟨st1, e1, e2⟩ := bind_ok e
      obtain ⟨h1, h2⟩ := step_frame ha (hn op List.mem_cons_self) e1
      rw [ih (Nat.lt_of_lt_of_le ha h2) (fun o ho => hn o (List.mem_cons_of_mem _ ho)) e2, h1]
  intro st st' ha hn e
  have := key ops ha hn e
  simp only [view, tagsAt, this]

/-- **C113.** `Mutate` called on the map of contexts and of recordings that wait changes all of them: it does to them what the
documentation of the mutator says. -/
theorem mutate_changes {st : St} {a : Nat} {m : TMap} {mu : Mutator} (ha : st.heap[a]? = some (some m)) (hv : Accepted mu) :
    ∃ st', step st (.mutate (some a) mu) = .ok st' ∧ st'.ctxs = st.ctxs ∧ st'.queue = st.queue ∧
      view st' (some a) = edit (view st (some a)) mu := by
  have hlt : a < st.heap.length := (List.getElem?_eq_some_iff.mp ha).1
  have hs : step st (.mutate (some a) mu) = .ok { st with heap := st.heap.set a (some (effect m mu)) } := by
    simp [step, Own.mutate, (valid_iff mu).mpr hv, ha, Res.bind]
  refine ⟨_, hs, rfl, rfl, ?_⟩
  simp only [view, tagsAt, ha]
  rw [List.getElem?_set_self hlt]
  simp [effect_edit]

/-- **C113.** `Mutate` panics exactly if the value is one a tag can have and the map is nil, or the map is a `tag.Map{}` and a tag would be
inserted or upserted. -/
theorem mutate_panics_iff (h : Heap) (p : Ptr) (mu : Mutator) (hp : ∀ a, p = some a → a < h.length) :
    Own.mutate h p mu = .panic ↔ Accepted mu ∧
      (p = none ∨ ∃ a, p = some a ∧ h[a]? = some none ∧ ∃ k v mds, mu = .insert k v mds ∨ mu = .upsert k v mds) := by
  rw [← valid_iff]
  unfold Own.mutate
  cases hv : valid mu with
  | false => simp
  | true =>
    cases p with
    | none => simp
    | some a =>
      have hlt := hp a rfl
      obtain ⟨x, hx⟩ : ∃ x, h[a]? = some x := ⟨h[a], List.getElem?_eq_getElem hlt⟩
      cases x with
      | none => cases mu <;> simp [hx, assigns]
      | some m => simp [hx]

/-! ## Clean programs -/

theorem clean_names {op : Op} (hc : Clean op) (a : Nat) : ¬ Names a op := by
  cases op with
  | mutate p mu => exact fun _ => hc
  | new c mus =>
    rintro ⟨s, hs, h⟩
    obtain ⟨h1, h2⟩ := hc _ hs
    rcases h with ⟨mu, hm⟩ | hr
    · have := h1 _ hm; cases this
    · rcases h2 with h2 | h2 <;> (rw [hr] at h2; cases h2)
  | _ => exact fun h => h

theorem mutate_given {h : Heap} {a : Nat} {m : TMap} (ha : h[a]? = some (some m)) (mu : Mutator) :
    ∃ h' b m', Own.mutate h (some a) mu = .ok (h', b) ∧ h'[a]? = some (some m') ∧ (b = true ↔ Accepted mu) ∧
      GoMap.get m' = if Accepted mu then edit (GoMap.get m) mu else GoMap.get m := by
  have hlt : a < h.length := (List.getElem?_eq_some_iff.mp ha).1
  unfold Own.mutate
  cases hv : valid mu with
  | false =>
    have hn : ¬ Accepted mu := fun hh => by rw [← valid_iff, hv] at hh; cases hh
    exact ⟨h, false, m, rfl, ha, by simp [hn], by simp [hn]⟩
  | true =>
    have hn := (valid_iff mu).mp hv
    refine ⟨h.set a (some (effect m mu)), true, effect m mu, by simp [ha], List.getElem?_set_self hlt, by simp [hn], ?_⟩
    simp [hn, effect_edit]

theorem runSteps_given {a : Nat} : ∀ (ss : List (Ref × Mutator)) {h : Heap} {m : TMap}, h[a]? = some (some m) → (∀ x ∈ ss, x.1 = .given) →
    ∃ h' m', runSteps h (some a) ss = .ok h' ∧ h'[a]? = some (some m') ∧
      GoMap.get m' = ss.foldl (fun f x => if Accepted x.2 then edit f x.2 else f) (GoMap.get m)
  | [], h, m, ha, _ => ⟨h, m, rfl, ha, rfl⟩
  | (r, mu) :: ss, h, m, ha, hg => by
    have hr : r = .given := hg _ List.mem_cons_self
    subst hr
    obtain ⟨h1, b, m1, e1, ha1, _, hm1⟩ := mutate_given ha mu
    obtain ⟨h2, m2, e2, ha2, hm2⟩ := runSteps_given ss ha1 (fun x hx => hg x (List.mem_cons_of_mem _ hx))
    refine ⟨h2, m2, ?_, ha2, ?_⟩
    · simp only [runSteps, Ref.of, e1, Res.bind]; exact e2
    · rw [hm2, hm1]; rfl

theorem apply_given {a : Nat} : ∀ (mus : List Mu) {h : Heap} {m : TMap}, h[a]? = some (some m) → (∀ mu ∈ mus, OwnMap mu) →
    (editAll (GoMap.get m) mus = none ∧ ∃ h', apply h (some a) mus = .ok (h', none)) ∨
    ∃ f h' m', editAll (GoMap.get m) mus = some f ∧ apply h (some a) mus = .ok (h', some (some a)) ∧ h'[a]? = some (some m') ∧
      GoMap.get m' = f
  | [], h, m, ha, _ => .inr ⟨_, h, m, rfl, rfl, ha, rfl⟩
  | .pkg mu :: mus, h, m, ha, hc => by
    obtain ⟨h1, b, m1, e1, ha1, hb, hm1⟩ := mutate_given ha mu
    by_cases hv : Accepted mu
    · have hbt := hb.mpr hv
      subst hbt
      have ih := apply_given mus ha1 (fun x hx => hc x (List.mem_cons_of_mem _ hx))
      rw [hm1, if_pos hv] at ih
      simpa only [editAll, if_pos hv, apply, e1, Res.bind, if_true] using ih
    · have hbf : b = false := by cases b; · rfl
                                 · exact absurd (hb.mp rfl) hv
      subst hbf
      refine .inl ⟨by simp [editAll, hv], h1, by simp [apply, e1, Res.bind]⟩
  | .own s :: mus, h, m, ha, hc => by
    obtain ⟨hs, hr⟩ := hc _ List.mem_cons_self
    obtain ⟨h1, m1, e1, ha1, hm1⟩ := runSteps_given s.steps ha hs
    rcases hr with hr | hr
    · exact .inl ⟨by simp [editAll, hr], h1, by simp [apply, e1, Res.bind, hr]⟩
    · have ih := apply_given mus ha1 (fun x hx => hc x (List.mem_cons_of_mem _ hx))
      rw [hm1] at ih
      simpa [editAll, hr, apply, e1, Res.bind, Ref.of] using ih

theorem copy_get : ∀ (es : List (Key × Content)) {m m' : TMap}, copy m es = some m' →
    ∀ k, GoMap.get m' k = match GoMap.get m k with
      | some c => some c
      | none => GoMap.get (es : TMap) k
  | [], m, m', e, k => by cases e; cases GoMap.get m k <;> rfl
  | (k1, v) :: es, m, m', e, k => by
    simp only [copy] at e
    split at e
    · cases e
    · have := copy_get es e k
      rw [this]
      simp only [Tag.insert]
      cases h1 : GoMap.get m k1 with
      | some c =>
        cases h : GoMap.get m k with
        | some c => rfl
        | none =>
          have hne : k1 ≠ k := by intro hh; subst hh; rw [h1] at h; cases h
          simp [GoMap.get, hne]
      | none =>
        simp only [GoMap.get_set]
        by_cases hk : k = k1
        · subst hk; simp [h1, GoMap.get]
        · have hk' : k1 ≠ k := fun hh => hk hh.symm
          simp only [if_neg hk]
          cases GoMap.get m k <;> simp [GoMap.get, hk']

theorem copy_none : ∀ (es : List (Key × Content)) (m : TMap), copy m es = none ↔
    ∃ e ∈ es, ¬ (e.1.name ≠ [] ∧ Fits e.1.name ∧ Fits e.2.value)
  | [], m => by simp [copy]
  | (k, v) :: es, m => by
    have hk : checkKeyName k.name = true ↔ k.name ≠ [] ∧ Fits k.name := by
      unfold checkKeyName Fits maxKeyLength
      by_cases h0 : k.name = []
      · simp [h0]
      · have : k.name.length ≠ 0 := by simpa using h0
        simp only [this, if_false, ne_eq, h0, not_false_eq_true, true_and]
        split
        · constructor
          · intro h; cases h
          · intro h; omega
        · rw [isASCII_iff]
          constructor
          · intro h; exact ⟨by omega, h⟩
          · exact fun h => h.2
    rw [exists_mem_cons, ← copy_none es (Tag.insert m k v.value v.m)]
    simp only [copy]
    rw [← and_assoc, ← hk, ← checkValue_iff]
    cases checkKeyName k.name <;> cases checkValue v.value <;> simp

/-- **C113.** `New` with mutators of the package and mutators of the program that use the map they are given: it does not panic, it makes a
context exactly if the tags of the incoming one are allowed and no mutator reports an error, and the tags of the new context are those
of the incoming one with all edits, in their order. -/
theorem new_clean_partial {st : St} {c : Nat} {o : Ptr} {mus : List Mu} (hc : st.ctxs[c]? = some o) (hm : ∀ mu ∈ mus, OwnMap mu) :
    ∃ st', step st (.new c mus) = .ok st' ∧
      match editAll (view st o) mus with
      | some f => if ∀ e ∈ tagsAt st.heap o, e.1.name ≠ [] ∧ Fits e.1.name ∧ Fits e.2.value
          then ∃ a, st'.ctxs = st.ctxs ++ [some a] ∧ st.heap.length ≤ a ∧ a < st'.heap.length ∧ view st' (some a) = f
          else st'.ctxs = st.ctxs
      | none => st'.ctxs = st.ctxs := by
  simp only [step, new, hc]
  cases hcp : copy [] (tagsAt st.heap o) with
  | none =>
    simp only [hcp]
    refine ⟨_, rfl, ?_⟩
    have := (copy_none _ _).mp hcp
    have hn : ¬ ∀ e ∈ tagsAt st.heap o, e.1.name ≠ [] ∧ Fits e.1.name ∧ Fits e.2.value := by
      intro hall; obtain ⟨e, he, hne⟩ := this; exact hne (hall e he)
    cases editAll (view st o) mus with
    | none => rfl
    | some f => simp only [if_neg hn]
  | some m =>
    have hall : ∀ e ∈ tagsAt st.heap o, e.1.name ≠ [] ∧ Fits e.1.name ∧ Fits e.2.value := by
      intro e he
      refine Decidable.byContradiction fun hne => ?_
      have := (copy_none (tagsAt st.heap o) []).mpr ⟨e, he, hne⟩
      rw [hcp] at this; cases this
    have hg : GoMap.get m = view st o := by
      funext k
      rw [copy_get _ hcp k]
      simp [view]
    have ha : (st.heap ++ [some m])[st.heap.length]? = some (some m) := by simp
    rcases apply_given mus ha hm with ⟨h1, h', h2⟩ | ⟨f, h', m', h1, h2, h3, h4⟩
    · rw [hg] at h1
      simp only [h2, Res.bind]
      exact ⟨_, rfl, by simp [h1]⟩
    · rw [hg] at h1
      simp only [h2, Res.bind]
      refine ⟨_, rfl, ?_⟩
      simp only [h1, if_pos hall]
      refine ⟨_, rfl, Nat.le_refl _, ?_, ?_⟩
      · exact (List.getElem?_eq_some_iff.mp h3).1
      · simp [view, tagsAt, h3, h4]

theorem alive_init : Alive init := by
  intro a h; simp [init] at h

theorem step_clean {st : St} (ha : Alive st) {op : Op} (hc : Clean op) :
    ∃ st', step st op = .ok st' ∧ Alive st' ∧ st.heap.length ≤ st'.heap.length ∧ (∀ a, a < st.heap.length → st'.heap[a]? = st.heap[a]?) ∧
      (∀ (c : Nat) p, st.ctxs[c]? = some p → st'.ctxs[c]? = some p) := by
  have fr : ∀ {st' : St}, step st op = .ok st' → ∀ a, a < st.heap.length → st'.heap[a]? = st.heap[a]? :=
    fun e a hl => (step_frame hl (clean_names hc a) e).1
  cases op with
  | mutate p mu => exact hc.elim
  | new c mus =>
    have hall : ∃ st', step st (.new c mus) = .ok st' ∧ st.heap.length ≤ st'.heap.length ∧ st'.queue = st.queue ∧
        (st'.ctxs = st.ctxs ∨ ∃ a, st'.ctxs = st.ctxs ++ [some a] ∧ a < st'.heap.length) := by
      simp only [step, new]
      cases hcc : st.ctxs[c]? with
      | none => exact ⟨_, rfl, Nat.le_refl _, rfl, .inl rfl⟩
      | some o =>
        cases hcp : copy [] (tagsAt st.heap o) with
        | none => simp only [hcp]; exact ⟨_, rfl, by simp, rfl, .inl rfl⟩
        | some m =>
          have hx : (st.heap ++ [some m])[st.heap.length]? = some (some m) := by simp
          rcases apply_given mus hx hc with ⟨_, h', h2⟩ | ⟨f, h', m', _, h2, h3, _⟩
          · have hl := (apply_other mus h2).1
            simp only [hcp, h2, Res.bind]
            exact ⟨_, rfl, by simp [hl], rfl, .inl rfl⟩
          · have hl := (apply_other mus h2).1
            simp only [hcp, h2, Res.bind]
            exact ⟨_, rfl, by simp [hl], rfl, .inr ⟨_, rfl, by simp [hl]⟩⟩
    obtain ⟨st', e, hl, hq, hcs⟩ := hall
    refine ⟨st', e, ?_, hl, fr e, ?_⟩
    · intro a h
      rw [hq] at h
      rcases hcs with hcs | ⟨b, hcs, hb⟩
      · rw [hcs] at h; exact Nat.lt_of_lt_of_le (ha a h) hl
      · rw [hcs] at h
        rcases h with h | h
        · rcases List.mem_append.mp h with h | h
          · exact Nat.lt_of_lt_of_le (ha a (.inl h)) hl
          · simp at h; omega
        · exact Nat.lt_of_lt_of_le (ha a (.inr h)) hl
    · intro c' p hp
      rcases hcs with hcs | ⟨b, hcs, _⟩
      · rw [hcs]; exact hp
      · rw [hcs, List.getElem?_append_left (List.getElem?_eq_some_iff.mp hp).1]; exact hp
  | zero =>
    refine ⟨_, rfl, ?_, by simp, fr rfl, fun _ _ h => h⟩
    intro a h
    have := ha a h
    simp; omega
  | newContext p =>
    simp only [step]
    split
    · next hp =>
      refine ⟨_, rfl, ?_, Nat.le_refl _, fun _ _ => rfl, ?_⟩
      · intro a h
        rcases h with h | h
        · rcases List.mem_append.mp h with h | h
          · exact ha a (.inl h)
          · simp at h; subst h; simpa using hp
        · exact ha a (.inr h)
      · intro c' q hq
        simp only
        rw [List.getElem?_append_left (List.getElem?_eq_some_iff.mp hq).1]; exact hq
    · exact ⟨_, rfl, ha, Nat.le_refl _, fun _ _ => rfl, fun _ _ h => h⟩
  | record c =>
    simp only [step]
    cases hcc : st.ctxs[c]? with
    | none => exact ⟨_, rfl, ha, Nat.le_refl _, fun _ _ => rfl, fun _ _ h => h⟩
    | some p =>
      refine ⟨_, rfl, ?_, Nat.le_refl _, fun _ _ => rfl, fun _ _ h => h⟩
      intro a h
      rcases h with h | h
      · exact ha a (.inl h)
      · rcases List.mem_append.mp h with h | h
        · exact ha a (.inr h)
        · simp at h; subst h; exact ha a (.inl (List.mem_of_getElem? hcc))
  | handle =>
    simp only [step]
    cases hq : st.queue with
    | nil => exact ⟨_, rfl, ha, Nat.le_refl _, fun _ _ => rfl, fun _ _ h => h⟩
    | cons p q =>
      refine ⟨_, rfl, ?_, Nat.le_refl _, fun _ _ => rfl, fun _ _ h => h⟩
      intro a h
      rcases h with h | h
      · exact ha a (.inl h)
      · exact ha a (.inr (by rw [hq]; exact List.mem_cons_of_mem _ h))

theorem tagsAt_same {h h' : Heap} (hf : ∀ a, a < h.length → h'[a]? = h[a]?) {p : Ptr} (hp : ∀ a, p = some a → a < h.length) :
    tagsAt h' p = tagsAt h p := by
  cases p with
  | none => rfl
  | some a => simp only [tagsAt, hf a (hp a rfl)]

theorem run_clean : ∀ (ops : List Op) {st : St}, Alive st → (∀ op ∈ ops, Clean op) →
    ∃ st', run st ops = .ok st' ∧ Alive st' ∧ st.heap.length ≤ st'.heap.length ∧ (∀ a, a < st.heap.length → st'.heap[a]? = st.heap[a]?) ∧
      (∀ (c : Nat) p, st.ctxs[c]? = some p → st'.ctxs[c]? = some p)
  | [], st, ha, _ => ⟨st, rfl, ha, Nat.le_refl _, fun _ _ => rfl, fun _ _ h => h⟩
  | op :: ops, st, ha, hc => by
    obtain ⟨s1, e1, a1, l1, f1, c1⟩ := step_clean ha (hc op List.mem_cons_self)
    obtain ⟨s2, e2, a2, l2, f2, c2⟩ := run_clean ops a1 (fun o ho => hc o (List.mem_cons_of_mem _ ho))
    refine ⟨s2, by simp only [run, e1, Res.bind]; exact e2, a2, Nat.le_trans l1 l2, fun a h => ?_, fun c p h => c2 c p (c1 c p h)⟩
    rw [f2 a (Nat.lt_of_lt_of_le h l1), f1 a h]

/-- **C113.** A clean program never panics, and the tags of every context that there is at some time are the same at all later times. -/
theorem tags_stay_partial {ops1 ops2 : List Op} (h1 : ∀ op ∈ ops1, Clean op) (h2 : ∀ op ∈ ops2, Clean op) :
    ∃ s1 s2, run init ops1 = .ok s1 ∧ run s1 ops2 = .ok s2 ∧
      ∀ (c : Nat) p, s1.ctxs[c]? = some p → s2.ctxs[c]? = some p ∧ view s2 p = view s1 p := by
  obtain ⟨s1, e1, a1, _, _, _⟩ := run_clean ops1 alive_init h1
  obtain ⟨s2, e2, _, _, f2, c2⟩ := run_clean ops2 a1 h2
  refine ⟨s1, s2, e1, e2, fun c p h => ⟨c2 c p h, ?_⟩⟩
  simp only [view]
  rw [tagsAt_same f2]
  intro a hp
  subst hp
  exact a1 a (.inl (List.mem_of_getElem? h))

theorem recorded_aux : ∀ (ops : List Op) {st st' : St}, Alive st → (∀ op ∈ ops, Clean op) → run st ops = .ok st' →
    st'.log ++ st'.queue.map (tagsAt st'.heap) = st.log ++ st.queue.map (tagsAt st.heap) ++ recordedWith st ops
  | [], st, st', _, _, e => by cases e; simp [recordedWith]
  | op :: ops, st, st', ha, hc, e => by
    obtain ⟨s1, e1, a1, l1, f1, c1⟩ := step_clean ha (hc op List.mem_cons_self)
    have e2 : run s1 ops = .ok st' := by simpa only [run, e1, Res.bind] using e
    rw [recorded_aux ops a1 (fun o ho => hc o (List.mem_cons_of_mem _ ho)) e2]
    simp only [recordedWith, e1]
    rw [← List.append_assoc]
    congr 1
    have hq : st.queue.map (tagsAt s1.heap) = st.queue.map (tagsAt st.heap) := by
      refine List.map_congr_left fun p hp => tagsAt_same f1 fun a hh => ?_
      subst hh; exact ha a (.inr hp)
    cases op with
    | mutate p mu => exact (hc _ List.mem_cons_self).elim
    | new c mus =>
      have : s1.queue = st.queue ∧ s1.log = st.log := by
        simp only [step, new] at e1
        split at e1
        · cases e1; exact ⟨rfl, rfl⟩
        · split at e1
          · cases e1; exact ⟨rfl, rfl⟩
          · obtain ⟨⟨h, r⟩, _, e3⟩ := bind_ok e1
            cases r <;> (cases e3; exact ⟨rfl, rfl⟩)
      rw [this.1, this.2, hq, List.append_nil]
    | zero => cases e1; rw [List.append_nil]; simp only; rw [hq]
    | newContext p =>
      simp only [step] at e1
      split at e1 <;> (cases e1; rw [List.append_nil])
    | record c =>
      simp only [step] at e1
      split at e1
      · next hn => cases e1; simp [hn]
      · next p hp => cases e1; simp [hp]
    | handle =>
      simp only [step] at e1
      split at e1
      · next hn => cases e1; simp
      · next p q hp => cases e1; simp [hp]

/-- **C113.** In a clean program recordings are collected in their order, each under the tags its context had when it was made; those that
wait will be. -/
theorem recorded_partial {ops : List Op} (hc : ∀ op ∈ ops, Clean op) :
    ∃ st, run init ops = .ok st ∧ st.log ++ st.queue.map (tagsAt st.heap) = recordedWith init ops := by
  obtain ⟨st, e, _⟩ := run_clean ops alive_init hc
  exact ⟨st, e, by rw [recorded_aux ops alive_init hc e]; simp [init]⟩

/-! ## What the others do -/

def kA : Key := ⟨str "a"⟩
def kB : Key := ⟨str "b"⟩
def up (k : Key) (v : String) : Mutator := .upsert k (str v) []
def content (v : String) : Content := ⟨str v, ⟨-1⟩⟩

/-- **C113.** The tags of a context, and those of a recording that was made before, are changed by `Mutate` on what `FromContext` gave. -/
theorem mutate_shared : (match run init [.new 0 [.pkg (up kA "1")], .record 1, .mutate (some 0) (up kA "2"), .handle] with
    | .ok st => decide (st.ctxs = [none, some 0] ∧ tagsAt st.heap (some 0) = [(kA, content "2")] ∧ st.log = [[(kA, content "2")]])
    | _ => false) = true := by decide +kernel

/-- **C113.** An implemented mutator that returns the map of another context: the mutators after it in `New` change that context, and the two
contexts share their tags from then on. -/
theorem returned_shared : (match run init [.new 0 [.pkg (up kA "1")], .new 0 [.own ⟨[], some (.ptr (some 0))⟩, .pkg (up kB "2")]] with
    | .ok st => decide (st.ctxs = [none, some 0, some 0] ∧ tagsAt st.heap (some 0) = [(kA, content "1"), (kB, content "2")])
    | _ => false) = true := by decide +kernel

/-- **C113.** An implemented mutator that returns nil and no error: the next mutator of `New` panics; as the last one it makes a context
without tags. -/
theorem returned_nil : run init [.new 0 [.own ⟨[], some (.ptr none)⟩, .pkg (up kA "1")]] = .panic ∧
    (match run init [.new 0 [.pkg (up kA "1"), .own ⟨[], some (.ptr none)⟩]] with
    | .ok st => decide (st.ctxs = [none, none])
    | _ => false) = true := ⟨rfl, by decide +kernel⟩

/-- **C113.** An implemented mutator that returns a `&tag.Map{}`: inserting after it panics, deleting does not. -/
theorem returned_zero : run init [.zero, .new 0 [.own ⟨[], some (.ptr (some 0))⟩, .pkg (up kA "1")]] = .panic ∧
    (match run init [.zero, .new 0 [.own ⟨[], some (.ptr (some 0))⟩, .pkg (.delete kA)]] with
    | .ok st => decide (st.ctxs = [none, some 0])
    | _ => false) = true := ⟨rfl, by decide +kernel⟩

/-- **C113.** So, that the tags of a context stay the same whatever the program does, is false. -/
theorem tags_stay_fails : ¬ ∀ (ops1 ops2 : List Op) (s1 s2 : St), run init ops1 = .ok s1 → run s1 ops2 = .ok s2 →
    ∀ (c : Nat) p, s1.ctxs[c]? = some p → view s2 p = view s1 p := by
  intro h
  have := congrFun (h [.new 0 [.pkg (up kA "1")]] [.mutate (some 0) (up kA "2")] _ _ rfl rfl 1 (some 0) rfl) kA
  revert this
  decide +kernel

/-! ## The hypotheses can be met -/

/-- A clean history with an implemented mutator, a failing one, a recording and its handling. -/
def sample : List Op := [.new 0 [.pkg (up kA "1"), .own ⟨[(.given, up kB "2"), (.given, .delete kA)], some .given⟩],
  .record 1, .new 1 [.own ⟨[(.given, up kB "3")], none⟩], .new 1 [.pkg (up kB "4")], .handle, .record 2]

theorem sample_clean : ∀ op ∈ sample, Clean op := by
  intro op h
  simp only [sample, List.mem_cons, List.not_mem_nil, or_false] at h
  rcases h with rfl | rfl | rfl | rfl | rfl | rfl <;> simp [Clean, OwnMap] <;> (rintro a b (⟨h, _⟩ | ⟨h, _⟩) <;> exact h)

example : (match run init sample with
    | .ok st => decide (st.log = [[(kB, content "2")]] ∧ st.ctxs = [none, some 0, some 2] ∧ recordedWith init sample =
      [[(kB, content "2")], [(kB, content "4")]])
    | _ => false) = true := by decide +kernel
example := recorded_partial sample_clean
example := tags_stay_partial (ops2 := [.new 1 [.pkg (up kA "9")]]) sample_clean (by simp [Clean, OwnMap])
example : ∃ st, run init [.new 0 [.pkg (up kA "1")]] = .ok st ∧ 0 < st.heap.length ∧
    ∀ op ∈ [Op.new 1 [.own ⟨[(.ptr (some 7), up kA "2")], some (.ptr none)⟩], .mutate (some 1) (up kA "2")], ¬ Names 0 op :=
  ⟨_, rfl, by decide, by simp [Names]⟩
example : ∃ st m, run init [.new 0 [.pkg (up kA "1")]] = .ok st ∧ st.heap[0]? = some (some m) ∧ Accepted (up kA "2") :=
  ⟨_, _, rfl, rfl, by decide +kernel⟩
example : Own.mutate [none] (some 0) (up kA "1") = .panic := rfl
example : init.ctxs[0]? = some none ∧ ∀ mu ∈ [Mu.pkg (up kA "1"), .own ⟨[(.given, up kB "2")], some .given⟩], OwnMap mu :=
  ⟨rfl, by simp [OwnMap]⟩

end Verif.Tag.Own
