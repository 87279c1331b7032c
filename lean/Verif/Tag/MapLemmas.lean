import Verif.Tag.Map

/-! Helper lemmas about tag maps: the heap programs of `New` work on the freshly allocated map only. -/

namespace Verif.Tag
open Verif

/-- `mutate` without the heap. -/
def mutateP (m : TMap) : Mutator → Except Err TMap
  | .insert k v mds => if !checkValue v then .error .invalidValue else .ok (insert m k v (createMetadatas mds))
  | .update k v mds => if !checkValue v then .error .invalidValue else .ok (update m k v (createMetadatas mds))
  | .upsert k v mds => if !checkValue v then .error .invalidValue else .ok (upsert m k v (createMetadatas mds))
  | .delete k => .ok (delete m k)

def mutateAllP (m : TMap) : List Mutator → TMap × Option Err
  | [] => (m, none)
  | mu :: mus => match mutateP m mu with
    | .error e => (m, some e)
    | .ok m' => mutateAllP m' mus

def copyAllP (m : TMap) : List (Key × Content) → TMap × Option Err
  | [] => (m, none)
  | (k, v) :: es =>
    if !checkKeyName k.name then (m, some .invalidKey)
    else if !checkValue v.value then (m, some .invalidValue)
    else copyAllP (insert m k v.value v.m) es

theorem getElem?_fresh (h : Heap) (m : TMap) : (h ++ [m])[h.length]? = some m := by simp

theorem write_fresh (h : Heap) (m m' : TMap) : Heap.write (h ++ [m]) h.length m' = h ++ [m'] := by
  simp [Heap.write]

theorem mutate_fresh (h : Heap) (m : TMap) (mu : Mutator) :
    mutate (h ++ [m]) h.length m mu = (mutateP m mu).map (fun m' => h ++ [m']) := by
  cases mu <;> simp only [mutate, mutateP, write_fresh] <;> (try split) <;> simp [Except.map]

theorem mutateAll_fresh (h : Heap) (m : TMap) (mus : List Mutator) :
    mutateAll (h ++ [m]) h.length mus = (h ++ [(mutateAllP m mus).1], (mutateAllP m mus).2) := by
  induction mus generalizing m with
  | nil => simp [mutateAll, mutateAllP]
  | cons mu mus ih =>
    simp only [mutateAll, mutateAllP, getElem?_fresh, mutate_fresh]
    cases hm : mutateP m mu with
    | error e => simp [Except.map]
    | ok m' => simp [Except.map, ih]

theorem copyAll_fresh (h : Heap) (m : TMap) (es : List (Key × Content)) :
    copyAll (h ++ [m]) h.length es = (h ++ [(copyAllP m es).1], (copyAllP m es).2) := by
  induction es generalizing m with
  | nil => simp [copyAll, copyAllP]
  | cons e es ih =>
    obtain ⟨k, v⟩ := e
    simp only [copyAll, copyAllP, getElem?_fresh, write_fresh, ih]
    split
    · rfl
    · split <;> rfl

/-- The incoming map of a context, as a list of entries in iteration order. -/
def incoming {α : Type} (iter : TMap → List (Key × Content)) (h : Heap) (ctx : Ctx α) :
    List (Key × Content) :=
  match ctx.tags with
  | none => []
  | some o => match h[o]? with
    | none => []
    | some om => iter om

/-- `New` in terms of the heap-free helpers. -/
theorem new_eq {α : Type} (iter : TMap → List (Key × Content)) (h : Heap) (ctx : Ctx α)
    (mus : List Mutator) :
    new iter h ctx mus =
      match copyAllP [] (incoming iter h ctx) with
      | (m, some e) => (h ++ [m], ctx, some e)
      | (m, none) => match mutateAllP m mus with
        | (m', some e) => (h ++ [m'], ctx, some e)
        | (m', none) => (h ++ [m'], { ctx with tags := some h.length }, none) := by
  unfold new
  simp only [copyAll_fresh]
  show (match (h ++ [(copyAllP [] (incoming iter h ctx)).1], (copyAllP [] (incoming iter h ctx)).2) with
    | (h2, some e) => (h2, ctx, some e)
    | (h2, none) => _) = _
  rcases hc : copyAllP [] (incoming iter h ctx) with ⟨m, _ | e⟩
  · simp only [mutateAll_fresh]
    rcases mutateAllP m mus with ⟨m', _ | e⟩ <;> rfl
  · rfl

/-- An entry `New` accepts. -/
def EntryOK (e : Key × Content) : Prop := checkKeyName e.1.name = true ∧ checkValue e.2.value = true

/-- A mutator whose value passes the check. -/
def MutOK : Mutator → Prop
  | .insert _ v _ => checkValue v = true
  | .update _ v _ => checkValue v = true
  | .upsert _ v _ => checkValue v = true
  | .delete _ => True

theorem insert_new {m : TMap} {k : Key} (h : k ∉ GoMap.keys m) (v : Bytes) (md : Metadatas) :
    insert m k v md = GoMap.set m k ⟨v, md⟩ := by
  have := (GoMap.get_eq_none_iff m k).2 h
  simp [insert, this]

theorem copyAllP_err_iff (m : TMap) (es : List (Key × Content)) :
    (copyAllP m es).2.isSome ↔ ∃ e ∈ es, ¬ EntryOK e := by
  induction es generalizing m with
  | nil => simp [copyAllP]
  | cons e es ih =>
    obtain ⟨k, v⟩ := e
    simp only [copyAllP, exists_mem_cons, EntryOK]
    by_cases h1 : checkKeyName k.name = true
    · by_cases h2 : checkValue v.value = true
      · simp only [h1, h2, Bool.not_true, Bool.false_eq_true, if_false, ih]
        exact ⟨Or.inr, fun h => h.resolve_left (by simp)⟩
      · simp [h1, h2]
    · simp [h1]

theorem copyAllP_get (m : TMap) (es : List (Key × Content)) (hw : GoMap.WF es)
    (hd : ∀ k ∈ GoMap.keys es, k ∉ GoMap.keys m) (hok : ∀ e ∈ es, EntryOK e) (k : Key) :
    GoMap.get (copyAllP m es).1 k = (GoMap.get es k).or (GoMap.get m k) := by
  induction es generalizing m with
  | nil => simp [copyAllP]
  | cons e es ih =>
    obtain ⟨k', v⟩ := e
    have h0 := hok _ (by simp : ((k', v) : Key × Content) ∈ (k', v) :: es)
    simp only [copyAllP, h0.1, h0.2, Bool.not_true, Bool.false_eq_true, if_false]
    simp only [GoMap.WF, GoMap.keys_cons, List.nodup_cons] at hw
    have hk' : k' ∉ GoMap.keys m := hd k' (by simp)
    rw [insert_new hk']
    rw [ih _ hw.2]
    · rw [GoMap.get_set]
      by_cases hk : k = k'
      · subst hk
        have : GoMap.get es k = none := (GoMap.get_eq_none_iff _ _).2 hw.1
        simp [this, GoMap.get]
      · simp [GoMap.get, hk, Ne.symm hk]
    · intro k2 h2
      rw [GoMap.keys_set_mem]
      rintro (h3 | h3)
      · subst h3; exact hw.1 h2
      · exact hd k2 (by simp [h2]) h3
    · intro e he; exact hok e (by simp [he])

theorem copyAllP_wf (m : TMap) (es : List (Key × Content)) (hw : GoMap.WF m) :
    GoMap.WF (copyAllP m es).1 := by
  induction es generalizing m with
  | nil => simpa [copyAllP]
  | cons e es ih =>
    obtain ⟨k, v⟩ := e
    simp only [copyAllP]
    split
    · exact hw
    · split
      · exact hw
      · apply ih
        unfold insert
        split
        · exact hw
        · exact GoMap.WF_set hw _ _

theorem mutateP_wf {m m' : TMap} {mu : Mutator} (hw : GoMap.WF m) (h : mutateP m mu = .ok m') :
    GoMap.WF m' := by
  cases mu <;> simp only [mutateP] at h <;> (try split at h) <;> try (cases h)
  · unfold insert; split
    · exact hw
    · exact GoMap.WF_set hw _ _
  · unfold update; split
    · exact GoMap.WF_set hw _ _
    · exact hw
  · exact GoMap.WF_set hw _ _
  · exact GoMap.WF_del hw _

theorem mutateAllP_wf {m : TMap} {mus : List Mutator} (hw : GoMap.WF m) :
    GoMap.WF (mutateAllP m mus).1 := by
  induction mus generalizing m with
  | nil => simpa [mutateAllP]
  | cons mu mus ih =>
    simp only [mutateAllP]
    cases h : mutateP m mu with
    | error e => exact hw
    | ok m' => exact ih (mutateP_wf hw h)

theorem mutateP_isOk_iff (m : TMap) (mu : Mutator) : (∃ m', mutateP m mu = .ok m') ↔ MutOK mu := by
  cases mu with
  | delete k => simp [mutateP, MutOK]
  | _ k v mds => cases hv : checkValue v <;> simp [mutateP, MutOK, hv]

theorem mutateAllP_err_iff (m : TMap) (mus : List Mutator) :
    (mutateAllP m mus).2.isSome ↔ ∃ mu ∈ mus, ¬ MutOK mu := by
  induction mus generalizing m with
  | nil => simp [mutateAllP]
  | cons mu mus ih =>
    simp only [mutateAllP, exists_mem_cons]
    have := mutateP_isOk_iff m mu
    cases h : mutateP m mu with
    | error e =>
      simp only [h] at this
      have : ¬ MutOK mu := by rw [← this]; simp
      simp [this]
    | ok m' =>
      have : MutOK mu := this.1 ⟨m', h⟩
      simp [this, ih]

end Verif.Tag
