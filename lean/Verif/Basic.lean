/-!
# Basic modelling vocabulary

Go strings and byte slices, the three ways a Go call can end, and Go maps.
Nothing here models a particular function of the repository.
-/

namespace Verif

/-- A Go `string` or `[]byte`: a list of bytes. -/
abbrev Bytes := List UInt8

/-- ASCII string literal as bytes (each character is one byte). -/
def str (s : String) : Bytes := s.toList.map (fun c => UInt8.ofNat c.toNat)

/-- How a Go call ends: with a value, with a non-nil `error`, or with a run-time panic. -/
inductive Res (α : Type u) where
  | ok (a : α)
  | err
  | panic
  deriving DecidableEq, Repr

namespace Res
def bind {α : Type u} {β : Type v} : Res α → (α → Res β) → Res β
  | ok a, f => f a
  | err, _ => err
  | panic, _ => panic

def isOk {α : Type u} : Res α → Bool
  | ok _ => true
  | _ => false

def isPanic {α : Type u} : Res α → Bool
  | panic => true
  | _ => false
end Res

/-- Two's-complement reduction to the range of a Go `int` on a 64-bit platform. -/
def wrap64 (x : Int) : Int := (x + 2 ^ 63) % 2 ^ 64 - 2 ^ 63

theorem exists_mem_cons {α : Type u} {p : α → Prop} {a : α} {l : List α} :
    (∃ x ∈ a :: l, p x) ↔ p a ∨ ∃ x ∈ l, p x := by simp

/-! ## Go maps

A Go map is an association list; all the operations keep the keys distinct. -/

/-- A Go map with keys `K` and values `V`. -/
abbrev GoMap (K : Type u) (V : Type v) := List (K × V)

namespace GoMap
variable {K : Type u} {V : Type v} [DecidableEq K]

/-- `v, ok := m[k]`. -/
def get : GoMap K V → K → Option V
  | [], _ => none
  | (k', v) :: m, k => if k' = k then some v else get m k

/-- `m[k] = v`. -/
def set : GoMap K V → K → V → GoMap K V
  | [], k, v => [(k, v)]
  | (k', v') :: m, k, v => if k' = k then (k, v) :: m else (k', v') :: set m k v

/-- `delete(m, k)`. -/
def del : GoMap K V → K → GoMap K V
  | [], _ => []
  | (k', v') :: m, k => if k' = k then del m k else (k', v') :: del m k

/-- The keys, in the order of the list. -/
def keys (m : GoMap K V) : List K := m.map Prod.fst

/-- No key occurs twice: what every Go map satisfies. -/
def WF (m : GoMap K V) : Prop := (keys m).Nodup

omit [DecidableEq K] in
@[simp] theorem keys_nil : keys ([] : GoMap K V) = [] := rfl
omit [DecidableEq K] in
@[simp] theorem keys_cons (p : K × V) (m : GoMap K V) : keys (p :: m) = p.1 :: keys m := rfl

omit [DecidableEq K] in
theorem WF_nil : WF ([] : GoMap K V) := by simp [WF]

@[simp] theorem get_nil (k : K) : get ([] : GoMap K V) k = none := rfl

@[simp] theorem get_set_same (m : GoMap K V) (k : K) (v : V) : get (set m k v) k = some v := by
  induction m with
  | nil => simp [set, get]
  | cons p m ih =>
    obtain ⟨k', v'⟩ := p
    by_cases h : k' = k <;> simp [set, get, h, ih]

theorem get_set_other (m : GoMap K V) {k k' : K} (v : V) (h : k' ≠ k) :
    get (set m k v) k' = get m k' := by
  induction m with
  | nil => simp [set, get, Ne.symm h]
  | cons p m ih =>
    obtain ⟨a, b⟩ := p
    by_cases h1 : a = k
    · subst h1; simp [set, get, Ne.symm h]
    · simp [set, get, h1, ih]

theorem get_set (m : GoMap K V) (k k' : K) (v : V) :
    get (set m k v) k' = if k' = k then some v else get m k' := by
  split
  · next h => subst h; simp
  · next h => exact get_set_other m v h

@[simp] theorem get_del_same (m : GoMap K V) (k : K) : get (del m k) k = none := by
  induction m with
  | nil => rfl
  | cons p m ih =>
    obtain ⟨a, b⟩ := p
    by_cases h : a = k <;> simp [del, get, h, ih]

theorem get_del_other (m : GoMap K V) {k k' : K} (h : k' ≠ k) : get (del m k) k' = get m k' := by
  induction m with
  | nil => rfl
  | cons p m ih =>
    obtain ⟨a, b⟩ := p
    by_cases h1 : a = k
    · subst h1; simp [del, get, Ne.symm h, ih]
    · simp [del, get, h1, ih]

theorem get_del (m : GoMap K V) (k k' : K) :
    get (del m k) k' = if k' = k then none else get m k' := by
  split
  · next h => subst h; simp
  · next h => exact get_del_other m h

theorem get_eq_none_iff (m : GoMap K V) (k : K) : get m k = none ↔ k ∉ keys m := by
  induction m with
  | nil => simp
  | cons p m ih =>
    obtain ⟨a, b⟩ := p
    by_cases h : a = k
    · simp [get, h]
    · simp [get, h, ih, Ne.symm h]

theorem mem_of_get {m : GoMap K V} {k : K} {v : V} (h : get m k = some v) : (k, v) ∈ m := by
  induction m with
  | nil => simp at h
  | cons p m ih =>
    obtain ⟨a, b⟩ := p
    by_cases h1 : a = k
    · simp [get, h1] at h; simp [h1, h]
    · simp [get, h1] at h; exact List.mem_cons_of_mem _ (ih h)

theorem get_of_mem {m : GoMap K V} (hw : WF m) {k : K} {v : V} (h : (k, v) ∈ m) :
    get m k = some v := by
  induction m with
  | nil => simp at h
  | cons p m ih =>
    obtain ⟨a, b⟩ := p
    simp only [WF, keys_cons, List.nodup_cons] at hw
    rcases List.mem_cons.1 h with h | h
    · cases h; simp [get]
    · have : a ≠ k := by
        rintro rfl
        exact hw.1 (List.mem_map.2 ⟨_, h, rfl⟩)
      simp [get, this, ih hw.2 h]

theorem get_iff_mem {m : GoMap K V} (hw : WF m) {k : K} {v : V} :
    get m k = some v ↔ (k, v) ∈ m := ⟨mem_of_get, get_of_mem hw⟩

omit [DecidableEq K] in
theorem WF_perm {m m' : GoMap K V} (h : m.Perm m') (hw : WF m) : WF m' :=
  (List.Perm.nodup_iff (h.map Prod.fst)).1 hw

theorem get_perm {m m' : GoMap K V} (h : m.Perm m') (hw : WF m) (k : K) : get m k = get m' k := by
  have hw' := WF_perm h hw
  rcases h1 : get m' k with _ | v
  · rw [get_eq_none_iff] at h1 ⊢
    intro h2; exact h1 ((h.map Prod.fst).mem_iff.1 h2)
  · exact get_of_mem hw (h.mem_iff.2 (mem_of_get h1))

theorem keys_set_mem (m : GoMap K V) (k k' : K) (v : V) :
    k' ∈ keys (set m k v) ↔ k' = k ∨ k' ∈ keys m := by
  induction m with
  | nil => simp [set]
  | cons p m ih =>
    obtain ⟨a, b⟩ := p
    by_cases h : a = k
    · subst h; simp [set]
    · simp only [set, h, if_false, keys_cons, List.mem_cons, ih]
      constructor
      · rintro (h | h | h) <;> simp [h]
      · rintro (h | h | h) <;> simp [h]

theorem keys_del_mem (m : GoMap K V) (k k' : K) :
    k' ∈ keys (del m k) ↔ k' ≠ k ∧ k' ∈ keys m := by
  induction m with
  | nil => simp [del]
  | cons p m ih =>
    obtain ⟨a, b⟩ := p
    by_cases h : a = k
    · subst h
      simp only [del, if_true, ih, keys_cons, List.mem_cons]
      grind
    · simp only [del, h, if_false, keys_cons, List.mem_cons, ih]
      grind

theorem WF_set {m : GoMap K V} (hw : WF m) (k : K) (v : V) : WF (set m k v) := by
  induction m with
  | nil => simp [set, WF]
  | cons p m ih =>
    obtain ⟨a, b⟩ := p
    simp only [WF, keys_cons, List.nodup_cons] at hw
    by_cases h : a = k
    · subst h; simpa [set, WF] using hw
    · simp only [set, h, if_false, WF, keys_cons, List.nodup_cons]
      refine ⟨?_, ih hw.2⟩
      rw [keys_set_mem]
      rintro (h1 | h1)
      · exact h h1
      · exact hw.1 h1

theorem WF_del {m : GoMap K V} (hw : WF m) (k : K) : WF (del m k) := by
  induction m with
  | nil => simp [del, WF]
  | cons p m ih =>
    obtain ⟨a, b⟩ := p
    simp only [WF, keys_cons, List.nodup_cons] at hw
    by_cases h : a = k
    · simpa [del, h] using ih hw.2
    · simp only [del, h, if_false, WF, keys_cons, List.nodup_cons]
      exact ⟨fun h1 => hw.1 ((keys_del_mem _ _ _).1 h1).2, ih hw.2⟩

theorem mem_set {m : GoMap K V} {k : K} {v : V} {q : K × V} (h : q ∈ set m k v) :
    q = (k, v) ∨ q ∈ m := by
  induction m with
  | nil => simp [set] at h; exact Or.inl h
  | cons p m ih =>
    obtain ⟨a, b⟩ := p
    by_cases h1 : a = k
    · simp only [set, h1, if_true, List.mem_cons] at h
      rcases h with h | h
      · exact Or.inl h
      · exact Or.inr (List.mem_cons_of_mem _ h)
    · simp only [set, h1, if_false, List.mem_cons] at h
      rcases h with h | h
      · exact Or.inr (by simp [h])
      · rcases ih h with h | h
        · exact Or.inl h
        · exact Or.inr (List.mem_cons_of_mem _ h)

theorem mem_del {m : GoMap K V} {k : K} {q : K × V} (h : q ∈ del m k) : q ∈ m := by
  induction m with
  | nil => simp [del] at h
  | cons p m ih =>
    obtain ⟨a, b⟩ := p
    by_cases h1 : a = k
    · simp only [del, h1, if_true] at h
      exact List.mem_cons_of_mem _ (ih h)
    · simp only [del, h1, if_false, List.mem_cons] at h
      rcases h with h | h
      · simp [h]
      · exact List.mem_cons_of_mem _ (ih h)

/-- Two well-formed maps with the same lookups hold the same entries. -/
theorem perm_of_get {m m' : GoMap K V} (hw : WF m) (hw' : WF m')
    (h : ∀ k, get m k = get m' k) : m.Perm m' := by
  have nd : ∀ {l : GoMap K V}, WF l → l.Nodup := by
    intro l hl
    induction l with
    | nil => simp
    | cons p l ih =>
      simp only [WF, keys_cons, List.nodup_cons] at hl
      rw [List.nodup_cons]
      exact ⟨fun hp => hl.1 (List.mem_map.2 ⟨_, hp, rfl⟩), ih hl.2⟩
  refine (List.perm_ext_iff_of_nodup (nd hw) (nd hw')).2 ?_
  rintro ⟨k, v⟩
  rw [← get_iff_mem hw, ← get_iff_mem hw', h k]

end GoMap
end Verif
