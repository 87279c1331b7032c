import Verif.Resource.LabelLemmas
import Verif.Resource.Merge

/-!
# C42, C43: labels of resources as text, and merging of resources
-/

namespace Verif.Props.Resource
open Verif Verif.Utf8 Verif.Wire Verif.Resource

/-! ## C42 -/

theorem spaces_head : ∀ e ∈ spaces, ∃ c ∈ e.head?, (9 ≤ c.toNat ∧ c.toNat ≤ 13) ∨ c = 32 ∨ 0x80 ≤ c.toNat := by
  decide +kernel

theorem spaces_last : ∀ e ∈ spaces, ∃ c ∈ e.getLast?, c ≠ 34 := by decide +kernel

theorem trimLeft_id (n : Nat) (c : UInt8) (t : Bytes) (h : ¬ ((9 ≤ c.toNat ∧ c.toNat ≤ 13) ∨ c = 32 ∨ 0x80 ≤ c.toNat)) :
    trimLeft n (c :: t) = c :: t := by
  cases n with
  | zero => rfl
  | succ n =>
    have : (spaces.find? fun e => e.isPrefixOf (c :: t)) = none := by
      rw [List.find?_eq_none]
      intro e he hp
      obtain ⟨x, hx, hs⟩ := spaces_head e he
      cases e with
      | nil => cases hx
      | cons y e =>
        have := List.isPrefixOf_iff_prefix.1 hp
        have hy := (List.cons_prefix_cons.1 this).1
        cases hx
        rw [hy] at hs
        exact h hs
    rw [trimLeft, this]

theorem trimRight_id (n : Nat) (t : Bytes) : trimRight n (t ++ [34]) = t ++ [34] := by
  cases n with
  | zero => rfl
  | succ n =>
    have : (spaces.find? fun e => e.isSuffixOf (t ++ [34])) = none := by
      rw [List.find?_eq_none]
      intro e he hp
      obtain ⟨x, hx, hs⟩ := spaces_last e he
      obtain ⟨u, hu⟩ := List.isSuffixOf_iff_suffix.1 hp
      have := congrArg List.getLast? hu
      rw [List.getLast?_append, hx] at this
      simp at this
      exact hs this
    rw [trimRight, this]

theorem trimSpace_id (c : UInt8) (t : Bytes) (h : ¬ ((9 ≤ c.toNat ∧ c.toNat ≤ 13) ∨ c = 32 ∨ 0x80 ≤ c.toNat))
    (hl : ∃ u, c :: t = u ++ [34]) : trimSpace (c :: t) = c :: t := by
  obtain ⟨u, hu⟩ := hl
  unfold trimSpace
  rw [trimLeft_id _ c t h]
  simp only
  rw [hu]
  exact trimRight_id _ u

theorem trimCommas_id (u : Bytes) : trimCommas (u ++ [34]) = u ++ [34] := by
  simp [trimCommas]

/-- The labels in the order in which they are written. -/
def sorted (m : GoMap Bytes Bytes) : List (Bytes × Bytes) :=
  (sortStrings (GoMap.keys m)).map fun k => (k, (GoMap.get m k).getD [])

theorem join_comma (l : List Bytes) (h : l ≠ []) : join 44 l ++ [44] = l.flatMap (· ++ [44]) := by
  induction l with
  | nil => exact absurd rfl h
  | cons p l ih =>
    cases l with
    | nil => simp [join]
    | cons q l =>
      have := ih (by simp)
      rw [join, List.flatMap_cons, ← this]
      · simp
      · simp

theorem join_last (l : List Bytes) (h : l ≠ []) (hl : ∀ p ∈ l, ∃ u, p = u ++ [34]) : ∃ u, join 44 l = u ++ [34] := by
  induction l with
  | nil => exact absurd rfl h
  | cons p l ih =>
    cases l with
    | nil => exact hl p (by simp)
    | cons q l =>
      obtain ⟨u, hu⟩ := ih (by simp) (fun x hx => hl x (List.mem_cons_of_mem _ hx))
      refine ⟨p ++ 44 :: u, ?_⟩
      rw [join, hu]
      · simp
      · simp

theorem encode_comma (P : Nat → Bool) (m : GoMap Bytes Bytes) (h : m ≠ []) :
    encodeLabels P m ++ [44] = (sorted m).flatMap (labelText P) := by
  have hne : (sortStrings (GoMap.keys m)).map (encodeLabel P m) ≠ [] := by
    intro he
    have hl := congrArg List.length he
    rw [List.length_map, (sortStrings_perm _).length_eq] at hl
    apply h
    apply List.eq_nil_of_length_eq_zero
    simpa [GoMap.keys] using hl
  rw [encodeLabels, join_comma _ hne, sorted, List.flatMap_map, List.flatMap_map]
  congr 1
  funext k
  simp [encodeLabel, labelText, quote]

theorem get_foldl (l : List (Bytes × Bytes)) (m : GoMap Bytes Bytes) (k : Bytes) (hn : (l.map Prod.fst).Nodup) :
    GoMap.get (l.foldl (fun m p => GoMap.set m p.1 p.2) m) k =
      match GoMap.get l k with
      | some v => some v
      | none => GoMap.get m k := by
  induction l generalizing m with
  | nil => rfl
  | cons p l ih =>
    simp only [List.map_cons, List.nodup_cons] at hn
    rw [List.foldl_cons, ih _ hn.2]
    simp only [GoMap.get, GoMap.get_set]
    by_cases hk : p.1 = k
    · rw [if_pos hk, if_pos hk.symm]
      have : GoMap.get l k = none := by
        cases hg : GoMap.get l k with
        | none => rfl
        | some v =>
          exfalso
          apply hn.1
          rw [hk]
          exact List.mem_map_of_mem (GoMap.mem_of_get hg)
      rw [this]
    · rw [if_neg hk, if_neg (Ne.symm hk)]

theorem sorted_keys (m : GoMap Bytes Bytes) : (sorted m).map Prod.fst = sortStrings (GoMap.keys m) := by
  rw [sorted, List.map_map]
  exact List.map_id _

theorem get_sorted (m : GoMap Bytes Bytes) (hw : GoMap.WF m) (k : Bytes) : GoMap.get (sorted m) k = GoMap.get m k := by
  have hn : GoMap.WF (sorted m) := by
    unfold GoMap.WF GoMap.keys
    rw [sorted_keys]
    exact (sortStrings_perm _).nodup_iff.2 hw
  have hmem : ∀ v, (k, v) ∈ sorted m ↔ (k ∈ GoMap.keys m ∧ v = (GoMap.get m k).getD []) := by
    intro v
    unfold sorted
    rw [List.mem_map]
    constructor
    · rintro ⟨x, hx, he⟩
      cases he
      exact ⟨(sortStrings_perm _).mem_iff.1 hx, rfl⟩
    · rintro ⟨hx, rfl⟩
      exact ⟨k, (sortStrings_perm _).mem_iff.2 hx, rfl⟩
  cases hg : GoMap.get m k with
  | some v =>
    apply GoMap.get_of_mem hn
    rw [hmem]
    exact ⟨List.mem_map_of_mem (GoMap.mem_of_get hg), by rw [hg]; rfl⟩
  | none =>
    cases hs : GoMap.get (sorted m) k with
    | none => rfl
    | some v =>
      exfalso
      have := ((hmem v).1 (GoMap.mem_of_get hs)).1
      obtain ⟨p, hp, rfl⟩ := List.mem_map.1 this
      rw [GoMap.get_of_mem hw hp] at hg
      cases hg

/-- `DecodeLabels(EncodeLabels(m))` is `m`, for every map that is not empty and whose keys and values
`DecodeLabels` can read: keys are not empty, have at most 256 bytes, all ASCII, do not begin with white space and do not have
`="` in them, and values are at most 256 bytes of ASCII when quoted and have no quote followed by a comma. What
is missing from the property is that it is not so for other maps; see below. -/
theorem decode_encode_partial (P : Nat → Bool) (m : GoMap Bytes Bytes) (hw : GoMap.WF m) (hne : m ≠ [])
    (hk : ∀ p ∈ m, GoodKey p.1) (hv : ∀ p ∈ m, GoodValue P p.2) :
    ∃ m', decodeLabels (encodeLabels P m) = some (.ok m') ∧ ∀ k, GoMap.get m' k = GoMap.get m k := by
  have hgood : ∀ p ∈ sorted m, GoodKey p.1 ∧ GoodValue P p.2 := by
    intro p hp
    obtain ⟨k, hk', rfl⟩ := List.mem_map.1 hp
    obtain ⟨q, hq, rfl⟩ := List.mem_map.1 ((sortStrings_perm _).mem_iff.1 hk')
    refine ⟨hk q hq, ?_⟩
    simp only [GoMap.get_of_mem hw hq, Option.getD_some]
    exact hv q hq
  have hs : sorted m ≠ [] := by
    intro he
    have hl := congrArg List.length he
    rw [sorted, List.length_map, (sortStrings_perm _).length_eq] at hl
    apply hne
    apply List.eq_nil_of_length_eq_zero
    simpa [GoMap.keys] using hl
  have hcomma := encode_comma P m hne
  -- the text begins with a key and ends with a quote
  obtain ⟨u, hu⟩ : ∃ u, encodeLabels P m = u ++ [34] := by
    apply join_last
    · intro he
      apply hs
      have := congrArg List.length he
      apply List.eq_nil_of_length_eq_zero
      simpa [sorted] using this
    · intro p hp
      obtain ⟨k, _, rfl⟩ := List.mem_map.1 hp
      exact ⟨k ++ 61 :: 34 :: quoteBody P ((GoMap.get m k).getD []), by simp [encodeLabel, quote]⟩
  have htrim : trimSpace (encodeLabels P m) = encodeLabels P m := by
    cases hsm : sorted m with
    | nil => exact absurd hsm hs
    | cons p l =>
      have hg := (hgood p (by rw [hsm]; simp)).1
      cases hp : p.1 with
      | nil => have := hg.len.1; rw [hp] at this; simp at this
      | cons c k =>
        rw [hsm, List.flatMap_cons, labelText, hp] at hcomma
        cases he : encodeLabels P m with
        | nil => rw [he] at hu; simp at hu
        | cons x t =>
          rw [he] at hcomma hu
          have hx : x = c := by simpa using (List.cons.inj hcomma).1
          apply trimSpace_id
          · have h1 := hg.start c (by rw [hp]; rfl)
            have h2 := hg.ascii c (by rw [hp]; simp)
            rw [hx]
            rintro (h | h | h)
            · exact h1.1 h
            · exact h1.2 h
            · omega
          · exact ⟨u, hu⟩
  refine ⟨(sorted m).foldl (fun m p => GoMap.set m p.1 p.2) [], ?_, fun k => ?_⟩
  · unfold decodeLabels
    rw [htrim]
    have : trimCommas (encodeLabels P m) = encodeLabels P m := by rw [hu]; exact trimCommas_id u
    simp only [this, hcomma]
    exact decodeLoop_labels P _ _ [] hgood (Nat.le_refl _)
  · rw [get_foldl _ _ _ (by rw [sorted_keys]; exact (sortStrings_perm _).nodup_iff.2 hw), get_sorted m hw]
    cases GoMap.get m k <;> rfl

/-- The text does not depend on the order in which the map is gone through. -/
theorem encode_deterministic (P : Nat → Bool) (m m' : GoMap Bytes Bytes) (hw : GoMap.WF m) (hp : m.Perm m') :
    encodeLabels P m = encodeLabels P m' := by
  have hw' := GoMap.WF_perm hp hw
  unfold encodeLabels
  have hs : sortStrings (GoMap.keys m) = sortStrings (GoMap.keys m') := sortStrings_congr (hp.map Prod.fst)
  rw [hs]
  congr 1
  apply List.map_congr_left
  intro k hk
  unfold encodeLabel
  have : GoMap.get m k = GoMap.get m' k := by
    obtain ⟨p, hp', rfl⟩ := List.mem_map.1 ((sortStrings_perm _).mem_iff.1 hk)
    rw [GoMap.get_of_mem hw' hp', GoMap.get_of_mem hw (hp.mem_iff.2 hp')]
  rw [this]

/-- Matching makes the string shorter. -/
theorem closing_length {s rest : Bytes} (h : closing s = some rest) : rest.length < s.length := by
  unfold closing at h
  split at h
  · rename_i t
    split at h
    · rename_i u hu
      cases h
      have h1 : (t.dropWhile isWS).length ≤ t.length := (List.dropWhile_sublist _).length_le
      rw [hu] at h1
      simp only [List.length_cons] at h1 ⊢
      omega
    · cases h
  · cases h

theorem matchValue_length (n : Nat) {s v rest : Bytes} (h : matchValue n s = some (v, rest)) : rest.length < s.length := by
  induction n generalizing s v with
  | zero =>
    unfold matchValue at h
    cases hc : closing s with
    | some r => rw [hc] at h; cases h; exact closing_length hc
    | none => rw [hc] at h; simp at h
  | succ n ih =>
    unfold matchValue at h
    cases hc : closing s with
    | some r => rw [hc] at h; cases h; exact closing_length hc
    | none =>
      rw [hc] at h
      cases s with
      | nil => simp at h
      | cons c t =>
        simp only at h
        split at h
        · obtain ⟨⟨v', r'⟩, h1, h2⟩ := Option.map_eq_some_iff.1 h
          cases h2
          have := ih h1
          simp only [List.length_cons]
          exact Nat.lt_succ_of_lt this
        · cases h

theorem matchEq_length {s v rest : Bytes} (h : matchEq s = some (v, rest)) : rest.length < s.length := by
  unfold matchEq at h
  split at h
  · have := matchValue_length _ h
    simp only [List.length_cons]; omega
  · cases h

theorem matchKey_length (n : Nat) {s k v rest : Bytes} (h : matchKey n s = some (k, v, rest)) : rest.length < s.length := by
  induction n generalizing s k with
  | zero =>
    unfold matchKey at h
    cases hc : matchEq s with
    | some r => rw [hc] at h; cases h; exact matchEq_length hc
    | none => rw [hc] at h; simp at h
  | succ n ih =>
    unfold matchKey at h
    cases hc : matchEq s with
    | some r => rw [hc] at h; cases h; exact matchEq_length hc
    | none =>
      rw [hc] at h
      cases s with
      | nil => simp at h
      | cons c t =>
        simp only at h
        split at h
        · obtain ⟨⟨k', v', r'⟩, h1, h2⟩ := Option.map_eq_some_iff.1 h
          cases h2
          have := ih h1
          simp only [List.length_cons]
          exact Nat.lt_succ_of_lt this
        · cases h

theorem labelRegex_length {s k v rest : Bytes} (h : labelRegex s = some (k, v, rest)) : rest.length < s.length := by
  unfold labelRegex at h
  obtain ⟨i, _, hi⟩ := List.exists_of_findSome?_eq_some h
  unfold matchHere at hi
  split at hi
  · rename_i c t hct
    split at hi
    · obtain ⟨⟨k', v', r'⟩, h1, h2⟩ := Option.map_eq_some_iff.1 hi
      cases h2
      have h3 := matchKey_length _ h1
      have h4 := congrArg List.length hct
      simp only [List.length_drop, List.length_cons] at h4
      omega
    · cases hi
  · cases hi

/-- `DecodeLabels` ends for every string, with labels or an error: it never panics, and the index
`match[3]`, which does not exist, is not used. -/
theorem decode_total (s : Bytes) : decodeLabels s = some .err ∨ ∃ m, decodeLabels s = some (.ok m) := by
  suffices ∀ fuel m s, s.length ≤ fuel → decodeLoop fuel m s = some .err ∨ ∃ m', decodeLoop fuel m s = some (.ok m') from
    this _ _ _ (Nat.le_refl _)
  intro fuel
  induction fuel with
  | zero =>
    intro m s h
    have : s = [] := List.eq_nil_of_length_eq_zero (by omega)
    subst this
    exact Or.inr ⟨m, rfl⟩
  | succ fuel ih =>
    intro m s h
    rw [decodeLoop]
    by_cases hs : s = []
    · rw [if_pos hs]; exact Or.inr ⟨m, rfl⟩
    · rw [if_neg hs]
      cases hr : labelRegex s with
      | none => exact Or.inl rfl
      | some x =>
        obtain ⟨k, body, rest⟩ := x
        simp only
        rw [if_neg (by simp)]
        cases unquote (34 :: body ++ [34]) with
        | none => exact Or.inl rfl
        | some v => exact ih _ _ (by have := labelRegex_length hr; omega)

/-! ### Maps that do not come back -/

/-- All the runes beyond ASCII are taken to be printable, or none. -/
def all : Nat → Bool := fun _ => true
def none' : Nat → Bool := fun _ => false

/-- The empty map is written as the empty string, which is not accepted. -/
theorem empty_not_decoded (P : Nat → Bool) : encodeLabels P [] = [] ∧ decodeLabels [] = some .err := by
  constructor
  · rfl
  · decide +kernel

/-- A value with a quote and a comma is written but not accepted. -/
theorem quote_comma_not_decoded : encodeLabels none' [(str "a", str "x\",y")] = str "a=\"x\\\",y\"" ∧
    decodeLabels (encodeLabels none' [(str "a", str "x\",y")]) = some .err := by decide +kernel

/-- A value with a letter that is not ASCII is written but not accepted. -/
theorem non_ascii_not_decoded : decodeLabels (encodeLabels all [(str "a", [0xC3, 0xA9])]) = some .err := by
  decide +kernel

/-- A value of more than 256 bytes is written but not accepted. -/
theorem long_not_decoded : decodeLabels (encodeLabels all [(str "a", List.replicate 257 120)]) = some .err := by
  decide +kernel

/-- A key with `="` can be read as other labels, with no error. -/
theorem key_read_as_others : decodeLabels (encodeLabels all [(str "a=\"b\",c", str "d")]) =
    some (.ok [(str "a", str "b"), (str "c", str "d")]) := by decide +kernel

/-- White space at the beginning of a key is lost, with no error. -/
theorem key_trimmed : decodeLabels (encodeLabels all [(str " a", str "d")]) = some (.ok [(str "a", str "d")]) := by
  decide +kernel

/-- So the property does not hold for all maps. -/
theorem not_every_map_comes_back :
    ¬ ∀ (P : Nat → Bool) (m : GoMap Bytes Bytes), GoMap.WF m →
      ∃ m', decodeLabels (encodeLabels P m) = some (.ok m') ∧ ∀ k, GoMap.get m' k = GoMap.get m k := by
  intro h
  obtain ⟨m', h1, _⟩ := h all [] (by simp [GoMap.WF])
  rw [(empty_not_decoded all).1, (empty_not_decoded all).2] at h1
  cases h1

/-! ### FromEnv -/

theorem encode_trim (P : Nat → Bool) (m : GoMap Bytes Bytes) (hne : m ≠ []) (hk : ∀ p ∈ m, GoodKey p.1) :
    trimSpace (encodeLabels P m) = encodeLabels P m ∧ encodeLabels P m ≠ [] := by
  have hs : sorted m ≠ [] := by
    intro he
    have hl := congrArg List.length he
    rw [sorted, List.length_map, (sortStrings_perm _).length_eq] at hl
    apply hne
    apply List.eq_nil_of_length_eq_zero
    simpa [GoMap.keys] using hl
  have hcomma := encode_comma P m hne
  obtain ⟨u, hu⟩ : ∃ u, encodeLabels P m = u ++ [34] := by
    apply join_last
    · intro he
      apply hs
      have := congrArg List.length he
      apply List.eq_nil_of_length_eq_zero
      simpa [sorted] using this
    · intro p hp
      obtain ⟨k, _, rfl⟩ := List.mem_map.1 hp
      exact ⟨k ++ 61 :: 34 :: quoteBody P ((GoMap.get m k).getD []), by simp [encodeLabel, quote]⟩
  refine ⟨?_, by rw [hu]; simp⟩
  cases hsm : sorted m with
  | nil => exact absurd hsm hs
  | cons p l =>
    have hg : GoodKey p.1 := by
      have : p ∈ sorted m := by rw [hsm]; simp
      obtain ⟨k, hk', rfl⟩ := List.mem_map.1 this
      obtain ⟨q, hq, rfl⟩ := List.mem_map.1 ((sortStrings_perm _).mem_iff.1 hk')
      exact hk q hq
    cases hp : p.1 with
    | nil => have := hg.len.1; rw [hp] at this; simp at this
    | cons c k =>
      rw [hsm, List.flatMap_cons, labelText, hp] at hcomma
      cases he : encodeLabels P m with
      | nil => rw [he] at hu; simp at hu
      | cons x t =>
        rw [he] at hcomma hu
        have hx : x = c := by simpa using (List.cons.inj hcomma).1
        apply trimSpace_id
        · have h1 := hg.start c (by rw [hp]; rfl)
          have h2 := hg.ascii c (by rw [hp]; simp)
          rw [hx]
          rintro (h | h | h)
          · exact h1.1 h
          · exact h1.2 h
          · omega
        · exact ⟨u, hu⟩

/-- `FromEnv` finds the labels that were written into the environment variable, the empty map too. -/
theorem fromEnv_encode_partial (P : Nat → Bool) (typ : Bytes) (m : GoMap Bytes Bytes) (hw : GoMap.WF m)
    (hk : ∀ p ∈ m, GoodKey p.1) (hv : ∀ p ∈ m, GoodValue P p.2) :
    ∃ l, fromEnv typ (encodeLabels P m) = some (.ok (trimSpace typ, l)) ∧
      ∀ k, GoMap.get (l.getD []) k = GoMap.get m k := by
  by_cases hne : m = []
  · subst hne
    exact ⟨none, rfl, fun k => rfl⟩
  · obtain ⟨h1, h2⟩ := encode_trim P m hne hk
    obtain ⟨m', h3, h4⟩ := decode_encode_partial P m hw hne hk hv
    refine ⟨some m', ?_, h4⟩
    unfold fromEnv
    simp only [h1, if_neg h2, h3]
    rfl

/-! ### A case -/

def exLabels : GoMap Bytes Bytes := [(str "k8s.io/pod", str "a\\b \"c\""), (str "a=b", [0xFF, 10, 0xE2, 0x80, 0x8B])]

example : encodeLabels none' exLabels = str "a=b=\"\\xff\\n\\u200b\",k8s.io/pod=\"a\\\\b \\\"c\\\"\"" := by decide +kernel

theorem noQuoteComma_of_not_mem {v : Bytes} (h : 44 ∉ v) : ¬ QuoteComma v := by
  rintro ⟨a, n, b, rfl⟩
  simp at h

example : GoMap.WF exLabels ∧ exLabels ≠ [] ∧ (∀ p ∈ exLabels, GoodKey p.1) ∧ ∀ p ∈ exLabels, GoodValue none' p.2 := by
  refine ⟨by unfold GoMap.WF; decide +kernel, by decide, ?_, ?_⟩
  · intro p hp
    simp only [exLabels, List.mem_cons, List.not_mem_nil, or_false] at hp
    rcases hp with rfl | rfl
    · exact ⟨by decide, by decide +kernel, by intro c hc; cases hc; decide, by decide +kernel⟩
    · exact ⟨by decide, by decide +kernel, by intro c hc; cases hc; decide, by decide +kernel⟩
  · intro p hp
    simp only [exLabels, List.mem_cons, List.not_mem_nil, or_false] at hp
    rcases hp with rfl | rfl
    · exact ⟨by decide +kernel, by decide +kernel, noQuoteComma_of_not_mem (by decide +kernel)⟩
    · exact ⟨by decide +kernel, by decide +kernel, noQuoteComma_of_not_mem (by decide +kernel)⟩

/-! ## C43 -/

/-- What can be seen of a resource: its type, and its labels. -/
abbrev Val := Bytes × (Bytes → Option Bytes)

/-- Merging, on what can be seen: what is nil adds nothing, and the first that defines a type or a label wins. -/
def combine : Option Val → Option Val → Option Val
  | none, b => b
  | a, none => a
  | some (t, l), some (t', l') => some (if t = [] then t' else t, fun k => (l k).or (l' k))

/-- The empty resource. -/
def empty : Val := ([], fun _ => none)

theorem combine_assoc (a b c : Option Val) : combine (combine a b) c = combine a (combine b c) := by
  rcases a with _ | ⟨t, l⟩ <;> rcases b with _ | ⟨t', l'⟩ <;> rcases c with _ | ⟨t'', l''⟩ <;> try rfl
  simp only [combine, Option.some.injEq, Prod.mk.injEq]
  constructor
  · by_cases h : t = [] <;> simp [h]
  · funext k
    cases l k <;> rfl

theorem combine_nil (a : Option Val) : combine a none = a ∧ combine none a = a := by
  cases a <;> exact ⟨rfl, rfl⟩

theorem combine_empty (v : Val) : combine (some v) (some empty) = some v ∧ combine (some empty) (some v) = some v := by
  obtain ⟨t, l⟩ := v
  constructor
  · simp only [combine, empty, Option.or_none, Option.some.injEq, Prod.mk.injEq, and_true]
    split
    · rename_i h; exact h.symm
    · rfl
  · rfl

/-- What is at a pointer; the outer `none` is a wild pointer. -/
def valueAt (h : Heap) : Option Nat → Option (Option Val)
  | none => some none
  | some p => do
    let r ← h.objs[p]?
    let l ← h.range r.labels
    some (some (r.typ, fun k => GoMap.get l k))

/-- All maps have distinct keys, as maps have. -/
def WFHeap (h : Heap) : Prop := ∀ m ∈ h.maps, GoMap.WF m

/-- `h'` has all that `h` has, unchanged. -/
def Extends (h h' : Heap) : Prop := h.objs <+: h'.objs ∧ h.maps <+: h'.maps

theorem Extends.refl (h : Heap) : Extends h h := ⟨List.prefix_refl _, List.prefix_refl _⟩
theorem Extends.trans {a b c : Heap} (h : Extends a b) (h' : Extends b c) : Extends a c :=
  ⟨h.1.trans h'.1, h.2.trans h'.2⟩

theorem prefix_getElem? {α : Type} {l l' : List α} (h : l <+: l') {i : Nat} {x : α} (hx : l[i]? = some x) : l'[i]? = some x := by
  obtain ⟨t, rfl⟩ := h
  rw [List.getElem?_append_left (List.getElem?_eq_some_iff.1 hx).1]
  exact hx

theorem range_extends {h h' : Heap} (he : Extends h h') {p : Option Nat} {l : GoMap Bytes Bytes} (hl : h.range p = some l) :
    h'.range p = some l := by
  cases p with
  | none => exact hl
  | some p => exact prefix_getElem? he.2 hl

/-- What is seen at a pointer does not change. -/
theorem valueAt_extends {h h' : Heap} (he : Extends h h') {p : Option Nat} {v : Option Val} (hv : valueAt h p = some v) :
    valueAt h' p = some v := by
  cases p with
  | none => exact hv
  | some p =>
    simp only [valueAt, Option.bind_eq_bind, Option.bind_eq_some_iff] at hv ⊢
    obtain ⟨r, h1, l, h2, h3⟩ := hv
    exact ⟨r, prefix_getElem? he.1 h1, l, range_extends he h2, h3⟩

theorem setAll_get (m l : GoMap Bytes Bytes) (hl : GoMap.WF l) (k : Bytes) :
    GoMap.get (setAll m l) k = (GoMap.get l k).or (GoMap.get m k) := by
  rw [setAll, get_foldl l m k hl]
  cases GoMap.get l k <;> rfl

theorem setAll_wf (m l : GoMap Bytes Bytes) (hm : GoMap.WF m) : GoMap.WF (setAll m l) := by
  unfold setAll
  induction l generalizing m with
  | nil => exact hm
  | cons p l ih => exact ih _ (GoMap.WF_set hm _ _)

theorem get_perm {l l' : GoMap Bytes Bytes} (h : l.Perm l') (hw : GoMap.WF l') (k : Bytes) : GoMap.get l k = GoMap.get l' k := by
  have hw' := GoMap.WF_perm h.symm hw
  cases hg : GoMap.get l' k with
  | some v => exact GoMap.get_of_mem hw' (h.mem_iff.2 (GoMap.mem_of_get hg))
  | none =>
    cases hl : GoMap.get l k with
    | none => rfl
    | some v =>
      rw [GoMap.get_of_mem hw (h.mem_iff.1 (GoMap.mem_of_get hl))] at hg
      cases hg

theorem range_wf {h : Heap} (hw : WFHeap h) {p : Option Nat} {l : GoMap Bytes Bytes} (hl : h.range p = some l) : GoMap.WF l := by
  cases p with
  | none => cases hl; simp [GoMap.WF]
  | some p => exact hw l (List.mem_of_getElem? hl)

/-- Merging two resources gives what `combine` says, whatever the order in which maps are gone through, and modifies
neither, nor any other. -/
theorem merge_spec (ord : GoMap Bytes Bytes → GoMap Bytes Bytes) (ho : ∀ m, (ord m).Perm m) (h : Heap) (hw : WFHeap h)
    (a b : Option Nat) (va vb : Option Val) (ha : valueAt h a = some va) (hb : valueAt h b = some vb) :
    ∃ h' r, merge ord h a b = some (h', r) ∧ valueAt h' r = some (combine va vb) ∧ Extends h h' ∧ WFHeap h' := by
  cases a with
  | none =>
    cases ha
    exact ⟨h, b, by cases b <;> rfl, by rw [(combine_nil vb).2]; exact hb, Extends.refl h, hw⟩
  | some a =>
    cases b with
    | none =>
      cases hb
      exact ⟨h, some a, rfl, by rw [(combine_nil va).1]; exact ha, Extends.refl h, hw⟩
    | some b =>
      simp only [valueAt, Option.bind_eq_bind, Option.bind_eq_some_iff] at ha hb
      obtain ⟨ra, a1, la, a2, a3⟩ := ha
      obtain ⟨rb, b1, lb, b2, b3⟩ := hb
      cases a3; cases b3
      have wa := range_wf hw a2
      have wb := range_wf hw b2
      refine ⟨_, _, by simp only [merge, a1, b1, a2, b2, Option.bind_eq_bind, Option.bind_some]; rfl, ?_, ?_, ?_⟩
      · simp only [valueAt, Option.bind_eq_bind]
        rw [List.getElem?_append_right (Nat.le_refl _), Nat.sub_self]
        simp only [List.getElem?_cons_zero, Option.bind_some, Heap.range]
        rw [List.getElem?_append_right (Nat.le_refl _), Nat.sub_self]
        simp only [List.getElem?_cons_zero, Option.bind_some, combine, Option.some.injEq, Prod.mk.injEq, true_and]
        funext k
        rw [setAll_get _ _ (GoMap.WF_perm (ho la).symm wa), setAll_get _ _ (GoMap.WF_perm (ho lb).symm wb),
          get_perm (ho la) wa, get_perm (ho lb) wb]
        simp [GoMap.get]
      · exact ⟨List.prefix_append _ _, List.prefix_append _ _⟩
      · intro m hm
        rcases List.mem_append.1 hm with hm | hm
        · exact hw m hm
        · rw [List.mem_singleton.1 hm]
          exact setAll_wf _ _ (setAll_wf _ _ (by simp [GoMap.WF]))

/-- A detector that leaves alone what there is, and returns a resource. -/
def Finds (d : Detector) (v : Option Val) : Prop :=
  ∀ h, WFHeap h → ∃ h' r, d h = (h', .ok r) ∧ Extends h h' ∧ WFHeap h' ∧ valueAt h' r = some v

/-- A detector that fails. -/
def Fails (d : Detector) : Prop := ∀ h, (d h).2 = .err

theorem detectLoop_spec (ord : GoMap Bytes Bytes → GoMap Bytes Bytes) (ho : ∀ m, (ord m).Perm m) (ds : List Detector)
    (vs : List (Option Val)) (rest : List Detector) (hd : List.Forall₂ Finds ds vs) (h : Heap) (hw : WFHeap h)
    (res : Option Nat) (v : Option Val) (hv : valueAt h res = some v) (calls : Nat) :
    ∃ h' r, Extends h h' ∧ WFHeap h' ∧ valueAt h' r = some (vs.foldl combine v) ∧
      detectLoop ord h res calls (ds ++ rest) = detectLoop ord h' r (calls + ds.length) rest := by
  induction hd generalizing h res v calls with
  | nil => exact ⟨h, res, Extends.refl h, hw, hv, rfl⟩
  | @cons d w ds vs hdw _ ih =>
    obtain ⟨h1, r1, e1, x1, w1, v1⟩ := hdw h hw
    obtain ⟨h2, r2, e2, v2, x2, w2⟩ := merge_spec ord ho h1 w1 res r1 v w (valueAt_extends x1 hv) v1
    obtain ⟨h3, r3, x3, w3, v3, e3⟩ := ih h2 w2 r2 _ v2 (calls + 1)
    refine ⟨h3, r3, (x1.trans x2).trans x3, w3, v3, ?_⟩
    rw [List.cons_append, detectLoop, e1]
    simp only [e2, e3, List.length_cons]
    congr 1
    omega

/-- The first type and the first value of a label that some resource defines. -/
def firstType (vs : List Val) : Bytes := ((vs.map Prod.fst).find? fun t => t ≠ []).getD []
def firstLabel (vs : List Val) (k : Bytes) : Option Bytes := vs.findSome? fun v => v.2 k

theorem foldl_combine (vs : List (Option Val)) (v : Option Val) :
    vs.foldl combine v = match (v :: vs).filterMap id with
      | [] => none
      | ws => some (firstType ws, firstLabel ws) := by
  induction vs generalizing v with
  | nil =>
    rcases v with _ | ⟨t, l⟩
    · rfl
    · simp only [List.foldl_nil, List.filterMap_cons, id, List.filterMap_nil, firstType, List.map_cons, List.map_nil,
        Option.some.injEq, Prod.mk.injEq]
      constructor
      · by_cases ht : t = [] <;> simp [ht]
      · funext k
        simp only [firstLabel, List.findSome?_cons, List.findSome?_nil]
        cases l k <;> rfl
  | cons w vs ih =>
    rw [List.foldl_cons, ih]
    rcases v with _ | ⟨t, l⟩
    · rfl
    · rcases w with _ | ⟨t', l'⟩
      · rfl
      · simp only [combine, List.filterMap_cons, id, Option.some.injEq, Prod.mk.injEq]
        constructor
        · unfold firstType
          simp only [List.map_cons, List.find?_cons]
          by_cases ht : t = []
          · simp [ht]
          · simp [ht]
        · funext k
          simp only [firstLabel, List.findSome?_cons]
          cases l k with
          | none => cases l' k <;> rfl
          | some x => rfl

/-- `MultiDetector` with detectors that all return a resource, or nil: the result is nil if all are, and has otherwise
the first type and the first value of each label. Every detector is called once, and no resource is modified. -/
theorem multiDetector_ok (ord : GoMap Bytes Bytes → GoMap Bytes Bytes) (ho : ∀ m, (ord m).Perm m) (ds : List Detector)
    (vs : List (Option Val)) (hd : List.Forall₂ Finds ds vs) (h : Heap) (hw : WFHeap h) :
    ∃ h' r, detectAll ord h ds = some (h', ds.length, .ok r) ∧ Extends h h' ∧
      valueAt h' r = some (match vs.filterMap id with
        | [] => none
        | ws => some (firstType ws, firstLabel ws)) := by
  obtain ⟨h', r, x, w, v, e⟩ := detectLoop_spec ord ho ds vs [] hd h hw none none rfl 0
  refine ⟨h', r, ?_, x, ?_⟩
  · rw [List.append_nil] at e
    rw [detectAll, e, Nat.zero_add]; rfl
  · rw [v, foldl_combine]; rfl

/-- `MultiDetector` returns the first error, and does not call the detectors after it. -/
theorem multiDetector_err (ord : GoMap Bytes Bytes → GoMap Bytes Bytes) (ho : ∀ m, (ord m).Perm m) (ds : List Detector)
    (vs : List (Option Val)) (hd : List.Forall₂ Finds ds vs) (d : Detector) (hf : Fails d) (rest : List Detector)
    (h : Heap) (hw : WFHeap h) :
    ∃ h', detectAll ord h (ds ++ d :: rest) = some (h', ds.length + 1, .err) := by
  obtain ⟨h', r, x, w, v, e⟩ := detectLoop_spec ord ho ds vs (d :: rest) hd h hw none none rfl 0
  refine ⟨(d h').1, ?_⟩
  rw [detectAll, e, Nat.zero_add, detectLoop]
  have := hf h'
  cases hdh : d h' with
  | mk h1 r1 => rw [hdh] at this; simp only at this; rw [this]

/-- A detector that finds a resource. -/
def exDetector (t : Bytes) (m : GoMap Bytes Bytes) : Detector := fun h =>
  (⟨h.objs ++ [⟨t, some h.maps.length⟩], h.maps ++ [m]⟩, .ok (some h.objs.length))

theorem exDetector_finds (t : Bytes) (m : GoMap Bytes Bytes) (hm : GoMap.WF m) :
    Finds (exDetector t m) (some (t, fun k => GoMap.get m k)) := by
  intro h hw
  refine ⟨_, _, rfl, ⟨List.prefix_append _ _, List.prefix_append _ _⟩, ?_, ?_⟩
  · intro x hx
    rcases List.mem_append.1 hx with hx | hx
    · exact hw x hx
    · rw [List.mem_singleton.1 hx]; exact hm
  · simp [valueAt, Heap.range]

/-- Three detectors, of which the second finds nothing. -/
example : List.Forall₂ Finds [exDetector [] [(str "a", str "1")], fun h => (h, .ok none), exDetector (str "t") [(str "a", str "2"), (str "b", str "3")]]
    [some ([], fun k => GoMap.get [(str "a", str "1")] k), none, some (str "t", fun k => GoMap.get [(str "a", str "2"), (str "b", str "3")] k)] := by
  refine .cons (exDetector_finds _ _ ?_) (.cons ?_ (.cons (exDetector_finds _ _ ?_) .nil))
  · unfold GoMap.WF; decide +kernel
  · exact fun h hw => ⟨h, none, rfl, Extends.refl h, hw, rfl⟩
  · unfold GoMap.WF; decide +kernel

example : (detectAll id ⟨[], []⟩ [exDetector [] [(str "a", str "1")], fun h => (h, .ok none), exDetector (str "t") [(str "a", str "2"), (str "b", str "3")]]).map
    (fun x => (x.1.objs[2]?, x.1.maps[2]?)) = some (some ⟨str "t", some 2⟩, some [(str "a", str "1"), (str "b", str "3")]) := by
  decide +kernel

example : Fails (fun h => (h, .err)) := fun _ => rfl

end Verif.Props.Resource
