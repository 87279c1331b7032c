import Verif.Sanitize
import Mathlib.Data.List.Basic

/-!
# C49: sanitized names are safe
-/

namespace Verif.Props.Sanitize
open Verif Verif.Utf8 Verif.Sanitize

/-- The text of some runes. -/
def text (rs : List Nat) : Bytes := rs.flatMap encodeValid

/-- A rune a name may have. -/
def Allowed (T : Tables) (r : Nat) : Prop := ValidRune r ∧ (T.letter r = true ∨ T.digit r = true ∨ r = 95)

theorem encodeValid_length (r : Nat) : 0 < (encodeValid r).length := List.length_pos_iff.2 (encodeValid_ne_nil r)

theorem sanitizeRune_allowed (T : Tables) {r : Nat} (h : ValidRune r ∨ r = runeError) : Allowed T (sanitizeRune T r) := by
  unfold sanitizeRune
  split
  · rename_i hl
    refine ⟨?_, ?_⟩
    · rcases h with h | rfl
      · exact h
      · decide
    · rcases Bool.or_eq_true _ _ ▸ hl with h | h
      · exact Or.inl h
      · exact Or.inr (Or.inl h)
  · exact ⟨by decide, Or.inr (Or.inr rfl)⟩

/-- Mapping gives allowed runes only, and not more bytes than there were. -/
theorem mapRunes_spec (T : Tables) (f : Nat) (s : Bytes) (hf : s.length ≤ f) :
    ∃ rs, mapRunes (sanitizeRune T) f s = text rs ∧ (∀ r ∈ rs, Allowed T r) ∧
      (mapRunes (sanitizeRune T) f s).length ≤ s.length ∧ (s ≠ [] → rs ≠ []) := by
  induction f generalizing s with
  | zero =>
    have : s = [] := List.eq_nil_of_length_eq_zero (by omega)
    subst this
    exact ⟨[], rfl, by simp, by simp [mapRunes], by simp⟩
  | succ f ih =>
    cases s with
    | nil => exact ⟨[], rfl, by simp, by simp [mapRunes], by simp⟩
    | cons c s =>
      rw [mapRunes]
      -- the rune, and what it took
      obtain ⟨raw, rest, h1, h2, h3, h4⟩ : ∃ raw rest, c :: s = raw ++ rest ∧
          (c :: s).drop (decodeRune (c :: s)).2 = rest ∧
          Allowed T (sanitizeRune T (decodeRune (c :: s)).1) ∧
          0 < (encodeValid (sanitizeRune T (decodeRune (c :: s)).1)).length ∧
          (encodeValid (sanitizeRune T (decodeRune (c :: s)).1)).length ≤ raw.length := by
        rcases decode_cons c s with ⟨hd, hc⟩ | ⟨r, rest, hv, hcs, hd⟩
        · rw [hd]
          refine ⟨[c], s, rfl, rfl, sanitizeRune_allowed T (Or.inr rfl), encodeValid_length _, ?_⟩
          have : sanitizeRune T runeError = 95 := by simp [sanitizeRune, T.err]
          simp only [this, List.length_singleton]
          decide
        · rw [hd, hcs]
          refine ⟨encodeValid r, rest, rfl, by simp, sanitizeRune_allowed T (Or.inl hv), encodeValid_length _, ?_⟩
          simp only
          unfold sanitizeRune
          split
          · exact Nat.le_refl _
          · exact encodeValid_length r
      obtain ⟨h4, h5⟩ := h4
      have hl := congrArg List.length h1
      simp only [List.length_append, List.length_cons] at hl hf
      obtain ⟨rs, r1, r2, r3, _⟩ := ih rest (by omega)
      rw [h2, encodeRune_valid h3.1]
      refine ⟨sanitizeRune T (decodeRune (c :: s)).1 :: rs, by rw [r1]; rfl, ?_, ?_, by simp⟩
      · intro r hr
        rcases List.mem_cons.1 hr with rfl | hr
        · exact h3
        · exact r2 r hr
      · simp only [List.length_append, List.length_cons]; omega

theorem key_allowed (T : Tables) : ∀ r ∈ [107, 101, 121], Allowed T r := by
  intro r hr
  have hr' : r < 0x80 ∧ 97 ≤ r ∧ r ≤ 122 := by
    simp only [List.mem_cons, List.not_mem_nil, or_false] at hr
    rcases hr with rfl | rfl | rfl <;> decide
  exact ⟨Or.inl (by omega), Or.inl (by rw [T.letter_ascii r hr'.1]; simp; omega)⟩

theorem text_cons (r : Nat) (rs : List Nat) : text (r :: rs) = encodeValid r ++ text rs := rfl

/-- `Sanitize` never panics. What it returns for a name that is not empty is made of letters, digits and
underscores, is not longer than 104 bytes (so 104 characters), is not empty, and does not begin with an
underscore or a digit of ASCII. Missing from the property: it can begin with another digit. -/
theorem sanitize_safe_partial (T : Tables) (s : Bytes) (hs : s ≠ []) :
    ∃ t rs c u, sanitize T s = .ok t ∧ t = text rs ∧ (∀ r ∈ rs, Allowed T r) ∧ t.length ≤ 104 ∧
      t = c :: u ∧ c ≠ 95 ∧ ¬ (48 ≤ c.toNat ∧ c.toNat ≤ 57) := by
  have hl : s.length ≠ 0 := fun h => hs (List.eq_nil_of_length_eq_zero h)
  unfold sanitize
  rw [if_neg hl]
  simp only
  generalize hs' : (if s.length > limit then s.take limit else s) = s'
  have h100 : s'.length ≤ 100 := by
    rw [← hs']
    unfold limit
    split
    · simp; omega
    · omega
  have hne : s' ≠ [] := by
    rw [← hs']
    split
    · intro h
      have := congrArg List.length h
      rw [List.length_take, List.length_nil, show limit = 100 from rfl] at this
      omega
    · exact hs
  obtain ⟨rs, h1, h2, h3, h4⟩ := mapRunes_spec T s'.length s' (Nat.le_refl _)
  rw [h1] at h3 ⊢
  have h4 := h4 hne
  cases hm : text rs with
  | nil =>
    cases rs with
    | nil => exact absurd rfl h4
    | cons r rs => rw [text_cons] at hm; exact absurd (List.append_eq_nil_iff.1 hm).1 (encodeValid_ne_nil r)
  | cons c u =>
    rw [hm] at h3
    unfold prefixed
    simp only
    have hlat := T.digit_latin c.toNat c.toNat_lt
    by_cases hd : T.digit c.toNat = true
    · rw [if_pos hd]
      refine ⟨107 :: ([101, 121, 95] ++ c :: u), [107, 101, 121, 95] ++ rs, 107, [101, 121, 95] ++ c :: u, rfl, ?_, ?_, ?_, rfl,
        by decide, by decide⟩
      · rw [← hm]; rfl
      · intro r hr
        rcases List.mem_append.1 hr with hr | hr
        · rcases List.mem_append.1 (show r ∈ [107, 101, 121] ++ [95] from hr) with hr | hr
          · exact key_allowed T r hr
          · rw [List.mem_singleton.1 hr]
            exact ⟨by decide, Or.inr (Or.inr rfl)⟩
        · exact h2 r hr
      · simp only [List.length_cons, List.length_append, List.length_nil] at h3 ⊢; omega
    · rw [if_neg hd]
      simp only
      rw [hlat] at hd
      simp only [decide_eq_true_eq] at hd
      by_cases hc : c = 95
      · rw [if_pos hc]
        refine ⟨107 :: ([101, 121] ++ c :: u), [107, 101, 121] ++ rs, 107, [101, 121] ++ c :: u, rfl, ?_, ?_, ?_, rfl,
          by decide, by decide⟩
        · rw [← hm]; rfl
        · intro r hr
          rcases List.mem_append.1 hr with hr | hr
          · exact key_allowed T r hr
          · exact h2 r hr
        · simp only [List.length_cons, List.length_append, List.length_nil] at h3 ⊢; omega
      · rw [if_neg hc]
        exact ⟨c :: u, rs, c, u, rfl, hm.symm, h2, by omega, rfl, hc, hd⟩

theorem sanitize_empty (T : Tables) : sanitize T [] = .ok [] := rfl

theorem mapRunes_id (T : Tables) (rs : List Nat) (f : Nat) (hr : ∀ r ∈ rs, Allowed T r) (hf : (text rs).length ≤ f) :
    mapRunes (sanitizeRune T) f (text rs) = text rs := by
  induction rs generalizing f with
  | nil => cases f <;> rfl
  | cons r rs ih =>
    have hv := (hr r (by simp)).1
    have hd := decode_encode hv (text rs)
    have hdrop : (encodeValid r ++ text rs).drop (encodeValid r).length = text rs := List.drop_left
    have hl := encodeValid_length r
    rw [text_cons] at hf ⊢
    cases f with
    | zero => simp only [List.length_append] at hf; omega
    | succ f =>
      cases he : encodeValid r ++ text rs with
      | nil => exact absurd (List.append_eq_nil_iff.1 he).1 (encodeValid_ne_nil r)
      | cons c s =>
        rw [he] at hd hdrop
        rw [mapRunes, hd]
        simp only [hdrop]
        have hsr : sanitizeRune T r = r := by
          unfold sanitizeRune
          rcases (hr r (by simp)).2 with h | h | h
          · simp [h]
          · simp [h]
          · subst h; simp
        rw [hsr, encodeRune_valid hv, ih f (fun x hx => hr x (List.mem_cons_of_mem _ hx))
          (by simp only [List.length_append] at hf; omega), he]

/-- A name that is made of letters, digits and underscores, does not begin with a digit of ASCII or an underscore, and has at most 100
bytes is left as it is. Missing from the property: names of 101 to 104 bytes are cut. -/
theorem sanitize_unchanged_partial (T : Tables) (rs : List Nat) (c : UInt8) (u : Bytes) (hr : ∀ r ∈ rs, Allowed T r)
    (hl : (text rs).length ≤ 100) (ht : text rs = c :: u) (h1 : c ≠ 95) (h2 : ¬ (48 ≤ c.toNat ∧ c.toNat ≤ 57)) :
    sanitize T (text rs) = .ok (text rs) := by
  unfold sanitize
  rw [if_neg (by rw [ht]; simp), if_neg (by unfold limit; omega)]
  simp only
  rw [mapRunes_id T rs _ hr (Nat.le_refl _), ht]
  unfold prefixed
  simp only
  have hlat := T.digit_latin c.toNat c.toNat_lt
  rw [if_neg (by rw [hlat]; simp only [decide_eq_true_eq]; exact h2)]
  simp only
  rw [if_neg h1]

/-- ASCII, and the Arabic-Indic digits, which are digits for package unicode. -/
def tables : Tables where
  letter r := decide ((65 ≤ r ∧ r ≤ 90) ∨ (97 ≤ r ∧ r ≤ 122))
  digit r := decide ((48 ≤ r ∧ r ≤ 57) ∨ (0x660 ≤ r ∧ r ≤ 0x669))
  letter_ascii _ _ := rfl
  digit_latin r hr := by
    congr 1
    apply propext
    omega
  err := by decide

/-- A name can begin with a digit after all: only digits of ASCII are looked for. -/
theorem begins_with_digit : sanitize tables (text [0x663, 97]) = .ok (text [0x663, 97]) ∧ tables.digit 0x663 = true := by
  decide +kernel

/-- Sanitizing again can change a name. -/
theorem not_idempotent : sanitize tables (List.replicate 100 49) = .ok (str "key_" ++ List.replicate 100 49) ∧
    sanitize tables (str "key_" ++ List.replicate 100 49) = .ok (str "key_" ++ List.replicate 96 49) := by
  decide +kernel

/-- A case of each: with a letter beyond the tables, an invalid byte, and a digit at the beginning. -/
example : sanitize tables ([49, 97, 0xC3, 0xA9, 0xFF, 47, 98]) = .ok (str "key_1a___b") := by decide +kernel

example : (∀ r ∈ [97, 95, 49], Allowed tables r) ∧ text [97, 95, 49] = [97, 95, 49] := by
  refine ⟨?_, by decide +kernel⟩
  intro r hr
  simp only [List.mem_cons, List.not_mem_nil, or_false] at hr
  rcases hr with rfl | rfl | rfl <;> exact ⟨by decide, by decide +kernel⟩

end Verif.Props.Sanitize
