import Verif.Trace.Bucket

namespace Verif.Trace
open Verif
variable {S : Type}

/-- The last `n` elements. -/
def lastN {α : Type} (n : Nat) (l : List α) : List α := l.drop (l.length - n)

theorem lastN_length {α : Type} (n : Nat) (l : List α) : (lastN n l).length = min n l.length := by
  simp [lastN]; omega

theorem lastN_of_le {α : Type} {n : Nat} {l : List α} (h : l.length ≤ n) : lastN n l = l := by
  simp [lastN, Nat.sub_eq_zero_of_le h]

theorem lastN_append_of_ge {α : Type} {n : Nat} (l m : List α) (h : m.length = n) : lastN n (l ++ m) = m := by
  simp only [lastN, List.length_append]
  rw [List.drop_append_of_le_length (by omega), show l.length + m.length - n = l.length by omega]
  simp

theorem lastN_suffix {α : Type} (n : Nat) (l : List α) : lastN n l <:+ l := List.drop_suffix _ _

theorem lastN_snoc {α : Type} (n : Nat) (l : List α) (x : α) :
    lastN n (lastN n l ++ [x]) = lastN n (l ++ [x]) := by
  simp only [lastN, List.length_append, List.length_drop, List.length_singleton]
  rcases Nat.lt_or_ge n l.length with h | h
  · by_cases h0 : n = 0
    · subst h0; simp
    · rw [List.drop_append_of_le_length (by simp; omega), List.drop_append_of_le_length (by omega), List.drop_drop]
      congr 2; omega
  · rw [Nat.sub_eq_zero_of_le h]; simp

theorem lastN_lastN {α : Type} (m n : Nat) (l : List α) : lastN m (lastN n l) = lastN (min m n) l := by
  simp only [lastN, List.length_drop, List.drop_drop]
  congr 1; omega

/-- The bucket holds exactly `xs`, oldest first. -/
def Rep (b : Bucket S) (xs : List S) : Prop :=
  if b.overflow then
    ∃ as cs, b.buffer = (as ++ cs).map some ∧ b.nextIndex = as.length ∧ xs = cs ++ as ∧ (cs = [] → as = [])
  else ∃ k, b.buffer = xs.map some ++ List.replicate k none ∧ b.nextIndex = xs.length ∧ (k = 0 → xs = [])

theorem Rep.size {b : Bucket S} {xs : List S} (h : Rep b xs) : b.size = xs.length := by
  unfold Rep at h
  unfold Bucket.size
  split at h
  · next ho =>
    obtain ⟨as, cs, h1, _, rfl, _⟩ := h
    simp [ho, h1, Nat.add_comm]
  · next ho =>
    obtain ⟨k, _, h2, _⟩ := h
    simp [ho, h2]

theorem Rep.span {b : Bucket S} {xs : List S} (h : Rep b xs) {i : Nat} (hi : i < xs.length) :
    b.span i = .ok (some xs[i]) := by
  unfold Rep at h
  unfold Bucket.span
  split at h
  · next ho =>
    obtain ⟨as, cs, h1, h2, rfl, h4⟩ := h
    simp only [ho, h1, h2, Bool.not_true, Bool.false_eq_true, if_false, List.length_map, List.length_append]
    simp only [List.length_append] at hi
    rcases Nat.lt_or_ge i cs.length with hc | hc
    · rw [if_pos (by omega)]
      simp only [List.getElem?_map]
      rw [List.getElem?_append_right (by omega)]
      simp [hc, List.getElem_append_left]
    · rw [if_neg (by omega), if_pos (by omega)]
      simp only [List.getElem?_map]
      rw [show as.length + i - (as.length + cs.length) = i - cs.length by omega]
      rw [List.getElem?_append_left (by omega)]
      rw [List.getElem?_eq_getElem (by omega)]
      simp [List.getElem_append_right hc]
  · next ho =>
    obtain ⟨k, h1, h2, h3⟩ := h
    have : b.overflow = false := by simpa using ho
    simp only [this, h1, Bool.not_false, if_true]
    rw [List.getElem?_append_left (by simpa using hi)]
    simp [hi]

theorem Rep.copy {b : Bucket S} {xs : List S} (h : Rep b xs) (off n : Nat) (hn : off + n ≤ xs.length) :
    b.copy off n = .ok (((xs.drop off).take n).map some) := by
  induction n with
  | zero => simp [Bucket.copy]
  | succ n ih =>
    simp only [Bucket.copy, ih (by omega), Res.bind, h.span (show n + off < xs.length by omega)]
    congr 1
    rw [List.take_add_one, List.map_append]
    congr 1
    rw [List.getElem?_drop, List.getElem?_eq_getElem (by omega)]
    simp only [Option.toList_some, List.map_cons, List.map_nil]
    simp [Nat.add_comm]

theorem Rep.length_le {b : Bucket S} {xs : List S} (h : Rep b xs) : xs.length ≤ b.buffer.length := by
  unfold Rep at h
  split at h
  · obtain ⟨as, cs, h1, _, rfl, _⟩ := h; simp [h1]; omega
  · obtain ⟨k, h1, _, _⟩ := h; simp [h1]

theorem rep_make (n : Nat) : Rep (makeBucket n : Bucket S) [] := by
  simp only [Rep, makeBucket, Bool.false_eq_true, if_false]
  exact ⟨n, by simp, by simp, fun _ => by trivial⟩

theorem Rep.add {b : Bucket S} {xs : List S} (h : Rep b xs) (et : S → Int) (s : S) :
    ∃ b', b.add et s = .ok b' ∧ b'.buffer.length = b.buffer.length ∧
      if et s < b.nextTime ∨ b.buffer.length = 0 then b' = b
      else b'.nextTime = et s + samplePeriod ∧ Rep b' (lastN b.buffer.length (xs ++ [s])) := by
  unfold Bucket.add
  by_cases h1 : et s < b.nextTime
  · exact ⟨b, by simp [h1], rfl, by simp [h1]⟩
  · by_cases h2 : b.buffer.length = 0
    · exact ⟨b, by rw [if_neg h1, if_pos h2], rfl, by rw [if_pos (.inr h2)]⟩
    · simp only [h1, h2, if_false, or_self]
      unfold Rep at h
      split at h
      · next ho =>
        obtain ⟨as, cs, hb, hi, rfl, hc⟩ := h
        cases cs with
        | nil => rw [hc rfl] at hb; simp [hb] at h2
        | cons c cs =>
          have hl : b.buffer.length = as.length + cs.length + 1 := by simp [hb]; omega
          rw [if_pos (by omega), hi]
          have hset : b.buffer.set as.length (some s) = (as ++ s :: cs).map some := by
            rw [hb, List.map_append, List.set_append_right _ _ (by simp)]
            simp
          by_cases hz : as.length + 1 = b.buffer.length
          · have : cs = [] := by
              have : cs.length = 0 := by omega
              simpa using this
            subst this
            refine ⟨_, if_pos hz, by simp, rfl, ?_⟩
            have e : lastN b.buffer.length ([c] ++ as ++ [s]) = as ++ [s] := by
              rw [List.append_assoc]
              exact lastN_append_of_ge _ _ (by simp; omega)
            rw [e]
            simp only [Rep, if_true]
            exact ⟨[], as ++ [s], by rw [hset]; simp, rfl, by simp, by simp⟩
          · refine ⟨_, if_neg hz, by simp, rfl, ?_⟩
            have e : lastN b.buffer.length ((c :: cs) ++ as ++ [s]) = cs ++ as ++ [s] := by
              rw [show (c :: cs) ++ as ++ [s] = [c] ++ (cs ++ as ++ [s]) by simp]
              exact lastN_append_of_ge _ _ (by simp; omega)
            rw [e]
            simp only [Rep, ho, if_true]
            refine ⟨as ++ [s], cs, by rw [hset]; simp, by simp, by simp, ?_⟩
            rintro rfl
            simp at hl
            omega
      · next ho =>
        obtain ⟨k, hb, hi, hk⟩ := h
        have hl : b.buffer.length = xs.length + k := by simp [hb]
        cases k with
        | zero => have := hk rfl; subst this; exact absurd hl h2
        | succ k =>
          rw [if_pos (by omega), hi]
          have hset : b.buffer.set xs.length (some s) = (xs ++ [s]).map some ++ List.replicate k none := by
            rw [hb, List.set_append_right _ _ (by simp)]
            simp [List.replicate_succ]
          have e : lastN b.buffer.length (xs ++ [s]) = xs ++ [s] := lastN_of_le (by simp; omega)
          by_cases hz : xs.length + 1 = b.buffer.length
          · have : k = 0 := by omega
            subst this
            refine ⟨_, if_pos hz, by simp, rfl, ?_⟩
            rw [e]
            simp only [Rep, if_true]
            exact ⟨[], xs ++ [s], by rw [hset]; simp, rfl, by simp, by simp⟩
          · refine ⟨_, if_neg hz, by simp, rfl, ?_⟩
            rw [e]
            have ho' : b.overflow = false := by simpa using ho
            simp only [Rep, ho', Bool.false_eq_true, if_false]
            exact ⟨k, hset, by simp, fun h0 => by subst h0; omega⟩

theorem Rep.resize {b : Bucket S} {xs : List S} (h : Rep b xs) (n : Nat) :
    ∃ b', b.resize n = .ok b' ∧ b'.buffer.length = n ∧ b'.nextTime = b.nextTime ∧ Rep b' (lastN n xs) := by
  unfold Bucket.resize
  rw [h.size]
  by_cases hc : xs.length < n
  · rw [if_pos hc, h.copy 0 xs.length (by omega)]
    refine ⟨_, rfl, by simp; omega, rfl, ?_⟩
    rw [lastN_of_le (by omega)]
    simp only [Rep, Bool.false_eq_true, if_false]
    exact ⟨n - xs.length, by simp, by trivial, fun h0 => by omega⟩
  · rw [if_neg hc, h.copy (xs.length - n) n (by omega)]
    refine ⟨_, rfl, by simp; omega, rfl, ?_⟩
    simp only [Rep, if_true]
    refine ⟨[], lastN n xs, ?_, by trivial, by simp, by simp⟩
    simp only [List.nil_append, lastN]
    congr 1
    exact List.take_of_length_le (by simp; omega)

theorem scan_map_some (l : List S) (r : List (Option S)) : scan (l.map some ++ r) = l ++ scan r := by
  induction l with
  | nil => rfl
  | cons a l ih => simp [scan, ih]

theorem scan_replicate_none (k : Nat) : scan (List.replicate k (none : Option S)) = [] := by
  cases k <;> simp [scan, List.replicate_succ]

theorem Rep.scan {b : Bucket S} {xs : List S} (h : Rep b xs) : (scan b.buffer).Perm xs := by
  unfold Rep at h
  split at h
  · obtain ⟨as, cs, h1, _, rfl, _⟩ := h
    have := scan_map_some (as ++ cs) ([] : List (Option S))
    simp only [List.append_nil] at this
    rw [h1, this]
    simp only [Trace.scan, List.append_nil]
    exact List.perm_append_comm
  · obtain ⟨k, h1, _, _⟩ := h
    rw [h1, scan_map_some, scan_replicate_none, List.append_nil]

end Verif.Trace
