import Verif.Wire.Tracestate
import Mathlib.Data.List.Basic
import Mathlib.Data.List.Induction

/-!
# C39: tracestates
-/

namespace Verif.Props.Tracestate
open Verif Verif.Wire

/-! ## The regular expressions of the package -/

/-- Regular expressions over bytes. -/
inductive Re where
  | cls (p : UInt8 → Bool)
  | seq (a b : Re)
  | alt (a b : Re)
  | rep (a : Re) (lo hi : Nat)

/-- The strings an (anchored) expression matches. -/
def Re.Matches : Re → Bytes → Prop
  | .cls p, s => ∃ c, s = [c] ∧ p c = true
  | .seq a b, s => ∃ x y, s = x ++ y ∧ a.Matches x ∧ b.Matches y
  | .alt a b, s => a.Matches s ∨ b.Matches s
  | .rep a lo hi, s => ∃ l : List Bytes, lo ≤ l.length ∧ l.length ≤ hi ∧ s = l.flatten ∧ ∀ x ∈ l, a.Matches x

def inRange (a b : Nat) (c : UInt8) : Bool := decide (a ≤ c.toNat ∧ c.toNat ≤ b)

/-- `[a-z]` -/
def reLower : Re := .cls (inRange 0x61 0x7a)
/-- `[_0-9a-z\-\*\/]` -/
def reKeyChar : Re := .cls fun c => c == 0x5f || inRange 0x30 0x39 c || inRange 0x61 0x7a c || c == 0x2d || c == 0x2a || c == 0x2f
/-- `keyWithoutVendorFormat` -/
def reSimpleKey : Re := .seq reLower (.rep reKeyChar 0 255)
/-- `keyWithVendorFormat` -/
def reVendorKey : Re := .seq reLower (.seq (.rep reKeyChar 0 240) (.seq (.cls (· == 0x40)) (.seq reLower (.rep reKeyChar 0 13))))
/-- `keyFormat` -/
def reKey : Re := .alt reSimpleKey reVendorKey
/-- `valueFormat` -/
def reValue : Re := .seq
  (.rep (.cls fun c => inRange 0x20 0x2b c || inRange 0x2d 0x3c c || inRange 0x3e 0x7e c) 0 255)
  (.cls fun c => inRange 0x21 0x2b c || inRange 0x2d 0x3c c || inRange 0x3e 0x7e c)

theorem rep_cls (p : UInt8 → Bool) (hi : Nat) (s : Bytes) :
    (Re.rep (.cls p) 0 hi).Matches s ↔ s.length ≤ hi ∧ ∀ c ∈ s, p c = true := by
  simp only [Re.Matches]
  constructor
  · rintro ⟨l, h0, h2, rfl, h4⟩
    have : l.flatten.length = l.length ∧ ∀ c ∈ l.flatten, p c = true := by
      clear h2 h0
      induction l with
      | nil => simp
      | cons x l ih =>
        obtain ⟨c, rfl, hc⟩ := h4 _ (by simp : x ∈ x :: l)
        obtain ⟨i1, i2⟩ := ih (fun y hy => h4 y (List.mem_cons_of_mem _ hy))
        refine ⟨by simp [i1], ?_⟩
        intro d hd
        simp only [List.flatten_cons, List.mem_append, List.mem_singleton] at hd
        rcases hd with rfl | hd
        · exact hc
        · exact i2 d hd
    exact ⟨by omega, this.2⟩
  · rintro ⟨h1, h2⟩
    refine ⟨s.map fun c => [c], by omega, by simpa using h1, ?_, ?_⟩
    · clear h1 h2
      induction s with
      | nil => rfl
      | cons c s ih => rw [List.map_cons, List.flatten_cons, ← ih]; rfl
    · intro x hx
      obtain ⟨c, hc, rfl⟩ := List.mem_map.1 hx
      exact ⟨c, rfl, h2 c hc⟩

theorem lower_iff : ∀ c : UInt8, isLower c = inRange 0x61 0x7a c := forall_byte (by decide +kernel)
theorem keyChar_iff : ∀ c : UInt8, isKeyChar c = (c == 0x5f || inRange 0x30 0x39 c || inRange 0x61 0x7a c || c == 0x2d ||
    c == 0x2a || c == 0x2f) := forall_byte (by decide +kernel)
theorem valueChar_iff : ∀ c : UInt8, isValueChar c = (inRange 0x20 0x2b c || inRange 0x2d 0x3c c || inRange 0x3e 0x7e c) :=
  forall_byte (by decide +kernel)
theorem valueEnd_iff : ∀ c : UInt8, (isValueChar c && c != 32) =
    (inRange 0x21 0x2b c || inRange 0x2d 0x3c c || inRange 0x3e 0x7e c) := forall_byte (by decide +kernel)

theorem keyPart_iff (n : Nat) (s : Bytes) : isKeyPart n s = true ↔ (Re.seq reLower (.rep reKeyChar 0 n)).Matches s := by
  have hk : reKeyChar = .cls isKeyChar := by
    unfold reKeyChar; exact congrArg _ (funext fun c => (keyChar_iff c).symm)
  have hl : reLower = .cls isLower := by
    unfold reLower; exact congrArg _ (funext fun c => (lower_iff c).symm)
  rw [Re.Matches, hk, hl]
  cases s with
  | nil =>
    simp only [isKeyPart, Bool.false_eq_true, false_iff, not_exists, not_and]
    intro x y h
    have := List.append_eq_nil_iff.1 h.symm
    rintro ⟨c, rfl, _⟩
    simp at this
  | cons c cs =>
    simp only [isKeyPart, Bool.and_eq_true, decide_eq_true_eq, List.all_eq_true, rep_cls, and_assoc]
    constructor
    · rintro ⟨h1, h2, h3⟩
      exact ⟨[c], cs, rfl, ⟨c, rfl, h1⟩, h3, h2⟩
    · rintro ⟨x, y, h, ⟨d, rfl, hd⟩, h3, h2⟩
      simp only [List.cons_append, List.nil_append, List.cons.injEq] at h
      obtain ⟨rfl, rfl⟩ := h
      exact ⟨hd, h2, h3⟩

theorem at_not_keyPart (n : Nat) (s : Bytes) (h : isKeyPart n s = true) : (64 : UInt8) ∉ s := by
  cases s with
  | nil => simp
  | cons c cs =>
    simp only [isKeyPart, Bool.and_eq_true, List.all_eq_true] at h
    intro hm
    rcases List.mem_cons.1 hm with rfl | hm
    · exact absurd h.1.1 (by decide)
    · exact absurd (h.1.2 _ hm) (by decide)

/-- The key check of the model is the regular expression of the package. -/
theorem isKey_iff (s : Bytes) : isKey s = true ↔ reKey.Matches s := by
  have hv : reVendorKey.Matches s ↔ ∃ a b, s = a ++ 64 :: b ∧ isKeyPart 240 a = true ∧ isKeyPart 13 b = true := by
    constructor
    · rintro ⟨x1, y1, h1, m1, x2, y2, h2, m2, x3, y3, h3, ⟨c, hc, hce⟩, m4⟩
      refine ⟨x1 ++ x2, y3, ?_, (keyPart_iff _ _).2 ⟨x1, x2, rfl, m1, m2⟩, (keyPart_iff _ _).2 m4⟩
      have : c = 64 := by simpa using hce
      subst this
      rw [h1, h2, h3, hc]; simp
    · rintro ⟨a, b, h, ha, hb⟩
      obtain ⟨x1, x2, h1, m1, m2⟩ := (keyPart_iff _ _).1 ha
      exact ⟨x1, x2 ++ 64 :: b, by rw [h, h1]; simp, m1, x2, 64 :: b, rfl, m2, [64], b, rfl, ⟨64, rfl, rfl⟩,
        (keyPart_iff _ _).1 hb⟩
  rw [reKey, Re.Matches, hv, isKey, Bool.or_eq_true, keyPart_iff]
  refine or_congr Iff.rfl ?_
  cases hc : cut 64 s with
  | none =>
    have := (cut_none 64 s).1 hc
    simp only [Bool.false_eq_true, false_iff, not_exists, not_and]
    intro a b h
    exact absurd (by rw [h]; simp) this
  | some ab =>
    obtain ⟨a, b⟩ := ab
    obtain ⟨h1, h2⟩ := cut_some hc
    simp only [Bool.and_eq_true]
    constructor
    · rintro ⟨ha, hb⟩; exact ⟨a, b, h1, ha, hb⟩
    · rintro ⟨a', b', h, ha, hb⟩
      have : cut 64 s = some (a', b') := by rw [h, cut_append _ _ _ (at_not_keyPart _ _ ha)]
      rw [hc] at this
      cases this
      exact ⟨ha, hb⟩

/-- The value check of the model is the regular expression of the package. -/
theorem isValue_iff (s : Bytes) : isValue s = true ↔ reValue.Matches s := by
  have h1 : (fun c => inRange 0x20 0x2b c || inRange 0x2d 0x3c c || inRange 0x3e 0x7e c) = isValueChar := by
    funext c; exact (valueChar_iff c).symm
  have h2 : (fun c => inRange 0x21 0x2b c || inRange 0x2d 0x3c c || inRange 0x3e 0x7e c) = fun c => isValueChar c && c != 32 := by
    funext c; exact (valueEnd_iff c).symm
  rw [reValue, h1, h2, Re.Matches]
  simp only [rep_cls]
  induction s using List.reverseRecOn with
  | nil =>
    simp only [isValue, List.getLast?_nil, Bool.false_eq_true, false_iff, not_exists, not_and]
    intro x y h
    have := List.append_eq_nil_iff.1 h.symm
    rintro _ ⟨c, rfl, _⟩
    simp at this
  | append_singleton s c _ =>
    simp only [isValue, List.getLast?_append, List.getLast?_singleton, Option.some_or, List.all_append,
      List.all_cons, List.all_nil, Bool.and_true, Bool.and_eq_true, List.all_eq_true, decide_eq_true_eq,
      List.length_append, List.length_singleton]
    constructor
    · rintro ⟨⟨⟨h1, h2⟩, h3⟩, h4⟩
      exact ⟨s, [c], rfl, ⟨by omega, h1⟩, c, rfl, by simp [h2, h3]⟩
    · rintro ⟨x, y, h, ⟨h1, h2⟩, d, rfl, h3⟩
      obtain ⟨e1, e2⟩ := List.append_inj' h rfl
      subst e1
      cases e2
      simp only [Bool.and_eq_true] at h3
      exact ⟨⟨⟨h2, h3.1⟩, h3.2⟩, by omega⟩

/-! ## Slices -/

/-- A slice lies within its array. -/
def Slice.WF (h : Arrays) (s : Slice) : Prop := s.len ≤ s.cap ∧ (s.cap = 0 ∨ s.off + s.cap ≤ (h[s.arr]?.getD []).length)

instance (h : Arrays) (s : Slice) : Decidable (Slice.WF h s) := by unfold Slice.WF; infer_instance

theorem vals_length {h : Arrays} {s : Slice} (hw : Slice.WF h s) : (h.vals s).length = s.len := by
  obtain ⟨h1, h2⟩ := hw
  simp only [Arrays.vals, List.length_take, List.length_drop]
  omega

theorem getD_append (h : Arrays) (a : List Entry) (i : Nat) : (h ++ [a])[i]?.getD [] =
    if i = h.length then a else h[i]?.getD [] := by
  rw [List.getElem?_append]
  split
  · rw [if_neg (by omega)]
  · split
    · rename_i h1; simp [h1]
    · rw [List.getElem?_eq_none (by simp; omega), List.getElem?_eq_none (by omega)]

theorem getD_set (h : Arrays) (j i : Nat) (a : List Entry) : (h.set j a)[i]?.getD [] =
    if i = j ∧ j < h.length then a else h[i]?.getD [] := by
  by_cases hij : j = i
  · subst hij
    by_cases hl : j < h.length
    · simp [hl]
    · rw [List.set_eq_of_length_le (by omega)]; simp [hl]
  · rw [List.getElem?_set_ne hij]; simp [Ne.symm hij]

theorem wf_arr {h : Arrays} {s : Slice} (hw : Slice.WF h s) (hc : s.cap ≠ 0) : s.arr < h.length := by
  rcases hw.2 with h2 | h2
  · exact absurd h2 hc
  · rw [← Nat.not_le]
    intro hn
    rw [List.getElem?_eq_none hn] at h2
    simp at h2; omega

theorem writeAt_length (a : List Entry) (i : Nat) (v : List Entry) (h : i + v.length ≤ a.length) :
    (writeAt a i v).length = a.length := by
  simp [writeAt]; omega

/-- What `append` does. -/
theorem append_spec (h : Arrays) (s : Slice) (v : List Entry) (room : Nat) (hw : Slice.WF h s) :
    (h.append s v room).1.vals (h.append s v room).2 = h.vals s ++ v ∧
    Slice.WF (h.append s v room).1 (h.append s v room).2 ∧
    (h.append s v room).2.len = s.len + v.length ∧
    h.length ≤ (h.append s v room).1.length ∧
    (∀ t : Slice, Slice.WF h t → Slice.WF (h.append s v room).1 t) ∧
    (∀ t : Slice, Slice.WF h t → (t.arr = s.arr → t.off + t.len ≤ s.off + s.len) →
      (h.append s v room).1.vals t = h.vals t) ∧
    (if s.len + v.length ≤ s.cap then (h.append s v room).2.arr = s.arr ∧ (h.append s v room).2.off = s.off ∧
        (h.append s v room).1.length = h.length
      else (h.append s v room).2.arr = h.length) := by
  have hlen := vals_length hw
  unfold Arrays.append
  split
  · rename_i hc
    simp only
    by_cases hz : s.cap = 0
    · have h0 : s.len = 0 := by have := hw.1; omega
      have hv : v = [] := List.length_eq_zero_iff.1 (by omega)
      subst hv
      have hwr : writeAt (h[s.arr]?.getD []) (s.off + s.len) [] = h[s.arr]?.getD [] := by
        simp [writeAt]
      have hset : h.set s.arr (h[s.arr]?.getD []) = h := by
        by_cases hl : s.arr < h.length
        · rw [List.getElem?_eq_getElem hl]; simp
        · exact List.set_eq_of_length_le (by omega)
      rw [hwr, hset]
      refine ⟨by simp [Arrays.vals, h0], ?_, by simp, Nat.le_refl _, fun t ht => ht, fun t _ _ => rfl, by simp⟩
      simpa using hw
    · have harr := wf_arr hw hz
      have hb : s.off + s.cap ≤ (h[s.arr]?.getD []).length := hw.2.resolve_left hz
      have hwl : (writeAt (h[s.arr]?.getD []) (s.off + s.len) v).length = (h[s.arr]?.getD []).length :=
        writeAt_length _ _ _ (by omega)
      refine ⟨?_, ?_, trivial, by simp, ?_, ?_, by simp⟩
      · simp only [Arrays.vals, getD_set, harr, and_self, if_true]
        have e1 : ((h[s.arr]?.getD []).take (s.off + s.len)).length = s.off + s.len := by
          simp; omega
        rw [writeAt, List.append_assoc, List.drop_append_of_le_length (by omega), List.drop_take,
          show s.off + s.len - s.off = s.len by omega]
        rw [← List.append_assoc, List.take_append_of_le_length (by simp; omega)]
        refine List.take_of_length_le ?_
        simp; omega
      · refine ⟨hc, Or.inr ?_⟩
        simp only [getD_set, harr, and_self, if_true, hwl]
        exact hb
      · intro t ht
        refine ⟨ht.1, ?_⟩
        rw [getD_set]
        split
        · rename_i he
          rw [hwl, ← he.1]; exact ht.2
        · exact ht.2
      · intro t ht hdis
        simp only [Arrays.vals, getD_set]
        split
        · rename_i he
          have hle := hdis he.1
          rw [he.1]
          have e1 : ((h[s.arr]?.getD []).take (s.off + s.len)).length = s.off + s.len := by
            simp; omega
          rw [writeAt, List.append_assoc, List.drop_append_of_le_length (by omega),
            List.take_append_of_le_length (by simp; omega), List.drop_take, List.take_take]
          congr 1; omega
        · rfl
  · rename_i hc
    simp only
    refine ⟨?_, ?_, by simp [hlen], by simp, ?_, ?_, trivial⟩
    · simp only [Arrays.vals, getD_append, if_true, List.drop_zero]
      rw [List.take_append_of_le_length (Nat.le_refl _), List.take_of_length_le (Nat.le_refl _)]
    · refine ⟨by simp, Or.inr ?_⟩
      simp only [getD_append, if_true]
      simp; omega
    · intro t ht
      refine ⟨ht.1, ?_⟩
      by_cases hz : t.cap = 0
      · exact Or.inl hz
      · rw [getD_append, if_neg (by have := wf_arr ht hz; omega)]; exact ht.2
    · intro t ht _
      by_cases hz : t.cap = 0
      · have : t.len = 0 := by have := ht.1; omega
        simp [Arrays.vals, this]
      · simp only [Arrays.vals]
        rw [getD_append, if_neg (by have := wf_arr ht hz; omega)]

/-! ## Removing -/

/-- Removes the first entry with a key. -/
def eraseKey (k : Bytes) (l : List Entry) : List Entry := l.eraseP fun e => decide (e.key = k)

theorem eraseP_findIdx {α : Type} (p : α → Bool) (l : List α) : l.eraseP p = match l.findIdx? p with
    | some i => l.take i ++ l.drop (i + 1)
    | none => l := by
  induction l with
  | nil => rfl
  | cons x l ih =>
    by_cases hx : p x = true
    · simp [List.findIdx?_cons, hx]
    · rw [List.eraseP_cons_of_neg (by simpa using hx), ih, List.findIdx?_cons]
      simp only [hx, Bool.false_eq_true, if_false]
      cases List.findIdx? p l <;> simp

/-- A slice `t` owned by the call: nil, or in an array allocated since. -/
def Own (n : Nat) (t : Slice) : Prop := t.cap = 0 ∨ n ≤ t.arr

theorem remove_spec (n : Nat) (h : Arrays) (s : Slice) (k : Bytes) (hw : Slice.WF h s) (ho : Own n s) (hn : n ≤ h.length) :
    (h.remove s k).1.vals (h.remove s k).2 = eraseKey k (h.vals s) ∧
    Slice.WF (h.remove s k).1 (h.remove s k).2 ∧ Own n (h.remove s k).2 ∧ n ≤ (h.remove s k).1.length ∧
    (∀ t : Slice, Slice.WF h t → t.arr < n → Slice.WF (h.remove s k).1 t ∧ (h.remove s k).1.vals t = h.vals t) := by
  unfold Arrays.remove eraseKey
  rw [eraseP_findIdx]
  cases hf : (h.vals s).findIdx? (fun e => decide (e.key = k)) with
  | none => exact ⟨rfl, hw, ho, hn, fun t ht _ => ⟨ht, rfl⟩⟩
  | some i =>
    simp only
    have hi : i < (h.vals s).length := by
      rw [List.findIdx?_eq_some_iff_getElem] at hf; exact hf.1
    have hlen := vals_length hw
    have hw' : Slice.WF h { s with len := i } := ⟨by have := hw.1; simp only; omega, hw.2⟩
    have hvals : h.vals { s with len := i } = (h.vals s).take i := by
      simp only [Arrays.vals, List.take_take]
      congr 1; omega
    obtain ⟨a1, a2, a3, a4, a5, a6, a7⟩ := append_spec h { s with len := i } ((h.vals s).drop (i + 1)) 0 hw'
    have hroom : i + ((h.vals s).drop (i + 1)).length ≤ s.cap := by
      have := hw.1
      simp only [List.length_drop]; omega
    rw [if_pos hroom] at a7
    have hcap : s.cap ≠ 0 := by have := hw.1; omega
    have harr : n ≤ s.arr := ho.resolve_left hcap
    refine ⟨by rw [a1, hvals], a2, Or.inr (by rw [a7.1]; exact harr), by omega, fun t ht htn => ⟨a5 t ht, a6 t ht ?_⟩⟩
    intro he
    have he : t.arr = s.arr := he
    omega

theorem removeAll_spec (n : Nat) (ks : List Bytes) (h : Arrays) (s : Slice) (hw : Slice.WF h s) (ho : Own n s) (hn : n ≤ h.length) :
    (h.removeAll s ks).1.vals (h.removeAll s ks).2 = ks.foldl (fun l k => eraseKey k l) (h.vals s) ∧
    Slice.WF (h.removeAll s ks).1 (h.removeAll s ks).2 ∧ Own n (h.removeAll s ks).2 ∧ n ≤ (h.removeAll s ks).1.length ∧
    (∀ t : Slice, Slice.WF h t → t.arr < n → Slice.WF (h.removeAll s ks).1 t ∧ (h.removeAll s ks).1.vals t = h.vals t) := by
  induction ks generalizing h s with
  | nil => exact ⟨rfl, hw, ho, hn, fun t ht _ => ⟨ht, rfl⟩⟩
  | cons k ks ih =>
    obtain ⟨r1, r2, r3, r4, r5⟩ := remove_spec n h s k hw ho hn
    obtain ⟨i1, i2, i3, i4, i5⟩ := ih (h.remove s k).1 (h.remove s k).2 r2 r3 r4
    refine ⟨by rw [Arrays.removeAll]; simp only; rw [i1, r1]; rfl, i2, i3, i4, fun t ht htn => ?_⟩
    obtain ⟨q1, q2⟩ := r5 t ht htn
    obtain ⟨p1, p2⟩ := i5 t q1 htn
    exact ⟨p1, by rw [← q2]; exact p2⟩

/-! ## The specification -/

/-- The parent's entries whose keys are not given anew. -/
def kept (parent new : List Entry) : List Entry := parent.filter fun e => !(new.any fun x => decide (x.key = e.key))

theorem eraseKey_filter (k : Bytes) (l : List Entry) (hn : (l.map Entry.key).Nodup) :
    eraseKey k l = l.filter fun e => decide (e.key ≠ k) := by
  induction l with
  | nil => rfl
  | cons e l ih =>
    simp only [List.map_cons, List.nodup_cons] at hn
    by_cases he : e.key = k
    · rw [eraseKey, List.eraseP_cons_of_pos (by simpa using he), List.filter_cons_of_neg (by simpa using he)]
      symm
      rw [List.filter_eq_self]
      intro x hx
      simp only [decide_eq_true_eq]
      rintro rfl
      exact hn.1 (he ▸ List.mem_map.2 ⟨x, hx, rfl⟩)
    · rw [eraseKey, List.eraseP_cons_of_neg (by simpa using he), List.filter_cons_of_pos (by simpa using he)]
      exact congrArg _ (ih hn.2)

theorem foldl_eraseKey (new l : List Entry) (hn : (l.map Entry.key).Nodup) :
    (new.map Entry.key).foldl (fun l k => eraseKey k l) l = kept l new := by
  induction new generalizing l with
  | nil => simp [kept]
  | cons x new ih =>
    rw [List.map_cons, List.foldl_cons, eraseKey_filter _ _ hn, ih]
    · simp only [kept, List.filter_filter, List.any_cons, Bool.not_or]
      congr 1
      funext e
      have : (e.key = x.key) = (x.key = e.key) := propext eq_comm
      simp [Bool.and_comm, this]
    · exact hn.sublist (List.filter_sublist.map _)

theorem duplicateLoop_iff (seen : List Bytes) (l : List Entry) : duplicateLoop seen l = false ↔
    (l.map Entry.key).Nodup ∧ ∀ e ∈ l, e.key ∉ seen := by
  induction l generalizing seen with
  | nil => simp [duplicateLoop]
  | cons e l ih =>
    simp only [duplicateLoop]
    split
    · rename_i hs
      simp [hs]
    · rename_i hs
      rw [ih]
      simp only [List.map_cons, List.nodup_cons, List.mem_map, not_exists, not_and, List.mem_cons,
        not_or]
      constructor
      · rintro ⟨h1, h2⟩
        refine ⟨⟨fun x hx he => (h2 x hx).1 he, h1⟩, fun x hx => ?_⟩
        rcases hx with rfl | hx
        · exact hs
        · exact (h2 x hx).2
      · rintro ⟨⟨h1, h2⟩, h4⟩
        exact ⟨h2, fun x hx => ⟨fun he => h1 x hx he, h4 x (Or.inr hx)⟩⟩

/-- The values of a tracestate; those of nil are none. -/
def entriesVals (h : Arrays) (ts : Option Slice) : List Entry := match ts with
  | some s => h.vals s
  | none => []

open Classical in
/-- What `New` must return. -/
noncomputable def specNew (parent : Option (List Entry)) (new : List Entry) : Option (Option (List Entry)) :=
  if parent = none ∧ new = [] then some none
  else if (∀ e ∈ new, reKey.Matches e.key ∧ reValue.Matches e.value) ∧ (new.map Entry.key).Nodup ∧
      (new ++ kept (parent.getD []) new).length ≤ 32 then some (some (new ++ kept (parent.getD []) new))
  else none

open Classical in
/-- `New` succeeds exactly with valid entries of distinct keys and at most 32 entries in the result,
which lists the new entries and then what is kept of the parent. The parent's entries and the caller's
are what they were, and so is every slice that does not lie in the array of the caller's entries. -/
theorem new_spec (h : Arrays) (parent : Option Slice) (entries : Slice) (room1 room2 : Nat)
    (hp : ∀ p, parent = some p → Slice.WF h p ∧ ((h.vals p).map Entry.key).Nodup) (he : Slice.WF h entries) :
    (match (h.newTracestate parent entries room1 room2).2 with
      | .nil => specNew (parent.map h.vals) (h.vals entries) = some none
      | .error => specNew (parent.map h.vals) (h.vals entries) = none
      | .ok s => Slice.WF (h.newTracestate parent entries room1 room2).1 s ∧
          specNew (parent.map h.vals) (h.vals entries) =
            some (some ((h.newTracestate parent entries room1 room2).1.vals s))) ∧
    (∀ t : Slice, Slice.WF h t → (t.arr = entries.arr → t.off + t.len ≤ entries.off + entries.len) →
      (h.newTracestate parent entries room1 room2).1.vals t = h.vals t) := by
  have hel := vals_length he
  have hvalid : areEntriesValid (h.vals entries) = true ↔
      ∀ e ∈ h.vals entries, reKey.Matches e.key ∧ reValue.Matches e.value := by
    simp only [areEntriesValid, List.all_eq_true, isValid, Bool.and_eq_true, isKey_iff, isValue_iff]
  have hdup : containsDuplicateKey (h.vals entries) = false ↔ ((h.vals entries).map Entry.key).Nodup := by
    rw [containsDuplicateKey, duplicateLoop_iff]; simp
  unfold Arrays.newTracestate
  have hcond : (parent.isNone ∧ entries.len = 0) ↔ (parent.map h.vals = none ∧ h.vals entries = []) := by
    rw [← List.length_eq_zero_iff, hel]; cases parent <;> simp
  by_cases hnil : parent.isNone ∧ entries.len = 0
  · rw [if_pos hnil]
    exact ⟨by simp only [specNew, if_pos (hcond.1 hnil)], fun t _ _ => rfl⟩
  · rw [if_neg hnil]
    have hspec : specNew (parent.map h.vals) (h.vals entries) =
        if (∀ e ∈ h.vals entries, reKey.Matches e.key ∧ reValue.Matches e.value) ∧ ((h.vals entries).map Entry.key).Nodup ∧
          (h.vals entries ++ kept ((parent.map h.vals).getD []) (h.vals entries)).length ≤ 32
        then some (some (h.vals entries ++ kept ((parent.map h.vals).getD []) (h.vals entries))) else none := by
      rw [specNew, if_neg (fun hc => hnil (hcond.2 hc))]
    rw [hspec]
    by_cases hv : areEntriesValid (h.vals entries) = true
    · rw [if_neg (by simp [hv])]
      by_cases hd : containsDuplicateKey (h.vals entries) = false
      · rw [if_neg (by simp [hd])]
        -- the copy of the parent
        obtain ⟨h1, s1, hcopy, c1, c2, c3, c4, c5⟩ : ∃ h1 s1, h.copyParent parent room1 = (h1, s1) ∧ h1.vals s1 = (parent.map h.vals).getD [] ∧ Slice.WF h1 s1 ∧
            Own h.length s1 ∧ h.length ≤ h1.length ∧
            (∀ t : Slice, Slice.WF h t → Slice.WF h1 t ∧ h1.vals t = h.vals t) := by
          have hnilwf : Slice.WF h ⟨0, 0, 0, 0⟩ := ⟨Nat.le_refl _, Or.inl rfl⟩
          unfold Arrays.copyParent
          have hnilv : h.vals ⟨0, 0, 0, 0⟩ = [] := by simp [Arrays.vals]
          cases parent with
          | none => exact ⟨h, ⟨0, 0, 0, 0⟩, rfl, hnilv, hnilwf, Or.inl rfl, Nat.le_refl _, fun t ht => ⟨ht, rfl⟩⟩
          | some p =>
            have hpl := vals_length (hp p rfl).1
            by_cases hpos : p.len > 0
            · simp only [hpos, if_true]
              obtain ⟨a1, a2, a3, a4, a5, a6, a7⟩ := append_spec h ⟨0, 0, 0, 0⟩ (h.vals p) room1 hnilwf
              rw [if_neg (by simp only; omega)] at a7
              refine ⟨(h.append ⟨0, 0, 0, 0⟩ (h.vals p) room1).1, (h.append ⟨0, 0, 0, 0⟩ (h.vals p) room1).2, rfl,
                by rw [a1, hnilv]; rfl, a2, Or.inr (by omega), a4, fun t ht => ⟨a5 t ht, ?_⟩⟩
              by_cases hz : t.cap = 0
              · have : t.len = 0 := by have := ht.1; omega
                simp [Arrays.vals, this]
              · simp only [Arrays.append]
                rw [if_neg (by omega)]
                simp only [Arrays.vals]
                rw [getD_append, if_neg (by have := wf_arr ht hz; omega)]
            · simp only [hpos, if_false]
              refine ⟨h, ⟨0, 0, 0, 0⟩, rfl, ?_, hnilwf, Or.inl rfl, Nat.le_refl _, fun t ht => ⟨ht, rfl⟩⟩
              rw [hnilv]
              simp only [Option.map_some, Option.getD_some]
              exact (List.length_eq_zero_iff.1 (by omega)).symm
        have hpn : ((h1.vals s1).map Entry.key).Nodup := by
          rw [c1]
          cases parent with
          | none => simp
          | some p => exact (hp p rfl).2
        rw [hcopy]
        simp only
        obtain ⟨e1, e2⟩ := c5 entries he
        unfold Arrays.add
        obtain ⟨r1, r2, r3, r4, r5⟩ := removeAll_spec h.length ((h1.vals entries).map Entry.key) h1 s1 c2 c3 c4
        rw [foldl_eraseKey _ _ hpn, c1] at r1
        generalize hg : h1.removeAll s1 ((h1.vals entries).map Entry.key) = g at r1 r2 r3 r4 r5
        obtain ⟨h2, s2⟩ := g
        simp only at r1 r2 r3 r4 r5 ⊢
        rw [e2] at r1
        have keepOld : ∀ t : Slice, Slice.WF h t → Slice.WF h2 t ∧ h2.vals t = h.vals t := by
          intro t ht
          obtain ⟨q1, q2⟩ := c5 t ht
          by_cases hz : t.cap = 0
          · have h0 : t.len = 0 := by have := ht.1; omega
            exact ⟨⟨ht.1, Or.inl hz⟩, by simp [Arrays.vals, h0]⟩
          · obtain ⟨p1, p2⟩ := r5 t q1 (wf_arr ht hz)
            exact ⟨p1, by rw [p2, q2]⟩
        obtain ⟨f1, f2⟩ := keepOld entries he
        have hl2 := vals_length r2
        rw [r1] at hl2
        have hlen : (h.vals entries ++ kept ((parent.map h.vals).getD []) (h.vals entries)).length =
            s2.len + entries.len := by
          rw [List.length_append, hel, hl2]; omega
        by_cases hmax : s2.len + entries.len > maxKeyValuePairs
        · rw [if_pos hmax]
          simp only
          refine ⟨?_, fun t ht _ => (keepOld t ht).2⟩
          rw [if_neg (fun hc => by have := hc.2.2; rw [hlen] at this; simp only [maxKeyValuePairs] at hmax; omega)]
        · rw [if_neg hmax]
          simp only
          obtain ⟨a1, a2, a3, a4, a5, a6, a7⟩ := append_spec h2 entries (h2.vals s2) room2 f1
          refine ⟨⟨a2, ?_⟩, fun t ht hdis => ?_⟩
          · rw [if_pos ⟨hvalid.1 hv, hdup.1 hd, by rw [hlen]; simp only [maxKeyValuePairs] at hmax; omega⟩, a1, f2, r1]
          · obtain ⟨t1, t2⟩ := keepOld t ht
            rw [a6 t t1 hdis, t2]
      · rw [if_pos (by simpa using hd)]
        refine ⟨?_, fun t _ _ => rfl⟩
        rw [if_neg (fun hc => hd (hdup.2 hc.2.1))]
    · rw [if_pos (by simpa using hv)]
      refine ⟨?_, fun t _ _ => rfl⟩
      rw [if_neg (fun hc => hv (hvalid.2 hc.1))]

/-! ## Histories of calls with the entries written out -/

/-- What the format asks of a list of entries. -/
def Valid (l : List Entry) : Prop :=
  (∀ e ∈ l, reKey.Matches e.key ∧ reValue.Matches e.value) ∧ (l.map Entry.key).Nodup ∧ l.length ≤ 32

theorem specNew_valid (parent : Option (List Entry)) (new l : List Entry) (hp : ∀ p, parent = some p → Valid p)
    (h : specNew parent new = some (some l)) : Valid l := by
  unfold specNew at h
  split at h
  · cases h
  · split at h
    · rename_i hc
      cases h
      obtain ⟨h1, h2, h3⟩ := hc
      have hpar : Valid (parent.getD []) := by
        cases parent with
        | none => exact ⟨by simp, by simp, by simp⟩
        | some p => exact hp p rfl
      refine ⟨?_, ?_, h3⟩
      · intro e he
        rcases List.mem_append.1 he with he | he
        · exact h1 e he
        · exact hpar.1 e (List.mem_of_mem_filter he)
      · rw [List.map_append, List.nodup_append]
        refine ⟨h2, hpar.2.1.sublist (List.filter_sublist.map _), ?_⟩
        intro k hk k' hk' he
        obtain ⟨x, hx, rfl⟩ := List.mem_map.1 hk
        obtain ⟨y, hy, rfl⟩ := List.mem_map.1 hk'
        have := (List.mem_filter.1 hy).2
        simp only [Bool.not_eq_true', List.any_eq_false, decide_eq_true_eq] at this
        exact this x hx he
    · cases h

/-- A call `New(ts_i, e1, e2, ...)` where `ts_i` is what an earlier call returned, or nil; and how much
spare room the runtime gives new arrays. -/
structure Call where
  parent : Nat
  args : List Entry
  room1 : Nat
  room2 : Nat

/-- The tracestate a call returns: nil with an error. -/
def NewResult.ts : NewResult → Option Slice
  | .ok s => some s
  | _ => none

/-- A program of such calls, on the heap. -/
def runCalls : List Call → Arrays × List (Option Slice) → Arrays × List (Option Slice)
  | [], st => st
  | c :: cs, (h, ts) =>
    let r := h.newArgs (ts[c.parent]?.getD none) c.args c.room1 c.room2
    runCalls cs (r.1, ts ++ [NewResult.ts r.2])

/-- The same program on values. -/
noncomputable def specCalls : List Call → List (Option (List Entry)) → List (Option (List Entry))
  | [], ts => ts
  | c :: cs, ts => specCalls cs (ts ++ [(specNew (ts[c.parent]?.getD none) c.args).getD none])

theorem runCalls_spec (cs : List Call) (h : Arrays) (ts : List (Option Slice))
    (hw : ∀ s, some s ∈ ts → Slice.WF h s ∧ Valid (h.vals s)) :
    (runCalls cs (h, ts)).2.map (Option.map (runCalls cs (h, ts)).1.vals) = specCalls cs (ts.map (Option.map h.vals)) ∧
    ∀ s, some s ∈ (runCalls cs (h, ts)).2 → Slice.WF (runCalls cs (h, ts)).1 s ∧ Valid ((runCalls cs (h, ts)).1.vals s) := by
  induction cs generalizing h ts with
  | nil => exact ⟨rfl, hw⟩
  | cons c cs ih =>
    have hpar : ∀ p, ts[c.parent]?.getD none = some p → some p ∈ ts := by
      intro p hp
      cases hg : ts[c.parent]? with
      | none => rw [hg] at hp; cases hp
      | some o =>
        rw [hg] at hp
        simp only [Option.getD_some] at hp
        subst hp
        exact List.mem_of_getElem? hg
    -- the array of the arguments
    have hext : ∀ t : Slice, Slice.WF h t → Slice.WF (h ++ [c.args]) t ∧ Arrays.vals (h ++ [c.args]) t = h.vals t ∧
        (t.cap = 0 ∨ t.arr < h.length) := by
      intro t ht
      by_cases hz : t.cap = 0
      · have h0 : t.len = 0 := by have := ht.1; omega
        exact ⟨⟨ht.1, Or.inl hz⟩, by simp [Arrays.vals, h0], Or.inl hz⟩
      · have ha := wf_arr ht hz
        refine ⟨⟨ht.1, ?_⟩, ?_, Or.inr ha⟩
        · rw [getD_append, if_neg (by omega)]; exact ht.2
        · simp only [Arrays.vals]; rw [getD_append, if_neg (by omega)]
    have hargs : Arrays.vals (h ++ [c.args]) ⟨h.length, 0, c.args.length, c.args.length⟩ = c.args := by
      simp only [Arrays.vals]; rw [getD_append, if_pos rfl]; simp
    have hargsw : Slice.WF (h ++ [c.args]) ⟨h.length, 0, c.args.length, c.args.length⟩ := by
      refine ⟨Nat.le_refl _, Or.inr ?_⟩
      rw [getD_append, if_pos rfl]; simp
    obtain ⟨n1, n2⟩ := new_spec (h ++ [c.args]) (ts[c.parent]?.getD none) ⟨h.length, 0, c.args.length, c.args.length⟩
      c.room1 c.room2
      (fun p hp => by
        obtain ⟨w1, w2⟩ := hw p (hpar p hp)
        obtain ⟨x1, x2, _⟩ := hext p w1
        exact ⟨x1, by rw [x2]; exact w2.2.1⟩) hargsw
    have hpv : (ts[c.parent]?.getD none).map (Arrays.vals (h ++ [c.args])) =
        (ts.map (Option.map h.vals))[c.parent]?.getD none := by
      rw [List.getElem?_map]
      cases hg : ts[c.parent]? with
      | none => rfl
      | some o =>
        cases o with
        | none => rfl
        | some p =>
          simp only [Option.getD_some, Option.map_some]
          rw [(hext p (hw p (List.mem_of_getElem? hg)).1).2.1]
    rw [hpv, hargs] at n1
    have hvalidpar : ∀ p, (ts.map (Option.map h.vals))[c.parent]?.getD none = some p → Valid p := by
      intro p hp
      rw [← hpv] at hp
      cases ho : ts[c.parent]?.getD none with
      | none => rw [ho] at hp; cases hp
      | some s =>
        rw [ho] at hp
        simp only [Option.map_some, Option.some.injEq] at hp
        obtain ⟨w1, w2⟩ := hw s (hpar s ho)
        rw [← hp, (hext s w1).2.1]; exact w2
    have hold : ∀ t : Slice, Slice.WF h t →
        Slice.WF (h.newArgs (ts[c.parent]?.getD none) c.args c.room1 c.room2).1 t ∧
        (h.newArgs (ts[c.parent]?.getD none) c.args c.room1 c.room2).1.vals t = h.vals t := by
      intro t ht
      by_cases hz : t.cap = 0
      · have h0 : t.len = 0 := by have := ht.1; omega
        exact ⟨⟨ht.1, Or.inl hz⟩, by simp [Arrays.vals, h0]⟩
      obtain ⟨x1, x2, _⟩ := hext t ht
      have ha := wf_arr ht hz
      have hne : t.arr ≠ h.length := by omega
      refine ⟨⟨ht.1, Or.inr ?_⟩, ?_⟩
      · have hfull : Slice.WF h { t with len := t.cap } := ⟨Nat.le_refl _, ht.2⟩
        have f := n2 { t with len := t.cap } (hext _ hfull).1 (fun he => absurd he hne)
        have f1 : (Arrays.vals (h ++ [c.args]) { t with len := t.cap }).length = t.cap := vals_length (hext _ hfull).1
        rw [← f] at f1
        simp only [Arrays.vals, List.length_take, List.length_drop] at f1
        unfold Arrays.newArgs
        omega
      · rw [← x2]
        exact n2 t x1 (fun he => absurd he hne)
    have hmap : ts.map (Option.map (h.newArgs (ts[c.parent]?.getD none) c.args c.room1 c.room2).1.vals) =
        ts.map (Option.map h.vals) := by
      apply List.map_congr_left
      intro o ho
      cases o with
      | none => rfl
      | some s => simp only [Option.map_some]; rw [(hold s (hw s ho).1).2]
    have hres : (NewResult.ts (h.newArgs (ts[c.parent]?.getD none) c.args c.room1 c.room2).2).map
          (h.newArgs (ts[c.parent]?.getD none) c.args c.room1 c.room2).1.vals =
          (specNew ((ts.map (Option.map h.vals))[c.parent]?.getD none) c.args).getD none ∧
        ∀ s, NewResult.ts (h.newArgs (ts[c.parent]?.getD none) c.args c.room1 c.room2).2 = some s →
          Slice.WF (h.newArgs (ts[c.parent]?.getD none) c.args c.room1 c.room2).1 s ∧
          Valid ((h.newArgs (ts[c.parent]?.getD none) c.args c.room1 c.room2).1.vals s) := by
      change (match (h.newArgs (ts[c.parent]?.getD none) c.args c.room1 c.room2).2 with
        | .nil => _ = some none
        | .error => _ = none
        | .ok s => Slice.WF (h.newArgs (ts[c.parent]?.getD none) c.args c.room1 c.room2).1 s ∧ _ =
            some (some ((h.newArgs (ts[c.parent]?.getD none) c.args c.room1 c.room2).1.vals s))) at n1
      cases hr : (h.newArgs (ts[c.parent]?.getD none) c.args c.room1 c.room2).2 with
      | nil => rw [hr] at n1; simp only at n1; rw [n1]; exact ⟨rfl, fun s hs => by cases hs⟩
      | error => rw [hr] at n1; simp only at n1; rw [n1]; exact ⟨rfl, fun s hs => by cases hs⟩
      | ok s =>
        rw [hr] at n1; simp only at n1
        obtain ⟨m1, m2⟩ := n1
        rw [m2]
        refine ⟨rfl, fun s' hs => ?_⟩
        cases hs
        exact ⟨m1, specNew_valid _ _ _ hvalidpar m2⟩
    have := ih (h.newArgs (ts[c.parent]?.getD none) c.args c.room1 c.room2).1
      (ts ++ [NewResult.ts (h.newArgs (ts[c.parent]?.getD none) c.args c.room1 c.room2).2]) (by
        intro s hs
        rcases List.mem_append.1 hs with hs | hs
        · obtain ⟨w1, w2⟩ := hw s hs
          obtain ⟨x1, x2⟩ := hold s w1
          exact ⟨x1, by rw [x2]; exact w2⟩
        · exact hres.2 s (List.mem_singleton.1 hs).symm)
    rw [List.map_append, hmap, List.map_singleton, hres.1] at this
    exact this

/-- Whatever calls a program makes, with entries written out, in the end every tracestate it was ever
given has the entries it had when it was returned.

Partial: C39 says this of every call. Missing are calls that pass a slice, `New(parent, entries...)`, for
which it fails: `new_keeps_callers_slice`, `second_call_changes_first`. -/
theorem tracestates_never_change_partial (cs : List Call) :
    (runCalls cs ([], [])).2.map (Option.map (runCalls cs ([], [])).1.vals) = specCalls cs [] :=
  (runCalls_spec cs [] [] (by simp)).1

/-- Every tracestate has valid entries, no key twice, and at most 32 entries. -/
theorem tracestates_valid (cs : List Call) (s : Slice) (h : some s ∈ (runCalls cs ([], [])).2) :
    Valid ((runCalls cs ([], [])).1.vals s) :=
  ((runCalls_spec cs [] [] (by simp)).2 s h).2

/-! ## Calls that pass a slice -/

/-- `New(nil, entries...)` keeps the caller's slice as the entries of the tracestate: what the caller
writes to it afterwards, they write to the tracestate. -/
theorem new_keeps_callers_slice (h : Arrays) (entries : Slice) (room1 room2 : Nat) (he : Slice.WF h entries)
    (s : Slice) (hr : (h.newTracestate none entries room1 room2).2 = .ok s) : s = entries := by
  unfold Arrays.newTracestate at hr
  split at hr
  · cases hr
  · split at hr
    · cases hr
    · split at hr
      · cases hr
      · have hnil : ∀ ks, Arrays.removeAll h ⟨0, 0, 0, 0⟩ ks = (h, ⟨0, 0, 0, 0⟩) := by
          intro ks
          induction ks with
          | nil => rfl
          | cons k ks ih =>
            have : h.remove ⟨0, 0, 0, 0⟩ k = (h, ⟨0, 0, 0, 0⟩) := by
              simp [Arrays.remove, Arrays.vals]
            rw [Arrays.removeAll, this]; exact ih
        simp only [Arrays.copyParent, Arrays.add, hnil] at hr
        have hv : h.vals ⟨0, 0, 0, 0⟩ = [] := by simp [Arrays.vals]
        rw [hv] at hr
        have happ : (h.append entries [] room2).2 = entries := by
          unfold Arrays.append
          rw [if_pos (by simpa using he.1)]
          rfl
        split at hr
        · cases hr
        · rename_i hx
          split at hx
          · cases hx
          · cases hx; cases hr; exact happ

/-- Two entries for the examples: `a=1` and `b=2`. -/
def ea : Entry := ⟨str "a", str "1"⟩
def eb : Entry := ⟨str "b", str "2"⟩
def ec : Entry := ⟨str "c", str "3"⟩

/-- A program that passes the same slice, one entry and room for another, to two calls with parents: the
first tracestate, `[a=1, b=2]`, becomes `[a=1, c=3]` with the second call. -/
theorem second_call_changes_first : ∃ (h : Arrays) (p q entries s : Slice),
    Slice.WF h p ∧ Slice.WF h q ∧ Slice.WF h entries ∧ h.vals p = [eb] ∧ h.vals q = [ec] ∧ h.vals entries = [ea] ∧
    (h.newTracestate (some p) entries 0 0).2 = .ok s ∧
    (h.newTracestate (some p) entries 0 0).1.vals s = [ea, eb] ∧
    ((h.newTracestate (some p) entries 0 0).1.newTracestate (some q) entries 0 0).1.vals s = [ea, ec] :=
  ⟨[[eb], [ec], [ea, ⟨[], []⟩]], ⟨0, 0, 1, 1⟩, ⟨1, 0, 1, 1⟩, ⟨2, 0, 1, 2⟩, ⟨2, 0, 2, 2⟩,
    by decide, by decide, by decide, by decide, by decide, by decide, by decide +kernel, by decide +kernel, by decide +kernel⟩

/-! ## Cases -/

/-- A child with `a` given anew and `c` added: `c` and the new `a` come first, then the parent's `b`. -/
example : (runCalls [⟨0, [ea, eb], 0, 3⟩, ⟨0, [ec, ⟨str "a", str "9"⟩], 1, 0⟩, ⟨1, [ea, ea], 0, 0⟩, ⟨7, [], 0, 0⟩] ([], [])).2.map
      (Option.map (runCalls [⟨0, [ea, eb], 0, 3⟩, ⟨0, [ec, ⟨str "a", str "9"⟩], 1, 0⟩, ⟨1, [ea, ea], 0, 0⟩, ⟨7, [], 0, 0⟩]
        ([], [])).1.vals) =
    [some [ea, eb], some [ec, ⟨str "a", str "9"⟩, eb], none, none] := by decide +kernel

/-- The slice of `new_keeps_callers_slice`. -/
example : Slice.WF [[ea, eb]] ⟨0, 0, 2, 2⟩ ∧ (Arrays.newTracestate [[ea, eb]] none ⟨0, 0, 2, 2⟩ 0 0).2 = .ok ⟨0, 0, 2, 2⟩ := by
  decide +kernel

/-- Keys and values: a vendor key, a capital, a value that ends in a space. -/
example : isKey (str "tenant/1@vendor") = true ∧ isKey (str "Tenant") = false ∧ isKey (str "a@b@c") = false ∧
    isValue (str "x y") = true ∧ isValue (str "x ") = false ∧ isValue (str "a=b") = false ∧ isValue [] = false := by
  decide +kernel

end Verif.Props.Tracestate
