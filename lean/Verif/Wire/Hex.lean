import Verif.Basic

/-!
# Parts of the Go library the propagation formats use
(`encoding/hex`, `strconv`, `strings`, `net/http.Header`), from their documentation.
-/

namespace Verif.Wire
open Verif

/-! ## encoding/hex -/

/-- `fromHexChar` of encoding/hex: digits, and letters of either case. -/
def fromHexChar (c : UInt8) : Option UInt8 :=
  if 48 ≤ c ∧ c ≤ 57 then some (c - 48)
  else if 97 ≤ c ∧ c ≤ 102 then some (c - 97 + 10)
  else if 65 ≤ c ∧ c ≤ 70 then some (c - 65 + 10)
  else none

/-- `hex.DecodeString`; `none` is an error (an invalid byte or an odd length). -/
def hexDecode : Bytes → Option Bytes
  | [] => some []
  | [_] => none
  | a :: b :: rest => match fromHexChar a, fromHexChar b, hexDecode rest with
    | some x, some y, some r => some ((x <<< 4 ||| y) :: r)
    | _, _, _ => none

/-- A digit of the table "0123456789abcdef". -/
def hexDigit (n : UInt8) : UInt8 := if n < 10 then 48 + n else 87 + n

/-- `hex.EncodeToString`, and the verb `%x` of fmt on a byte slice. -/
def hexEncode (b : Bytes) : Bytes := b.flatMap fun (x : UInt8) => [hexDigit (x >>> 4), hexDigit (x &&& 15)]

/-! ## strconv -/

/-- The value of a decimal digit. -/
def digitVal (c : UInt8) : Option Nat := if 48 ≤ c ∧ c ≤ 57 then some (c.toNat - 48) else none

/-- The loop of `strconv.ParseUint` in base 10. -/
def parseDigits (acc : Nat) : Bytes → Option Nat
  | [] => some acc
  | c :: cs => match digitVal c with
    | some d => parseDigits (acc * 10 + d) cs
    | none => none

/-- `strconv.ParseUint(s, 10, 64)`: the error for a syntax error or a value that does not fit. -/
def parseUint (s : Bytes) : Option Nat :=
  if s = [] then none
  else match parseDigits 0 s with
    | some n => if n < 2 ^ 64 then some n else none
    | none => none

/-- The verb `%d` on a number that is not negative. -/
def dec (n : Nat) : Bytes :=
  if h : n < 10 then [UInt8.ofNat (48 + n)] else dec (n / 10) ++ [UInt8.ofNat (48 + n % 10)]
termination_by n
decreasing_by omega

/-! ## strings -/

/-- `strings.Split(s, sep)` with a separator of one byte. -/
def split (sep : UInt8) : Bytes → List Bytes
  | [] => [[]]
  | c :: cs =>
    if c = sep then [] :: split sep cs
    else match split sep cs with
      | p :: ps => (c :: p) :: ps
      | [] => [[c]]

/-- `strings.Join(l, sep)`. -/
def join (sep : UInt8) : List Bytes → Bytes
  | [] => []
  | [p] => p
  | p :: ps => p ++ sep :: join sep ps

/-- `strings.Index(s, c)` with a pattern of one byte, and the split there: the text before and after. -/
def cut (c : UInt8) : Bytes → Option (Bytes × Bytes)
  | [] => none
  | x :: xs => if x = c then some ([], xs) else (cut c xs).map fun (a, b) => (x :: a, b)

/-! ## net/http.Header -/

/-- A header: canonical names with their values. -/
abbrev Header := GoMap Bytes (List Bytes)

/-- `textproto.CanonicalMIMEHeaderKey` on the names used here, which have only letters, digits and
hyphens: the first letter and those after a hyphen are upper case, others lower case. -/
def canonicalLoop (upper : Bool) : Bytes → Bytes
  | [] => []
  | c :: cs =>
    (if upper ∧ 97 ≤ c ∧ c ≤ 122 then c - 32 else if ¬ upper ∧ 65 ≤ c ∧ c ≤ 90 then c + 32 else c) ::
      canonicalLoop (decide (c = 45)) cs

def canonicalKey (name : Bytes) : Bytes := canonicalLoop true name

/-- `Header.Set`. -/
def Header.put (h : Header) (name v : Bytes) : Header := GoMap.set h (canonicalKey name) [v]

/-- All the values of a header. -/
def Header.values (h : Header) (name : Bytes) : List Bytes := (GoMap.get h (canonicalKey name)).getD []

/-- `Header.Get`: the first value, or the empty string. -/
def Header.first (h : Header) (name : Bytes) : Bytes := match h.values name with
  | v :: _ => v
  | [] => []

/-! ## Facts about them -/

theorem forall_byte {p : UInt8 → Prop} [DecidablePred p] (h : ∀ n < 256, p (UInt8.ofNat n)) (b : UInt8) : p b := by
  have := h b.toNat b.toNat_lt
  rwa [UInt8.ofNat_toNat] at this

theorem fromHexChar_hi : ∀ b : UInt8, fromHexChar (hexDigit (b >>> 4)) = some (b >>> 4) :=
  forall_byte (by decide +kernel)
theorem fromHexChar_lo : ∀ b : UInt8, fromHexChar (hexDigit (b &&& 15)) = some (b &&& 15) :=
  forall_byte (by decide +kernel)
theorem hi_lo : ∀ b : UInt8, (b >>> 4) <<< 4 ||| (b &&& 15) = b := forall_byte (by decide +kernel)

/-- What a hexadecimal digit is. -/
def IsHex (c : UInt8) : Prop := (48 ≤ c ∧ c ≤ 57) ∨ (97 ≤ c ∧ c ≤ 102) ∨ (65 ≤ c ∧ c ≤ 70)

instance : DecidablePred IsHex := fun c => by unfold IsHex; infer_instance

theorem hexEncode_cons (x : UInt8) (b : Bytes) :
    hexEncode (x :: b) = hexDigit (x >>> 4) :: hexDigit (x &&& 15) :: hexEncode b := rfl

/-- Decoding what was encoded. -/
theorem hexDecode_encode (b : Bytes) : hexDecode (hexEncode b) = some b := by
  induction b with
  | nil => rfl
  | cons x b ih =>
    rw [hexEncode_cons]
    simp only [hexDecode, fromHexChar_hi, fromHexChar_lo, ih, hi_lo]

theorem hexEncode_length (b : Bytes) : (hexEncode b).length = 2 * b.length := by
  induction b with
  | nil => rfl
  | cons x b ih => rw [hexEncode_cons]; simp only [List.length_cons, ih]; omega

theorem isHex_hi : ∀ b : UInt8, IsHex (hexDigit (b >>> 4)) := forall_byte (by decide +kernel)
theorem isHex_lo : ∀ b : UInt8, IsHex (hexDigit (b &&& 15)) := forall_byte (by decide +kernel)

theorem hexEncode_isHex (b : Bytes) : ∀ c ∈ hexEncode b, IsHex c := by
  induction b with
  | nil => intro c h; cases h
  | cons x b ih =>
    rw [hexEncode_cons]
    intro c h
    rcases List.mem_cons.1 h with rfl | h
    · exact isHex_hi x
    · rcases List.mem_cons.1 h with rfl | h
      · exact isHex_lo x
      · exact ih c h

theorem fromHexChar_isSome : ∀ c : UInt8, (fromHexChar c).isSome = true ↔ IsHex c := forall_byte (by decide +kernel)

theorem two_step {p : Bytes → Prop} (h0 : p []) (h1 : ∀ x, p [x]) (h2 : ∀ a b l, p l → p (a :: b :: l)) : ∀ l, p l
  | [] => h0
  | [x] => h1 x
  | a :: b :: l => h2 a b l (two_step h0 h1 h2 l)

/-- Exactly the strings of an even number of hexadecimal digits are accepted. -/
theorem hexDecode_isSome (s : Bytes) : (hexDecode s).isSome = true ↔ s.length % 2 = 0 ∧ ∀ c ∈ s, IsHex c := by
  induction s using two_step with
  | h0 => simp [hexDecode]
  | h1 x => simp [hexDecode]
  | h2 a b rest ih =>
    have ha := fromHexChar_isSome a
    have hb := fromHexChar_isSome b
    simp only [hexDecode, List.length_cons, List.forall_mem_cons]
    cases h1 : fromHexChar a <;> cases h2 : fromHexChar b <;> cases h3 : hexDecode rest <;>
      simp only [h1, h2, h3, Option.isSome_none, Option.isSome_some, Bool.false_eq_true, false_iff, true_iff] at ha hb ih ⊢
    all_goals
      first
      | exact fun h => ha h.2.1
      | exact fun h => hb h.2.2.1
      | exact fun h => ih ⟨by omega, h.2.2.2⟩
      | exact ⟨by omega, ha, hb, ih.2⟩

theorem hexDecode_length {s b : Bytes} (h : hexDecode s = some b) : s.length = 2 * b.length := by
  induction s using two_step generalizing b with
  | h0 => simp [hexDecode] at h; simp [h]
  | h1 x => simp [hexDecode] at h
  | h2 a c rest ih =>
    simp only [hexDecode] at h
    cases h1 : fromHexChar a <;> cases h2 : fromHexChar c <;> cases h3 : hexDecode rest <;>
      simp [h1, h2, h3] at h
    rw [← h]
    have := ih h3
    simp only [List.length_cons, this]; omega

theorem parseDigits_append (acc : Nat) (a b : Bytes) :
    parseDigits acc (a ++ b) = (parseDigits acc a).bind fun n => parseDigits n b := by
  induction a generalizing acc with
  | nil => rfl
  | cons c a ih =>
    simp only [List.cons_append, parseDigits]
    cases digitVal c with
    | none => rfl
    | some d => exact ih _

theorem digitVal_digit (d : Nat) (h : d < 10) : digitVal (UInt8.ofNat (48 + d)) = some d := by
  have : ∀ d < 10, digitVal (UInt8.ofNat (48 + d)) = some d := by decide
  exact this d h

theorem parseDigits_dec (n : Nat) : parseDigits 0 (dec n) = some n := by
  induction n using Nat.strongRecOn with
  | _ n ih =>
    rw [dec]
    split
    · rename_i h
      simp only [parseDigits, digitVal_digit n h, Nat.zero_mul, Nat.zero_add]
    · rename_i h
      rw [parseDigits_append, ih (n / 10) (by omega)]
      simp only [Option.bind_some, parseDigits, digitVal_digit (n % 10) (by omega)]
      exact congrArg some (by omega)

theorem dec_ne_nil (n : Nat) : dec n ≠ [] := by
  rw [dec]; split <;> simp

theorem parseUint_dec (n : Nat) (h : n < 2 ^ 64) : parseUint (dec n) = some n := by
  simp [parseUint, dec_ne_nil, parseDigits_dec, h]

theorem dec_digits (n : Nat) : ∀ c ∈ dec n, 48 ≤ c ∧ c ≤ 57 := by
  have hd : ∀ d < 10, (48 : UInt8) ≤ UInt8.ofNat (48 + d) ∧ UInt8.ofNat (48 + d) ≤ 57 := by decide
  induction n using Nat.strongRecOn with
  | _ n ih =>
    rw [dec]
    split
    · rename_i h
      intro c hc
      rw [List.mem_singleton.1 hc]
      exact hd n h
    · rename_i h
      intro c hc
      rcases List.mem_append.1 hc with hc | hc
      · exact ih (n / 10) (by omega) c hc
      · rw [List.mem_singleton.1 hc]
        exact hd _ (by omega)

theorem dec_length (k n : Nat) (h : n < 10 ^ (k + 1)) : (dec n).length ≤ k + 1 := by
  induction k generalizing n with
  | zero => rw [dec, dif_pos (by omega)]; simp
  | succ k ih =>
    rw [dec]
    split
    · simp
    · rw [List.length_append, List.length_singleton]
      have := ih (n / 10) (by rw [Nat.pow_succ] at h; omega)
      omega

/-! ### split, join, cut -/

theorem split_ne_nil (sep : UInt8) (s : Bytes) : split sep s ≠ [] := by
  cases s with
  | nil => simp [split]
  | cons c s =>
    simp only [split]
    split
    · simp
    · cases split sep s <;> simp

theorem split_free (sep : UInt8) (p : Bytes) (h : sep ∉ p) : split sep p = [p] := by
  induction p with
  | nil => rfl
  | cons c p ih =>
    have hc : c ≠ sep := fun he => h (by simp [he])
    rw [split, if_neg hc, ih (fun hm => h (List.mem_cons_of_mem _ hm))]

theorem split_append (sep : UInt8) (p : Bytes) (h : sep ∉ p) (s : Bytes) :
    split sep (p ++ sep :: s) = p :: split sep s := by
  induction p with
  | nil => simp [split]
  | cons c p ih =>
    have hc : c ≠ sep := fun he => h (by simp [he])
    rw [List.cons_append, split, if_neg hc, ih (fun hm => h (List.mem_cons_of_mem _ hm))]

/-- Splitting what was joined. -/
theorem split_join (sep : UInt8) (l : List Bytes) (hl : l ≠ []) (h : ∀ p ∈ l, sep ∉ p) : split sep (join sep l) = l := by
  induction l with
  | nil => exact absurd rfl hl
  | cons p l ih =>
    cases l with
    | nil => exact split_free sep p (h p (by simp))
    | cons q l =>
      rw [join, split_append sep p (h p (by simp)), ih (by simp) (fun x hx => h x (List.mem_cons_of_mem _ hx))]
      simp

/-- Joining what was split. -/
theorem join_split (sep : UInt8) (s : Bytes) : join sep (split sep s) = s ∧ ∀ p ∈ split sep s, sep ∉ p := by
  induction s with
  | nil => simp [split, join]
  | cons c s ih =>
    simp only [split]
    by_cases hc : c = sep
    · rw [if_pos hc]
      cases hs : split sep s with
      | nil => exact absurd hs (split_ne_nil sep s)
      | cons q qs =>
        rw [hs] at ih
        refine ⟨by simp [join, ih.1, hc], fun p hp => ?_⟩
        rcases List.mem_cons.1 hp with rfl | hp
        · simp
        · exact ih.2 p hp
    · rw [if_neg hc]
      cases hs : split sep s with
      | nil => exact absurd hs (split_ne_nil sep s)
      | cons q qs =>
        rw [hs] at ih
        refine ⟨?_, fun p hp => ?_⟩
        · cases qs with
          | nil => simp only [join] at ih ⊢; rw [ih.1]
          | cons r rs => simp only [join, List.cons_append] at ih ⊢; rw [ih.1]
        · rcases List.mem_cons.1 hp with rfl | hp
          · intro hm
            rcases List.mem_cons.1 hm with hm | hm
            · exact hc hm.symm
            · exact ih.2 q (by simp) hm
          · exact ih.2 p (List.mem_cons_of_mem _ hp)

theorem cut_append (c : UInt8) (a b : Bytes) (h : c ∉ a) : cut c (a ++ c :: b) = some (a, b) := by
  induction a with
  | nil => simp [cut]
  | cons x a ih =>
    have hx : x ≠ c := fun he => h (by simp [he])
    rw [List.cons_append, cut, if_neg hx, ih (fun hm => h (List.mem_cons_of_mem _ hm))]
    rfl

theorem cut_none (c : UInt8) (s : Bytes) : cut c s = none ↔ c ∉ s := by
  induction s with
  | nil => simp [cut]
  | cons x s ih =>
    by_cases hx : x = c
    · simp [cut, hx]
    · rw [cut, if_neg hx, Option.map_eq_none_iff, ih]
      simp [Ne.symm hx]

theorem cut_some {c : UInt8} {s a b : Bytes} (h : cut c s = some (a, b)) : s = a ++ c :: b ∧ c ∉ a := by
  induction s generalizing a b with
  | nil => simp [cut] at h
  | cons x s ih =>
    by_cases hx : x = c
    · simp [cut, hx] at h; simp [h.1, ← h.2, hx]
    · rw [cut, if_neg hx, Option.map_eq_some_iff] at h
      obtain ⟨⟨a', b'⟩, h1, h2⟩ := h
      simp only [Prod.mk.injEq] at h2
      obtain ⟨r1, r2⟩ := ih h1
      rw [← h2.1, ← h2.2, r1]
      exact ⟨rfl, by simp [Ne.symm hx, r2]⟩

theorem Header.values_put (h : Header) (n n' v : Bytes) : (h.put n v).values n' =
    if canonicalKey n' = canonicalKey n then [v] else h.values n' := by
  simp only [Header.put, Header.values, GoMap.get_set]
  split <;> rfl

end Verif.Wire
