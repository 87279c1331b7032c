import Verif.Zpages.TraceRows
import Verif.Props.Grpc
import Mathlib.Data.List.Induction

/-!
# C78: the trace page tells every event of a span once, in order, with times that can be read

What a reader of the page does is specified apart from the code: `valueOf` reads the elapsed column as a
number, `readTimes` reads the column of times from top to bottom.
-/

namespace Verif.Props.TraceRows
open Verif Verif.Trace Verif.Zpages
open Verif.Props.Grpc (numeral numeral_digits isDigit digits_digits foldl_numeral)

/-! ## Reading the page -/

/-- A number without sign: digits, a point and six digits, or digits and `s`. In microseconds. -/
def unsigned (t : Bytes) : Option Nat :=
  match t.dropWhile isDigit with
  | c :: f =>
      if c = 46 then
        if f.length = 6 ∧ f.all isDigit then some (numeral (t.takeWhile isDigit) * 1000000 + numeral f) else none
      else if c = 115 ∧ f = [] ∧ t.takeWhile isDigit ≠ [] then some (numeral (t.takeWhile isDigit) * 1000000)
      else none
  | [] => none

/-- The number a text shows, in microseconds: spaces, perhaps a minus sign, a number. -/
def valueOf (t : Bytes) : Option Int :=
  match t.dropWhile (· = 32) with
  | c :: r => if c = 45 then (unsigned r).map fun n => -(n : Int) else (unsigned (c :: r)).map fun n => (n : Int)
  | [] => none

/-- Reading the column of times from the top: a text that begins with a space has the date of the text
before. The date text has eleven bytes (`2006/01/02-`). -/
def readTimes (date : Bytes) : List Bytes → List (Bytes × Bytes)
  | [] => []
  | t :: l =>
      if t.take 1 = [32] then (date, t.drop 11) :: readTimes date l
      else (t.take 11, t.drop 11) :: readTimes (t.take 11) l

example : valueOf (str " 1234.000012") = some 1234000012 := by decide +kernel
example : valueOf (str "   -7.500000") = some (-7500000) := by decide +kernel
example : valueOf (str " 1234567890s") = some 1234567890000000 := by decide +kernel
example : valueOf (str "     .     5") = none := by decide +kernel

/-! ## Decimal texts -/

theorem digits_head (f n : Nat) : ∃ c r, Http.digits f n = c :: r ∧ isDigit c = true := by
  have hd := digits_digits f n
  cases h : Http.digits f n with
  | nil =>
    cases f with
    | zero => simp [Http.digits] at h
    | succ f => unfold Http.digits at h; split at h <;> simp at h
  | cons c r => exact ⟨c, r, rfl, hd c (by rw [h]; simp)⟩

theorem digits_len (f n k : Nat) (h : n < 10 ^ (k + 1)) : (Http.digits f n).length ≤ k + 1 := by
  induction f generalizing n k with
  | zero => simp [Http.digits]
  | succ f ih =>
    unfold Http.digits
    split
    · simp
    · rename_i h1
      cases k with
      | zero => simp at h; omega
      | succ k =>
        have := ih (n / 10) k (by rw [Nat.pow_succ] at h; omega)
        simp; omega

theorem numeral_lt (d : Bytes) (h : ∀ c ∈ d, isDigit c = true) : numeral d < 10 ^ d.length := by
  induction d using List.reverseRecOn with
  | nil => simp [numeral]
  | append_singleton d c ih =>
    have := ih (fun x hx => h x (by simp [hx]))
    have hc := h c (by simp)
    simp only [isDigit, decide_eq_true_eq] at hc
    rw [foldl_numeral, List.length_append, List.length_singleton, Nat.pow_succ]
    omega

theorem numeral_zeros (k : Nat) (d : Bytes) : numeral (List.replicate k 48 ++ d) = numeral d := by
  induction k with
  | zero => rfl
  | succ k ih =>
    rw [← ih]
    simp only [numeral, List.replicate_succ, List.cons_append, List.foldl_cons]
    rfl

theorem notSpace {c : UInt8} (h : isDigit c = true) : c ≠ 32 ∧ c ≠ 45 ∧ c ≠ 46 ∧ c ≠ 115 := by
  simp only [isDigit, decide_eq_true_eq] at h
  refine ⟨?_, ?_, ?_, ?_⟩ <;> (rintro rfl; revert h; decide)

theorem dropSpaces (k : Nat) (c : UInt8) (r : Bytes) (h : c ≠ 32) :
    (List.replicate k 32 ++ c :: r).dropWhile (· = 32) = c :: r := by
  induction k with
  | zero => simp [h]
  | succ k ih => simpa [List.replicate_succ] using ih

theorem takeDigits (d : Bytes) (c : UInt8) (r : Bytes) (hd : ∀ x ∈ d, isDigit x = true) (hc : isDigit c = false) :
    (d ++ c :: r).takeWhile isDigit = d ∧ (d ++ c :: r).dropWhile isDigit = c :: r := by
  induction d with
  | nil => simp [hc]
  | cons x d ih =>
    have := ih (fun y hy => hd y (by simp [hy]))
    simp [hd x (by simp), this]

theorem zeroPad {n : Nat} (h : n < 1000000) :
    (pad 6 48 (Http.digits 19 n)).length = 6 ∧ (pad 6 48 (Http.digits 19 n)).all isDigit = true ∧
      numeral (pad 6 48 (Http.digits 19 n)) = n := by
  have hl := digits_len 19 n 5 (by omega)
  refine ⟨by simp only [pad, List.length_append, List.length_replicate]; omega, ?_, ?_⟩
  · rw [List.all_eq_true]
    intro c hc
    simp only [pad, List.mem_append] at hc
    rcases hc with hc | hc
    · rw [List.eq_of_mem_replicate hc]; decide
    · exact digits_digits _ _ c hc
  · rw [pad, numeral_zeros, numeral_digits _ _ (by omega)]

/-- Reading a fixed point number. -/
theorem unsigned_point (a n : Nat) (ha : a < 10 ^ 20) (hn : n < 1000000) :
    unsigned (Http.digits 19 a ++ 46 :: pad 6 48 (Http.digits 19 n)) = some (a * 1000000 + n) := by
  have ht := takeDigits (Http.digits 19 a) 46 (pad 6 48 (Http.digits 19 n)) (digits_digits _ _) (by decide)
  have hz := zeroPad hn
  unfold unsigned
  rw [ht.1, ht.2]
  simp [hz.1, hz.2.2, numeral_digits 19 a (by omega)]
  exact List.all_eq_true.1 hz.2.1

theorem unsigned_secs (a : Nat) (ha : a < 10 ^ 20) : unsigned (Http.digits 19 a ++ [115]) = some (a * 1000000) := by
  have ht := takeDigits (Http.digits 19 a) 115 [] (digits_digits _ _) (by decide)
  obtain ⟨c, r, hc, -⟩ := digits_head 19 a
  unfold unsigned
  rw [ht.1, ht.2]
  simp [numeral_digits 19 a (by omega), hc]
  rw [← hc, numeral_digits 19 a (by omega)]

theorem valueOf_pos (k a : Nat) (tail : Bytes) (v : Nat)
    (h : unsigned (Http.digits 19 a ++ tail) = some v) :
    valueOf (List.replicate k 32 ++ Http.digits 19 a ++ tail) = some (v : Int) := by
  obtain ⟨c, r, hc, hd⟩ := digits_head 19 a
  rw [hc] at h ⊢
  unfold valueOf
  rw [List.append_assoc, List.cons_append, dropSpaces _ _ _ (notSpace hd).1]
  simp only [(notSpace hd).2.1, if_false]
  rw [← List.cons_append, h]; rfl

theorem valueOf_neg (k a : Nat) (tail : Bytes) (v : Nat)
    (h : unsigned (Http.digits 19 a ++ tail) = some v) :
    valueOf (List.replicate k 32 ++ 45 :: Http.digits 19 a ++ tail) = some (-(v : Int)) := by
  unfold valueOf
  rw [List.append_assoc, List.cons_append, dropSpaces _ _ _ (by decide)]
  simp [h]

theorem itoa_nat (n : Nat) : Http.itoa (n : Int) = Http.digits 19 n := by
  unfold Http.itoa; rw [if_neg (by omega)]; rfl

theorem itoa_neg (n : Nat) (h : 0 < n) : Http.itoa (-(n : Int)) = 45 :: Http.digits 19 n := by
  unfold Http.itoa; rw [if_pos (by omega)]; simp

/-! ## The elapsed column -/

/-- The texts of the five cases. -/
theorem text_big (u : Nat) (h : 99999999999 < u) :
    elapsedText u = pad 11 32 (Http.digits 19 (u / 1000000)) ++ [115] := by
  unfold elapsedText
  rw [if_neg (by omega), if_neg (by omega), if_neg (by omega), if_neg (by omega)]
  rw [show (u : Int).tdiv 1000000 = ((u / 1000000 : Nat) : Int) by rw [Int.tdiv_eq_ediv_of_nonneg (by omega)]; omega, itoa_nat]
  rfl

theorem text_secs (u : Nat) (h : 1000000 ≤ u) (h2 : u ≤ 99999999999) :
    elapsedText u = pad 5 32 (Http.digits 19 (u / 1000000)) ++ 46 :: pad 6 48 (Http.digits 19 (u % 1000000)) := by
  unfold elapsedText
  rw [if_neg (by omega), if_neg (by omega), if_neg (by omega), if_pos (by omega)]
  rw [show (u : Int).tdiv 1000000 = ((u / 1000000 : Nat) : Int) by rw [Int.tdiv_eq_ediv_of_nonneg (by omega)]; omega, itoa_nat,
    show (u : Int) - ((u / 1000000 : Nat) : Int) * 1000000 = ((u % 1000000 : Nat) : Int) by omega, itoa_nat,
    List.append_assoc]
  rfl

theorem text_small (u : Nat) (h : u < 1000000) :
    elapsedText u = str "     ." ++ pad 6 32 (Http.digits 19 u) := by
  unfold elapsedText
  rw [if_neg (by omega), if_neg (by omega), if_pos (by omega), itoa_nat]

theorem tdiv_neg (u : Nat) : (-(u : Int)).tdiv 1000000 = -((u / 1000000 : Nat) : Int) := by
  rw [Int.neg_tdiv, Int.tdiv_eq_ediv_of_nonneg (by omega)]; omega

theorem text_neg (u : Nat) (h : 0 < u) (h2 : u ≤ 9999999999) :
    elapsedText (-(u : Int)) =
      pad 5 32 (Http.itoa (-((u / 1000000 : Nat) : Int))) ++ 46 :: pad 6 48 (Http.digits 19 (u % 1000000)) := by
  unfold elapsedText
  rw [if_neg (by omega), if_pos (by omega), tdiv_neg,
    show -(-(u : Int) - -((u / 1000000 : Nat) : Int) * 1000000) = ((u % 1000000 : Nat) : Int) by omega, itoa_nat,
    List.append_assoc]
  rfl

theorem text_negbig (u : Nat) (h2 : 9999999999 < u) :
    elapsedText (-(u : Int)) = pad 11 32 (45 :: Http.digits 19 (u / 1000000)) ++ [115] := by
  unfold elapsedText
  rw [if_pos (by omega), tdiv_neg, itoa_neg _ (by omega)]
  rfl

/-- What the elapsed column should show: the microseconds, and whole seconds for what does not fit. -/
def Reads (u : Int) : Prop :=
  valueOf (elapsedText u) = some (if -9999999999 ≤ u ∧ u ≤ 99999999999 then u else u.tdiv 1000000 * 1000000)

/-- **C78, the elapsed column.** All but two ranges of durations are shown as they are, rounded to whole
seconds if they are too long for the column. Missing: from 0 to 100 milliseconds and between -1 second
and 0 (`elapsed_blank`, `elapsed_sign`). -/
theorem elapsed_read_partial (u : Int) (hr : -2 ^ 63 ≤ u ∧ u < 2 ^ 63)
    (h : u ≤ -1000000 ∨ 100000 ≤ u) : Reads u := by
  unfold Reads
  rcases Int.lt_or_le u 0 with hn | hn
  · obtain ⟨v, rfl⟩ : ∃ v : Nat, u = -(v : Int) := ⟨u.natAbs, by omega⟩
    by_cases h2 : v ≤ 9999999999
    · rw [if_pos (by omega), text_neg v (by omega) h2, itoa_neg _ (by omega), pad,
        valueOf_neg _ _ _ _ (unsigned_point _ _ (by omega) (by omega))]
      congr 1; omega
    · rw [if_neg (by omega), text_negbig v (by omega), pad,
        valueOf_neg _ _ _ _ (unsigned_secs _ (by omega)), tdiv_neg]
      congr 1; omega
  · obtain ⟨v, rfl⟩ : ∃ v : Nat, u = (v : Int) := ⟨u.natAbs, by omega⟩
    by_cases h1 : v < 1000000
    · rw [if_pos (by omega), text_small v h1]
      have hl : (Http.digits 19 v).length = 6 := by
        have hu := digits_len 19 v 5 (by omega)
        by_contra hne
        have hlt : (Http.digits 19 v).length ≤ 5 := by omega
        have hnum := numeral_digits 19 v (by omega)
        have := numeral_lt _ (digits_digits 19 v)
        have h10 : 10 ^ (Http.digits 19 v).length ≤ 10 ^ 5 := Nat.pow_le_pow_right (by omega) hlt
        omega
      have hz := zeroPad h1
      rw [pad, hl] at hz ⊢
      simp only [Nat.sub_self, List.replicate_zero, List.nil_append] at hz ⊢
      have : str "     ." ++ Http.digits 19 v = List.replicate 5 32 ++ 46 :: Http.digits 19 v := rfl
      rw [this]
      unfold valueOf
      rw [dropSpaces _ _ _ (by decide)]
      have hu : unsigned (46 :: Http.digits 19 v) = some v := by
        have ht := takeDigits [] 46 (Http.digits 19 v) (by simp) (by decide)
        unfold unsigned
        rw [List.nil_append] at ht
        rw [ht.1, ht.2]
        simp only [hz.1, hz.2.1, hz.2.2]
        simp [numeral]
      simp [hu]
    · by_cases h2 : v ≤ 99999999999
      · rw [if_pos (by omega), text_secs v (by omega) h2, pad,
          valueOf_pos _ _ _ _ (unsigned_point _ _ (by omega) (by omega))]
        congr 1; omega
      · rw [if_neg (by omega), text_big v (by omega), pad, valueOf_pos _ _ _ _ (unsigned_secs _ (by omega)),
          Int.tdiv_eq_ediv_of_nonneg (by omega)]
        congr 1

example : Reads 1500000 := elapsed_read_partial _ (by decide) (by decide)
example : elapsedText 1500000 = str "    1.500000" := by decide +kernel

/-- **C78, the elapsed column.** Read as a number of microseconds, the column is the time from `last` to `t`: to the
microsecond, or to the second if it is too long for the column. The same two ranges of durations are missing. -/
theorem elapsed_between_partial (last t : Int) (hr : -2 ^ 63 ≤ t - last ∧ t - last < 2 ^ 63)
    (h : t - last ≤ -1000000000 ∨ 100000000 ≤ t - last) :
    ∃ u, valueOf (formatElapsed last t) = some u ∧ |t - last - 1000 * u| < 1000000000 ∧
      (-10 ^ 13 < t - last → t - last < 10 ^ 14 → |t - last - 1000 * u| < 1000) := by
  unfold formatElapsed
  rw [show sub t last = t - last by unfold sub; omega]
  generalize t - last = d at hr h ⊢
  have hd : (0 ≤ d ∧ d.tdiv 1000 = d / 1000) ∨ (d < 0 ∧ d.tdiv 1000 = -((-d) / 1000)) := by
    rcases Int.lt_or_le d 0 with hn | hn
    · refine .inr ⟨hn, ?_⟩
      rw [show d = -(-d) by omega, Int.neg_tdiv, Int.tdiv_eq_ediv_of_nonneg (by omega), Int.neg_neg]
    · exact .inl ⟨hn, Int.tdiv_eq_ediv_of_nonneg hn⟩
  have hu : (0 ≤ d.tdiv 1000 ∧ (d.tdiv 1000).tdiv 1000000 = d.tdiv 1000 / 1000000) ∨
      (d.tdiv 1000 < 0 ∧ (d.tdiv 1000).tdiv 1000000 = -((-d.tdiv 1000) / 1000000)) := by
    generalize d.tdiv 1000 = v
    rcases Int.lt_or_le v 0 with hn | hn
    · refine .inr ⟨hn, ?_⟩
      conv => lhs; rw [show v = -(-v) by omega, Int.neg_tdiv, Int.tdiv_eq_ediv_of_nonneg (by omega)]
    · exact .inl ⟨hn, Int.tdiv_eq_ediv_of_nonneg hn⟩
  refine ⟨_, elapsed_read_partial (d.tdiv 1000) (by omega) (by omega), ?_, ?_⟩
  · rw [abs_lt]
    split <;> constructor <;> omega
  · intro h1 h2
    rw [abs_lt]
    split <;> constructor <;> omega

example : ∃ u, valueOf (formatElapsed 1000 1500001999) = some u ∧ |(1500001999 : Int) - 1000 - 1000 * u| < 1000 := by
  obtain ⟨u, h1, _, h3⟩ := elapsed_between_partial 1000 1500001999 (by decide) (by decide)
  exact ⟨u, h1, h3 (by decide) (by decide)⟩

/-- **C78, a violation.** A duration between -1 second and 0 loses its sign. -/
theorem elapsed_sign (u : Int) (h : -1000000 < u ∧ u < 0) : valueOf (elapsedText u) = some (-u) := by
  obtain ⟨v, rfl⟩ : ∃ v : Nat, u = -(v : Int) := ⟨u.natAbs, by omega⟩
  rw [text_neg v (by omega) (by omega), show v / 1000000 = 0 by omega, pad]
  have := valueOf_pos (5 - (Http.itoa (-((0 : Nat) : Int))).length) 0 (46 :: pad 6 48 (Http.digits 19 (v % 1000000))) _
    (unsigned_point 0 (v % 1000000) (by omega) (by omega))
  rw [show Http.itoa (-((0 : Nat) : Int)) = Http.digits 19 0 from rfl] at this ⊢
  rw [this]
  congr 1; omega

/-- **C78, a violation.** A duration of less than 100 milliseconds is padded with spaces and not with zeros:
it is not a number. -/
theorem elapsed_blank (u : Int) (h : 0 ≤ u ∧ u < 100000) : valueOf (elapsedText u) = none := by
  obtain ⟨v, rfl⟩ : ∃ v : Nat, u = (v : Int) := ⟨u.natAbs, by omega⟩
  rw [text_small v (by omega)]
  have hl := digits_len 19 v 4 (by omega)
  obtain ⟨k, hk⟩ : ∃ k, 6 - (Http.digits 19 v).length = k + 1 := ⟨5 - (Http.digits 19 v).length, by omega⟩
  have : str "     ." ++ pad 6 32 (Http.digits 19 v) =
      List.replicate 5 32 ++ 46 :: 32 :: (List.replicate k 32 ++ Http.digits 19 v) := by
    rw [pad, hk]; rfl
  rw [this]
  unfold valueOf
  rw [dropSpaces _ _ _ (by decide)]
  have hi : isDigit 46 = false := by decide
  have hi2 : isDigit 32 = false := by decide
  simp [unsigned, hi, hi2]

/-- **C78, a violation.** Five microseconds backwards and forwards. -/
theorem elapsed_false : ¬ Reads (-5) ∧ ¬ Reads 5 ∧
    elapsedText (-5) = str "    0.000005" ∧ elapsedText 5 = str "     .     5" := by
  refine ⟨?_, ?_, by decide +kernel, by decide +kernel⟩
  · unfold Reads; rw [elapsed_sign (-5) (by decide)]; decide
  · unfold Reads; rw [elapsed_blank 5 (by decide)]; decide

theorem pad_length (w : Nat) (c : UInt8) (t : Bytes) (h : t.length ≤ w) : (pad w c t).length = w := by
  simp only [pad, List.length_append, List.length_replicate]; omega

/-- **C78.** The elapsed column is twelve bytes wide for any two times, however far apart. -/
theorem elapsed_width (last t : Int) : (formatElapsed last t).length = 12 := by
  unfold formatElapsed
  have hs : -2 ^ 63 ≤ sub t last ∧ sub t last < 2 ^ 63 := by unfold sub; omega
  generalize sub t last = d at hs
  rcases Int.lt_or_le d 0 with hn | hn
  · obtain ⟨v, hv⟩ : ∃ v : Nat, d.tdiv 1000 = -(v : Int) ∧ v ≤ 9223372036854776 := by
      refine ⟨d.natAbs / 1000, ?_, by omega⟩
      rw [show d = -((d.natAbs : Nat) : Int) by omega, Int.neg_tdiv, Int.tdiv_eq_ediv_of_nonneg (by omega)]
      omega
    rw [hv.1]
    by_cases h0 : v = 0
    · subst h0; decide +kernel
    · have h6 := (zeroPad (n := v % 1000000) (by omega)).1
      by_cases h2 : v ≤ 9999999999
      · rw [text_neg v (by omega) h2, List.length_append, List.length_cons, h6]
        by_cases h1 : v / 1000000 = 0
        · rw [h1]; decide +kernel
        · have := digits_len 19 (v / 1000000) 3 (by omega)
          rw [itoa_neg _ (by omega), pad_length _ _ _ (by simp; omega)]
      · have := digits_len 19 (v / 1000000) 9 (by omega)
        rw [text_negbig v (by omega), List.length_append, pad_length _ _ _ (by simp; omega)]; rfl
  · obtain ⟨v, hv⟩ : ∃ v : Nat, d.tdiv 1000 = (v : Int) ∧ v ≤ 9223372036854776 :=
      ⟨d.natAbs / 1000, by rw [Int.tdiv_eq_ediv_of_nonneg hn]; omega, by omega⟩
    rw [hv.1]
    by_cases h1 : v < 1000000
    · have := digits_len 19 v 5 (by omega)
      rw [text_small v h1, List.length_append, pad_length _ _ _ (by omega)]; decide
    · by_cases h2 : v ≤ 99999999999
      · have := digits_len 19 (v / 1000000) 4 (by omega)
        rw [text_secs v (by omega) h2, List.length_append, List.length_cons, (zeroPad (n := v % 1000000) (by omega)).1,
          pad_length _ _ _ (by omega)]
      · have := digits_len 19 (v / 1000000) 10 (by omega)
        rw [text_big v (by omega), List.length_append, pad_length _ _ _ (by omega)]; rfl

/-! ## The rows -/

/-- The text of an event, before it is cut. -/
def EventSays (x : Text) : Event → Bytes → Prop
  | .annotation a, t => ∃ m, a.attributes.getD [] = m ∧
      (m = [] → t = a.message) ∧ (m ≠ [] → t = a.message ++ str "  " ++ formatAttributes x m)
  | .message m, t => t = match m.type with
      | .unspecified => []
      | .sent => str "sent message [" ++ Http.itoa m.uncompressed ++ str " bytes, " ++ Http.itoa m.compressed ++ str " compressed bytes]"
      | .recv => str "received message [" ++ Http.itoa m.uncompressed ++ str " bytes, " ++ Http.itoa m.compressed ++ str " compressed bytes]"

/-- `t` is `full`, or its first 1024 bytes if it is longer. -/
def Shows (full t : Bytes) : Prop := t <+: full ∧ t.length = min 1024 full.length

/-- Rows of events: each shows its event and the time since the event before, which is `last` for the first. -/
def RowsFor (x : Text) (last : Int) : List Event → List TraceRow → Prop
  | [], rows => rows = []
  | e :: es, rows => ∃ r rest, rows = r :: rest ∧ r.elapsed = formatElapsed last e.time ∧ r.span = none ∧
      (∃ full, EventSays x e full ∧ Shows full r.text) ∧ RowsFor x e.time es rest

theorem eventSays (x : Text) (e : Event) : EventSays x e (eventText x e) := by
  cases e with
  | annotation a =>
    refine ⟨_, rfl, fun h => ?_, fun h => ?_⟩
    · simp [eventText, h]
    · simp [eventText, h]
  | message m => cases hm : m.type <;> simp [EventSays, eventText, hm]

theorem cut_shows (r : TraceRow) : Shows r.text (cut r).text ∧ (cut r).whenText = r.whenText ∧
    (cut r).elapsed = r.elapsed ∧ (cut r).span = r.span := by
  unfold cut maxTraceMessageLength
  split
  · refine ⟨⟨List.take_prefix _ _, ?_⟩, rfl, rfl, rfl⟩
    simp
  · exact ⟨⟨List.prefix_refl _, by omega⟩, rfl, rfl, rfl⟩

theorem rowsFor (x : Text) (date : Int × Int × Int) (last : Int) (es : List Event) :
    RowsFor x last es ((eventRows x date last es).map cut) := by
  induction es generalizing date last with
  | nil => rfl
  | cons e es ih =>
    have hc := cut_shows ⟨(formatTime x date e.time).1, formatElapsed last e.time, eventText x e, none⟩
    exact ⟨_, _, rfl, hc.2.2.1, hc.2.2.2, ⟨_, eventSays x e, hc.1⟩, ih _ _⟩

/-- **C78, the rows of a span.** Whatever order the sort leaves events of the same time in: a row for the
span with its context and its parent, whose elapsed column is empty while the span runs; a row for a
status that is set; a row for the attributes if there are any; and a row for every event, in the order
of time, with the time since the event before or since the start. No text is longer than 1024 bytes. -/
theorem rows (x : Text) (s : SpanData) (es : List Event) (out : List TraceRow) (h : traceRows x s es = .ok out) :
    es.Perm (s.annotations.map .annotation ++ s.messageEvents.map .message) ∧
    es.Pairwise (fun a b => a.time ≤ b.time) ∧
    ∃ first notes evs, out = first :: notes ++ evs ∧
      first.span = some (s.ctx, s.parentSpanID) ∧ first.text = [] ∧
      (s.endTime ≠ zeroTime → first.elapsed = formatElapsed s.startTime s.endTime) ∧
      (s.endTime = zeroTime → first.elapsed = List.replicate 12 32) ∧
      RowsFor x s.startTime es evs ∧
      notes.length = (if s.status = ⟨0, []⟩ then 0 else 1) + (if s.attributes = [] then 0 else 1) ∧
      (∀ r ∈ notes, r.whenText = [] ∧ r.elapsed = [] ∧ r.span = none) ∧
      (s.status ≠ ⟨0, []⟩ → ∃ r ∈ notes.take 1,
        Shows (str "Status{canonicalCode=" ++ canonicalCodeString s.status.code ++ str ", description=" ++
          x.quote s.status.message ++ str "}") r.text) ∧
      (s.attributes ≠ [] → ∃ r ∈ notes.reverse.take 1, Shows (formatAttributes x s.attributes) r.text) := by
  unfold traceRows at h
  split at h
  · rename_i hp
    cases h
    refine ⟨hp.1, hp.2.imp (fun {a b} hab => by omega),
      cut (firstRow x s), (statusRows x s ++ attributeRows x s).map cut,
      (eventRows x (x.date s.startTime) s.startTime es).map cut, by simp, ?_, ?_, ?_, ?_, rowsFor _ _ _ _, ?_, ?_, ?_, ?_⟩
    · rw [(cut_shows _).2.2.2]; rfl
    · have := (cut_shows (firstRow x s)).1.2
      simp only [firstRow, List.length_nil] at this
      exact List.eq_nil_of_length_eq_zero (by simpa [firstRow] using this)
    · intro he; rw [(cut_shows _).2.2.1, firstRow, if_neg he]
    · intro he; rw [(cut_shows _).2.2.1, firstRow, if_pos he]
    · simp only [List.length_map, List.length_append, statusRows, attributeRows]
      by_cases h1 : s.status = ⟨0, []⟩ <;> by_cases h2 : s.attributes = [] <;> simp [h1, h2]
    · intro r hr
      simp only [List.mem_map] at hr
      obtain ⟨q, hq, rfl⟩ := hr
      rw [(cut_shows q).2.1, (cut_shows q).2.2.1, (cut_shows q).2.2.2]
      simp only [statusRows, attributeRows, List.mem_append] at hq
      rcases hq with hq | hq <;> split at hq <;> simp at hq <;> subst hq <;> simp
    · intro h1
      have hs : ∃ r, (statusRows x s).map cut = [cut r] ∧ r.text = str "Status{canonicalCode=" ++
          canonicalCodeString s.status.code ++ str ", description=" ++ x.quote s.status.message ++ str "}" :=
        ⟨_, by rw [statusRows, if_pos h1]; exact List.map_singleton, rfl⟩
      obtain ⟨r, hr, ht⟩ := hs
      exact ⟨cut r, by rw [List.map_append, hr]; simp, ht ▸ (cut_shows r).1⟩
    · intro h2
      have h3 : s.attributes.length ≠ 0 := by simpa using h2
      refine ⟨cut _, by rw [attributeRows, if_pos h3]; simp; rfl, (cut_shows _).1⟩
  · cases h

/-- **C78.** There is always such an order, and the page is made for every one of them. -/
theorem no_panic (x : Text) (s : SpanData) :
    (∀ es, traceRows x s es ≠ .panic) ∧ ∃ es out, traceRows x s es = .ok out := by
  constructor
  · intro es h; unfold traceRows at h; split at h <;> cases h
  · have hp := List.mergeSort_perm (eventsOf s) (fun a b => decide (a.time ≤ b.time))
    have hs := List.pairwise_mergeSort (le := fun (a b : Event) => decide (a.time ≤ b.time))
      (fun a b c h1 h2 => by simp only [decide_eq_true_eq] at *; omega)
      (fun a b => by simp only [Bool.or_eq_true, decide_eq_true_eq]; omega) (eventsOf s)
    exact ⟨(eventsOf s).mergeSort (fun a b => decide (a.time ≤ b.time)), _,
      if_pos ⟨hp, hs.imp (fun {a b} hab => by simp only [decide_eq_true_eq] at hab; omega)⟩⟩

/-! ## The column of times -/

/-- Date texts as they are in the years 0 to 9999: eleven bytes, the first no space. -/
def FourDigitYears (x : Text) (ts : List Int) : Prop :=
  ∀ t ∈ ts, (x.dateText (x.date t)).length = 11 ∧ (x.dateText (x.date t)).take 1 ≠ [32]

theorem read_eventRows (x : Text) (es : List Event) (date : Int × Int × Int) (last : Int)
    (h : FourDigitYears x (es.map Event.time)) :
    readTimes (x.dateText date) (((eventRows x date last es).map cut).map TraceRow.whenText) =
      es.map fun e => (x.dateText (x.date e.time), x.clockText e.time ++ microText e.time) := by
  induction es generalizing date last with
  | nil => rfl
  | cons e es ih =>
    have h1 := h e.time (by simp)
    have h2 : FourDigitYears x (es.map Event.time) := fun t ht => h t (by simp at ht ⊢; exact .inr ht)
    simp only [eventRows, List.map_cons]
    rw [(cut_shows _).2.1]
    simp only [formatTime]
    by_cases hd : x.date e.time = date
    · simp only [if_pos hd]
      rw [readTimes, if_pos (by rfl), ih date e.time h2, hd]
      simp
    · simp only [if_neg hd]
      have ht : (wholeTime x e.time).take 11 = x.dateText (x.date e.time) := by
        rw [wholeTime, List.append_assoc, List.take_append_of_le_length (by omega), List.take_of_length_le (by omega)]
      have hr : (wholeTime x e.time).drop 11 = x.clockText e.time ++ microText e.time := by
        rw [wholeTime, List.append_assoc, ← h1.1, List.drop_left]
      have hh : (wholeTime x e.time).take 1 ≠ [32] := by
        rw [wholeTime, List.append_assoc, List.take_append_of_le_length (by omega)]; exact h1.2
      rw [readTimes, if_neg hh, ht, hr, ih _ e.time h2]

/-- **C78, the column of times.** Read from top to bottom, leaving out the rows without a time, the first
column gives the date, the clock and the microseconds of the start and of every event, though most rows
leave the date out. -/
theorem times_read (x : Text) (s : SpanData) (es : List Event) (out : List TraceRow)
    (h : traceRows x s es = .ok out) (hy : FourDigitYears x (s.startTime :: es.map Event.time)) :
    readTimes [] ((out.map TraceRow.whenText).filter (· ≠ [])) =
      (s.startTime :: es.map Event.time).map fun t => (x.dateText (x.date t), x.clockText t ++ microText t) := by
  unfold traceRows at h
  split at h
  · rename_i hp
    cases h
    have h1 := hy s.startTime (by simp)
    have h2 : FourDigitYears x (es.map Event.time) := fun t ht => hy t (by simp at ht ⊢; exact .inr ht)
    have hn : (((statusRows x s ++ attributeRows x s).map cut).map TraceRow.whenText).filter (· ≠ []) = [] := by
      rw [List.filter_eq_nil_iff]
      intro t ht
      simp only [List.map_map, List.mem_map, Function.comp] at ht
      obtain ⟨q, hq, rfl⟩ := ht
      rw [(cut_shows q).2.1]
      simp only [statusRows, attributeRows, List.mem_append] at hq
      rcases hq with hq | hq <;> split at hq <;> simp at hq <;> subst hq <;> simp
    have he : (((eventRows x (x.date s.startTime) s.startTime es).map cut).map TraceRow.whenText).filter (· ≠ []) =
        ((eventRows x (x.date s.startTime) s.startTime es).map cut).map TraceRow.whenText := by
      rw [List.filter_eq_self]
      generalize x.date s.startTime = date
      generalize s.startTime = last
      clear h2 hy hp hn h1
      induction es generalizing date last with
      | nil => simp [eventRows]
      | cons e es ih =>
        intro t ht
        simp only [eventRows, List.map_cons, List.mem_cons] at ht
        rcases ht with rfl | ht
        · rw [(cut_shows _).2.1]
          simp only [formatTime]
          split <;> simp [wholeTime, microText]
        · exact ih _ _ t ht
    have hw : (firstRow x s).whenText ≠ [] := by simp [firstRow, wholeTime, microText]
    have ht : (wholeTime x s.startTime).take 11 = x.dateText (x.date s.startTime) := by
      rw [wholeTime, List.append_assoc, List.take_append_of_le_length (by omega), List.take_of_length_le (by omega)]
    have hr : (wholeTime x s.startTime).drop 11 = x.clockText s.startTime ++ microText s.startTime := by
      rw [wholeTime, List.append_assoc, ← h1.1, List.drop_left]
    have hh : (wholeTime x s.startTime).take 1 ≠ [32] := by
      rw [wholeTime, List.append_assoc, List.take_append_of_le_length (by omega)]; exact h1.2
    rw [List.map_cons, List.map_cons, List.filter_cons, if_pos (by rw [(cut_shows _).2.1]; simpa using hw),
      List.map_append, List.map_append, List.filter_append, hn, he, (cut_shows _).2.1, List.nil_append]
    rw [show (firstRow x s).whenText = wholeTime x s.startTime from rfl, readTimes, if_neg hh, ht, hr, read_eventRows x es _ _ h2]
    simp
  · cases h

/-- **C78.** The microseconds of a time: a point and six digits that are the microseconds of its second. -/
theorem micros_read (t : Int) : ∃ d, microText t = 46 :: d ∧ d.length = 6 ∧ d.all isDigit = true ∧
    (numeral d : Int) = t % 1000000000 / 1000 := by
  obtain ⟨n, hn⟩ : ∃ n : Nat, t % 1000000000 / 1000 = (n : Int) := ⟨(t % 1000000000 / 1000).natAbs, by omega⟩
  have := zeroPad (n := n) (by omega)
  exact ⟨_, rfl, by rw [hn, itoa_nat]; exact this.1, by rw [hn, itoa_nat]; exact this.2.1,
    by rw [hn, itoa_nat, this.2.2]⟩

/-! ## Attributes and status -/

/-- Texts one after the other with `, ` between. -/
inductive Joined : List Bytes → Bytes → Prop
  | nil : Joined [] []
  | one (a) : Joined [a] a
  | cons (a) {l t} : l ≠ [] → Joined l t → Joined (a :: l) (a ++ (str ", " ++ t))

theorem joined (l : List Bytes) : Joined l (join l) := by
  induction l with
  | nil => exact .nil
  | cons a l ih =>
    cases l with
    | nil => exact .one a
    | cons b l =>
      have := Joined.cons a (l := b :: l) (by simp) ih
      simpa [join] using this

/-- **C78, attributes.** Every key once, in ascending order, with its value. -/
theorem attributes (x : Text) (m : GoMap Bytes AttrVal) (hm : GoMap.WF m) (hne : m ≠ []) :
    ∃ (l : List (Bytes × AttrVal)) (body : Bytes), l.Perm m ∧ l.Pairwise (fun a b => a.1 < b.1) ∧
      Joined (l.map fun e => e.1 ++ str "=" ++ x.showVal e.2) body ∧
      formatAttributes x m = str "Attributes:{" ++ body ++ str "}" := by
  have hp := List.mergeSort_perm (m.map Prod.fst) (fun k l => decide (k ≤ l))
  have hs := List.pairwise_mergeSort (le := fun (k l : Bytes) => decide (k ≤ l))
    (fun a b c h1 h2 => by simp only [decide_eq_true_eq] at *; exact List.le_trans h1 h2)
    (fun a b => by simp only [Bool.or_eq_true, decide_eq_true_eq]; exact List.le_total _ _) (m.map Prod.fst)
  have hnd : ((m.map Prod.fst).mergeSort (fun k l => decide (k ≤ l))).Nodup := hp.nodup_iff.2 hm
  have hlt : ((m.map Prod.fst).mergeSort (fun k l => decide (k ≤ l))).Pairwise (fun a b => a < b) := by
    refine (hs.and hnd).imp (fun {a b} h => ?_)
    have h1 : a ≤ b := by simpa using h.1
    by_contra hl
    exact h.2 (List.le_antisymm h1 (List.not_lt.1 hl))
  let l := ((m.map Prod.fst).mergeSort (fun k l => decide (k ≤ l))).map fun k => (k, (GoMap.get m k).getD [])
  refine ⟨l, _, ?_, ?_, joined _, ?_⟩
  · refine (hp.map fun k => (k, (GoMap.get m k).getD [])).trans ?_
    rw [List.map_map]
    have : m.map ((fun k => (k, (GoMap.get m k).getD [])) ∘ Prod.fst) = m := by
      conv => rhs; rw [← List.map_id m]
      apply List.map_congr_left
      rintro ⟨k, v⟩ hkv
      simp [GoMap.get_of_mem hm hkv]
    rw [this]
  · simp only [l, List.pairwise_map]; exact hlt
  · unfold formatAttributes
    rw [if_neg (by simpa using hne)]
    simp only [l, List.map_map, Function.comp_def]

/-- **C78.** The text does not depend on the order in which the map is iterated. -/
theorem attributes_order (x : Text) (m m' : GoMap Bytes AttrVal) (hm : GoMap.WF m) (h : m.Perm m') :
    formatAttributes x m = formatAttributes x m' := by
  have h1 := List.mergeSort_perm (m.map Prod.fst) (fun k l => decide (k ≤ l))
  have h2 := List.mergeSort_perm (m'.map Prod.fst) (fun k l => decide (k ≤ l))
  have srt := fun (n : List Bytes) => List.pairwise_mergeSort (le := fun (k l : Bytes) => decide (k ≤ l))
    (fun a b c h1 h2 => by simp only [decide_eq_true_eq] at *; exact List.le_trans h1 h2)
    (fun a b => by simp only [Bool.or_eq_true, decide_eq_true_eq]; exact List.le_total _ _) n
  have heq : (m.map Prod.fst).mergeSort (fun k l => decide (k ≤ l)) =
      (m'.map Prod.fst).mergeSort (fun k l => decide (k ≤ l)) := by
    refine List.Perm.eq_of_pairwise (le := fun (k l : Bytes) => decide (k ≤ l) = true) ?_ (srt _) (srt _)
      (h1.trans ((h.map Prod.fst).trans h2.symm))
    intro a b _ _ hab hba
    simp only [decide_eq_true_eq] at hab hba
    exact List.le_antisymm hab hba
  unfold formatAttributes
  rw [heq, h.length_eq]
  have : ∀ k, GoMap.get m k = GoMap.get m' k := GoMap.get_perm h hm
  simp only [this]

/-- **C78, status codes.** The names of the seventeen codes, and the number of any other code. -/
theorem code_text (code : Int) :
    (∀ n : Nat, code = n → ∀ h : n < 17, canonicalCodeString code = ([str "OK", str "CANCELLED", str "UNKNOWN",
      str "INVALID_ARGUMENT", str "DEADLINE_EXCEEDED", str "NOT_FOUND", str "ALREADY_EXISTS", str "PERMISSION_DENIED",
      str "RESOURCE_EXHAUSTED", str "FAILED_PRECONDITION", str "ABORTED", str "OUT_OF_RANGE", str "UNIMPLEMENTED",
      str "INTERNAL", str "UNAVAILABLE", str "DATA_LOSS", str "UNAUTHENTICATED"] : List Bytes)[n]) ∧
    (code < 0 ∨ 17 ≤ code → canonicalCodeString code = str "error code " ++ Http.itoa code) := by
  constructor
  · rintro n rfl h
    have : ∀ n : Fin 17, canonicalCodeString (n.val : Int) = ([str "OK", str "CANCELLED", str "UNKNOWN",
      str "INVALID_ARGUMENT", str "DEADLINE_EXCEEDED", str "NOT_FOUND", str "ALREADY_EXISTS", str "PERMISSION_DENIED",
      str "RESOURCE_EXHAUSTED", str "FAILED_PRECONDITION", str "ABORTED", str "OUT_OF_RANGE", str "UNIMPLEMENTED",
      str "INTERNAL", str "UNAVAILABLE", str "DATA_LOSS", str "UNAUTHENTICATED"] : List Bytes)[n] := by decide +kernel
    exact this ⟨n, h⟩
  · intro h
    have : canonicalCodes.length = 17 := by decide
    unfold canonicalCodeString
    rw [if_pos (by omega)]

/-! ## The page -/

/-- **C78, the page.** The rows of the spans, one span after the other. -/
theorem page (x : Text) (l : List (SpanData × List Event)) (out : List TraceRow) (h : tracePage x l = .ok out) :
    ∃ parts : List (List TraceRow), out = parts.flatten ∧
      parts.map Res.ok = l.map fun p => traceRows x p.1 p.2 := by
  induction l generalizing out with
  | nil => cases h; exact ⟨[], rfl, rfl⟩
  | cons p l ih =>
    obtain ⟨s, es⟩ := p
    unfold tracePage at h
    cases h1 : traceRows x s es with
    | ok rows =>
      cases h2 : tracePage x l with
      | ok rest =>
        rw [h1, h2] at h
        simp only [Res.bind] at h
        cases h
        obtain ⟨parts, hp, hq⟩ := ih rest h2
        exact ⟨rows :: parts, by simp [hp], by simp [h1, hq]⟩
      | err => rw [h1, h2] at h; cases h
      | panic => rw [h1, h2] at h; cases h
    | err => rw [h1] at h; cases h
    | panic => rw [h1] at h; cases h

/-! ## A page -/

/-- A calendar that is right for the first nine days of 1970. -/
def exText : Text where
  date t := (1970, 1, t / 86400000000000 + 1)
  dateText d := str "1970/01/0" ++ Http.itoa d.2.2 ++ str "-"
  clockText t := pad 2 48 (Http.itoa (t / 3600000000000 % 24)) ++ str ":" ++ pad 2 48 (Http.itoa (t / 60000000000 % 60)) ++
    str ":" ++ pad 2 48 (Http.itoa (t / 1000000000 % 60))
  quote m := str "\"" ++ m ++ str "\""
  showVal v := v

/-- Starts two seconds before midnight, with events before and after. -/
def exSpan : SpanData :=
  ⟨⟨List.replicate 16 1, List.replicate 8 2, 1, none⟩, List.replicate 8 3, 0, str "n", 86398000000000, 86403500000000,
    [], [⟨86401250000000, str "second", none⟩, ⟨86399000000000, str "first", some []⟩],
    [⟨86402250007000, .sent, 1, 7, 5⟩], ⟨5, str "gone"⟩, [], false, 0, 0, 0, 0, 0⟩

def exOrder : List Event :=
  [.annotation ⟨86399000000000, str "first", some []⟩, .annotation ⟨86401250000000, str "second", none⟩,
    .message ⟨86402250007000, .sent, 1, 7, 5⟩]

/-- The rows of the page. -/
def exRows : List TraceRow :=
  [⟨str "1970/01/01-23:59:58.000000", str "    5.500000", [], some (exSpan.ctx, exSpan.parentSpanID)⟩,
    ⟨[], [], str "Status{canonicalCode=NOT_FOUND, description=\"gone\"}", none⟩,
    ⟨str "           23:59:59.000000", str "    1.000000", str "first", none⟩,
    ⟨str "1970/01/02-00:00:01.250000", str "    2.250000", str "second", none⟩,
    ⟨str "           00:00:02.250007", str "    1.000007", str "sent message [7 bytes, 5 compressed bytes]", none⟩]

theorem ex_rows : traceRows exText exSpan exOrder = .ok exRows := by
  have h : (exOrder.Perm (eventsOf exSpan) ∧ exOrder.Pairwise (fun a b => ¬ b.time < a.time)) := by
    constructor <;> decide +kernel
  unfold traceRows
  rw [if_pos h]
  rfl

example : FourDigitYears exText (exSpan.startTime :: exOrder.map Event.time) := by
  unfold FourDigitYears; decide +kernel

example : readTimes [] ((exRows.map TraceRow.whenText).filter (· ≠ [])) =
    [(str "1970/01/01-", str "23:59:58.000000"), (str "1970/01/01-", str "23:59:59.000000"),
      (str "1970/01/02-", str "00:00:01.250000"), (str "1970/01/02-", str "00:00:02.250007")] := by decide +kernel

example : GoMap.WF [(str "b", str "1"), (str "a", str "2")] := by
  unfold GoMap.WF; decide +kernel
example : tracePage exText [(exSpan, exOrder), (exSpan, exOrder)] = .ok (exRows ++ (exRows ++ [])) := by
  simp [tracePage, ex_rows, Res.bind]

end Verif.Props.TraceRows
