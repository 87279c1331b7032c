import Verif.Wire.Stackdriver
import Verif.Props.Binary
import Mathlib.Data.List.Induction

/-!
# C36 and C38: B3 and X-Cloud-Trace-Context headers
-/

namespace Verif.Props.Headers
open Verif Verif.Wire

/-! ## Bytes and numbers -/

theorem beVal_snoc (l : Bytes) (x : UInt8) : beVal (l ++ [x]) = beVal l * 256 + x.toNat := by
  simp [beVal, List.foldl_append]

theorem beBytes_beVal (l : Bytes) : beBytes l.length (beVal l) = l := by
  induction l using List.reverseRecOn with
  | nil => rfl
  | append_singleton l x ih =>
    have hx := x.toNat_lt
    rw [List.length_append, List.length_singleton, beBytes, beVal_snoc]
    rw [show (beVal l * 256 + x.toNat) / 256 = beVal l by omega, ih,
      show (beVal l * 256 + x.toNat) % 256 = x.toNat by omega, UInt8.ofNat_toNat]

theorem beVal_lt (l : Bytes) : beVal l < 256 ^ l.length := by
  induction l using List.reverseRecOn with
  | nil => decide
  | append_singleton l x ih =>
    have hx := x.toNat_lt
    rw [beVal_snoc, List.length_append, List.length_singleton, Nat.pow_succ]
    omega

/-- A decimal number that fits 64 bits. -/
def Decimal64 (s : Bytes) : Prop := s ≠ [] ∧ (∀ c ∈ s, 48 ≤ c ∧ c ≤ 57) ∧
  s.foldl (fun n c => n * 10 + (c.toNat - 48)) 0 < 2 ^ 64

theorem parseDigits_spec (acc : Nat) (s : Bytes) : parseDigits acc s =
    if ∀ c ∈ s, 48 ≤ c ∧ c ≤ 57 then some (s.foldl (fun n c => n * 10 + (c.toNat - 48)) acc) else none := by
  induction s generalizing acc with
  | nil => simp [parseDigits]
  | cons c s ih =>
    by_cases hc : 48 ≤ c ∧ c ≤ 57
    · simp only [parseDigits, digitVal, ih, List.forall_mem_cons, hc, true_and, List.foldl_cons, and_self, if_true]
    · rw [parseDigits, digitVal, if_neg hc, if_neg (fun h => hc (h c (by simp)))]

theorem parseUint_spec (s : Bytes) (n : Nat) : parseUint s = some n ↔
    Decimal64 s ∧ n = s.foldl (fun n c => n * 10 + (c.toNat - 48)) 0 := by
  unfold parseUint Decimal64
  rw [parseDigits_spec]
  by_cases h1 : s = []
  · simp [h1]
  · by_cases h2 : ∀ c ∈ s, 48 ≤ c ∧ c ≤ 57
    · rw [if_neg h1, if_pos h2]
      by_cases h3 : s.foldl (fun n c => n * 10 + (c.toNat - 48)) 0 < 2 ^ 64
      · simp only [h3, if_true, Option.some.injEq]
        exact ⟨fun h => ⟨⟨h1, h2, trivial⟩, h.symm⟩, fun h => h.2.symm⟩
      · simp [h3]
    · rw [if_neg h1, if_neg h2]
      simp only [reduceCtorEq, false_iff, not_and]
      exact fun h => absurd h.2.1 h2

theorem first_put (h : Header) (n v : Bytes) : (h.put n v).first n = v := by
  simp [Header.first, Header.values_put]

/-! ## What hexadecimal text and headers say -/

/-- The value of a hexadecimal digit of either case. -/
def digit (c : UInt8) : Option Nat :=
  match (str "0123456789abcdef").findIdx? (· == c), (str "0123456789ABCDEF").findIdx? (· == c) with
  | some n, _ => some n
  | none, o => o

/-- The text is two digits for each byte. -/
inductive HexOf : Bytes → Bytes → Prop where
  | nil : HexOf [] []
  | cons (a b x : UInt8) (s bs : Bytes) : digit a = some (x.toNat / 16) → digit b = some (x.toNat % 16) →
      HexOf s bs → HexOf (a :: b :: s) (x :: bs)

theorem fromHexChar_digit : ∀ c : UInt8, (fromHexChar c).map UInt8.toNat = digit c := forall_byte (by decide +kernel)

theorem digit_lt : ∀ c : UInt8, ∀ n ∈ digit c, n < 16 := by
  intro c
  rw [← fromHexChar_digit]
  revert c
  exact forall_byte (p := fun c => ∀ n ∈ (fromHexChar c).map UInt8.toNat, n < 16) (by decide +kernel)

theorem nibbles : ∀ n < 16, ∀ m < 16, (UInt8.ofNat n <<< 4 ||| UInt8.ofNat m).toNat = n * 16 + m := by decide +kernel

/-- Hexadecimal text is read as the bytes it stands for; other text is not accepted. -/
theorem hex_reads (s b : Bytes) : hexDecode s = some b ↔ HexOf s b := by
  have key : ∀ {a : UInt8} {x : UInt8}, fromHexChar a = some x → digit a = some x.toNat ∧ x.toNat < 16 := by
    intro a x h
    have h1 : digit a = some x.toNat := by rw [← fromHexChar_digit, h]; rfl
    exact ⟨h1, digit_lt a _ h1⟩
  induction s using two_step generalizing b with
  | h0 =>
    simp only [hexDecode, Option.some.injEq]
    constructor
    · rintro rfl; exact .nil
    · intro h; cases h; rfl
  | h1 x =>
    simp only [hexDecode, reduceCtorEq, false_iff]
    intro h; cases h
  | h2 a c rest ih =>
    simp only [hexDecode]
    constructor
    · intro h
      cases h1 : fromHexChar a <;> cases h2 : fromHexChar c <;> cases h3 : hexDecode rest <;> simp [h1, h2, h3] at h
      rename_i x y r
      subst h
      obtain ⟨k1, k2⟩ := key h1
      obtain ⟨k3, k4⟩ := key h2
      have hn := nibbles _ k2 _ k4
      rw [UInt8.ofNat_toNat, UInt8.ofNat_toNat] at hn
      exact .cons a c _ rest r (by rw [hn, k1]; congr 1; omega) (by rw [hn, k3]; congr 1; omega) ((ih r).mp h3)
    · intro h
      cases h with
      | cons _ _ x _ bs h1 h2 h3 =>
        rw [← fromHexChar_digit, Option.map_eq_some_iff] at h1 h2
        obtain ⟨u, hu, hu'⟩ := h1
        obtain ⟨v, hv, hv'⟩ := h2
        rw [hu, hv, (ih bs).mpr h3]
        simp only [Option.some.injEq, List.cons.injEq, and_true]
        obtain ⟨_, k2⟩ := key hu
        obtain ⟨_, k4⟩ := key hv
        have hn := nibbles _ k2 _ k4
        rw [UInt8.ofNat_toNat, UInt8.ofNat_toNat, hu', hv'] at hn
        exact UInt8.toNat_inj.mp (by rw [hn]; omega)

/-- The first value of a header of a request, given its canonical name; the empty text if there is none. -/
def firstOf (req : Header) (name : String) : Bytes := ((GoMap.get req (str name)).bind List.head?).getD []

theorem first_eq (req : Header) (name : Bytes) (canon : String) (h : canonicalKey name = str canon) :
    req.first name = firstOf req canon := by
  unfold Header.first Header.values firstOf
  rw [h]
  cases GoMap.get req (str canon) with
  | none => rfl
  | some vs => cases vs <;> rfl

/-- A number as bytes, the most significant first. -/
def number (b : Bytes) : Nat := b.foldl (fun n x => n * 256 + x.toNat) 0

theorem number_beBytes (n x : Nat) (h : x < 256 ^ n) : number (beBytes n x) = x ∧ (beBytes n x).length = n := by
  induction n generalizing x with
  | zero => simp [beBytes, number]; omega
  | succ n ih =>
    have h1 : x / 256 < 256 ^ n := by
      rw [Nat.pow_succ] at h
      exact Nat.div_lt_of_lt_mul (by omega)
    obtain ⟨k1, k2⟩ := ih _ h1
    refine ⟨?_, by simp [beBytes, k2]⟩
    unfold number at *
    rw [beBytes, List.foldl_append, k1]
    simp only [List.foldl_cons, List.foldl_nil, UInt8.toNat_ofNat']
    omega

/-! ## C38 -/

/-- A span context written to a request is read back: both IDs and the options, all 32 bits of them. The
header has no room for a tracestate. -/
theorem stackdriver_roundtrip (sc : Ctx) (hw : sc.WF) (req : Header) :
    sdFromRequest (sdToRequest sc req) = some { sc with tracestate := none } := by
  obtain ⟨h1, h2⟩ := hw
  have hslash : (47 : UInt8) ∉ hexEncode sc.traceID := by
    intro h
    have := hexEncode_isHex _ _ h
    revert this; decide
  have hsemi : (59 : UInt8) ∉ dec (beVal sc.spanID) := by
    intro h
    have := dec_digits _ _ h
    revert this; decide
  have hv : beVal sc.spanID < 2 ^ 64 := by
    have := beVal_lt sc.spanID
    rw [h2] at this
    omega
  have ho : sc.opts.toNat < 2 ^ 32 := sc.opts.isLt
  have l1 := hexEncode_length sc.traceID
  have l2 := dec_length 19 (beVal sc.spanID) (by omega)
  have l3 := dec_length 9 sc.opts.toNat (by omega)
  have e1 : hexEncode sc.traceID ++ str "/" ++ dec (beVal sc.spanID) ++ str ";o=" ++ dec sc.opts.toNat =
      hexEncode sc.traceID ++ 47 :: (dec (beVal sc.spanID) ++ 59 :: (str "o=" ++ dec sc.opts.toNat)) := by
    have a : str "/" = [47] := by decide
    have b : str ";o=" = 59 :: str "o=" := by decide
    rw [a, b]; simp
  unfold sdFromRequest sdToRequest
  rw [first_put, e1]
  unfold sdParse
  rw [if_neg (by
    simp only [httpHeaderMaxSize, List.append_eq_nil_iff, List.length_append, List.length_cons, l1, h1,
      show (str "o=").length = 2 from rfl, reduceCtorEq, and_false, false_or]
    omega), cut_append _ _ _ hslash]
  simp only [hexDecode_encode]
  have hc : copyAt Ctx.zero.traceID 0 sc.traceID = sc.traceID := Binary.copyAt_all _ _ (by rw [h1]; rfl)
  rw [hc]
  unfold sdSpan
  rw [cut_append _ _ _ hsemi]
  simp only [parseUint_dec _ hv]
  unfold sdOptions
  have hp : (str "o=").isPrefixOf (str "o=" ++ dec sc.opts.toNat) = true := by simp
  have hd : (str "o=" ++ dec sc.opts.toNat).drop 2 = dec sc.opts.toNat := rfl
  have hb : beBytes 8 (beVal sc.spanID) = sc.spanID := by rw [← h2]; exact beBytes_beVal _
  rw [if_pos hp, hd, parseUint_dec _ (by omega)]
  simp [hb, Ctx.zero]

/-- Exactly which header values are accepted: at most 200 bytes, an even number of hexadecimal digits
before the first slash, a decimal number below 2^64 after it, up to the first semicolon if there is
one, and if what follows the semicolon starts with "o=", the rest of it is such a number too. -/
theorem stackdriver_accepts (h : Bytes) : (sdParse h).isSome = true ↔
    h.length ≤ 200 ∧ ∃ tid rest, h = tid ++ 47 :: rest ∧ 47 ∉ tid ∧ tid.length % 2 = 0 ∧ (∀ c ∈ tid, IsHex c) ∧
      ((59 ∉ rest ∧ Decimal64 rest) ∨
       ∃ span opts, rest = span ++ 59 :: opts ∧ 59 ∉ span ∧ Decimal64 span ∧
        ∀ o, opts = str "o=" ++ o → Decimal64 o) := by
  have hopts : ∀ sc o, (sdOptions sc o).isSome = true ↔ ∀ x, o = str "o=" ++ x → Decimal64 x := by
    intro sc o
    unfold sdOptions
    split
    · rename_i hp
      obtain ⟨x, hx⟩ := List.isPrefixOf_iff_prefix.1 hp
      have hd : o.drop 2 = x := by rw [← hx]; rfl
      rw [hd]
      constructor
      · intro hs y hy
        have : x = y := by rw [← hx] at hy; exact List.append_cancel_left hy
        subst this
        cases hpu : parseUint x with
        | none => simp [hpu] at hs
        | some n => exact ((parseUint_spec x n).1 hpu).1
      · intro hs
        have := (parseUint_spec x _).2 ⟨hs x hx.symm, rfl⟩
        rw [this]; rfl
    · rename_i hp
      simp only [Option.isSome_some, true_iff]
      intro x hx
      exact absurd (List.isPrefixOf_iff_prefix.2 ⟨x, hx.symm⟩) hp
  have hnum : ∀ s, (∃ n, parseUint s = some n) ↔ Decimal64 s := fun s =>
    ⟨fun ⟨n, hn⟩ => ((parseUint_spec s n).1 hn).1, fun hd => ⟨_, (parseUint_spec s _).2 ⟨hd, rfl⟩⟩⟩
  have hspan : ∀ sc rest, (sdSpan sc rest).isSome = true ↔ ((59 ∉ rest ∧ Decimal64 rest) ∨
       ∃ span opts, rest = span ++ 59 :: opts ∧ 59 ∉ span ∧ Decimal64 span ∧
        ∀ o, opts = str "o=" ++ o → Decimal64 o) := by
    intro sc rest
    unfold sdSpan
    cases hcut : cut 59 rest with
    | none =>
      have hn := (cut_none 59 rest).1 hcut
      simp only
      cases hpu : parseUint rest with
      | none =>
        simp only [Option.isSome_none, Bool.false_eq_true, false_iff, not_or, not_and, not_exists]
        refine ⟨fun _ hd => ?_, fun span opts he => absurd (by rw [he]; simp) hn⟩
        obtain ⟨n, h⟩ := (hnum rest).2 hd
        rw [h] at hpu; cases hpu
      | some n =>
        simp only [hopts]
        have hd := ((parseUint_spec rest n).1 hpu).1
        refine ⟨fun _ => Or.inl ⟨hn, hd⟩, fun _ x hx => ?_⟩
        have := hd.2.1 111 (by rw [hx]; exact List.mem_append_left _ (by decide))
        exact absurd this (by decide)
    | some ab =>
      obtain ⟨a, b⟩ := ab
      obtain ⟨he, hna⟩ := cut_some hcut
      simp only
      cases hpu : parseUint a with
      | none =>
        simp only [Option.isSome_none, Bool.false_eq_true, false_iff, not_or, not_and, not_exists]
        refine ⟨fun hn => absurd (by rw [he]; simp) hn, fun span opts he2 hns hd => ?_⟩
        have : cut 59 rest = some (span, opts) := by rw [he2, cut_append _ _ _ hns]
        rw [hcut] at this
        simp only [Option.some.injEq, Prod.mk.injEq] at this
        rw [← this.1] at hd
        obtain ⟨n, h⟩ := (hnum a).2 hd
        rw [h] at hpu; cases hpu
      | some n =>
        simp only [hopts]
        have hd := ((parseUint_spec a n).1 hpu).1
        refine ⟨fun h => Or.inr ⟨a, b, he, hna, hd, h⟩, ?_⟩
        rintro (⟨hn, _⟩ | ⟨span, opts, he2, hns, _, h⟩)
        · exact absurd (by rw [he]; simp) hn
        · have : cut 59 rest = some (span, opts) := by rw [he2, cut_append _ _ _ hns]
          rw [hcut] at this
          simp only [Option.some.injEq, Prod.mk.injEq] at this
          rw [this.2]; exact h
  unfold sdParse
  split
  · rename_i hc
    simp only [Option.isSome_none, Bool.false_eq_true, false_iff, not_and, not_exists]
    intro hl tid rest he
    rcases hc with rfl | hc
    · simp at he
    · exact absurd hc (by simp [httpHeaderMaxSize]; omega)
  · rename_i hc
    have hl : h.length ≤ 200 := by
      have := not_or.1 hc
      simpa [httpHeaderMaxSize] using this.2
    cases hcut : cut 47 h with
    | none =>
      have hn := (cut_none 47 h).1 hcut
      simp only [Option.isSome_none, Bool.false_eq_true, false_iff, not_and, not_exists]
      intro _ tid rest he
      exact absurd (by rw [he]; simp) hn
    | some ab =>
      obtain ⟨a, b⟩ := ab
      obtain ⟨he, hna⟩ := cut_some hcut
      simp only
      have huniq : ∀ tid rest, h = tid ++ 47 :: rest → 47 ∉ tid → tid = a ∧ rest = b := by
        intro tid rest he2 hnt
        have : cut 47 h = some (tid, rest) := by rw [he2, cut_append _ _ _ hnt]
        rw [hcut] at this
        simp only [Option.some.injEq, Prod.mk.injEq] at this
        exact ⟨this.1.symm, this.2.symm⟩
      have hhex := hexDecode_isSome a
      cases hx : hexDecode a with
      | none =>
        rw [hx] at hhex
        simp only [Option.isSome_none, Bool.false_eq_true, false_iff] at hhex ⊢
        rintro ⟨_, tid, rest, he2, hnt, h2, h3, _⟩
        obtain ⟨rfl, rfl⟩ := huniq tid rest he2 hnt
        exact hhex ⟨h2, h3⟩
      | some buf =>
        rw [hx] at hhex
        simp only [Option.isSome_some, true_iff] at hhex
        simp only [hspan]
        constructor
        · intro hs
          exact ⟨hl, a, b, he, hna, hhex.1, hhex.2, hs⟩
        · rintro ⟨_, tid, rest, he2, hnt, _, _, hs⟩
          obtain ⟨rfl, rfl⟩ := huniq tid rest he2 hnt
          exact hs

/-- The value of decimal text. -/
def decimal (s : Bytes) : Nat := s.foldl (fun n c => n * 10 + (c.toNat - 48)) 0

theorem hexOf_isHex {s b : Bytes} (h : HexOf s b) : ∀ c ∈ s, IsHex c :=
  ((hexDecode_isSome s).mp (by rw [(hex_reads s b).mpr h]; rfl)).2

theorem copyAt_zero (buf : Bytes) : copyAt (List.replicate 16 0) 0 buf = (buf ++ List.replicate 16 0).take 16 := by
  simp only [copyAt, List.take_zero, List.nil_append, List.length_replicate, Nat.sub_zero, Nat.zero_add]
  rw [List.take_append, List.take_replicate, List.drop_replicate]
  by_cases h : buf.length ≤ 16
  · rw [show min (16 - buf.length) 16 = 16 - buf.length by omega, List.take_of_length_le h]
  · rw [show 16 - buf.length = 0 by omega]; simp; omega

/-- What an accepted header says: the trace ID is the bytes of the hexadecimal text before the slash
(the first 16, followed by zeros if there are fewer), the span ID is the decimal number after it, the
options are the decimal number after ";o=" (its lower 32 bits), or none. The header is found under its
name, and only its first value counts. -/
theorem stackdriver_reads (req : Header) (tid buf span : Bytes) (ht : HexOf tid buf) (hs : Decimal64 span) :
    (∀ o, Decimal64 o → firstOf req "X-Cloud-Trace-Context" = tid ++ str "/" ++ span ++ str ";o=" ++ o →
      (firstOf req "X-Cloud-Trace-Context").length ≤ 200 →
      ∃ sc, sdFromRequest req = some sc ∧ sc.traceID = (buf ++ List.replicate 16 0).take 16 ∧
        sc.spanID.length = 8 ∧ number sc.spanID = decimal span ∧ sc.opts = BitVec.ofNat 32 (decimal o) ∧ sc.tracestate = none) ∧
    (∀ o, ¬ str "o=" <+: o → firstOf req "X-Cloud-Trace-Context" = tid ++ str "/" ++ span ++ str ";" ++ o →
      (firstOf req "X-Cloud-Trace-Context").length ≤ 200 →
      ∃ sc, sdFromRequest req = some sc ∧ sc.traceID = (buf ++ List.replicate 16 0).take 16 ∧
        sc.spanID.length = 8 ∧ number sc.spanID = decimal span ∧ sc.opts = 0 ∧ sc.tracestate = none) ∧
    (firstOf req "X-Cloud-Trace-Context" = tid ++ str "/" ++ span →
      (firstOf req "X-Cloud-Trace-Context").length ≤ 200 →
      ∃ sc, sdFromRequest req = some sc ∧ sc.traceID = (buf ++ List.replicate 16 0).take 16 ∧
        sc.spanID.length = 8 ∧ number sc.spanID = decimal span ∧ sc.opts = 0 ∧ sc.tracestate = none) := by
  have hslash : (47 : UInt8) ∉ tid := by
    intro h
    have := hexOf_isHex ht _ h
    revert this; decide
  have hsemi : (59 : UInt8) ∉ span := by
    intro h
    have := hs.2.1 _ h
    revert this; decide
  have hno : ¬ (str "o=").isPrefixOf span = true := by
    intro h
    obtain ⟨x, hx⟩ := List.isPrefixOf_iff_prefix.1 h
    have := hs.2.1 111 (by rw [← hx]; exact List.mem_append_left _ (by decide))
    revert this; decide
  have hp : parseUint span = some (decimal span) := (parseUint_spec _ _).2 ⟨hs, rfl⟩
  have hlt : decimal span < 256 ^ 8 := by have := hs.2.2; unfold decimal; omega
  obtain ⟨n1, n2⟩ := number_beBytes 8 (decimal span) hlt
  have a : str "/" = [47] := by decide
  have b : str ";o=" = 59 :: str "o=" := by decide
  have c : str ";" = [59] := by decide
  have z : Ctx.zero.traceID = List.replicate 16 0 := rfl
  have start : ∀ rest, firstOf req "X-Cloud-Trace-Context" = tid ++ 47 :: rest →
      (firstOf req "X-Cloud-Trace-Context").length ≤ 200 → sdFromRequest req =
        sdSpan { Ctx.zero with traceID := (buf ++ List.replicate 16 0).take 16 } rest := by
    intro rest h1 h2
    unfold sdFromRequest
    rw [first_eq req cloudHeader "X-Cloud-Trace-Context" (by decide +kernel)]
    unfold sdParse
    rw [if_neg (by
      rw [not_or]
      exact ⟨by rw [h1]; simp, by simpa [httpHeaderMaxSize] using h2⟩), h1, cut_append _ _ _ hslash]
    simp only [(hex_reads tid buf).mpr ht, z, copyAt_zero]
  refine ⟨?_, ?_, ?_⟩
  · intro o ho h1 h2
    rw [start (span ++ 59 :: (str "o=" ++ o)) (by rw [h1, a, b]; simp) h2]
    unfold sdSpan
    rw [cut_append _ _ _ hsemi]
    simp only [hp]
    unfold sdOptions
    have hpre : (str "o=").isPrefixOf (str "o=" ++ o) = true := by simp
    have hd : (str "o=" ++ o).drop 2 = o := rfl
    rw [if_pos hpre, hd, (parseUint_spec o _).2 ⟨ho, rfl⟩]
    exact ⟨_, rfl, rfl, n2, n1, rfl, rfl⟩
  · intro o ho h1 h2
    rw [start (span ++ 59 :: o) (by rw [h1, a, c]; simp) h2]
    unfold sdSpan
    rw [cut_append _ _ _ hsemi]
    simp only [hp]
    unfold sdOptions
    rw [if_neg (fun h => ho (List.isPrefixOf_iff_prefix.1 h))]
    exact ⟨_, rfl, rfl, n2, n1, rfl, rfl⟩
  · intro h1 h2
    rw [start span (by rw [h1, a]; simp) h2]
    unfold sdSpan
    rw [(cut_none 59 span).2 hsemi]
    simp only [hp]
    unfold sdOptions
    rw [if_neg hno]
    exact ⟨_, rfl, rfl, n2, n1, rfl, rfl⟩

/-- The trace ID of an accepted value may have any number of digits: more than 32 are cut off, fewer are
padded on the right. -/
theorem stackdriver_any_trace_id_length : ∃ a b, sdParse (str "ab/1") = some a ∧
    sdParse (str "ab00000000000000000000000000000001/1") = some b ∧
    a.traceID = 0xab :: List.replicate 15 0 ∧
    sdParse (str "ab0000000000000000000000000000000122/1") = some b :=
  ⟨_, _, rfl, rfl, rfl, rfl⟩

/-! ## C36 -/

theorem copyFrom_pad (n : Nat) (b : Bytes) (h : b.length ≤ n) :
    copyFrom (List.replicate n 0) ((n : Int) - b.length) b = .ok (List.replicate (n - b.length) 0 ++ b) := by
  have h1 : (0 : Int) ≤ (n : Int) - b.length ∧ (n : Int) - b.length ≤ ((List.replicate n (0 : UInt8)).length : Nat) := by
    simp; omega
  have h2 : ((n : Int) - b.length).toNat = n - b.length := by omega
  rw [copyFrom, if_pos h1, h2]
  simp only [copyAt, List.length_replicate, List.take_replicate, List.drop_replicate]
  rw [show n - (n - b.length) = b.length by omega, List.take_of_length_le (Nat.le_refl _),
    show n - (n - b.length + b.length) = 0 by omega, show min (n - b.length) n = n - b.length by omega]
  simp

/-- Trace IDs: 1 to 16 bytes in hexadecimal are accepted and padded with zeros on the left, everything
else is rejected, nothing panics. -/
theorem b3_trace_id (s : Bytes) : parseTraceID s = match hexDecode s with
    | some b => if b.length = 0 ∨ b.length > 16 then .err else .ok (List.replicate (16 - b.length) 0 ++ b)
    | none => .err := by
  unfold parseTraceID
  by_cases hs : s = []
  · subst hs; rfl
  · rw [if_neg hs]
    cases hx : hexDecode s with
    | none => rfl
    | some b =>
      have hl := hexDecode_length hx
      have hb : b.length ≠ 0 := by
        intro h0
        rw [h0] at hl
        exact hs (List.length_eq_zero_iff.1 (by omega))
      simp only [hb, false_or]
      split
      · rfl
      · rename_i h16
        have := copyFrom_pad 16 b (by omega)
        split
        · rename_i h8
          rw [show (8 + (8 - (b.length : Int))) = ((16 : Nat) : Int) - b.length by omega]; exact this
        · exact this

/-- Span IDs: the same with 8 bytes. -/
theorem b3_span_id (s : Bytes) : parseSpanID s = match hexDecode s with
    | some b => if b.length = 0 ∨ b.length > 8 then .err else .ok (List.replicate (8 - b.length) 0 ++ b)
    | none => .err := by
  unfold parseSpanID
  by_cases hs : s = []
  · subst hs; rfl
  · rw [if_neg hs]
    cases hx : hexDecode s with
    | none => rfl
    | some b =>
      have hl := hexDecode_length hx
      have hb : b.length ≠ 0 := by
        intro h0
        rw [h0] at hl
        exact hs (List.length_eq_zero_iff.1 (by omega))
      simp only [hb, false_or]
      split
      · rfl
      · exact copyFrom_pad 8 b (by omega)

/-- No request makes the parser panic; a request is accepted exactly if both IDs are hexadecimal of an
even, positive number of digits, at most 32 and 16.

Partial: C36 asks that all-zero IDs be rejected too, and they are not (`b3_accepts_zero`). -/
theorem b3_accepts_partial (req : Header) : b3FromRequest req ≠ .panic ∧
    ((b3FromRequest req).isOk = true ↔
      (∃ b, hexDecode (req.first b3TraceID) = some b ∧ 1 ≤ b.length ∧ b.length ≤ 16) ∧
      (∃ b, hexDecode (req.first b3SpanID) = some b ∧ 1 ≤ b.length ∧ b.length ≤ 8)) := by
  unfold b3FromRequest
  rw [b3_trace_id, b3_span_id]
  cases hexDecode (req.first b3TraceID) with
  | none => simp [Res.bind, Res.isOk]
  | some b =>
    cases hexDecode (req.first b3SpanID) with
    | none =>
      simp only
      split <;> simp [Res.bind, Res.isOk]
    | some c =>
      simp only [Option.some.injEq, exists_eq_left']
      split
      · rename_i h1
        simp only [Res.bind, Res.isOk]
        simp; omega
      · rename_i h1
        split
        · simp only [Res.bind, Res.isOk]
          simp; omega
        · simp only [Res.bind, Res.isOk]
          simp; omega

/-- What is read, in full: the first values of the three headers count. Each ID is hexadecimal text of 1 to
16 (8) bytes, padded with zeros on the left; the context is sampled exactly if the third header says
"1" or "true".

Partial: as above, all-zero IDs are accepted. -/
theorem b3_reads_partial (req : Header) (sc : Ctx) : b3FromRequest req = .ok sc ↔
    ∃ t i, HexOf (firstOf req "X-B3-Traceid") t ∧ 1 ≤ t.length ∧ t.length ≤ 16 ∧
      sc.traceID = List.replicate (16 - t.length) 0 ++ t ∧
      HexOf (firstOf req "X-B3-Spanid") i ∧ 1 ≤ i.length ∧ i.length ≤ 8 ∧
      sc.spanID = List.replicate (8 - i.length) 0 ++ i ∧
      sc.opts = (if firstOf req "X-B3-Sampled" ∈ [str "1", str "true"] then 1 else 0) ∧ sc.tracestate = none := by
  unfold b3FromRequest
  rw [b3_trace_id, b3_span_id, first_eq req b3TraceID "X-B3-Traceid" (by decide +kernel),
    first_eq req b3SpanID "X-B3-Spanid" (by decide +kernel), first_eq req b3Sampled "X-B3-Sampled" (by decide +kernel)]
  have hsamp : ∀ s, (parseSampled s).1 = if s ∈ [str "1", str "true"] then 1 else 0 := by
    intro s
    unfold parseSampled
    by_cases h1 : s = str "1" <;> by_cases h2 : s = str "true" <;> simp [h1, h2]
  rw [hsamp]
  simp only [← hex_reads]
  cases h1 : hexDecode (firstOf req "X-B3-Traceid") with
  | none => simp [Res.bind]
  | some t =>
    cases h2 : hexDecode (firstOf req "X-B3-Spanid") with
    | none =>
      simp only [Option.some.injEq, reduceCtorEq, false_and, and_false, exists_false, iff_false]
      split <;> simp [Res.bind]
    | some i =>
      simp only [Option.some.injEq]
      by_cases h3 : t.length = 0 ∨ t.length > 16
      · rw [if_pos h3]
        simp only [Res.bind, reduceCtorEq, false_iff]
        rintro ⟨_, _, rfl, _⟩; omega
      · rw [if_neg h3]
        by_cases h4 : i.length = 0 ∨ i.length > 8
        · rw [if_pos h4]
          simp only [Res.bind, reduceCtorEq, false_iff]
          rintro ⟨_, _, rfl, _, _, _, rfl, _⟩; omega
        · rw [if_neg h4]
          simp only [Res.bind, Res.ok.injEq]
          constructor
          · rintro rfl
            exact ⟨t, i, rfl, by omega, by omega, rfl, rfl, by omega, by omega, rfl, rfl, rfl⟩
          · rintro ⟨_, _, rfl, _, _, h5, rfl, _, _, h6, h7, h8⟩
            rw [← h5, ← h6, ← h7, ← h8]

/-- A span context written to a request is read back: both IDs and whether it is sampled, whatever
headers the request had. -/
theorem b3_roundtrip (sc : Ctx) (hw : sc.WF) (req : Header) :
    b3FromRequest (b3ToRequest sc req) = .ok ⟨sc.traceID, sc.spanID, if sc.isSampled then 1 else 0, none⟩ := by
  obtain ⟨h1, h2⟩ := hw
  have k1 : canonicalKey b3TraceID ≠ canonicalKey b3SpanID := by decide
  have k2 : canonicalKey b3TraceID ≠ canonicalKey b3Sampled := by decide
  have k3 : canonicalKey b3SpanID ≠ canonicalKey b3Sampled := by decide
  have e1 : (b3ToRequest sc req).first b3TraceID = hexEncode sc.traceID := by
    simp [b3ToRequest, Header.first, Header.values_put, k1, k2]
  have e2 : (b3ToRequest sc req).first b3SpanID = hexEncode sc.spanID := by
    simp [b3ToRequest, Header.first, Header.values_put, k3]
  have e3 : (b3ToRequest sc req).first b3Sampled = if sc.isSampled then str "1" else str "0" := by
    simp [b3ToRequest, Header.first, Header.values_put]
  unfold b3FromRequest
  rw [e1, e2, e3, b3_trace_id, b3_span_id, hexDecode_encode, hexDecode_encode]
  simp only [h1, h2]
  cases sc.isSampled <;> simp [Res.bind, parseSampled] <;> decide

/-- A 64-bit trace ID becomes the lower half of a 128-bit one. -/
theorem b3_short (b : Bytes) (h : b.length = 8) : parseTraceID (hexEncode b) = .ok (List.replicate 8 0 ++ b) := by
  rw [b3_trace_id, hexDecode_encode]
  simp [h]

/-- All-zero IDs are accepted, and give a remote parent without trace ID. -/
theorem b3_accepts_zero : ∃ req sc, b3FromRequest req = .ok sc ∧ sc.traceID = List.replicate 16 0 ∧
    sc.spanID = List.replicate 8 0 ∧ sc ≠ .zero :=
  ⟨[(canonicalKey b3TraceID, [str "00"]), (canonicalKey b3SpanID, [str "00"]), (canonicalKey b3Sampled, [str "1"])],
    ⟨List.replicate 16 0, List.replicate 8 0, 1, none⟩, by decide +kernel, rfl, rfl, by decide⟩

/-! Hypotheses met. -/

def sample : Ctx := ⟨[0x10, 0x54, 0x45, 0xaa, 0x78, 0x43, 0xbc, 0x8b, 0xf2, 0x06, 0xb1, 0x20, 0x00, 0x10, 0x00, 0x00],
  [255, 0, 0, 0, 0, 0, 0, 123], 0x80000001#32, none⟩

example : sample.WF ∧ sdToRequest sample [] = [(str "X-Cloud-Trace-Context",
    [str "105445aa7843bc8bf206b12000100000/18374686479671623803;o=2147483649"])] := ⟨⟨rfl, rfl⟩, by decide +kernel⟩

example : sample.isSampled = true ∧ b3ToRequest sample [] = [(str "X-B3-Traceid", [str "105445aa7843bc8bf206b12000100000"]),
    (str "X-B3-Spanid", [str "ff0000000000007b"]), (str "X-B3-Sampled", [str "1"])] := ⟨by decide, by decide +kernel⟩

/-- Mixed case, two values for one header, "true". -/
example : let req : Header := [(str "X-B3-Traceid", [str "aB", str "cd"]), (str "X-B3-Spanid", [str "F0"]),
      (str "X-B3-Sampled", [str "true", str "0"])]
    HexOf (firstOf req "X-B3-Traceid") [0xab] ∧ HexOf (firstOf req "X-B3-Spanid") [0xf0] ∧
    b3FromRequest req = .ok ⟨List.replicate 15 0 ++ [0xab], List.replicate 7 0 ++ [0xf0], 1, none⟩ :=
  ⟨(hex_reads _ _).mp (by decide +kernel), (hex_reads _ _).mp (by decide +kernel), by decide +kernel⟩

example : HexOf (str "aB") [0xab] ∧ Decimal64 (str "18") ∧ Decimal64 (str "3") ∧
    firstOf [(str "X-Cloud-Trace-Context", [str "aB/18;o=3"])] "X-Cloud-Trace-Context" =
      str "aB" ++ str "/" ++ str "18" ++ str ";o=" ++ str "3" :=
  ⟨(hex_reads _ _).mp (by decide +kernel), ⟨by decide, by decide, by decide⟩, ⟨by decide, by decide, by decide⟩, by decide +kernel⟩

end Verif.Props.Headers
