import Verif.Wire.TraceContext
import Verif.Props.Tracestate
import Mathlib.Data.List.Forall2

/-!
# C37: the W3C trace context format
-/

namespace Verif.Props.TraceContext
open Verif Verif.Wire Verif.Props.Tracestate

/-! ## Trimming -/

def Blank (s : Bytes) : Prop := ∀ c ∈ s, c = 9 ∨ c = 32

theorem isOWS_iff (c : UInt8) : isOWS c = true ↔ c = 9 ∨ c = 32 := by simp [isOWS]

/-- The text without the blanks around it. -/
def Core (t : Bytes) : Prop := (∃ c, t.head? = some c ∧ ¬ (c = 9 ∨ c = 32)) ∧ (∃ c, t.getLast? = some c ∧ ¬ (c = 9 ∨ c = 32))

theorem dropWhile_blank (a t : Bytes) (ha : Blank a) (ht : ∃ c, t.head? = some c ∧ ¬ (c = 9 ∨ c = 32)) :
    (a ++ t).dropWhile isOWS = t := by
  induction a with
  | nil =>
    obtain ⟨c, hc, hn⟩ := ht
    cases t with
    | nil => simp at hc
    | cons x t =>
      simp only [List.head?_cons, Option.some.injEq] at hc
      subst hc
      rw [List.nil_append, List.dropWhile_cons_of_neg (by rw [isOWS_iff]; exact hn)]
  | cons x a ih =>
    rw [List.cons_append, List.dropWhile_cons_of_pos ((isOWS_iff x).2 (ha x (by simp)))]
    exact ih (fun c hc => ha c (List.mem_cons_of_mem _ hc))

theorem trimOWS_of (a t b : Bytes) (ha : Blank a) (hb : Blank b) (ht : Core t) (hn : (10 : UInt8) ∉ t.dropLast) :
    trimOWS (a ++ t ++ b) = some t := by
  have h1 : (a ++ t ++ b).dropWhile isOWS = t ++ b := by
    rw [List.append_assoc]
    refine dropWhile_blank a (t ++ b) ha ?_
    obtain ⟨c, hc, hn⟩ := ht.1
    exact ⟨c, by rw [List.head?_append, hc]; rfl, hn⟩
  have h2 : (t ++ b).reverse.dropWhile isOWS = t.reverse := by
    rw [List.reverse_append]
    refine dropWhile_blank _ _ (fun c hc => hb c (List.mem_reverse.1 hc)) ?_
    obtain ⟨c, hc, hn⟩ := ht.2
    exact ⟨c, by rw [List.head?_reverse]; exact hc, hn⟩
  unfold trimOWS
  simp only [h1, h2, List.reverse_reverse]
  rw [if_neg]
  rintro (h | h)
  · rw [h] at ht; simp [Core] at ht
  · exact hn h

theorem dropWhile_split (s : Bytes) : ∃ a, Blank a ∧ s = a ++ s.dropWhile isOWS := by
  refine ⟨s.takeWhile isOWS, ?_, (List.takeWhile_append_dropWhile).symm⟩
  intro c hc
  exact (isOWS_iff c).1 (List.all_eq_true.1 (List.all_takeWhile (p := isOWS) (l := s)) c hc)

theorem trimOWS_some {s t : Bytes} (h : trimOWS s = some t) : ∃ a b, Blank a ∧ Blank b ∧ s = a ++ t ++ b := by
  unfold trimOWS at h
  simp only at h
  split at h
  · cases h
  · cases h
    obtain ⟨a, ha, h1⟩ := dropWhile_split s
    obtain ⟨b, hb, h2⟩ := dropWhile_split (s.dropWhile isOWS).reverse
    refine ⟨a, b.reverse, ha, fun c hc => hb c (List.mem_reverse.1 hc), ?_⟩
    have h3 := congrArg List.reverse h2
    rw [List.reverse_reverse, List.reverse_append] at h3
    rw [List.append_assoc, ← h3]
    exact h1

/-! ## The tracestate header -/

theorem pairText_eq (e : Entry) : pairText e = e.key ++ 61 :: e.value := rfl

theorem split_two {s k v : Bytes} (h : split 61 s = [k, v]) : s = k ++ 61 :: v ∧ (61 : UInt8) ∉ k ∧ (61 : UInt8) ∉ v := by
  obtain ⟨h1, h2⟩ := join_split 61 s
  rw [h] at h1 h2
  exact ⟨h1.symm, h2 k (by simp), h2 v (by simp)⟩

theorem loop_spec (pairs : List Bytes) (n : Nat) (acc l : List Entry) :
    tracestateLoop n acc pairs = some l ↔ ∃ es, l = acc ++ es ∧
      List.Forall₂ (fun raw e => trimOWS raw = some (pairText e) ∧ (61 : UInt8) ∉ e.key ∧ (61 : UInt8) ∉ e.value) pairs es ∧
      (pairs ≠ [] → n + (es.map fun e => (pairText e).length).sum ≤ 512) := by
  induction pairs generalizing n acc with
  | nil =>
    simp only [tracestateLoop, Option.some.injEq, List.forall₂_nil_left_iff, ne_eq, not_true_eq_false, false_imp_iff, and_true]
    constructor
    · rintro rfl; exact ⟨[], by simp⟩
    · rintro ⟨es, h, rfl⟩; simp [h]
  | cons raw pairs ih =>
    rw [tracestateLoop]
    constructor
    · intro h
      cases ht : trimOWS raw with
      | none => rw [ht] at h; cases h
      | some pair =>
        rw [ht] at h
        simp only at h
        split at h
        · cases h
        · rename_i hle
          have hle : ¬ n + pair.length > 512 := hle
          split at h
          · rename_i k v hs
            obtain ⟨e1, e2, e3⟩ := split_two hs
            obtain ⟨es, f1, f2, f3⟩ := (ih _ _).1 h
            refine ⟨⟨k, v⟩ :: es, by rw [f1]; simp, List.Forall₂.cons ⟨by rw [ht, e1]; rfl, e2, e3⟩ f2, fun _ => ?_⟩
            have hp : (pairText ⟨k, v⟩).length = pair.length := by rw [e1]; rfl
            simp only [List.map_cons, List.sum_cons, hp]
            by_cases hn : pairs = []
            · subst hn
              cases f2
              simp; omega
            · have := f3 hn; omega
          · cases h
    · rintro ⟨es, h1, h2, h3⟩
      cases h2 with
      | cons hr hrest =>
        rename_i e es
        obtain ⟨t1, t2, t3⟩ := hr
        have h3 := h3 (by simp)
        simp only [List.map_cons, List.sum_cons] at h3
        rw [t1]
        simp only
        rw [if_neg (show ¬ n + (pairText e).length > maxTracestateLen by unfold maxTracestateLen; omega)]
        have hs : split 61 (pairText e) = [e.key, e.value] :=
          split_join 61 [e.key, e.value] (by simp) (by
            intro p hp
            simp only [List.mem_cons, List.not_mem_nil, or_false] at hp
            rcases hp with rfl | rfl
            · exact t2
            · exact t3)
        rw [hs]
        simp only
        exact (ih _ _).2 ⟨es, by rw [h1]; simp, hrest, fun _ => by omega⟩

/-- `New(nil, entries...)`. -/
theorem newFromEntries_spec (es l : List Entry) : newFromEntries es = some l ↔ l = es ∧ es ≠ [] ∧ Valid es := by
  have hv : Arrays.vals [es] ⟨0, 0, es.length, es.length⟩ = es := by simp [Arrays.vals]
  obtain ⟨n1, _⟩ := new_spec [es] none ⟨0, 0, es.length, es.length⟩ 0 0 (by simp) ⟨Nat.le_refl _, Or.inr (by simp)⟩
  rw [hv] at n1
  have hspec : specNew (Option.map (Arrays.vals [es]) none) es =
      open Classical in if es = [] then some none else if Valid es then some (some es) else none := by
    have hk : kept ((Option.map (Arrays.vals [es]) none).getD []) es = [] := rfl
    unfold specNew
    by_cases h0 : es = []
    · rw [if_pos ⟨rfl, h0⟩, if_pos h0]
    · rw [if_neg (fun hc => h0 hc.2), if_neg h0, hk, List.append_nil]
      by_cases h1 : Valid es
      · rw [if_pos h1]; exact if_pos h1
      · rw [if_neg h1]; exact if_neg h1
  rw [hspec] at n1
  unfold newFromEntries
  simp only
  cases hr : (Arrays.newTracestate [es] none ⟨0, 0, es.length, es.length⟩ 0 0).2 with
  | nil =>
    rw [hr] at n1
    simp only at n1 ⊢
    by_cases h0 : es = []
    · simp [h0]
    · by_cases h1 : Valid es <;> simp [h0, h1] at n1
  | error =>
    rw [hr] at n1
    simp only at n1 ⊢
    by_cases h0 : es = []
    · simp [h0]
    · by_cases h1 : Valid es
      · simp [h0, h1] at n1
      · simp [h1]
  | ok s =>
    rw [hr] at n1
    simp only at n1 ⊢
    by_cases h0 : es = []
    · simp [h0] at n1
    · by_cases h1 : Valid es
      · simp only [h0, h1, if_true, if_false, Option.some.injEq] at n1
        rw [← n1.2]
        simp only [Option.some.injEq]
        exact ⟨fun h => ⟨h.symm, h0, h1⟩, fun h => h.1.symm⟩
      · simp [h0, h1] at n1

/-! What keys and values are made of. -/

theorem key_chars {k : Bytes} (h : reKey.Matches k) : (61 : UInt8) ∉ k ∧ (44 : UInt8) ∉ k ∧ (10 : UInt8) ∉ k ∧
    ∃ c, k.head? = some c ∧ ¬ (c = 9 ∨ c = 32) := by
  have part : ∀ n s, isKeyPart n s = true → (∀ c ∈ s, isKeyChar c = true) ∧ ∃ c, s.head? = some c ∧ isLower c = true := by
    intro n s hs
    cases s with
    | nil => simp [isKeyPart] at hs
    | cons c cs =>
      simp only [isKeyPart, Bool.and_eq_true, List.all_eq_true] at hs
      have hl : ∀ c : UInt8, isLower c = true → isKeyChar c = true := forall_byte (by decide +kernel)
      exact ⟨fun d hd => by
        rcases List.mem_cons.1 hd with rfl | hd
        · exact hl _ hs.1.1
        · exact hs.1.2 d hd, c, rfl, hs.1.1⟩
  have hlow : ∀ c : UInt8, isLower c = true → ¬ (c = 9 ∨ c = 32) := forall_byte (by decide +kernel)
  have fin : ∀ s : Bytes, (∀ c ∈ s, isKeyChar c = true ∨ c = 64) → (61 : UInt8) ∉ s ∧ (44 : UInt8) ∉ s ∧ (10 : UInt8) ∉ s := by
    intro s hs
    refine ⟨fun hm => ?_, fun hm => ?_, fun hm => ?_⟩ <;> exact absurd (hs _ hm) (by decide)
  have hk := (isKey_iff k).2 h
  simp only [isKey, Bool.or_eq_true] at hk
  rcases hk with hk | hk
  · obtain ⟨p1, c, hc, hl⟩ := part _ _ hk
    obtain ⟨f1, f2, f3⟩ := fin k (fun c hc => Or.inl (p1 c hc))
    exact ⟨f1, f2, f3, c, hc, hlow c hl⟩
  · cases hcut : cut 64 k with
    | none => rw [hcut] at hk; cases hk
    | some ab =>
      obtain ⟨a, b⟩ := ab
      rw [hcut] at hk
      simp only [Bool.and_eq_true] at hk
      obtain ⟨e1, _⟩ := cut_some hcut
      obtain ⟨p1, c, hc, hl⟩ := part _ _ hk.1
      obtain ⟨q1, _⟩ := part _ _ hk.2
      obtain ⟨f1, f2, f3⟩ := fin k (fun d hd => by
        rw [e1] at hd
        rcases List.mem_append.1 hd with hd | hd
        · exact Or.inl (p1 d hd)
        · rcases List.mem_cons.1 hd with rfl | hd
          · exact Or.inr rfl
          · exact Or.inl (q1 d hd))
      exact ⟨f1, f2, f3, c, by rw [e1, List.head?_append, hc]; rfl, hlow c hl⟩

theorem value_chars {v : Bytes} (h : reValue.Matches v) : (61 : UInt8) ∉ v ∧ (44 : UInt8) ∉ v ∧ (10 : UInt8) ∉ v ∧
    ∃ c, v.getLast? = some c ∧ ¬ (c = 9 ∨ c = 32) := by
  have hv := (isValue_iff v).2 h
  unfold isValue at hv
  cases hl : v.getLast? with
  | none => rw [hl] at hv; simp at hv
  | some c =>
    rw [hl] at hv
    simp only [Bool.and_eq_true, List.all_eq_true] at hv
    have hc : ∀ c : UInt8, isValueChar c = true ∧ (c != 32) = true → ¬ (c = 9 ∨ c = 32) := forall_byte (by decide +kernel)
    have ha := hv.1.1
    refine ⟨fun hm => absurd (ha _ hm) (by decide), fun hm => absurd (ha _ hm) (by decide),
      fun hm => absurd (ha _ hm) (by decide), c, rfl, hc c ⟨ha c (List.mem_of_getLast? hl), hv.1.2⟩⟩

theorem pairText_core (e : Entry) (h : reKey.Matches e.key ∧ reValue.Matches e.value) :
    Core (pairText e) ∧ (10 : UInt8) ∉ (pairText e).dropLast ∧ (44 : UInt8) ∉ pairText e := by
  obtain ⟨k1, k2, k3, c, k4, k5⟩ := key_chars h.1
  obtain ⟨v1, v2, v3, d, v4, v5⟩ := value_chars h.2
  rw [pairText_eq]
  refine ⟨⟨⟨c, by rw [List.head?_append, k4]; rfl, k5⟩, d, ?_, v5⟩, ?_, ?_⟩
  · rw [List.getLast?_append, List.getLast?_cons, v4]; rfl
  · intro hm
    have := (List.dropLast_sublist _).mem hm
    simp only [List.mem_append, List.mem_cons] at this
    rcases this with h | h | h
    · exact k3 h
    · exact absurd h (by decide)
    · exact v3 h
  · simp only [List.mem_append, List.mem_cons, not_or]
    exact ⟨k2, by decide, v2⟩

/-- A pair with blanks around it. -/
def Padded (raw : Bytes) (e : Entry) : Prop := ∃ a b, Blank a ∧ Blank b ∧ raw = a ++ pairText e ++ b

theorem join_length (sep : UInt8) (l : List Bytes) : (join sep l).length = (l.map List.length).sum + (l.length - 1) := by
  induction l with
  | nil => rfl
  | cons p l ih =>
    cases l with
    | nil => simp [join]
    | cons q l =>
      rw [join, List.length_append, List.length_cons, ih]
      · simp; omega
      · simp

/-- What a tracestate header must be for its entries to be used: at least one, valid, no key twice, at
most 32, in 512 bytes without the blanks around them, which are dropped. -/
theorem tracestate_header (ts : Bytes) (l : List Entry) : tracestateFromHeader ts = some l ↔
    l ≠ [] ∧ Valid l ∧ (join 44 (l.map pairText)).length ≤ 512 ∧
    ∃ raws, ts = join 44 raws ∧ List.Forall₂ Padded raws l := by
  constructor
  · intro h
    unfold tracestateFromHeader at h
    split at h
    · cases h
    · rename_i hne
      simp only at h
      cases hl : tracestateLoop ((split 44 ts).length - 1) [] (split 44 ts) with
      | none => rw [hl] at h; cases h
      | some es =>
        rw [hl] at h
        simp only at h
        obtain ⟨rfl, h1, h2⟩ := (newFromEntries_spec _ _).1 h
        obtain ⟨es', e1, e2, e3⟩ := (loop_spec _ _ _ _).1 hl
        rw [List.nil_append] at e1
        subst e1
        refine ⟨h1, h2, ?_, split 44 ts, (join_split 44 ts).1.symm, ?_⟩
        · have := e3 (split_ne_nil 44 ts)
          rw [join_length, List.map_map, List.length_map, ← e2.length_eq]
          have hf : (List.length ∘ pairText) = fun e => (pairText e).length := rfl
          rw [hf]; omega
        · exact e2.imp (fun raw e h => by
            obtain ⟨a, b, ha, hb, hr⟩ := trimOWS_some h.1
            exact ⟨a, b, ha, hb, hr⟩)
  · rintro ⟨h1, h2, h3, raws, rfl, h4⟩
    have hfree : ∀ p ∈ raws, (44 : UInt8) ∉ p := by
      intro p hp
      obtain ⟨e, he, hpe⟩ : ∃ e ∈ l, Padded p e := by
        clear h1 h2 h3
        induction h4 with
        | nil => cases hp
        | cons hr _ ih =>
          rcases List.mem_cons.1 hp with rfl | hp
          · exact ⟨_, List.mem_cons_self, hr⟩
          · obtain ⟨e, he, hpe⟩ := ih hp
            exact ⟨e, List.mem_cons_of_mem _ he, hpe⟩
      obtain ⟨a, b, ha, hb, rfl⟩ := hpe
      have hc := (pairText_core e (h2.1 e he)).2.2
      simp only [List.mem_append, not_or]
      exact ⟨⟨fun hm => absurd (ha _ hm) (by decide), hc⟩, fun hm => absurd (hb _ hm) (by decide)⟩
    have hrn : raws ≠ [] := by
      rintro rfl
      cases h4
      exact h1 rfl
    have hsplit := split_join 44 raws hrn hfree
    have hne : join 44 raws ≠ [] := by
      intro h0
      rw [h0] at hsplit
      simp only [split] at hsplit
      subst hsplit
      cases h4 with
      | cons hr hrest =>
        obtain ⟨a, b, _, _, he⟩ := hr
        have := congrArg List.length he
        simp [pairText_eq] at this
    unfold tracestateFromHeader
    rw [if_neg hne]
    simp only [hsplit]
    have hloop : tracestateLoop (raws.length - 1) [] raws = some l := by
      refine (loop_spec _ _ _ _).2 ⟨l, rfl, ?_, fun _ => ?_⟩
      · clear hsplit hne hrn hfree h3 h1
        have hv := h2.1
        clear h2
        induction h4 with
        | nil => exact .nil
        | cons hr _ ih =>
          rename_i raw e raws l _
          refine .cons ?_ (ih (fun e he => hv e (List.mem_cons_of_mem _ he)))
          obtain ⟨a, b, ha, hb, rfl⟩ := hr
          have hve := hv e (by simp)
          obtain ⟨c1, c2, _⟩ := pairText_core e hve
          exact ⟨trimOWS_of a _ b ha hb c1 c2, (key_chars hve.1).1, (value_chars hve.2).1⟩
      · rw [join_length, List.map_map, List.length_map, ← h4.length_eq] at h3
        have hf : (List.length ∘ pairText) = fun e => (pairText e).length := rfl
        rw [hf] at h3; omega
    rw [hloop]
    exact (newFromEntries_spec _ _).2 ⟨rfl, h1, h2⟩

/-- A tracestate that fits is read back from the header written for it. -/
theorem tracestate_roundtrip (l : List Entry) (h1 : l ≠ []) (h2 : Valid l)
    (h3 : (join 44 (l.map pairText)).length ≤ 512) : tracestateFromHeader (tracestateToHeader (some l)) = some l := by
  have hne : join 44 (l.map pairText) ≠ [] := by
    intro h0
    have := congrArg List.length h0
    rw [join_length] at this
    cases l with
    | nil => exact h1 rfl
    | cons e l => simp [pairText_eq] at this
  unfold tracestateToHeader
  simp only
  rw [if_pos ⟨hne, h3⟩]
  refine (tracestate_header _ _).2 ⟨h1, h2, h3, l.map pairText, rfl, ?_⟩
  rw [List.forall₂_map_left_iff]
  exact List.forall₂_same.2 (fun e _ => ⟨[], [], by simp [Blank], by simp [Blank], by simp⟩)

/-! ## The traceparent header -/

/-- What a traceparent header must be: four sections, or more if the version is not 00; a version of two
hexadecimal digits and not ff; IDs of 32 and 16 digits, not all zero; and an even, positive number of
digits of options, of which the first two count.

Partial: C37 asks that wrong lengths of sections be rejected, and the options may be longer than two
digits (`long_options_accepted`). -/
theorem traceparent_accepts_partial (tp ts : Bytes) : fromHeaders tp ts ≠ .panic ∧ ∀ sc : Ctx, fromHeaders tp ts = .ok sc ↔
    ∃ ver tid sid opts rest v o os, split 45 tp = ver :: tid :: sid :: opts :: rest ∧
      ver.length = 2 ∧ hexDecode ver = some [v] ∧ v.toNat ≠ 255 ∧ (v = 0 → rest = []) ∧
      tid.length = 32 ∧ hexDecode tid = some sc.traceID ∧ sc.traceID ≠ List.replicate 16 0 ∧
      sid.length = 16 ∧ hexDecode sid = some sc.spanID ∧ sc.spanID ≠ List.replicate 8 0 ∧
      hexDecode opts = some (o :: os) ∧ sc.opts = BitVec.ofNat 32 o.toNat ∧
      sc.tracestate = tracestateFromHeader ts := by
  unfold fromHeaders
  by_cases htp : tp = []
  · subst htp
    simp [split]
  rw [if_neg htp]
  simp only
  by_cases hlen : (split 45 tp).length < 4
  · rw [if_pos hlen]
    refine ⟨by simp, fun sc => ⟨fun h => (by cases h), ?_⟩⟩
    rintro ⟨ver, tid, sid, opts, rest, v, o, os, h, _⟩
    rw [h] at hlen
    simp at hlen
    omega
  rw [if_neg hlen]
  obtain ⟨ver, tid, sid, opts, rest, hs⟩ : ∃ a b c d r, split 45 tp = a :: b :: c :: d :: r := by
    match hm : split 45 tp with
    | a :: b :: c :: d :: r => exact ⟨a, b, c, d, r, rfl⟩
    | [] | [_] | [_, _] | [_, _, _] => rw [hm] at hlen; simp at hlen
  rw [hs]
  simp only [readIDs, readOpts, sectionAt, List.getElem?_cons_zero, List.getElem?_cons_succ, Res.bind]
  by_cases hv : ver.length = 2
  swap
  · rw [if_pos hv]
    refine ⟨by simp, fun sc => ⟨fun h => (by cases h), ?_⟩⟩
    rintro ⟨_, _, _, _, _, _, _, _, h, h1, _⟩
    cases h
    exact absurd h1 hv
  rw [if_neg (by simpa using hv)]
  unfold hexOr
  cases hdv : hexDecode ver with
  | none =>
    refine ⟨by simp, fun sc => ⟨fun h => (by cases h), ?_⟩⟩
    rintro ⟨_, _, _, _, _, _, _, _, h, _, h1, _⟩
    cases h
    rw [hdv] at h1; cases h1
  | some vb =>
    obtain ⟨v, rfl⟩ : ∃ v, vb = [v] := List.length_eq_one_iff.1 (by have := hexDecode_length hdv; omega)
    simp only [index, List.getElem?_cons_zero]
    have hv255 := v.toNat_lt
    by_cases hver : v.toNat > maxVersion
    · rw [if_pos hver]
      refine ⟨by simp, fun sc => ⟨fun h => (by cases h), ?_⟩⟩
      rintro ⟨_, _, _, _, _, _, _, _, h, _, h1, h2, _⟩
      cases h
      rw [hdv] at h1; cases h1
      unfold maxVersion at hver
      omega
    rw [if_neg hver]
    have hver' : v.toNat ≠ 255 := by unfold maxVersion at hver; omega
    have hv0 : v.toNat = 0 ↔ v = 0 := by
      rw [← UInt8.toNat_inj]; rfl
    by_cases hz : v.toNat = 0 ∧ (ver :: tid :: sid :: opts :: rest).length ≠ 4
    · rw [if_pos hz]
      refine ⟨by simp, fun sc => ⟨fun h => (by cases h), ?_⟩⟩
      rintro ⟨_, _, _, _, _, _, _, _, h, _, h1, _, h2, _⟩
      cases h
      rw [hdv] at h1; cases h1
      have := h2 (hv0.1 hz.1)
      rw [this] at hz
      simp at hz
    rw [if_neg hz]
    have hz' : v = 0 → rest = [] := by
      intro h0
      by_contra hr
      refine hz ⟨hv0.2 h0, ?_⟩
      have := List.length_pos_of_ne_nil hr
      simp only [List.length_cons]; omega
    by_cases ht : tid.length = 32
    swap
    · rw [if_pos ht]
      refine ⟨by simp, fun sc => ⟨fun h => (by cases h), ?_⟩⟩
      rintro ⟨_, _, _, _, _, _, _, _, h, _, _, _, _, h1, _⟩
      cases h
      exact absurd h1 ht
    rw [if_neg (by simpa using ht)]
    cases hdt : hexDecode tid with
    | none =>
      refine ⟨by simp, fun sc => ⟨fun h => (by cases h), ?_⟩⟩
      rintro ⟨_, _, _, _, _, _, _, _, h, _, _, _, _, _, h1, _⟩
      cases h
      rw [hdt] at h1; cases h1
    | some tb =>
      have htl : tb.length = 16 := by have := hexDecode_length hdt; omega
      simp only
      by_cases hsl : sid.length = 16
      swap
      · rw [if_pos hsl]
        refine ⟨by simp, fun sc => ⟨fun h => (by cases h), ?_⟩⟩
        rintro ⟨_, _, _, _, _, _, _, _, h, _, _, _, _, _, _, _, h1, _⟩
        cases h
        exact absurd h1 hsl
      rw [if_neg (by simpa using hsl)]
      cases hds : hexDecode sid with
      | none =>
        refine ⟨by simp, fun sc => ⟨fun h => (by cases h), ?_⟩⟩
        rintro ⟨_, _, _, _, _, _, _, _, h, _, _, _, _, _, _, _, _, h1, _⟩
        cases h
        rw [hds] at h1; cases h1
      | some sb =>
        have hsbl : sb.length = 8 := by have := hexDecode_length hds; omega
        have c1 : copyAt Ctx.zero.traceID 0 tb = tb := by simp [copyAt, Ctx.zero, htl, List.take_of_length_le]
        have c2 : copyAt Ctx.zero.spanID 0 sb = sb := by simp [copyAt, Ctx.zero, hsbl, List.take_of_length_le]
        simp only [c1, c2]
        cases hdo : hexDecode opts with
        | none =>
          refine ⟨by simp, fun sc => ⟨fun h => (by cases h), ?_⟩⟩
          rintro ⟨_, _, _, _, _, _, _, _, h, _, _, _, _, _, _, _, _, _, _, h1, _⟩
          cases h
          rw [hdo] at h1; cases h1
        | some ob =>
          simp only
          cases ob with
          | nil =>
            refine ⟨by simp, fun sc => ⟨fun h => (by cases h), ?_⟩⟩
            rintro ⟨_, _, _, _, _, _, _, _, h, _, _, _, _, _, _, _, _, _, _, h1, _⟩
            cases h
            rw [hdo] at h1; cases h1
          | cons o os =>
            rw [if_neg (by simp)]
            simp only [List.getElem?_cons_zero]
            by_cases hid : tb = List.replicate 16 0 ∨ sb = List.replicate 8 0
            · rw [if_pos hid]
              refine ⟨by simp, fun sc => ⟨fun h => (by cases h), ?_⟩⟩
              rintro ⟨_, _, _, _, _, _, _, _, h, _, _, _, _, _, h1, h2, _, h3, h4, _⟩
              cases h
              rw [hdt] at h1; rw [hds] at h3
              cases h1; cases h3
              exact absurd hid (not_or.2 ⟨h2, h4⟩)
            · rw [if_neg hid]
              refine ⟨by simp, fun sc => ⟨?_, ?_⟩⟩
              · intro h
                cases h
                exact ⟨ver, tid, sid, opts, rest, v, o, os, rfl, hv, hdv, hver', hz', ht, hdt, fun h => hid (Or.inl h), hsl,
                  hds, fun h => hid (Or.inr h), hdo, rfl, rfl⟩
              · rintro ⟨_, _, _, _, _, _, _, _, h, _, _, _, _, _, h1, h2, _, h3, h4, h5, h6, h7⟩
                cases h
                rw [hdt] at h1; rw [hds] at h3; rw [hdo] at h5
                cases h1; cases h3; cases h5
                rw [← h6, ← h7]

/-- The traceparent written for a span context with IDs is read back, whatever the tracestate header says. -/
theorem traceparent_roundtrip (sc : Ctx) (hw : sc.WF) (h1 : sc.traceID ≠ List.replicate 16 0)
    (h2 : sc.spanID ≠ List.replicate 8 0) (ts : Bytes) :
    fromHeaders (toHeaders sc).1 ts = .ok { sc with
      opts := BitVec.ofNat 32 (lowByte sc.opts).toNat
      tracestate := tracestateFromHeader ts } := by
  have dash : ∀ b : Bytes, (45 : UInt8) ∉ hexEncode b := by
    intro b hm
    have := hexEncode_isHex _ _ hm
    revert this; decide
  refine ((traceparent_accepts_partial _ _).2 _).2 ⟨hexEncode [0], hexEncode sc.traceID, hexEncode sc.spanID,
    hexEncode [lowByte sc.opts], [], 0, lowByte sc.opts, [], ?_, rfl, hexDecode_encode _, by decide, fun _ => rfl,
    by rw [hexEncode_length, hw.1], hexDecode_encode _, h1, by rw [hexEncode_length, hw.2], hexDecode_encode _, h2,
    hexDecode_encode _, rfl, rfl⟩
  have : (toHeaders sc).1 = join 45 [hexEncode [0], hexEncode sc.traceID, hexEncode sc.spanID, hexEncode [lowByte sc.opts]] := by
    simp [toHeaders, join]
  rw [this, split_join 45 _ (by simp)]
  intro p hp
  simp only [List.mem_cons, List.not_mem_nil, or_false] at hp
  rcases hp with rfl | rfl | rfl | rfl <;> exact dash _

/-- The headers written for a span context with IDs are read back: IDs, the low byte of the options, and
the tracestate if it has entries, is valid and fits. -/
theorem headers_roundtrip (sc : Ctx) (hw : sc.WF) (h1 : sc.traceID ≠ List.replicate 16 0)
    (h2 : sc.spanID ≠ List.replicate 8 0) :
    fromHeaders (toHeaders sc).1 (toHeaders sc).2 = .ok { sc with
      opts := BitVec.ofNat 32 (lowByte sc.opts).toNat
      tracestate := tracestateFromHeader (tracestateToHeader sc.tracestate) } :=
  traceparent_roundtrip sc hw h1 h2 _

/-- What fits the headers. -/
def Fits (sc : Ctx) : Prop := sc.WF ∧ sc.traceID ≠ List.replicate 16 0 ∧ sc.spanID ≠ List.replicate 8 0 ∧
  sc.opts.toNat < 256 ∧ ∀ l, sc.tracestate = some l → l ≠ [] ∧ Valid l ∧ (join 44 (l.map pairText)).length ≤ 512

/-- A span context written to a request without a tracestate is read back unchanged. -/
theorem tracecontext_roundtrip (sc : Ctx) (h : Fits sc) (req : Header) (hreq : req.values tracestateHeader = []) :
    tcFromRequest (tcToRequest sc req) = .ok sc := by
  obtain ⟨hw, h1, h2, h3, h4⟩ := h
  have k : canonicalKey traceparentHeader ≠ canonicalKey tracestateHeader := by decide
  have htp : getRequestHeader (tcToRequest sc req) traceparentHeader = (toHeaders sc).1 := by
    unfold getRequestHeader tcToRequest
    simp only
    by_cases hne : (toHeaders sc).2 = []
    · simp [hne, Header.values_put]
    · simp [hne, Header.values_put, k]
  have hts : getRequestHeader (tcToRequest sc req) tracestateHeader = (toHeaders sc).2 := by
    unfold getRequestHeader tcToRequest
    simp only
    by_cases hne : (toHeaders sc).2 = []
    · simp [hne, Header.values_put, k.symm, hreq]
    · simp [hne, Header.values_put]
  rw [tcFromRequest, htp, hts, headers_roundtrip sc hw h1 h2]
  congr 1
  have ho : BitVec.ofNat 32 (lowByte sc.opts).toNat = sc.opts := by
    apply BitVec.eq_of_toNat_eq
    simp [lowByte]
    omega
  have htr : tracestateFromHeader (tracestateToHeader sc.tracestate) = sc.tracestate := by
    cases ht : sc.tracestate with
    | none => rfl
    | some l =>
      obtain ⟨a, b, c⟩ := h4 l ht
      exact tracestate_roundtrip l a b c
  rw [ho, htr]

/-- No request makes the parser panic. -/
theorem tracecontext_no_panic (req : Header) : tcFromRequest req ≠ .panic := (traceparent_accepts_partial _ _).1

/-- The values of a header of a request, given its canonical name. -/
def valuesOf (req : Header) (name : String) : List Bytes := (GoMap.get req (str name)).getD []

theorem join_eq_intercalate (sep : UInt8) : ∀ l : List Bytes, join sep l = [sep].intercalate l
  | [] => rfl
  | [p] => by simp [join, List.intercalate]
  | p :: q :: l => by
    have ih := join_eq_intercalate sep (q :: l)
    simp only [join, ih]
    simp [List.intercalate, List.intersperse]

/-- What of a request is read: the headers named traceparent and tracestate, several values of one of
them joined with commas. -/
theorem tracecontext_request (req : Header) : tcFromRequest req =
    fromHeaders ([44].intercalate (valuesOf req "Traceparent")) ([44].intercalate (valuesOf req "Tracestate")) := by
  have h : ∀ name canon, canonicalKey name = str canon →
      getRequestHeader req name = [44].intercalate (valuesOf req canon) := by
    intro name canon hk
    unfold getRequestHeader Header.values valuesOf
    rw [hk]
    cases (GoMap.get req (str canon)).getD [] with
    | nil => rfl
    | cons v vs =>
      cases vs with
      | nil => simp [List.intercalate]
      | cons w ws => exact join_eq_intercalate 44 _
  unfold tcFromRequest
  rw [h traceparentHeader "Traceparent" (by decide +kernel), h tracestateHeader "Tracestate" (by decide +kernel)]

/-! ## Where the code differs -/

/-- Options of any even number of digits are accepted, under version 00 too. -/
theorem long_options_accepted : (fromHeaders (str "00-4bf92f3577b34da6a3ce929d0e0e4736-00f067aa0ba902b7-01ff") []).isOk = true := by
  decide +kernel

/-- A request that already has a tracestate keeps it when a context without one is written to it: the
reader is given a context that was not sent. -/
theorem stale_tracestate : ∃ (sc sc' : Ctx) (req : Header), Fits sc ∧ tcFromRequest (tcToRequest sc req) = .ok sc' ∧ sc' ≠ sc := by
  refine ⟨⟨List.replicate 16 1, List.replicate 8 1, 1, none⟩, ⟨List.replicate 16 1, List.replicate 8 1, 1, some [ea]⟩,
    [(str "Tracestate", [str "a=1"])], ⟨⟨rfl, rfl⟩, by decide, by decide, by decide, by simp⟩, by decide +kernel, by decide⟩

/-! ## Cases -/

def sample : Ctx := ⟨List.replicate 15 0 ++ [7], [1, 2, 3, 4, 5, 6, 7, 8], 1, some [ea, ⟨str "t@v", str "x y"⟩]⟩

theorem sample_valid : Valid [ea, ⟨str "t@v", str "x y"⟩] := by
  refine ⟨fun e he => ?_, by decide, by decide⟩
  rw [← isKey_iff, ← isValue_iff]
  have : ∀ e ∈ [ea, ⟨str "t@v", str "x y"⟩], isKey e.key = true ∧ isValue e.value = true := by decide +kernel
  exact this e he

example : Fits sample ∧ (toHeaders sample).2 = str "a=1,t@v=x y" ∧
    (toHeaders sample).1 = str "00-00000000000000000000000000000007-0102030405060708-01" := by
  refine ⟨⟨⟨rfl, rfl⟩, by decide, by decide, by decide, fun l hl => ?_⟩, by decide +kernel, by decide +kernel⟩
  cases hl
  exact ⟨by simp, sample_valid, by decide +kernel⟩

/-- Blanks around entries; a tracestate with an invalid entry is dropped and the parent kept. -/
example : tracestateFromHeader (str " a=1 ,\tb=2") = some [ea, eb] ∧ tracestateFromHeader (str "a=1,B=2") = none ∧
    tracestateFromHeader (str "a=1,") = none := by decide +kernel

end Verif.Props.TraceContext
