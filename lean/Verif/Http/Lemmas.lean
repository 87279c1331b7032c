import Verif.Http.Client

/-! # Lemmas on decimal digits, tags and logs -/

namespace Verif.Http
open Verif Verif.Trace

/-! ## itoa -/

theorem digits_length (f n : Nat) : (digits f n).length ≤ f + 1 := by
  induction f generalizing n with
  | zero => simp [digits]
  | succ f ih => unfold digits; split <;> simp [ih]

theorem digits_ascii (f n : Nat) : ∀ c ∈ digits f n, 32 ≤ c.toNat ∧ c.toNat ≤ 126 := by
  have h10 : ∀ k, k < 10 → 32 ≤ (UInt8.ofNat (48 + k)).toNat ∧ (UInt8.ofNat (48 + k)).toNat ≤ 126 := by
    decide +kernel
  induction f generalizing n with
  | zero =>
    intro c hc
    simp only [digits, List.mem_singleton] at hc
    subst hc
    exact h10 _ (Nat.mod_lt _ (by omega))
  | succ f ih =>
    unfold digits
    split
    · next h =>
      intro c hc
      simp only [List.mem_singleton] at hc
      subst hc
      exact h10 _ h
    · intro c hc
      rcases List.mem_append.mp hc with h | h
      · exact ih _ c h
      · simp only [List.mem_singleton] at h
        subst h
        exact h10 _ (Nat.mod_lt _ (by omega))

theorem checkValue_itoa (n : Int) : Tag.checkValue (itoa n) = true := by
  have hl : (itoa n).length ≤ 21 := by
    unfold itoa
    split
    · have := digits_length 19 n.natAbs; simp; omega
    · have := digits_length 19 n.natAbs; omega
  have ha : Tag.isASCII (itoa n) = true := by
    unfold Tag.isASCII
    rw [List.all_eq_true]
    intro c hc
    have : 32 ≤ c.toNat ∧ c.toNat ≤ 126 := by
      unfold itoa at hc
      split at hc
      · rcases List.mem_cons.mp hc with rfl | h
        · decide
        · exact digits_ascii _ _ _ h
      · exact digits_ascii _ _ _ hc
    simp [this]
  unfold Tag.checkValue
  rw [if_neg (by unfold Tag.maxKeyLength; omega)]
  exact ha

/-! ## tags -/

theorem tagNew_some (m : Tags) (kvs : List (Bytes × Bytes)) :
    tagNew m kvs = if kvs.all (fun kv => Tag.checkValue kv.2) then
      some (kvs.foldl (fun m kv => GoMap.set m kv.1 kv.2) m) else none := by
  induction kvs generalizing m with
  | nil => rfl
  | cons kv kvs ih =>
    obtain ⟨k, v⟩ := kv
    unfold tagNew
    rw [ih, List.all_cons]
    simp only
    cases h : Tag.checkValue v
    · rfl
    · rw [Bool.true_and, if_pos rfl]; rfl

/-! ## logs -/

/-- The records in a log. -/
def records (l : List Ev) : List (Tags × List Meas) :=
  l.filterMap fun e => match e with
    | .record t ms => some (t, ms)
    | _ => none

/-- The span operations in a log. -/
def traceOps (l : List Ev) : List Op :=
  l.filterMap fun e => match e with
    | .trace op => some op
    | _ => none

/-- The calls made below. -/
def below (l : List Ev) : List Ev :=
  l.filter fun e => match e with
    | .record .. => false
    | .trace _ => false
    | _ => true

@[simp] theorem records_append (a b : List Ev) : records (a ++ b) = records a ++ records b := by simp [records]
@[simp] theorem traceOps_append (a b : List Ev) : traceOps (a ++ b) = traceOps a ++ traceOps b := by simp [traceOps]
@[simp] theorem below_append (a b : List Ev) : below (a ++ b) = below a ++ below b := by simp [below]

end Verif.Http
