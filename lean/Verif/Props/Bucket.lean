import Verif.Trace.BucketLemmas
import Mathlib.Data.List.Induction

/-!
# C32: span store buckets hold the most recent samples
-/

namespace Verif.Props.Bucket
open Verif Verif.Trace

variable {S : Type}

/-- What can happen to a bucket. -/
inductive BOp (S : Type) where
  | add (s : S)
  | resize (n : Nat)

def bstep (et : S → Int) (b : Bucket S) : BOp S → Res (Bucket S)
  | .add s => b.add et s
  | .resize n => b.resize n

def brun (et : S → Int) (b : Bucket S) : List (BOp S) → Res (Bucket S)
  | [] => .ok b
  | op :: ops => (bstep et b op).bind fun b => brun et b ops

/-- The specification: a size, the end of the current sample period (`none` before the first sample),
and the samples, oldest first. -/
structure Spec (S : Type) where
  size : Nat
  last : Option S
  samples : List S

/-- A finished span is accepted unless it ended less than a second after the last accepted one, or the
size is zero. -/
def Spec.accepts (et : S → Int) (a : Spec S) (s : S) : Prop :=
  a.size ≠ 0 ∧ ∀ l ∈ a.last, et l + 1000000000 ≤ et s

instance (et : S → Int) (a : Spec S) (s : S) : Decidable (a.accepts et s) := by
  unfold Spec.accepts; infer_instance

def Spec.step (et : S → Int) (a : Spec S) : BOp S → Spec S
  | .add s => if a.accepts et s then ⟨a.size, some s, (a.samples ++ [s]).drop ((a.samples ++ [s]).length - a.size)⟩ else a
  | .resize n => ⟨n, a.last, a.samples.drop (a.samples.length - n)⟩

def Spec.run (et : S → Int) (a : Spec S) (ops : List (BOp S)) : Spec S := ops.foldl (Spec.step et) a

/-- The spans of a bucket, oldest first, as `size` and `span` give them. -/
def contents (b : Bucket S) : List S :=
  (List.range b.size).filterMap fun i => match b.span i with
    | .ok x => x
    | _ => none

theorem contents_of_rep {b : Bucket S} {xs : List S} (h : Rep b xs) : contents b = xs := by
  unfold contents
  rw [h.size]
  apply List.ext_getElem?
  intro n
  have : ∀ k, k ≤ xs.length → (List.range k).filterMap (fun i => match b.span i with
    | .ok x => x
    | _ => none) = xs.take k := by
    intro k hk
    induction k with
    | zero => simp
    | succ k ih =>
      rw [List.range_succ, List.filterMap_append, ih (by omega), List.take_add_one]
      congr 1
      simp [h.span (show k < xs.length by omega), List.getElem?_eq_getElem (show k < xs.length by omega)]
  rw [this _ (Nat.le_refl _), List.take_length]

/-- The relation between bucket and specification. -/
structure Sim (et : S → Int) (b : Bucket S) (a : Spec S) : Prop where
  rep : Rep b a.samples
  size : b.buffer.length = a.size
  next : b.nextTime = match a.last with
    | some l => et l + samplePeriod
    | none => zeroTime

theorem sim_step {et : S → Int} {b : Bucket S} {a : Spec S} (h : Sim et b a) (op : BOp S)
    (ht : ∀ s, op = .add s → zeroTime ≤ et s) : ∃ b', bstep et b op = .ok b' ∧ Sim et b' (a.step et op) := by
  cases op with
  | resize n =>
    obtain ⟨b', h1, h2, h3, h4⟩ := h.rep.resize n
    exact ⟨b', h1, h4, h2, h3.trans h.next⟩
  | add s =>
    obtain ⟨b', h1, h2, h3⟩ := h.rep.add et s
    refine ⟨b', h1, ?_⟩
    have hacc : (et s < b.nextTime ∨ b.buffer.length = 0) ↔ ¬ a.accepts et s := by
      rw [h.next, h.size]
      unfold Spec.accepts
      have hz := ht s rfl
      cases a.last with
      | none => simp only; constructor
                · rintro (hc | hc)
                  · omega
                  · simp [hc]
                · intro hc; right; by_contra h0; exact hc ⟨h0, by simp⟩
      | some l =>
        simp only [Option.mem_some_iff, forall_eq', samplePeriod, not_and_or, not_not, Int.not_le]
        omega
    simp only [Spec.step]
    by_cases ha : a.accepts et s
    · rw [if_pos ha]
      rw [if_neg (fun hc => hacc.mp hc ha)] at h3
      refine ⟨?_, h2.trans h.size, h3.1⟩
      have := h3.2
      rw [h.size] at this
      exact this
    · rw [if_neg ha]
      rw [if_pos (hacc.mpr ha)] at h3
      rw [h3]; exact h

theorem sim_run {et : S → Int} {b : Bucket S} {a : Spec S} (h : Sim et b a) (ops : List (BOp S))
    (ht : ∀ s, .add s ∈ ops → zeroTime ≤ et s) : ∃ b', brun et b ops = .ok b' ∧ Sim et b' (a.run et ops) := by
  induction ops generalizing b a with
  | nil => exact ⟨b, rfl, h⟩
  | cons op ops ih =>
    obtain ⟨b1, h1, h2⟩ := sim_step h op (fun s hs => ht s (by simp [hs]))
    obtain ⟨b2, h3, h4⟩ := ih h2 (fun s hs => ht s (by simp [hs]))
    exact ⟨b2, by simp only [brun, h1, Res.bind]; exact h3, h4⟩

/-- For every initial size and every sequence of finished spans and resizes, the bucket does not panic,
`size` and `span` give exactly the samples of the specification in order, and a report gives the same
samples in some order. (No span ends before the year 1.) -/
theorem bucket_refines (et : S → Int) (n : Nat) (ops : List (BOp S)) (ht : ∀ s, .add s ∈ ops → zeroTime ≤ et s) :
    ∃ b, brun et (makeBucket n) ops = .ok b ∧ contents b = (Spec.run et ⟨n, none, []⟩ ops).samples ∧
      b.size = (Spec.run et ⟨n, none, []⟩ ops).samples.length ∧
      (scan b.buffer).Perm (Spec.run et ⟨n, none, []⟩ ops).samples := by
  obtain ⟨b, h1, h2⟩ := sim_run (et := et) (b := makeBucket n) (a := ⟨n, none, []⟩)
    ⟨rep_make n, by simp [makeBucket], rfl⟩ ops ht
  exact ⟨b, h1, contents_of_rep h2.rep, h2.rep.size, h2.rep.scan⟩

/-! ## What the specification says -/

/-- The spans accepted by a program, in order. -/
def accepted (et : S → Int) (a : Spec S) : List (BOp S) → List S
  | [] => []
  | .add s :: ops => (if a.accepts et s then [s] else []) ++ accepted et (a.step et (.add s)) ops
  | .resize n :: ops => accepted et (a.step et (.resize n)) ops

/-- At most the configured size. -/
theorem size_bound (et : S → Int) (n : Nat) (ops : List (BOp S)) :
    (Spec.run et ⟨n, none, []⟩ ops).samples.length ≤ (Spec.run et ⟨n, none, []⟩ ops).size := by
  have step : ∀ (a : Spec S) op, a.samples.length ≤ a.size → (a.step et op).samples.length ≤ (a.step et op).size := by
    intro a op h
    cases op with
    | resize m => simp only [Spec.step, List.length_drop]; omega
    | add s =>
      simp only [Spec.step]
      split
      · simp only [List.length_drop]; omega
      · exact h
  have : ∀ (a : Spec S), a.samples.length ≤ a.size → (a.run et ops).samples.length ≤ (a.run et ops).size := by
    induction ops with
    | nil => intro a h; exact h
    | cons op ops ih => intro a h; exact ih (a.step et op) (step a op h)
  exact this _ (by simp)

theorem drop_append_suffix {α : Type} {l m : List α} (h : l <:+ m) (n : Nat) (x : List α) :
    (l ++ x).drop ((l ++ x).length - n) <:+ m ++ x := by
  obtain ⟨p, rfl⟩ := h
  refine (List.drop_suffix _ _).trans ⟨p, by simp⟩

/-- The samples are the most recently accepted spans: a suffix of the accepted ones, complete up to the
smallest size the bucket has had meanwhile. -/
theorem samples_newest (et : S → Int) (n : Nat) (ops : List (BOp S)) :
    (Spec.run et ⟨n, none, []⟩ ops).samples <:+ accepted et ⟨n, none, []⟩ ops ∧
      ∀ m, m ≤ n → (∀ k, .resize k ∈ ops → m ≤ k) →
        min m (accepted et ⟨n, none, []⟩ ops).length ≤ (Spec.run et ⟨n, none, []⟩ ops).samples.length := by
  have key : ∀ (ops : List (BOp S)) (a : Spec S) (pre : List S), a.samples <:+ pre →
      (a.run et ops).samples <:+ pre ++ accepted et a ops ∧
      ∀ m, m ≤ a.size → (∀ k, .resize k ∈ ops → m ≤ k) → min m pre.length ≤ a.samples.length →
        min m (pre ++ accepted et a ops).length ≤ (a.run et ops).samples.length := by
    intro ops
    induction ops with
    | nil => intro a pre h; exact ⟨by simpa [accepted, Spec.run] using h, by simp [accepted, Spec.run]⟩
    | cons op ops ih =>
      intro a pre h
      cases op with
      | resize k =>
        obtain ⟨h1, h2⟩ := ih (a.step et (.resize k)) pre ((List.drop_suffix _ _).trans h)
        refine ⟨h1, fun m hm hk hp => h2 m (hk k (by simp)) (fun k' hk' => hk k' (by simp [hk'])) ?_⟩
        have := hk k (by simp)
        simp only [Spec.step, List.length_drop]
        omega
      | add s =>
        simp only [accepted]
        by_cases ha : a.accepts et s
        · have hst : a.step et (.add s) = ⟨a.size, some s, (a.samples ++ [s]).drop ((a.samples ++ [s]).length - a.size)⟩ := by
            simp only [Spec.step, if_pos ha]
          obtain ⟨h1, h2⟩ := ih (a.step et (.add s)) (pre ++ [s]) (by
            rw [hst]; exact drop_append_suffix h _ _)
          rw [if_pos ha, ← List.append_assoc]
          refine ⟨h1, fun m hm hk hp => h2 m (by rw [hst]; exact hm) (fun k' hk' => hk k' (by simp [hk'])) ?_⟩
          rw [hst]
          simp only [List.length_drop, List.length_append, List.length_singleton]
          omega
        · have hst : a.step et (.add s) = a := by simp only [Spec.step, if_neg ha]
          obtain ⟨h1, h2⟩ := ih a pre h
          rw [if_neg ha, List.nil_append, hst]
          refine ⟨?_, fun m hm hk hp => ?_⟩
          · have : a.run et (.add s :: ops) = a.run et ops := by
              show (a.step et (.add s)).run et ops = _
              rw [hst]
            rw [this]; exact h1
          · have : a.run et (.add s :: ops) = a.run et ops := by
              show (a.step et (.add s)).run et ops = _
              rw [hst]
            rw [this]; exact h2 m hm (fun k' hk' => hk k' (by simp [hk'])) hp
  obtain ⟨h1, h2⟩ := key ops ⟨n, none, []⟩ [] (List.suffix_refl _)
  exact ⟨by simpa using h1, fun m hm hk => by simpa using h2 m hm hk (by simp)⟩

/-- At most one span is accepted per sample period: successive accepted spans end at least one second
apart. -/
theorem one_per_period (et : S → Int) (n : Nat) (ops : List (BOp S)) :
    (accepted et ⟨n, none, []⟩ ops).Pairwise (fun a b => et a + 1000000000 ≤ et b) := by
  have key : ∀ (ops : List (BOp S)) (a : Spec S),
      (accepted et a ops).Pairwise (fun a b => et a + 1000000000 ≤ et b) ∧
        ∀ l ∈ a.last, ∀ s ∈ accepted et a ops, et l + 1000000000 ≤ et s := by
    intro ops
    induction ops with
    | nil => intro a; simp [accepted]
    | cons op ops ih =>
      intro a
      cases op with
      | resize k => exact ih (a.step et (.resize k))
      | add s =>
        simp only [accepted]
        by_cases ha : a.accepts et s
        · rw [if_pos ha]
          have hst : a.step et (.add s) = ⟨a.size, some s, (a.samples ++ [s]).drop ((a.samples ++ [s]).length - a.size)⟩ := by
            simp only [Spec.step, if_pos ha]
          obtain ⟨h1, h2⟩ := ih (a.step et (.add s))
          have h3 : ∀ x ∈ accepted et (a.step et (.add s)) ops, et s + 1000000000 ≤ et x := by
            apply h2 s; rw [hst]; rfl
          refine ⟨List.pairwise_cons.mpr ⟨h3, h1⟩, ?_⟩
          intro l hl x hx
          have hls := ha.2 l hl
          rcases List.mem_cons.mp hx with rfl | hx
          · exact hls
          · have := h3 x hx; omega
        · rw [if_neg ha, List.nil_append]
          have hst : a.step et (.add s) = a := by simp only [Spec.step, if_neg ha]
          rw [hst]; exact ih a
  exact (key ops _).1

/-- Resizing keeps the newest spans and does not end the sample period. -/
theorem resize_newest (et : S → Int) (a : Spec S) (m : Nat) :
    (a.step et (.resize m)).samples <:+ a.samples ∧
      (a.step et (.resize m)).samples.length = min m a.samples.length ∧
      ∀ s, m ≠ 0 → a.size ≠ 0 → ((a.step et (.resize m)).accepts et s ↔ a.accepts et s) := by
  refine ⟨List.drop_suffix _ _, by simp [Spec.step]; omega, ?_⟩
  intro s hm ha
  simp [Spec.accepts, Spec.step, hm, ha]

/-- Non-trivial programs: size 2, one span rejected, one evicted, then a resize to 3 and to 1. -/
example : (Spec.run id ⟨2, none, []⟩ [.add 0, .add 5, .add 1000000000, .add 2000000000]).samples =
    [1000000000, 2000000000] := by decide
example : (brun id (makeBucket 2) [.add 0, .add 5, .add 1000000000, .add 2000000000, .resize 3,
    .add 3000000000]).bind (fun b => .ok (contents b)) = .ok [1000000000, 2000000000, 3000000000] := by decide +kernel
example : (brun id (makeBucket 2) [.add 0, .add 1000000000, .add 2000000000, .resize 1]).bind
    (fun b => .ok (contents b)) = .ok [2000000000] := by decide +kernel

/-! ## Latency buckets -/

/-- Every latency belongs to exactly one bucket: the one within whose bounds it lies (the last bucket
has no upper bound). -/
theorem latency_partition (x : Int) (hx : 0 ≤ x) (k : Nat) :
    latencyBucket x = k ↔ ∃ lo hi, latencyBucketBounds k = .ok (lo, hi) ∧ lo ≤ x ∧ (x < hi ∨ k = 8) := by
  unfold latencyBucket
  simp only [latencyBucketLoop, defaultLatencies]
  constructor
  · intro h
    subst h
    split
    · split
      · split
        · split
          · split
            · split
              · split
                · split
                  · exact ⟨60000000000, 2 ^ 63 - 1, rfl, by assumption, .inr rfl⟩
                  · exact ⟨10000000000, 60000000000, rfl, by assumption, .inl (by omega)⟩
                · exact ⟨1000000000, 10000000000, rfl, by assumption, .inl (by omega)⟩
              · exact ⟨100000000, 1000000000, rfl, by assumption, .inl (by omega)⟩
            · exact ⟨10000000, 100000000, rfl, by assumption, .inl (by omega)⟩
          · exact ⟨1000000, 10000000, rfl, by assumption, .inl (by omega)⟩
        · exact ⟨100000, 1000000, rfl, by assumption, .inl (by omega)⟩
      · exact ⟨10000, 100000, rfl, by assumption, .inl (by omega)⟩
    · exact ⟨0, 10000, rfl, hx, .inl (by omega)⟩
  · rintro ⟨lo, hi, h1, h2, h3⟩
    match k, h1 with
    | 0, h1 => cases h1; split <;> omega
    | 1, h1 => cases h1; (repeat' split) <;> omega
    | 2, h1 => cases h1; (repeat' split) <;> omega
    | 3, h1 => cases h1; (repeat' split) <;> omega
    | 4, h1 => cases h1; (repeat' split) <;> omega
    | 5, h1 => cases h1; (repeat' split) <;> omega
    | 6, h1 => cases h1; (repeat' split) <;> omega
    | 7, h1 => cases h1; (repeat' split) <;> omega
    | 8, h1 => cases h1; (repeat' split) <;> omega
    | k + 9, h1 =>
      simp [latencyBucketBounds, defaultLatencies] at h1

example : latencyBucket 99999 = 1 ∧ latencyBucket 100000 = 2 ∧ latencyBucket 60000000000 = 8 := by decide

end Verif.Props.Bucket
