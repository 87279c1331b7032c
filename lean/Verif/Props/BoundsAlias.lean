import Verif.View.BoundsAlias
import Verif.Props.Alias
import Verif.Props.Canon
import Mathlib.Data.List.Sort

/-!
# C80: distributions keep the bounds they were given

`Verif.Props.Agg` has the counts of a distribution whose bounds are a value. Here the bounds are the caller's slice.
-/

namespace Verif.Props.BoundsAlias
open Verif Verif.View Verif.View.Alias Verif.View.BoundsAlias Verif.Props.Alias

/-! ## Specification -/

/-- The samples recorded for row `i`. -/
def samplesOf (i : Nat) (ops : List Op) : List F64 :=
  ops.filterMap fun o => match o with
    | .sample j v => if j = i then some v else none
    | _ => none

/-- `v` belongs to bucket `j`: it is below bound `j` and not below any bound before. -/
def InBucket (B : List F64) (j : Nat) (v : F64) : Prop :=
  j ≤ B.length ∧ (∀ k b, k < j → B[k]? = some b → F64.lt v b = false) ∧ ∀ b, B[j]? = some b → F64.lt v b = true

/-- The aggregations an operation is about. -/
def aggs : Op → List Nat
  | .register a => [a]
  | .newRow a => [a]
  | _ => []

/-- The caller's bounds as a histogram should have them: the positive ones, in ascending order. -/
def Bounds (given B : List F64) : Prop :=
  B.Perm (given.filter fun b => F64.lt (.fin 0) b) ∧ B.Pairwise fun x y => F64.lt y x = false

/-- Every slice is within its array, any two are the same or disjoint. -/
structure Apart (h : List (List F64)) (sl : Nat → Slice) (ops : List Op) : Prop where
  inb : ∀ o ∈ ops, ∀ a ∈ aggs o, InBounds h (sl a)
  sep : ∀ o ∈ ops, ∀ a ∈ aggs o, ∀ p ∈ ops, ∀ b ∈ aggs p, sl a = sl b ∨ Disjoint (sl a) (sl b)

/-- Nobody writes to the arrays. -/
def NoPokes (ops : List Op) : Prop := ∀ arr i v, Op.poke arr i v ∉ ops

/-! ## Buckets -/

theorem bucketIndex_in (v : F64) (B : List F64) : InBucket B (bucketIndex v B) v := by
  induction B with
  | nil => exact ⟨Nat.le_refl _, by simp, by simp⟩
  | cons b B ih =>
    unfold bucketIndex
    by_cases h : Arith.lt v b = true
    · rw [if_pos h]
      exact ⟨Nat.zero_le _, by intro k b hk; omega, by intro b' hb; simp at hb; subst hb; exact h⟩
    · rw [if_neg h]
      have h' : F64.lt v b = false := Bool.eq_false_iff.2 h
      refine ⟨by have := ih.1; simp; omega, ?_, ?_⟩
      · intro k b' hk hb
        cases k with
        | zero => simp at hb; subst hb; exact h'
        | succ k => exact ih.2.1 k b' (by omega) (by simpa using hb)
      · intro b' hb; exact ih.2.2 b' (by simpa using hb)

theorem inBucket_unique {B : List F64} {i j : Nat} {v : F64} (h1 : InBucket B i v) (h2 : InBucket B j v) : i = j := by
  rcases Nat.lt_trichotomy i j with h | h | h
  · have : i < B.length := by have := h2.1; omega
    have e := h2.2.1 i B[i] h (List.getElem?_eq_getElem this)
    rw [h1.2.2 B[i] (List.getElem?_eq_getElem this)] at e; cases e
  · exact h
  · have : j < B.length := by have := h1.1; omega
    have e := h1.2.1 j B[j] h (List.getElem?_eq_getElem this)
    rw [h2.2.2 B[j] (List.getElem?_eq_getElem this)] at e; cases e

/-! ## Slices -/

/-- The bounds in order. -/
def srtF (l : List F64) : List F64 := l.mergeSort sortLe

/-- The bounds of a registered view. -/
def canon (l : List F64) : List F64 := dropZeroBounds (srtF l)

/-- The last `n` elements of a slice. -/
def suf (s : Slice) (n : Nat) : Slice := ⟨s.arr, s.off + (s.len - n), n⟩

theorem srtF_sorted (l : List F64) : (srtF l).Pairwise fun a b => sortLe a b = true :=
  List.pairwise_mergeSort (le := sortLe) Canon.sortLe_trans Canon.sortLe_total l

theorem srtF_srtF (l : List F64) : srtF (srtF l) = srtF l := List.mergeSort_of_pairwise (srtF_sorted l)

theorem srtF_length (l : List F64) : (srtF l).length = l.length := (List.mergeSort_perm l sortLe).length_eq

theorem drop_suffix (l : List F64) : (dropZeroBounds l).length ≤ l.length ∧
    dropZeroBounds l = l.drop (l.length - (dropZeroBounds l).length) := by
  induction l with
  | nil => simp [dropZeroBounds]
  | cons b l ih =>
    unfold dropZeroBounds
    split
    · simp
    · refine ⟨by have := ih.1; simp; omega, ?_⟩
      have h1 := ih.1
      rw [List.length_cons, show l.length + 1 - (dropZeroBounds l).length = (l.length - (dropZeroBounds l).length) + 1 by omega,
        List.drop_succ_cons]
      exact ih.2

theorem canon_bounds (l : List F64) : Bounds l (canon l) := by
  have hs := srtF_sorted l
  unfold canon
  refine ⟨?_, (Canon.sorted_pos hs).sublist (dropZeroBounds_sublist _)⟩
  rw [Canon.dropZeroBounds_eq _ hs]
  exact (List.mergeSort_perm l sortLe).filter _

theorem canon_sorted (l : List F64) : (canon l).Pairwise fun a b => sortLe a b = true :=
  (srtF_sorted l).sublist (dropZeroBounds_sublist _)

theorem canon_pos (l : List F64) : ∀ b ∈ canon l, F64.lt (.fin 0) b = true := by
  intro b hb
  have := (canon_bounds l).1.mem_iff.1 hb
  exact (List.mem_filter.1 this).2

theorem drop_pos {l : List F64} (h : ∀ b ∈ l, F64.lt (.fin 0) b = true) : dropZeroBounds l = l := by
  cases l with
  | nil => rfl
  | cons b l => unfold dropZeroBounds; rw [if_pos (h b (by simp))]

theorem pos_any {l : List F64} (h : ∀ b ∈ l, F64.lt (.fin 0) b = true) : l.any (fun b => F64.lt b (.fin 0)) = false := by
  rw [List.any_eq_false]
  intro b hb
  have := h b hb
  cases b <;> simp_all [F64.lt]
  linarith

theorem read_suf {h : List (List F64)} {s : Slice} (n : Nat) (hn : n ≤ s.len) :
    (suf s n).read h = (s.read h).drop (s.len - n) := by
  simp only [suf, Slice.read, List.drop_take, List.drop_drop]
  congr 1; omega

theorem inb_suf {h : List (List F64)} {s : Slice} (n : Nat) (hn : n ≤ s.len) (hb : InBounds h s) : InBounds h (suf s n) := by
  obtain ⟨a, ha, hl⟩ := hb
  exact ⟨a, ha, by simp only [suf]; omega⟩

theorem write_read {h : List (List F64)} {s : Slice} (hb : InBounds h s) : s.write h (s.read h) = h := by
  obtain ⟨a, ha, hl⟩ := hb
  have hlen : (s.read h).length = s.len := read_len ⟨a, ha, hl⟩
  unfold Slice.write
  apply List.ext_getElem?
  intro k
  rw [List.getElem?_modify]
  by_cases hk : s.arr = k
  · subst hk
    simp only [ha, if_true, Option.map_eq_map, Option.map_some]
    congr 1
    rw [hlen]
    simp only [Slice.read, ha, Option.getD_some]
    rw [List.append_assoc, ← List.drop_drop, List.take_append_drop, List.take_append_drop]
  · simp [hk]

/-! ## The invariant -/

theorem wrap_succ (n : Nat) : wrap64 (wrap64 (n : Int) + 1) = wrap64 ((n + 1 : Nat) : Int) := by
  simp only [wrap64]; push_cast; omega

theorem wrap_small {n : Nat} (h : n < 2 ^ 63) : wrap64 (n : Int) = n := by
  simp only [wrap64]; omega

/-- After the operations `done`: aggregation `a` was given the bounds `G a`. -/
structure Inv (sl : Nat → Slice) (P : Nat → Prop) (G : Nat → List F64) (done : List Op) (m : Mem) : Prop where
  inb : ∀ a, P a → InBounds m.arrays (sl a)
  same : ∀ a, P a → srtF ((sl a).read m.arrays) = srtF (G a)
  fresh : ∀ a, P a → m.live a = false → m.buckets a = sl a
  live : ∀ a, P a → m.live a = true → (sl a).read m.arrays = srtF (G a) ∧ m.buckets a = suf (sl a) (canon (G a)).length
  rows : ∀ i r, m.rows[i]? = some r → P r.agg ∧ m.live r.agg = true ∧ r.bounds = suf (sl r.agg) (canon (G r.agg)).length ∧
    r.cpb.length = (canon (G r.agg)).length + 1 ∧
    ∀ j, j < r.cpb.length →
      r.cpb[j]? = some (wrap64 (((samplesOf i done).countP fun v => bucketIndex v (canon (G r.agg)) = j : Nat) : Int))
  none : ∀ i, m.rows.length ≤ i → samplesOf i done = []

theorem samplesOf_snoc (i : Nat) (done : List Op) (o : Op) : samplesOf i (done ++ [o]) = samplesOf i done ++ samplesOf i [o] := by
  simp [samplesOf]

variable {sl : Nat → Slice} {P : Nat → Prop} {G : Nat → List F64} {done : List Op} {m : Mem}

theorem Inv.len (h : Inv sl P G done m) {a : Nat} (ha : P a) : (G a).length = (sl a).len := by
  have h1 := congrArg List.length (h.same a ha)
  rw [srtF_length, srtF_length, read_len (h.inb a ha)] at h1
  exact h1.symm

theorem Inv.canon_len (h : Inv sl P G done m) {a : Nat} (ha : P a) : (canon (G a)).length ≤ (sl a).len := by
  have := (drop_suffix (srtF (G a))).1
  rw [srtF_length, h.len ha] at this
  exact this

/-- The bounds of a registered aggregation, as they are read. -/
theorem Inv.read (h : Inv sl P G done m) {a : Nat} (ha : P a) (hl : m.live a = true) :
    (suf (sl a) (canon (G a)).length).read m.arrays = canon (G a) := by
  rw [read_suf _ (h.canon_len ha), (h.live a ha hl).1]
  have h2 := (drop_suffix (srtF (G a))).2
  rw [srtF_length, h.len ha] at h2
  exact h2.symm

/-- Nothing happens to the rows. -/
theorem Inv.quiet (h : Inv sl P G done m) {o : Op} (ho : ∀ i, samplesOf i [o] = []) : Inv sl P G (done ++ [o]) m := by
  refine ⟨h.inb, h.same, h.fresh, h.live, ?_, ?_⟩
  · intro i r hr
    rw [samplesOf_snoc, ho, List.append_nil]
    exact h.rows i r hr
  · intro i hi
    rw [samplesOf_snoc, ho, List.append_nil]
    exact h.none i hi

theorem Inv.register (h : Inv sl P G done m) (sep : ∀ a b, P a → P b → sl a = sl b ∨ Disjoint (sl a) (sl b))
    (hG : ∀ a b, P a → P b → sl a = sl b → G a = G b) {a : Nat} (ha : P a) :
    Inv sl P G (done ++ [.register a]) (BoundsAlias.register m a) := by
  refine Inv.quiet ?_ (fun i => rfl)
  cases hl : m.live a with
  | true =>
    -- the slice is in order already
    have hb := (h.live a ha hl).2
    have hr := h.read ha hl
    have hib := inb_suf _ (h.canon_len ha) (h.inb a ha)
    have hsort : (canon (G a)).mergeSort sortLe = canon (G a) := List.mergeSort_of_pairwise (canon_sorted _)
    have hw : (m.buckets a).write m.arrays (((m.buckets a).read m.arrays).mergeSort sortLe) = m.arrays := by
      have hw' := write_read hib
      rw [hr] at hw'
      rw [hb, hr, hsort, hw']
    have hd : dropZeros m.arrays (m.buckets a) = m.buckets a := by
      unfold dropZeros
      rw [hb, hr, drop_pos (canon_pos _)]
      simp [suf]
    unfold BoundsAlias.register
    simp only [hw]
    rw [if_neg (by rw [hb, hr, pos_any (canon_pos _)]; simp), hd]
    have e1 : (fun b => if b = a then m.buckets a else m.buckets b) = m.buckets := by
      funext b; split <;> simp_all
    have e2 : (fun b => if b = a then true else m.live b) = m.live := by
      funext b; split <;> simp_all
    rw [e1, e2]
    exact h
  | false =>
    have hb := h.fresh a ha hl
    have hib := h.inb a ha
    have hlen : (srtF ((sl a).read m.arrays)).length = (sl a).len := by rw [srtF_length, read_len hib]
    have hsame := read_write_same hib hlen
    have hother : ∀ b, P b → sl a = sl b ∨ (sl b).read ((sl a).write m.arrays (srtF ((sl a).read m.arrays))) = (sl b).read m.arrays := by
      intro b hb'
      rcases sep a b ha hb' with he | he
      · exact .inl he
      · exact .inr (read_write_disjoint hib he hlen)
    have hreada : (sl a).read ((sl a).write m.arrays (srtF ((sl a).read m.arrays))) = srtF (G a) := by
      rw [hsame, h.same a ha]
    -- whatever else happens, the arrays are fine
    have inb' : ∀ b, P b → InBounds ((sl a).write m.arrays (srtF ((sl a).read m.arrays))) (sl b) :=
      fun b hb' => inb_write hib hlen (h.inb b hb')
    have same' : ∀ b, P b → srtF ((sl b).read ((sl a).write m.arrays (srtF ((sl a).read m.arrays)))) = srtF (G b) := by
      intro b hb'
      rcases hother b hb' with he | he
      · rw [← he, hreada, srtF_srtF, hG a b ha hb' he]
      · rw [he]; exact h.same b hb'
    have live' : ∀ b, P b → m.live b = true →
        (sl b).read ((sl a).write m.arrays (srtF ((sl a).read m.arrays))) = srtF (G b) := by
      intro b hb' hlb
      rcases hother b hb' with he | he
      · rw [← he, hreada, hG a b ha hb' he]
      · rw [he]; exact (h.live b hb' hlb).1
    have harr : (m.buckets a).write m.arrays (((m.buckets a).read m.arrays).mergeSort sortLe) =
        (sl a).write m.arrays (srtF ((sl a).read m.arrays)) := by rw [hb]; rfl
    unfold BoundsAlias.register
    simp only [harr]
    split
    · exact ⟨inb', same', h.fresh, fun b hb' hlb => ⟨live' b hb' hlb, (h.live b hb' hlb).2⟩, h.rows, h.none⟩
    · refine ⟨inb', same', ?_, ?_, ?_, h.none⟩
      · intro b hb' hlb
        simp only at hlb ⊢
        by_cases he : b = a
        · rw [if_pos he] at hlb; cases hlb
        · rw [if_neg he] at hlb ⊢; exact h.fresh b hb' hlb
      · intro b hb' hlb
        simp only at hlb ⊢
        by_cases he : b = a
        · subst he
          rw [if_pos rfl]
          refine ⟨hreada, ?_⟩
          unfold dropZeros
          rw [hb, hreada]
          rfl
        · rw [if_neg he] at hlb ⊢
          exact ⟨live' b hb' hlb, (h.live b hb' hlb).2⟩
      · intro i r hr
        obtain ⟨h1, h2, h3⟩ := h.rows i r hr
        refine ⟨h1, ?_, h3⟩
        show (if r.agg = a then true else m.live r.agg) = true
        split
        · rfl
        · exact h2

theorem Inv.newRow (h : Inv sl P G done m) {a : Nat} (ha : P a) {m' : Mem} (hs : BoundsAlias.newRow m a = .ok m') :
    Inv sl P G (done ++ [.newRow a]) m' := by
  unfold BoundsAlias.newRow at hs
  split at hs
  · rename_i hl
    cases hs
    have hb := (h.live a ha hl).2
    have hq := h.quiet (o := .newRow a) (fun i => rfl)
    refine ⟨hq.inb, hq.same, hq.fresh, hq.live, ?_, ?_⟩
    · intro i r hr
      simp only at hr
      rcases Nat.lt_or_ge i m.rows.length with hi | hi
      · rw [List.getElem?_append_left hi] at hr
        exact hq.rows i r hr
      · rw [List.getElem?_append_right hi] at hr
        have h0 : i - m.rows.length = 0 := by
          by_contra hne
          rw [List.getElem?_eq_none (by simp; omega)] at hr; cases hr
        rw [h0] at hr
        simp only [List.getElem?_cons_zero, Option.some.injEq] at hr
        subst hr
        refine ⟨ha, hl, hb, by simp [hb, suf], ?_⟩
        intro j hj
        rw [hq.none i hi]
        simp only [List.length_replicate] at hj
        simp [hj, wrap64]
    · intro i hi
      simp only [List.length_append, List.length_singleton] at hi
      exact hq.none i (by omega)
  · cases hs

theorem Inv.sample (h : Inv sl P G done m) {i : Nat} {v : F64} {m' : Mem} (hs : BoundsAlias.sample m i v = .ok m') :
    Inv sl P G (done ++ [.sample i v]) m' := by
  unfold BoundsAlias.sample at hs
  cases hr : m.rows[i]? with
  | none => rw [hr] at hs; cases hs
  | some r =>
    rw [hr] at hs
    simp only at hs
    obtain ⟨hP, hl, hb, hlen, hc⟩ := h.rows i r hr
    have hread := h.read hP hl
    rw [hb, hread] at hs
    have hin : bucketIndex v (canon (G r.agg)) < r.cpb.length := by
      have := (bucketIndex_in v (canon (G r.agg))).1
      omega
    unfold modifyAt at hs
    rw [if_pos hin] at hs
    simp only [Res.bind] at hs
    cases hs
    have hil : i < m.rows.length := by
      by_contra hc'
      rw [List.getElem?_eq_none (by omega)] at hr; cases hr
    refine ⟨h.inb, h.same, h.fresh, h.live, ?_, ?_⟩
    · intro k q hq
      rw [samplesOf_snoc]
      by_cases hk : i = k
      · subst hk
        rw [List.getElem?_set_self hil] at hq
        cases hq
        refine ⟨hP, hl, rfl, by simpa using hlen, ?_⟩
        intro j hj
        simp only [List.length_modify] at hj
        rw [List.getElem?_modify, hc j hj]
        have hsi : samplesOf i [.sample i v] = [v] := by simp [samplesOf]
        rw [hsi, List.countP_append]
        by_cases hj' : bucketIndex v (canon (G r.agg)) = j
        · simp only [hj', if_true, Option.map_eq_map, Option.map_some]
          rw [wrap_succ, List.countP_cons_of_pos (by simpa using hj')]
          rfl
        · rw [List.countP_cons_of_neg (by simpa using hj')]
          simp [hj']
      · rw [List.getElem?_set_ne hk] at hq
        have hsk : samplesOf k [.sample i v] = [] := by simp [samplesOf, hk]
        rw [hsk, List.append_nil]
        exact h.rows k q hq
    · intro k hk
      simp only [List.length_set] at hk
      rw [samplesOf_snoc, h.none k hk]
      have : i ≠ k := by omega
      simp [samplesOf, this]

theorem run_inv (sep : ∀ a b, P a → P b → sl a = sl b ∨ Disjoint (sl a) (sl b))
    (hG : ∀ a b, P a → P b → sl a = sl b → G a = G b) : ∀ (ops done : List Op) (m m' : Mem), Inv sl P G done m →
    (∀ o ∈ ops, ∀ a ∈ aggs o, P a) → NoPokes ops → run m ops = .ok m' → Inv sl P G (done ++ ops) m' := by
  intro ops
  induction ops with
  | nil => intro done m m' h _ _ hr; cases hr; rw [List.append_nil]; exact h
  | cons o ops ih =>
    intro done m m' h hP hnp hr
    unfold run at hr
    have step1 : ∀ m1, step m o = .ok m1 → Inv sl P G (done ++ [o]) m1 := by
      intro m1 h1
      cases o with
      | register a => cases h1; exact h.register sep hG (hP (.register a) (by simp) a (by simp [aggs]))
      | newRow a => exact h.newRow (hP (.newRow a) (by simp) a (by simp [aggs])) h1
      | sample i v => exact h.sample h1
      | poke arr i v => exact absurd (List.mem_cons_self) (hnp arr i v)
    cases h1 : step m o with
    | ok m1 =>
      rw [h1] at hr
      have := ih (done ++ [o]) m1 m' (step1 m1 h1) (fun o ho => hP o (by simp [ho]))
        (fun arr i v hm => hnp arr i v (by simp [hm])) hr
      rwa [List.append_assoc] at this
    | err => rw [h1] at hr; cases hr
    | panic => rw [h1] at hr; cases hr

/-! ## Theorems -/

open Classical in
/-- **C80.** If the slices of any two aggregations are the same or have no element in common, and nobody writes to
them: whatever is registered, again or for the first time, accepted or refused, the bounds of every row are the
positive ones of those its aggregation was given, in order, and each count is the number of its samples in the
bucket. Missing: slices that overlap (`overlap_misplaces`) and writes by the caller (`caller_moves_bounds`). -/
theorem rows_right_partial (h0 : List (List F64)) (sl : Nat → Slice) (ops : List Op) (m : Mem) (hap : Apart h0 sl ops)
    (hnp : NoPokes ops) (hr : run (init h0 sl) ops = .ok m) (i : Nat) (r : Row) (hi : m.rows[i]? = some r) :
    Bounds ((sl r.agg).read h0) (r.bounds.read m.arrays) ∧
    r.cpb.length = (r.bounds.read m.arrays).length + 1 ∧
    ((samplesOf i ops).length < 2 ^ 63 → ∀ j, j < r.cpb.length →
      r.cpb[j]? = some (((samplesOf i ops).countP fun v => decide (InBucket (r.bounds.read m.arrays) j v) : Nat) : Int)) := by
  let P : Nat → Prop := fun a => ∃ o ∈ ops, a ∈ aggs o
  have h : Inv sl P (fun a => (sl a).read h0) ([] ++ ops) m := by
    refine run_inv ?_ ?_ ops [] (init h0 sl) m ?_ ?_ hnp hr
    · rintro a b ⟨o, ho, ha⟩ ⟨p, hp, hb⟩
      exact hap.sep o ho a ha p hp b hb
    · intro a b _ _ he
      simp only [he]
    · refine ⟨?_, fun a _ => rfl, fun a _ _ => rfl, ?_, ?_, fun i _ => rfl⟩
      · rintro a ⟨o, ho, ha⟩
        exact hap.inb o ho a ha
      · intro a _ hl; cases hl
      · intro i r hr'; simp [init] at hr'
    · intro o ho a ha
      exact ⟨o, ho, ha⟩
  rw [List.nil_append] at h
  obtain ⟨hP, hl, hb, hlen, hc⟩ := h.rows i r hi
  have hread := h.read hP hl
  rw [hb, hread]
  refine ⟨canon_bounds _, hlen, ?_⟩
  intro hn j hj
  rw [hc j hj]
  have hle : (samplesOf i ops).countP (fun v => bucketIndex v (canon ((sl r.agg).read h0)) = j) ≤ (samplesOf i ops).length :=
    List.countP_le_length
  rw [wrap_small (by omega)]
  congr 2
  apply List.countP_congr
  intro v _
  simp only [decide_eq_true_eq]
  constructor
  · rintro rfl; exact bucketIndex_in _ _
  · intro hin; exact inBucket_unique (bucketIndex_in _ _) hin

/-- **C80.** No sample makes the program panic, and every row that exists takes it. -/
theorem no_panic (h0 : List (List F64)) (sl : Nat → Slice) (ops : List Op) (m : Mem) (hap : Apart h0 sl ops)
    (hnp : NoPokes ops) (hr : run (init h0 sl) ops = .ok m) (i : Nat) (v : F64) (hi : i < m.rows.length) :
    ∃ m', step m (.sample i v) = .ok m' := by
  have h := rows_right_partial h0 sl ops m hap hnp hr i m.rows[i] (List.getElem?_eq_getElem hi)
  have hin := (bucketIndex_in v (m.rows[i].bounds.read m.arrays)).1
  have hm : modifyAt m.rows[i].cpb (bucketIndex v (m.rows[i].bounds.read m.arrays)) (fun c => wrap64 (c + 1)) =
      .ok (m.rows[i].cpb.modify (bucketIndex v (m.rows[i].bounds.read m.arrays)) (fun c => wrap64 (c + 1))) := by
    unfold modifyAt; exact if_pos (by omega)
  simp only [step, BoundsAlias.sample, List.getElem?_eq_getElem hi, hm]
  exact ⟨_, rfl⟩

/-! ## Where it fails -/

/-- The order in which a slice is sorted is unique, so any sort computes it. -/
theorem sort_eq (l : List F64) : l.mergeSort sortLe = l.insertionSort fun a b => sortLe a b = true := by
  have hp : (l.mergeSort sortLe).Perm (l.insertionSort fun a b => sortLe a b = true) :=
    (List.mergeSort_perm l sortLe).trans (List.perm_insertionSort _ l).symm
  have : Std.Total (fun a b => sortLe a b = true) := ⟨fun a b => by simpa using Canon.sortLe_total a b⟩
  have : IsTrans F64 (fun a b => sortLe a b = true) := ⟨Canon.sortLe_trans⟩
  refine hp.eq_of_pairwise ?_ (srtF_sorted l) (List.pairwise_insertionSort _ l)
  intro a b _ _ h1 h2
  cases a <;> cases b <;> simp_all [sortLe, F64.lt]
  linarith

/-- `register` with a sort that the kernel can run. -/
def registerI (m : Mem) (a : Nat) : Mem :=
  let s := m.buckets a
  let h := s.write m.arrays ((s.read m.arrays).insertionSort fun a b => sortLe a b = true)
  if (s.read h).any (fun b => F64.lt b (.fin 0)) then { m with arrays := h }
  else { m with arrays := h, buckets := fun b => if b = a then dropZeros h s else m.buckets b,
                live := fun b => if b = a then true else m.live b }

def runI (m : Mem) : List Op → Res Mem
  | [] => .ok m
  | .register a :: os => runI (registerI m a) os
  | o :: os => (step m o).bind fun m => runI m os

theorem run_eq (m : Mem) (ops : List Op) : run m ops = runI m ops := by
  induction ops generalizing m with
  | nil => rfl
  | cons o ops ih =>
    have ih' : (fun m => run m ops) = fun m => runI m ops := funext ih
    cases o with
    | register a =>
      have : BoundsAlias.register m a = registerI m a := by
        unfold BoundsAlias.register registerI; simp only [sort_eq]
      simp only [run, step, Res.bind, runI, this, ih]
    | _ => simp only [run, runI, ih']

/-- Bounds and counts of the rows. -/
def shown : Res Mem → Option (List (List F64 × List Int))
  | .ok m => some (m.rows.map fun r => (r.bounds.read m.arrays, r.cpb))
  | _ => none

theorem shown_some {x : Res Mem} {l : List (List F64 × List Int)} (h : shown x = some l) :
    ∃ m, x = .ok m ∧ m.rows.map (fun r => (r.bounds.read m.arrays, r.cpb)) = l := by
  cases x with
  | ok m => exact ⟨m, rfl, Option.some.inj h⟩
  | err => cases h
  | panic => cases h

/-- Two distributions made from slices of one array: `bounds[0:2]` and `bounds[1:3]` of `4, 8, 2`. -/
def exArrays : List (List F64) := [[.fin 4, .fin 8, .fin 2]]

def exSlices : Nat → Slice := fun a => if a = 0 then ⟨0, 0, 2⟩ else ⟨0, 1, 2⟩

/-- **C80, a violation.** Registering the second view moves the bounds of the first: its row has the bounds 4 and 2,
and a sample of 5 is counted as greater than all bounds, though it is less than 8. -/
theorem overlap_misplaces :
    (∃ m, run (init exArrays exSlices) [.register 0, .newRow 0, .register 1, .sample 0 (.fin 5)] = .ok m ∧
      m.rows.map (fun r => (r.bounds.read m.arrays, r.cpb)) = [([.fin 4, .fin 2], [0, 0, 1])]) ∧
    InBucket [.fin 4, .fin 8] 1 (.fin 5) := by
  refine ⟨shown_some (by rw [run_eq]; decide +kernel), by decide, ?_, ?_⟩
  · intro k b hk hb
    obtain rfl : k = 0 := by omega
    simp at hb; subst hb; decide +kernel
  · intro b hb
    simp at hb; subst hb; decide +kernel

/-- **C80, a violation.** A caller that goes on using its slice of bounds moves the bounds of the rows there are. -/
theorem caller_moves_bounds : ∃ m, run (init [[.fin 4, .fin 8]] (fun _ => ⟨0, 0, 2⟩))
      [.register 0, .newRow 0, .poke 0 0 (.fin 100), .sample 0 (.fin 5)] = .ok m ∧
    m.rows.map (fun r => (r.bounds.read m.arrays, r.cpb)) = [([.fin 100, .fin 8], [1, 0, 0])] :=
  shown_some (by rw [run_eq]; decide +kernel)

/-! ## The hypotheses can be met -/

/-- Two aggregations with the same slice, one with its own; unsorted, with a zero. -/
def okSlices : Nat → Slice := fun a => if a = 2 then ⟨0, 3, 1⟩ else ⟨0, 0, 3⟩

def okOps : List Op := [.register 0, .newRow 0, .sample 0 (.fin 5), .register 1, .register 2, .newRow 1, .newRow 2,
  .sample 0 (.fin 1), .register 0, .sample 2 (.fin 7), .sample 0 (.fin 9)]

example : Apart [[.fin 8, .fin 0, .fin 4, .fin 6]] okSlices okOps ∧ NoPokes okOps := by
  refine ⟨⟨?_, ?_⟩, ?_⟩
  · intro o ho a ha
    refine ⟨_, (by simp [okSlices]; split <;> rfl), ?_⟩
    simp only [okSlices]; split <;> simp
  · intro o ho a ha p hp b hb
    simp only [okSlices]
    by_cases h1 : a = 2 <;> by_cases h2 : b = 2 <;> simp [h1, h2, Alias.Disjoint]
  · intro arr i v h; simp [okOps] at h

example : ∃ m, run (init [[.fin 8, .fin 0, .fin 4, .fin 6]] okSlices) okOps = .ok m ∧
    m.rows.map (fun r => (r.bounds.read m.arrays, r.cpb)) =
      [([.fin 4, .fin 8], [1, 1, 1]), ([.fin 4, .fin 8], [0, 0, 0]), ([.fin 6], [0, 1])] :=
  shown_some (by rw [run_eq]; decide +kernel)

end Verif.Props.BoundsAlias
