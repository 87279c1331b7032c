import Verif.View.Agg

/-!
# Properties of the aggregations: C12, C13, C14 and the data part of C11

A row's datum is created by the view's aggregation and then fed the row's samples in order
(`newDistributionData` followed by `addAll`; `Props.Collector` shows that this is what happens to
every row).
-/

namespace Verif.Props.Agg
open Verif Verif.View

/-! ## C12: buckets -/

/-- Bucket `i` of the bounds `bs`, as documented for `Distribution` (stats/view/aggregation.go
84-90): not below the bound before it, below the bound after it. `bs[i]?` is `none` past the end. -/
def InBucket (bs : List F64) (i : Nat) (v : F64) : Prop :=
  i ≤ bs.length ∧ (∀ b, 0 < i → bs[i - 1]? = some b → F64.lt v b = false) ∧
    (∀ b, bs[i]? = some b → F64.lt v b = true)

instance (bs : List F64) (i : Nat) (v : F64) : Decidable (InBucket bs i v) :=
  decidable_of_iff (i ≤ bs.length ∧ (0 < i → (bs[i - 1]?.all fun b => !F64.lt v b) = true) ∧
      (bs[i]?.all fun b => F64.lt v b) = true) (by
    unfold InBucket
    refine and_congr_right fun _ => and_congr ?_ ?_
    · cases bs[i - 1]? <;> simp
    · cases bs[i]? <;> simp)

/-- Bounds a registered distribution has: numbers, in non-decreasing order. -/
def SortedBounds (bs : List F64) : Prop :=
  (∀ b ∈ bs, b.IsNum) ∧ bs.Pairwise (fun a b => F64.lt b a = false)

theorem bucketIndex_spec (bs : List F64) (v : F64) : InBucket bs (bucketIndex v bs) v := by
  induction bs with
  | nil => simp [bucketIndex, InBucket]
  | cons b bs ih =>
    simp only [bucketIndex]
    by_cases h : (Arith.lt v b : Bool) = true
    · rw [if_pos h]
      refine ⟨by simp, by simp, ?_⟩
      intro b' hb'; simp at hb'; subst hb'; exact h
    · rw [if_neg h]
      obtain ⟨h1, h2, h3⟩ := ih
      refine ⟨by simpa using h1, ?_, ?_⟩
      · intro b' _ hb'
        rcases Nat.eq_zero_or_pos (bucketIndex v bs) with hz | hp
        · rw [hz] at hb'; simp at hb'; subst hb'; exact Bool.eq_false_iff.mpr h
        · apply h2 b' hp
          rw [Nat.add_sub_cancel] at hb'
          obtain ⟨k, hk⟩ : ∃ k, bucketIndex v bs = k + 1 := ⟨bucketIndex v bs - 1, by omega⟩
          rw [hk] at hb' ⊢
          simpa using hb'
      · intro b' hb'; exact h3 b' (by simpa using hb')

/-- With sorted bounds a value is in exactly one bucket. -/
theorem inBucket_iff {bs : List F64} (hs : SortedBounds bs) (v : F64) (i : Nat) :
    InBucket bs i v ↔ bucketIndex v bs = i := by
  constructor
  · intro h
    have h' := bucketIndex_spec bs v
    -- two different buckets cannot both contain `v`
    have excl : ∀ i j, i < j → InBucket bs i v → InBucket bs j v → False := by
      intro i j hij hi hj
      have hjl := hj.1
      have h1 : bs[i]? = some bs[i] := List.getElem?_eq_getElem (by omega)
      have h2 : bs[j - 1]? = some bs[j - 1] := List.getElem?_eq_getElem (by omega)
      have ha := hi.2.2 _ h1
      have hb := hj.2.1 _ (by omega) h2
      have hnum : (bs[j - 1]).IsNum := hs.1 _ (List.getElem_mem _)
      rcases Nat.lt_or_ge i (j - 1) with hlt | hge
      · have := List.pairwise_iff_getElem.mp hs.2 i (j - 1) (by omega) (by omega) hlt
        have := F64.lt_of_lt_of_nlt hnum ha this
        simp [this] at hb
      · have : i = j - 1 := by omega
        subst this
        simp [ha] at hb
    rcases Nat.lt_trichotomy (bucketIndex v bs) i with hlt | heq | hgt
    · exact (excl _ _ hlt h' h).elim
    · exact heq
    · exact (excl _ _ hgt h h').elim
  · rintro rfl; exact bucketIndex_spec bs v

/-- The wrapping counter stays exact below `2 ^ 63`. -/
theorem wrap64_id {x : Int} (h0 : -2 ^ 63 ≤ x) (h : x < 2 ^ 63) : wrap64 x = x := by
  unfold wrap64; omega

theorem foldl_next_bounds (ss : List (Sample F64)) (d : Dist F64) :
    (ss.foldl Dist.next d).bounds = d.bounds := by
  induction ss generalizing d with
  | nil => rfl
  | cons s ss ih => rw [List.foldl_cons, ih]; rfl

theorem next_cpb (d : Dist F64) (s : Sample F64) (i : Nat) :
    (d.next s).cpb[i]? = (d.cpb[i]?).map (fun c =>
      if bucketIndex s.v d.bounds = i then wrap64 (c + 1) else c) := by
  simp only [Dist.next, List.getElem?_modify]
  split <;> simp

theorem cpb_fold (ss : List (Sample F64)) (d : Dist F64) (i : Nat) (c : Int)
    (hi : d.cpb[i]? = some c) (hc0 : 0 ≤ c) (hb : c + ss.length < 2 ^ 63) :
    (ss.foldl Dist.next d).cpb[i]? =
      some (c + ss.countP (fun s => decide (bucketIndex s.v d.bounds = i))) := by
  induction ss generalizing d c with
  | nil => simpa using hi
  | cons s ss ih =>
    simp only [List.length_cons, Nat.cast_add, Nat.cast_one] at hb
    rw [List.foldl_cons]
    have hn := next_cpb d s i
    rw [hi] at hn
    simp only [Option.map_some] at hn
    by_cases h : bucketIndex s.v d.bounds = i
    · rw [if_pos h, wrap64_id (by omega) (by omega)] at hn
      rw [ih _ _ hn (by omega) (by omega)]
      simp [Dist.next, h]; omega
    · rw [if_neg h] at hn
      rw [ih _ _ hn hc0 (by omega)]
      simp [Dist.next, h]

/-- C12. After any sequence of samples (fewer than `2 ^ 63`), a distribution with `n` sorted bounds
has `n + 1` buckets and bucket `i` counts exactly the samples lying in it. -/
theorem dist_buckets_count (bs : List F64) (hs : SortedBounds bs) (t : Int)
    (ss : List (Sample F64)) (hlen : ss.length < 2 ^ 63) :
    ∃ d, (newDistributionData bs t).addAll ss = .ok d ∧ d.cpb.length = bs.length + 1 ∧
      ∀ i, i ≤ bs.length → d.cpb[i]? = some (ss.countP (fun s => decide (InBucket bs i s.v)) : Int) := by
  refine ⟨_, Dist.addAll_eq _ (newDistributionData_shape bs t) ss, ?_, ?_⟩
  · have : ∀ (ss : List (Sample F64)) (d : Dist F64),
        (ss.foldl Dist.next d).cpb.length = d.cpb.length := by
      intro ss
      induction ss with
      | nil => intro d; rfl
      | cons s ss ih => intro d; rw [List.foldl_cons, ih]; simp [Dist.next]
    rw [this]; simp [newDistributionData]
  · intro i hi
    have h0 : (newDistributionData bs t).cpb[i]? = some 0 := by
      simp only [newDistributionData, List.getElem?_replicate]; rw [if_pos (by omega)]
    rw [cpb_fold ss _ i 0 h0 (by omega) (by omega), Int.zero_add]
    congr 3
    funext s
    exact decide_eq_decide.mpr (inBucket_iff hs s.v i).symm

/-- C12. The bucket counts add up to the number of samples, which is `Count`. -/
theorem dist_buckets_sum (bs : List F64) (t : Int) (ss : List (Sample F64))
    (hlen : ss.length < 2 ^ 63) :
    ∃ d, (newDistributionData bs t).addAll ss = .ok d ∧ d.count = ss.length ∧
      d.cpb.sum = ss.length := by
  refine ⟨_, Dist.addAll_eq _ (newDistributionData_shape bs t) ss, ?_⟩
  have sum_modify : ∀ (l : List Int) (i : Nat), i < l.length →
      (l.modify i (· + 1)).sum = l.sum + 1 := by
    intro l
    induction l with
    | nil => simp
    | cons x l ih =>
      intro i hi
      cases i with
      | zero => simp; ring
      | succ i => simp at hi; simp [ih i hi]; ring
  have key : ∀ (ss : List (Sample F64)) (d : Dist F64), d.Shape → (∀ c ∈ d.cpb, 0 ≤ c) →
      d.cpb.sum = d.count → d.count + ss.length < 2 ^ 63 →
      (ss.foldl Dist.next d).count = d.count + ss.length ∧
      (ss.foldl Dist.next d).cpb.sum = d.count + ss.length := by
    intro ss
    induction ss with
    | nil => intro d _ _ hsum _; simpa using hsum
    | cons s ss ih =>
      intro d hsh hnn hsum hlt
      simp only [List.length_cons, Nat.cast_add, Nat.cast_one] at hlt
      have hidx := bucketIndex_le s.v d.bounds
      have hcl : ∀ c ∈ d.cpb, c ≤ d.cpb.sum := by
        intro c hc; exact List.single_le_sum hnn c hc
      have hd0 : 0 ≤ d.count := by rw [← hsum]; exact List.sum_nonneg hnn
      have hmod : d.cpb.modify (bucketIndex s.v d.bounds) (fun c => wrap64 (c + 1)) =
          d.cpb.modify (bucketIndex s.v d.bounds) (· + 1) := by
        apply List.ext_getElem?
        intro j
        simp only [List.getElem?_modify]
        rcases hg : d.cpb[j]? with _ | c
        · simp
        · have hm : c ∈ d.cpb := List.mem_of_getElem? hg
          have := hcl c hm
          have := hnn c hm
          have e : wrap64 (c + 1) = c + 1 := wrap64_id (by omega) (by omega)
          split
          · simp [e]
          · rfl
      have hc : (d.next s).count = d.count + 1 := by
        simp only [Dist.next]; exact wrap64_id (by omega) (by omega)
      have hcpb : (d.next s).cpb = d.cpb.modify (bucketIndex s.v d.bounds) (· + 1) := by
        simp only [Dist.next]; exact hmod
      have := ih (d.next s) (Dist.next_shape hsh s) ?_ ?_ ?_
      · rw [List.foldl_cons, this.1, this.2, hc]
        simp only [List.length_cons, Nat.cast_add, Nat.cast_one]
        constructor <;> ring
      · rw [hcpb]
        intro c hcm
        obtain ⟨j, hj⟩ := List.getElem?_of_mem hcm
        rw [List.getElem?_modify] at hj
        rcases hg : d.cpb[j]? with _ | c'
        · simp [hg] at hj
        · have := hnn c' (List.mem_of_getElem? hg)
          rw [hg] at hj
          simp only [Option.map_eq_map, Option.map_some, Option.some.injEq] at hj
          split at hj <;> omega
      · rw [hcpb, hc, sum_modify _ _ (by have := hsh.1; omega), hsum]
      · rw [hc]; omega
  have := key ss (newDistributionData bs t) (newDistributionData_shape bs t)
    (by intro c hc; simp [newDistributionData] at hc; omega)
    (by simp [newDistributionData]) (by simpa [newDistributionData] using hlen)
  simpa [newDistributionData] using this

/-- C12. The exemplar of bucket `i` is made from the last sample with attachments that fell into
the bucket, and there is none if no such sample was recorded. -/
theorem dist_exemplar_last (bs : List F64) (hs : SortedBounds bs) (t : Int)
    (ss : List (Sample F64)) :
    ∃ d, (newDistributionData bs t).addAll ss = .ok d ∧
      ∀ i, i ≤ bs.length → d.epb[i]? =
        some (((ss.filter (fun s => decide (s.att ≠ [] ∧ InBucket bs i s.v))).getLast?).map
          fun s => ⟨s.v, s.t, s.att⟩) := by
  refine ⟨_, Dist.addAll_eq _ (newDistributionData_shape bs t) ss, ?_⟩
  intro i hi
  have key : ∀ (ss : List (Sample F64)) (d : Dist F64) (o : Option (Exemplar F64)),
      d.bounds = bs → d.epb[i]? = some o →
      (ss.foldl Dist.next d).epb[i]? = some
        ((((ss.filter (fun s => decide (s.att ≠ [] ∧ InBucket bs i s.v))).getLast?).map
          fun s => (⟨s.v, s.t, s.att⟩ : Exemplar F64)).or o) := by
    intro ss
    induction ss with
    | nil => intro d o _ h; simpa using h
    | cons s ss ih =>
      intro d o hb ho
      rw [List.foldl_cons]
      by_cases hp : s.att ≠ [] ∧ InBucket bs i s.v
      · have hn : (d.next s).epb[i]? = some (some ⟨s.v, s.t, s.att⟩) := by
          have hbi : bucketIndex s.v d.bounds = i := by rw [hb]; exact (inBucket_iff hs _ _).mp hp.2
          simp only [Dist.next]
          rw [if_neg (by simpa using hp.1), List.getElem?_modify, ho]
          simp [hbi]
        rw [ih _ _ (by simpa [Dist.next] using hb) hn, List.filter_cons, if_pos (by simpa using hp)]
        congr 1
        rw [List.getLast?_cons]
        cases h : (ss.filter (fun s => decide (s.att ≠ [] ∧ InBucket bs i s.v))).getLast? <;> simp
      · have hn : (d.next s).epb[i]? = some o := by
          simp only [Dist.next]
          split
          · exact ho
          · next h =>
            have hbi : bucketIndex s.v d.bounds ≠ i := by
              rw [hb]
              intro hc
              exact hp ⟨by simpa using h, (inBucket_iff hs _ _).mpr hc⟩
            rw [List.getElem?_modify, ho]
            simp [hbi]
        rw [ih _ _ (by simpa [Dist.next] using hb) hn, List.filter_cons, if_neg (by simpa using hp)]
  have h0 : (newDistributionData bs t).epb[i]? = some none := by
    simp only [newDistributionData, List.getElem?_replicate]; rw [if_pos (by omega)]
  rw [key ss _ none rfl h0]
  simp

/-- The hypotheses of the C12 theorems hold for the bounds 1, 2, 5 and a few samples, including a
value on a boundary and a NaN. -/
example : SortedBounds [.fin 1, .fin 2, .fin 5] ∧
    InBucket [.fin 1, .fin 2, .fin 5] 1 (.fin 1) ∧ ¬ InBucket [.fin 1, .fin 2, .fin 5] 0 (.fin 1) ∧
    InBucket [.fin 1, .fin 2, .fin 5] 3 .pinf ∧ InBucket [.fin 1, .fin 2, .fin 5] 3 .nan ∧
    InBucket [.fin 1, .fin 2, .fin 5] 0 .ninf := by
  refine ⟨⟨?_, ?_⟩, by decide +kernel, by decide +kernel, by decide +kernel, by decide +kernel,
    by decide +kernel⟩
  · simp [F64.IsNum]
  · simp [F64.lt]; norm_num

/-! ## C13: minimum and maximum -/

/-- The samples that are numbers. -/
def nums (ss : List (Sample F64)) : List F64 := (ss.map (·.v)).filter (fun v => decide (v ≠ .nan))

/-- `m` is a least element of `l`. -/
def IsMin (m : F64) (l : List F64) : Prop := m ∈ l ∧ ∀ x ∈ l, F64.lt x m = false
/-- `m` is a greatest element of `l`. -/
def IsMax (m : F64) (l : List F64) : Prop := m ∈ l ∧ ∀ x ∈ l, F64.lt m x = false

theorem min_fold (ss : List (Sample F64)) (d : Dist F64) (l : List F64) (hnum : ∀ x ∈ l, x.IsNum)
    (h : IsMin d.min l) : IsMin (ss.foldl Dist.next d).min (l ++ nums ss) := by
  induction ss generalizing d l with
  | nil => simpa [nums] using h
  | cons s ss ih =>
    rw [List.foldl_cons]
    by_cases hn : s.v = .nan
    · have e : nums (s :: ss) = nums ss := by simp [nums, hn]
      rw [e]
      apply ih _ _ hnum
      have : (d.next s).min = d.min := by
        simp only [Dist.next, hn]
        rfl
      rw [this]; exact h
    · have e : nums (s :: ss) = s.v :: nums ss := by simp [nums, hn]
      rw [e, show l ++ s.v :: nums ss = (l ++ [s.v]) ++ nums ss by simp]
      apply ih
      · intro x hx
        simp at hx
        rcases hx with hx | hx
        · exact hnum x hx
        · subst hx; exact hn
      · have hdn : d.min.IsNum := hnum _ h.1
        simp only [Dist.next]
        by_cases hlt : (F64.lt s.v d.min) = true
        · rw [if_pos (show (Arith.lt s.v d.min : Bool) = true from hlt)]
          refine ⟨by simp, ?_⟩
          intro x hx
          simp at hx
          rcases hx with hx | rfl
          · exact F64.nlt_trans hdn (h.2 x hx) (F64.lt_asymm hlt)
          · exact F64.lt_irrefl _
        · rw [if_neg (show ¬ (Arith.lt s.v d.min : Bool) = true from hlt)]
          refine ⟨by simp [h.1], ?_⟩
          intro x hx
          simp at hx
          rcases hx with hx | rfl
          · exact h.2 x hx
          · simpa using hlt

theorem max_fold (ss : List (Sample F64)) (d : Dist F64) (l : List F64) (hnum : ∀ x ∈ l, x.IsNum)
    (h : IsMax d.max l) : IsMax (ss.foldl Dist.next d).max (l ++ nums ss) := by
  induction ss generalizing d l with
  | nil => simpa [nums] using h
  | cons s ss ih =>
    rw [List.foldl_cons]
    by_cases hn : s.v = .nan
    · have e : nums (s :: ss) = nums ss := by simp [nums, hn]
      rw [e]
      apply ih _ _ hnum
      have : (d.next s).max = d.max := by
        simp only [Dist.next, hn]
        have : ∀ x : F64, (Arith.lt x F64.nan : Bool) = false := by intro x; cases x <;> rfl
        rw [this]; rfl
      rw [this]; exact h
    · have e : nums (s :: ss) = s.v :: nums ss := by simp [nums, hn]
      rw [e, show l ++ s.v :: nums ss = (l ++ [s.v]) ++ nums ss by simp]
      apply ih
      · intro x hx
        simp at hx
        rcases hx with hx | hx
        · exact hnum x hx
        · subst hx; exact hn
      · have hdn : d.max.IsNum := hnum _ h.1
        simp only [Dist.next]
        by_cases hlt : (F64.lt d.max s.v) = true
        · rw [if_pos (show (Arith.lt d.max s.v : Bool) = true from hlt)]
          refine ⟨by simp, ?_⟩
          intro x hx
          simp at hx
          rcases hx with hx | rfl
          · exact F64.nlt_trans hdn (F64.lt_asymm hlt) (h.2 x hx)
          · exact F64.lt_irrefl _
        · rw [if_neg (show ¬ (Arith.lt d.max s.v : Bool) = true from hlt)]
          refine ⟨by simp [h.1], ?_⟩
          intro x hx
          simp at hx
          rcases hx with hx | rfl
          · exact h.2 x hx
          · simpa using hlt

/-- `math.MaxFloat64`, the initial value of `Min`. -/
def maxFloat64 : F64 := .fin ((2 ^ 53 - 1) * 2 ^ 971)
/-- `math.SmallestNonzeroFloat64`, the initial value of `Max`. -/
def smallest : F64 := .fin (1 / 2 ^ 1074)

/-- C13, what always holds: `Min` is the least of the number samples and `MaxFloat64`, `Max` the
greatest of the number samples and `SmallestNonzeroFloat64`. -/
theorem dist_min_max (bs : List F64) (t : Int) (ss : List (Sample F64)) :
    ∃ d, (newDistributionData bs t).addAll ss = .ok d ∧
      IsMin d.min (maxFloat64 :: nums ss) ∧ IsMax d.max (smallest :: nums ss) := by
  refine ⟨_, Dist.addAll_eq _ (newDistributionData_shape bs t) ss, ?_, ?_⟩
  · have := min_fold ss (newDistributionData bs t) [maxFloat64] (by simp [maxFloat64, F64.IsNum])
      ⟨by simp [newDistributionData, maxFloat64, Arith.maxFloat], by
        intro x hx; simp at hx; subst hx; exact F64.lt_irrefl _⟩
    simpa using this
  · have := max_fold ss (newDistributionData bs t) [smallest] (by simp [smallest, F64.IsNum])
      ⟨by simp [newDistributionData, smallest, Arith.smallestNonzero], by
        intro x hx; simp at hx; subst hx; exact F64.lt_irrefl _⟩
    simpa using this

/-- C13 for `Min`: as soon as one sample is at most `MaxFloat64`, that is one sample is neither NaN
nor `+Inf`, `Min` is the least sample. Missing from the full claim: the case that all samples are
`+Inf` or NaN, where `Min` is `MaxFloat64`. -/
theorem dist_min_partial (bs : List F64) (t : Int) (ss : List (Sample F64))
    (h : ∃ x ∈ nums ss, F64.lt maxFloat64 x = false) :
    ∃ d, (newDistributionData bs t).addAll ss = .ok d ∧ IsMin d.min (nums ss) := by
  obtain ⟨d, hd, ⟨hm1, hm2⟩, _⟩ := dist_min_max bs t ss
  refine ⟨d, hd, ?_, fun x hx => hm2 x (by simp [hx])⟩
  simp at hm1
  rcases hm1 with he | hm
  · obtain ⟨x, hx, hlt⟩ := h
    have h1 := hm2 x (by simp [hx])
    rw [he] at h1
    have hxn : x.IsNum := by simp [nums] at hx; exact hx.2
    have : maxFloat64 = x := F64.eq_of_nlt (by simp [maxFloat64, F64.IsNum]) hxn hlt h1
    rw [he, this]; exact hx
  · exact hm

/-- C13 for `Max`: as soon as one sample is at least `SmallestNonzeroFloat64`, that is one sample is
positive, `Max` is the greatest sample. Missing from the full claim: the case that no sample is
positive, see `dist_max_wrong`. -/
theorem dist_max_partial (bs : List F64) (t : Int) (ss : List (Sample F64))
    (h : ∃ x ∈ nums ss, F64.lt x smallest = false) :
    ∃ d, (newDistributionData bs t).addAll ss = .ok d ∧ IsMax d.max (nums ss) := by
  obtain ⟨d, hd, _, hm1, hm2⟩ := dist_min_max bs t ss
  refine ⟨d, hd, ?_, fun x hx => hm2 x (by simp [hx])⟩
  simp at hm1
  rcases hm1 with he | hm
  · obtain ⟨x, hx, hlt⟩ := h
    have h1 := hm2 x (by simp [hx])
    rw [he] at h1
    have hxn : x.IsNum := by simp [nums] at hx; exact hx.2
    have : x = smallest := F64.eq_of_nlt hxn (by simp [smallest, F64.IsNum]) hlt h1
    rw [he, ← this]; exact hx
  · exact hm

/-- The code violates C13: whenever all samples are zero or negative, however many there are, `Max`
is `SmallestNonzeroFloat64`, which is none of them. -/
theorem dist_max_wrong (bs : List F64) (t : Int) (ss : List (Sample F64))
    (h : ∀ s ∈ ss, F64.lt (.fin 0) s.v = false ∧ s.v ≠ .nan) :
    ∃ d, (newDistributionData bs t).addAll ss = .ok d ∧ d.max = smallest ∧
      ∀ s ∈ ss, s.v ≠ d.max := by
  obtain ⟨d, hd, _, hm1, hm2⟩ := dist_min_max bs t ss
  have hlt : ∀ x ∈ nums ss, F64.lt x smallest = true := by
    intro x hx
    simp only [nums, List.mem_filter, List.mem_map] at hx
    obtain ⟨⟨s, hs, rfl⟩, _⟩ := hx
    obtain ⟨h1, h2⟩ := h s hs
    have h3 : F64.lt (.fin 0) smallest = true := by decide +kernel
    rcases hv : s.v with _ | _ | _ | q
    · exact absurd hv h2
    · rfl
    · rw [hv] at h1; simp [F64.lt] at h1
    · rw [hv] at h1
      simp only [F64.lt, decide_eq_false_iff_not, not_lt, smallest, decide_eq_true_eq] at h1 h3 ⊢
      exact lt_of_le_of_lt h1 h3
  have hms : d.max = smallest := by
    simp at hm1
    rcases hm1 with he | hm
    · exact he
    · have h1 := hlt _ hm
      have h2 := hm2 smallest (by simp)
      rw [h1] at h2; simp at h2
  refine ⟨d, hd, hms, ?_⟩
  intro s hs he
  have hmem : s.v ∈ nums ss := by
    simp only [nums, List.mem_filter, List.mem_map]
    exact ⟨⟨s, hs, rfl⟩, by simpa using (h s hs).2⟩
  have := hlt _ hmem
  rw [he, hms] at this
  rw [F64.lt_irrefl] at this; simp at this

/-- The hypotheses of `dist_min_partial`, `dist_max_partial` and `dist_max_wrong` are satisfiable. -/
example : (∃ x ∈ nums [⟨.fin 3, [], 0⟩, ⟨.nan, [], 1⟩, ⟨.fin (-2), [], 2⟩], F64.lt maxFloat64 x = false)
    ∧ (∃ x ∈ nums [⟨.fin 3, [], 0⟩, ⟨.fin (-2), [], 2⟩], F64.lt x smallest = false)
    ∧ (∀ s ∈ [(⟨.fin (-3), [], 0⟩ : Sample F64), ⟨.fin 0, [], 1⟩],
        F64.lt (.fin 0) s.v = false ∧ s.v ≠ .nan) := by
  decide +kernel

/-! ## C14: mean, sum and squared deviation -/

/-- Σ v. -/
def total (ss : List (Sample Rat)) : Rat := (ss.map (·.v)).sum
/-- Σ (v - m)². -/
def sqDev (m : Rat) (ss : List (Sample Rat)) : Rat := (ss.map (fun s => (s.v - m) ^ 2)).sum

theorem sqDev_expand (m : Rat) (ss : List (Sample Rat)) :
    sqDev m ss = sqDev 0 ss - 2 * m * total ss + ss.length * m ^ 2 := by
  induction ss with
  | nil => simp [sqDev, total]
  | cons s ss ih =>
    have e1 : sqDev m (s :: ss) = (s.v - m) ^ 2 + sqDev m ss := by simp [sqDev]
    have e2 : sqDev 0 (s :: ss) = (s.v - 0) ^ 2 + sqDev 0 ss := by simp [sqDev]
    have e3 : total (s :: ss) = s.v + total ss := by simp [total]
    rw [e1, e2, e3, ih]; push_cast [List.length_cons]; ring

theorem welford (ss : List (Sample Rat)) (bs : List Rat) (t : Int) (hlen : ss.length < 2 ^ 63) :
    let d := ss.foldl Dist.next (newDistributionData bs t)
    d.count = ss.length ∧ d.mean * ss.length = total ss ∧
      d.ssd = sqDev 0 ss - ss.length * d.mean ^ 2 := by
  induction ss using List.reverseRecOn with
  | nil => simp [newDistributionData, total, sqDev, Arith.ofInt]
  | append_singleton ss s ih =>
    simp only [List.length_append, List.length_singleton] at hlen
    obtain ⟨h1, h2, h3⟩ := ih (by omega)
    simp only [List.foldl_append, List.foldl_cons, List.foldl_nil, List.length_append,
      List.length_singleton]
    generalize ss.foldl Dist.next (newDistributionData bs t) = d at *
    have hw : wrap64 (d.count + 1) = (ss.length : Int) + 1 := by
      rw [h1]; exact wrap64_id (by omega) (by omega)
    have t1 : total (ss ++ [s]) = total ss + s.v := by simp [total]
    have t2 : sqDev 0 (ss ++ [s]) = sqDev 0 ss + s.v ^ 2 := by simp [sqDev]
    rw [t1, t2]
    simp only [Dist.next, hw]
    by_cases hz : ss.length = 0
    · have hnil : ss = [] := List.length_eq_zero_iff.mp hz
      subst hnil
      simp [total, sqDev] at h3 ⊢
      exact h3
    · rw [if_neg (by omega), if_neg (by omega)]
      have hpos : (0 : Rat) < ss.length := by exact_mod_cast Nat.pos_of_ne_zero hz
      have hne : ((ss.length : Rat) + 1) ≠ 0 := by positivity
      have hm : d.mean = total ss / ss.length := by field_simp; exact h2
      simp only [Arith.add, Arith.sub, Arith.div, Arith.mul, Arith.ofInt]
      push_cast
      refine ⟨rfl, ?_, ?_⟩
      · rw [← h2]; field_simp; ring
      · rw [h3]; field_simp; ring

/-- C14 over exact arithmetic: `Mean`, `Sum()` and `SumOfSquaredDev` are those of the samples.
Missing from the full claim: the rounding of `float64` arithmetic, which makes all three
approximations, and overflow; see `dist_mean_overflows`. -/
theorem dist_mean_exact_partial (bs : List Rat) (t : Int) (ss : List (Sample Rat))
    (hne : ss ≠ []) (hlen : ss.length < 2 ^ 63) :
    ∃ d, (newDistributionData bs t).addAll ss = .ok d ∧
      d.mean = total ss / ss.length ∧ d.sum = total ss ∧ d.ssd = sqDev (total ss / ss.length) ss := by
  refine ⟨_, Dist.addAll_eq _ (newDistributionData_shape bs t) ss, ?_⟩
  obtain ⟨h1, h2, h3⟩ := welford ss bs t hlen
  have hpos : (0 : Rat) < ss.length := by
    exact_mod_cast List.length_pos_iff.mpr hne
  have hm : (ss.foldl Dist.next (newDistributionData bs t)).mean = total ss / ss.length := by
    field_simp; exact h2
  refine ⟨hm, ?_, ?_⟩
  · simp only [Dist.sum, h1, Arith.mul, Arith.ofInt]; push_cast; exact h2
  · rw [h3, hm, sqDev_expand (total ss / ss.length)]
    field_simp; ring

/-- The code violates C14 in `float64`: the two samples `MaxFloat64` and `-MaxFloat64`, whose mean is
zero, give the mean `-Inf`. -/
theorem dist_mean_overflows :
    ∃ d, (newDistributionData [] 0).addAll
        [⟨maxFloat64, [], 0⟩, ⟨F64.neg maxFloat64, [], 1⟩] = .ok d ∧ d.mean = .ninf := by
  refine ⟨_, Dist.addAll_eq _ (newDistributionData_shape _ _) _, ?_⟩
  decide +kernel

example : ([⟨1, [], 0⟩, ⟨2, [], 1⟩, ⟨6, [], 2⟩] : List (Sample Rat)) ≠ [] ∧
    total [⟨1, [], 0⟩, ⟨2, [], 1⟩, ⟨6, [], 2⟩] / 3 = 3 ∧
    sqDev 3 [⟨1, [], 0⟩, ⟨2, [], 1⟩, ⟨6, [], 2⟩] = 14 := by
  refine ⟨by simp, ?_, ?_⟩ <;> simp [total, sqDev] <;> norm_num

/-! ## C11: Count, Sum and LastValue -/

/-- C11. A Count datum fed `n < 2 ^ 63` samples holds `n`. -/
theorem count_data {F : Type} [Arith F] (st : Int) (ss : List (Sample F)) (hlen : ss.length < 2 ^ 63) :
    (AggData.count st 0).addAll ss = .ok (.count st ss.length) := by
  rw [AggData.addAll_eq _ (by trivial)]
  have key : ∀ (ss : List (Sample F)) (n : Int), 0 ≤ n → n + ss.length < 2 ^ 63 →
      ss.foldl AggData.next (.count st n) = .count st (n + ss.length) := by
    intro ss
    induction ss with
    | nil => intro n _ _; simp
    | cons s ss ih =>
      intro n h0 h
      simp only [List.length_cons, Nat.cast_add, Nat.cast_one] at h
      rw [List.foldl_cons]
      simp only [AggData.next]
      rw [wrap64_id (by omega) (by omega), ih (n + 1) (by omega) (by omega)]
      simp only [List.length_cons, Nat.cast_add, Nat.cast_one]
      congr 1; ring
  rw [key ss 0 (by omega) (by omega)]; simp

/-- C11. A Sum datum holds the left-to-right sum. -/
theorem sum_data {F : Type} [Arith F] (st : Int) (x : F) (ss : List (Sample F)) :
    (AggData.sum st x).addAll ss = .ok (.sum st ((ss.map (·.v)).foldl Arith.add x)) := by
  rw [AggData.addAll_eq _ (by trivial)]
  induction ss generalizing x with
  | nil => rfl
  | cons s ss ih => simp only [List.foldl_cons, AggData.next, List.map_cons]; exact ih _

/-- C11. Summing integers is exact as long as no partial sum exceeds `2 ^ 53` in absolute value;
in particular the sum of an Int64 measure's samples. -/
theorem sum_data_exact_ints (st : Int) (ns : List Int)
    (h : ∀ k ≤ ns.length, ((ns.take k).sum).natAbs ≤ 2 ^ 53) :
    (AggData.sum st (F64.fin 0)).addAll (ns.map fun n : Int => ⟨F64.fin n, [], 0⟩) =
      .ok (.sum st (F64.fin ns.sum)) := by
  rw [sum_data]
  have key : ∀ (ns : List Int) (a : Int),
      (∀ k ≤ ns.length, (a + (ns.take k).sum).natAbs ≤ 2 ^ 53) →
      (ns.map fun n : Int => F64.fin (n : Rat)).foldl F64.add (F64.fin a) =
        F64.fin (a + ns.sum : Int) := by
    intro ns
    induction ns with
    | nil => intro a _; simp
    | cons n ns ih =>
      intro a ha
      simp only [List.map_cons, List.foldl_cons]
      have h1 := ha 1 (by simp)
      rw [List.take_succ_cons, List.take_zero, List.sum_singleton] at h1
      have e : F64.add (F64.fin (a : Rat)) (F64.fin (n : Rat)) = F64.fin ((a + n : Int) : Rat) := by
        show F64.rnd ((a : Rat) + n) = _
        rw [← F64.rnd_int (a + n) (by omega)]; push_cast; rfl
      rw [e, ih (a + n)]
      · rw [List.sum_cons]; congr 2; ring
      · intro k hk
        have := ha (k + 1) (by simpa using hk)
        simp only [List.take_succ_cons, List.sum_cons] at this
        rw [show a + n + (ns.take k).sum = a + (n + (ns.take k).sum) by ring]; exact this
  have := key ns 0 (by simpa using h)
  rw [Int.zero_add] at this
  rw [List.map_map]
  exact congrArg (fun x => Res.ok (AggData.sum st x)) this

/-- C11. A LastValue datum holds the last sample. -/
theorem last_data {F : Type} [Arith F] (x : F) (ss : List (Sample F)) :
    (AggData.last x).addAll ss = .ok (.last (((ss.map (·.v)).getLast?).getD x)) := by
  rw [AggData.addAll_eq _ (by trivial)]
  induction ss generalizing x with
  | nil => rfl
  | cons s ss ih =>
    simp only [List.foldl_cons, AggData.next, List.map_cons, List.getLast?_cons, Option.getD_some]
    exact ih _

example : ∀ k ≤ [(3 : Int), -5, 2 ^ 52].length, (([(3 : Int), -5, 2 ^ 52].take k).sum).natAbs ≤ 2 ^ 53 := by
  decide

end Verif.Props.Agg
