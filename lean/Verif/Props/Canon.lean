import Verif.Props.Worker

/-!
# Property C20: which views `Register` accepts and what it makes of them
-/

namespace Verif.Props.Canon
open Verif Verif.Tag Verif.Stats Verif.View Verif.View.Spec Verif.Props.Rows Verif.Props.Worker

/-- The name a view gets. -/
def effName (v : ViewDef) (m : Measure) : Bytes := if v.name = [] then m.name else v.name

/-- A view `Register` should accept: measure and aggregation set, a printable name of at most 255
bytes, no negative bound. -/
def Acceptable (v : ViewDef) : Prop :=
  ∃ m a, v.measure = some m ∧ v.agg = some a ∧ (effName v m).length ≤ 255 ∧
    (∀ b ∈ effName v m, 0x20 ≤ b.toNat ∧ b.toNat ≤ 0x7e) ∧ ∀ b ∈ a.buckets, F64.lt b (.fin 0) = false

/-- The registered form of an acceptable view: default name and description filled in, tag keys
sorted by name, bounds sorted with only the positive ones kept. -/
def CanonForm (v v' : ViewDef) : Prop :=
  ∃ m a a', v.measure = some m ∧ v.agg = some a ∧ v'.measure = some m ∧ v'.agg = some a' ∧
    v'.ptr = v.ptr ∧ v'.name = effName v m ∧
    v'.description = (if v.description = [] then m.description else v.description) ∧
    v'.tagKeys.Perm v.tagKeys ∧ v'.tagKeys.Pairwise (fun x y => x.name ≤ y.name) ∧
    a'.id = a.id ∧ a'.type = a.type ∧ a'.newData = a.newData ∧
    a'.buckets.Perm (a.buckets.filter (fun b => F64.lt (.fin 0) b)) ∧
    a'.buckets.Pairwise (fun x y => F64.lt y x = false)

theorem checkViewName_iff (n : Bytes) :
    checkViewName n = true ↔ n.length ≤ 255 ∧ ∀ b ∈ n, 0x20 ≤ b.toNat ∧ b.toNat ≤ 0x7e := by
  unfold checkViewName maxNameLength
  have : isPrintable n = true ↔ ∀ b ∈ n, 0x20 ≤ b.toNat ∧ b.toNat ≤ 0x7e := by
    simp [isPrintable, List.all_eq_true]
  rw [← this]
  split
  · next h => simp; intro h'; omega
  · next h =>
    cases hp : isPrintable n
    · simp
    · simp; omega

theorem sortLe_total (a b : F64) : (sortLe a b || sortLe b a) = true := by
  cases a <;> cases b <;> simp [sortLe, F64.lt]; exact le_total _ _

theorem sortLe_trans (a b c : F64) (h : sortLe a b = true) (h' : sortLe b c = true) :
    sortLe a c = true := by
  cases a <;> cases b <;> cases c <;> simp_all [sortLe, F64.lt]; linarith

/-- In a list sorted with NaN first and without negative numbers, what is left after dropping the
prefix of non-positive entries is the positive entries. -/
theorem dropZeroBounds_eq (bs : List F64) (hs : bs.Pairwise (fun a b => sortLe a b = true)) :
    dropZeroBounds bs = bs.filter (fun b => F64.lt (.fin 0) b) := by
  induction bs with
  | nil => rfl
  | cons b bs ih =>
    rw [List.pairwise_cons] at hs
    simp only [dropZeroBounds]
    by_cases hb : F64.lt (.fin 0) b = true
    · rw [if_pos hb, List.filter_cons_of_pos hb]
      congr 1
      rw [List.filter_eq_self.mpr]
      intro c hc
      have := hs.1 c hc
      cases b <;> cases c <;> simp_all [sortLe, F64.lt]; linarith
    · rw [if_neg hb, List.filter_cons_of_neg hb]
      exact ih hs.2

theorem sorted_pos {bs : List F64} (hs : bs.Pairwise (fun a b => sortLe a b = true)) :
    bs.Pairwise (fun x y => F64.lt y x = false) :=
  hs.imp (fun {a b} h => by cases a <;> cases b <;> simp_all [sortLe, F64.lt])

/-- C20, what holds of it: a view is accepted exactly if it is acceptable. The full claim also asks
for a non-empty name and bounds without duplicates: see `empty_name_accepted` and
`duplicate_bounds_accepted`. -/
theorem accepts_iff_partial (v : ViewDef) : (canonicalize v).2 = none ↔ Acceptable v := by
  unfold canonicalize Acceptable
  rcases hm : v.measure with _ | m
  · simp
  · rcases ha : v.agg with _ | a
    · simp
    · simp only [Option.some.injEq, exists_and_left, exists_eq_left']
      have e : (withDefaults v m).name = effName v m := rfl
      rw [e]
      have hc := checkViewName_iff (effName v m)
      have hb : ((a.buckets.mergeSort sortLe).any fun b => F64.lt b (.fin 0)) = false ↔
          ∀ b ∈ a.buckets, F64.lt b (.fin 0) = false := by
        rw [List.any_eq_false]
        simp only [List.mem_mergeSort, Bool.not_eq_true]
      by_cases h1 : checkViewName (effName v m) = true
      · simp only [h1, Bool.not_true, Bool.false_eq_true, if_false]
        obtain ⟨h2, h3⟩ := hc.mp h1
        cases h4 : (a.buckets.mergeSort sortLe).any fun b => F64.lt b (.fin 0)
        · simp only [Bool.false_eq_true, if_false, true_iff]
          exact ⟨h2, h3, hb.mp h4⟩
        · simp only [if_true, reduceCtorEq, false_iff]
          rintro ⟨_, _, h5⟩
          rw [hb.mpr h5] at h4; simp at h4
      · have h1' : checkViewName (effName v m) = false := by simpa using h1
        simp only [h1', Bool.not_false, if_true, reduceCtorEq, false_iff]
        rintro ⟨h5, h6, _⟩
        exact h1 (hc.mpr ⟨h5, h6⟩)

/-- C20. What an accepted view becomes is its canonical form, and nothing else. -/
theorem canonicalize_iff (v v' : ViewDef) :
    canonicalize v = (v', none) ↔ Acceptable v ∧ CanonForm v v' := by
  have fwd : ∀ v', canonicalize v = (v', none) → CanonForm v v' := by
    intro v' h
    unfold canonicalize at h
    rcases hm : v.measure with _ | m
    · simp [hm] at h
    · rcases ha : v.agg with _ | a
      · simp [hm, ha] at h
      · simp only [hm, ha] at h
        split at h
        · simp at h
        · split at h
          · simp at h
          · simp only [Prod.mk.injEq, and_true] at h
            subst h
            have hs := List.pairwise_mergeSort (le := sortLe) sortLe_trans sortLe_total a.buckets
            refine ⟨m, a, _, hm, ha, hm, rfl, rfl, rfl, rfl, List.mergeSort_perm _ _, keys_sorted _,
              rfl, rfl, rfl, ?_, ?_⟩
            · simp only
              rw [dropZeroBounds_eq _ hs]
              exact (List.mergeSort_perm _ _).filter _
            · simp only
              exact (sorted_pos hs).sublist (dropZeroBounds_sublist _)
  constructor
  · intro h
    exact ⟨(accepts_iff_partial v).mp (by rw [h]), fwd v' h⟩
  · rintro ⟨h1, h2⟩
    have h3 := (accepts_iff_partial v).mpr h1
    rcases hc : canonicalize v with ⟨v'', e⟩
    rw [hc] at h3
    simp only at h3
    subst h3
    obtain ⟨m, a, a', e1, e2, e3, e4, e5, e6, e7, e8, e9, e10, e11, e12, e13, e14⟩ := h2
    obtain ⟨n, b, b', f1, f2, f3, f4, f5, f6, f7, f8, f9, f10, f11, f12, f13, f14⟩ := fwd v'' hc
    rw [e1] at f1; rw [e2] at f2
    simp only [Option.some.injEq] at f1 f2
    subst f1 f2
    have hk : v''.tagKeys = v'.tagKeys := by
      apply List.Perm.eq_of_pairwise _ f9 e9 (f8.trans e8.symm)
      intro x y _ _ hxy hyx
      have := List.le_antisymm hxy hyx
      cases x; cases y; simp_all
    have hb : b'.buckets = a'.buckets := by
      apply List.Perm.eq_of_pairwise _ f14 e14 (f13.trans e13.symm)
      intro x y hx hy hxy hyx
      have num : ∀ z, F64.lt (.fin 0) z = true → z.IsNum := by
        intro z hz hn; rw [hn] at hz; simp [F64.lt] at hz
      have px := (List.mem_filter.mp (f13.mem_iff.mp hx)).2
      have py := (List.mem_filter.mp (e13.mem_iff.mp hy)).2
      exact F64.eq_of_nlt (num x px) (num y py) hyx hxy
    have hab : b' = a' := by
      cases b'; cases a'; simp_all
    congr 1
    cases v''; cases v'
    simp_all

/-- C20. One unacceptable view makes `Register` fail with no view of the list registered: every later
reply is what it would have been without the call. -/
theorem register_batch (reg : Measures) (pre post : List Cmd) (now : Int) (vs : List ViewDef)
    (hg : ∀ c ∈ pre ++ [.register now vs] ++ post, GoodCmd reg c) (hbad : ∃ v ∈ vs, ¬ Acceptable v) :
    ∃ w reg' rs1 rs2 e, run newWorker reg (pre ++ [.register now vs] ++ post) = .ok (w, reg', rs1 ++ rs2) ∧
      (rs1.map Prod.fst).getLast? = some (.registered (.invalid e)) ∧
      RepliesOK (specRun Spec.empty pre) post (rs2.map Prod.fst) := by
  have hall : ∃ e, canonicalizeAll vs = .error e := by
    clear hg
    induction vs with
    | nil => simp at hbad
    | cons v vs ih =>
      simp only [canonicalizeAll]
      rcases hc : canonicalize v with ⟨v1, _ | e⟩
      · simp only
        obtain ⟨u, hu, hb⟩ := hbad
        have hne : u ≠ v := by
          rintro rfl
          exact hb ((accepts_iff_partial u).mp (by rw [hc]))
        simp only [List.mem_cons, hne, false_or] at hu
        obtain ⟨e, he⟩ := ih ⟨u, hu, hb⟩
        exact ⟨e, by rw [he]⟩
      · exact ⟨e, rfl⟩
  obtain ⟨e, he⟩ := hall
  obtain ⟨w, reg', rs, h1, h2⟩ := worker_refines_spec reg _ hg
  obtain ⟨q1, q2, hrs, hl, h3, h4⟩ := repliesOK_append h2
  obtain ⟨p1, p2, rfl, _, _, h6⟩ := repliesOK_append h3
  obtain ⟨r, rs', rfl, hr, hnil⟩ := h6
  cases hnil
  refine ⟨w, reg', rs.take (p1 ++ [r]).length, rs.drop (p1 ++ [r]).length, e,
    by rw [List.take_append_drop]; exact h1, ?_, ?_⟩
  · rw [List.map_take, hrs, List.take_left']
    · simp only [ReplyOK, he] at hr
      simp [hr]
    · rfl
  · rw [List.map_drop, hrs, List.drop_left']
    · have hσ : specRun Spec.empty (pre ++ [.register now vs]) = specRun Spec.empty pre := by
        rw [specRun_append]
        simp only [specRun, Spec.step, he]
      rw [hσ] at h4; exact h4
    · rfl

theorem registerAll_present (vs : List ViewDef) (σ : SState)
    (hvs : ∀ v ∈ vs, v.agg ≠ none ∧ v.measure ≠ none) :
    ∀ v ∈ vs, (Spec.registerAll σ vs).1 v.name ≠ none := by
  induction vs generalizing σ with
  | nil => simp
  | cons u vs ih =>
    have hvs' : ∀ v ∈ vs, v.agg ≠ none ∧ v.measure ≠ none := fun v hv => hvs v (by simp [hv])
    obtain ⟨a, ha⟩ := Option.ne_none_iff_exists'.mp (hvs u (by simp)).1
    obtain ⟨m, hm⟩ := Option.ne_none_iff_exists'.mp (hvs u (by simp)).2
    intro v hv
    simp only [Spec.registerAll, ha, hm]
    cases hσ : σ u.name with
    | some x =>
      simp only
      have : (Spec.registerAll σ vs).1 v.name ≠ none := by
        simp only [List.mem_cons] at hv
        rcases hv with rfl | hv
        · rw [registerAll_keeps vs σ hσ]; simp
        · exact ih σ hvs' v hv
      split <;> exact this
    | none =>
      simp only
      simp only [List.mem_cons] at hv
      rcases hv with rfl | hv
      · rw [registerAll_keeps vs _ (show Spec.update σ v.name (some ⟨v, a, m, []⟩) v.name = some ⟨v, a, m, []⟩ by
          simp [Spec.update])]; simp
      · exact ih _ hvs' v hv

/-- C20. If every view of the list is acceptable, a view is registered under each of their names
afterwards, conflicts notwithstanding: `Find` answers with a view for every one of them. -/
theorem register_batch_ok (reg : Measures) (pre : List Cmd) (now : Int) (vs : List ViewDef)
    (v : ViewDef) (m : Measure) (hv : v ∈ vs) (hm : v.measure = some m)
    (hg : ∀ c ∈ pre ++ [.register now vs] ++ [.find (effName v m)], GoodCmd reg c)
    (hgood : ∀ v ∈ vs, Acceptable v) :
    ∃ w reg' rs x, run newWorker reg (pre ++ [.register now vs] ++ [.find (effName v m)]) = .ok (w, reg', rs) ∧
      (rs.map Prod.fst).getLast? = some (.found (some x)) ∧ x.name = effName v m := by
  have hall : ∃ vs', canonicalizeAll vs = .ok vs' ∧ ∃ v' ∈ vs', v'.name = effName v m := by
    clear hg
    induction vs with
    | nil => simp at hv
    | cons u vs ih =>
      simp only [canonicalizeAll]
      rcases hc : canonicalize u with ⟨u1, e⟩
      have he : e = none := by
        have := (accepts_iff_partial u).mpr (hgood u (by simp))
        rw [hc] at this; exact this
      subst he
      simp only
      have hrest : ∃ vs', canonicalizeAll vs = .ok vs' := by
        clear ih hv
        induction vs with
        | nil => exact ⟨[], rfl⟩
        | cons y ys ihy =>
          simp only [canonicalizeAll]
          rcases hcy : canonicalize y with ⟨y1, e⟩
          have he : e = none := by
            have := (accepts_iff_partial y).mpr (hgood y (by simp))
            rw [hcy] at this; exact this
          subst he
          obtain ⟨vs', h'⟩ := ihy (fun v hv => hgood v (by
            simp only [List.mem_cons] at hv ⊢; tauto))
          exact ⟨y1 :: vs', by rw [h']⟩
      simp only [List.mem_cons] at hv
      rcases hv with rfl | hv
      · obtain ⟨vs', h'⟩ := hrest
        refine ⟨u1 :: vs', by rw [h'], u1, by simp, ?_⟩
        obtain ⟨_, m', _, _, f1, _, _, _, _, f6, _⟩ := (canonicalize_iff v u1).mp hc
        rw [hm] at f1
        simp only [Option.some.injEq] at f1
        rw [f6, f1]
      · obtain ⟨vs', h1, v', h2, h3⟩ := ih hv (fun v hv => hgood v (by simp [hv]))
        exact ⟨u1 :: vs', by rw [h1], v', by simp [h2], h3⟩
  obtain ⟨vs', hok, v', hv', hn⟩ := hall
  obtain ⟨w, reg', rs, h1, h2, h3, _⟩ := run_rel (rel_init reg) _ hg
  obtain ⟨q1, q2, hrs, hl, _, h4⟩ := repliesOK_append h3
  obtain ⟨r, rs', rfl, hr, hnil⟩ := h4
  cases hnil
  have hpre : ∀ c ∈ pre ++ [.register now vs], GoodCmd reg c := fun c hc => hg c (by
    simp only [List.mem_append] at hc ⊢; tauto)
  obtain ⟨w1, reg1, _, _, hrel, _, _⟩ := run_rel (rel_init reg) _ hpre
  have hgv : ∀ u ∈ vs', u.agg ≠ none ∧ u.measure ≠ none := by
    intro u hu
    have := canonicalizeAll_good hok (hg (.register now vs) (by simp)) u hu
    exact ⟨this.2.2.2, this.2.2.1⟩
  have hσ : specRun Spec.empty (pre ++ [.register now vs]) (effName v m) ≠ none := by
    rw [specRun_append, ← hn]
    simp only [specRun, Spec.step, hok]
    exact registerAll_present vs' _ hgv v' hv'
  obtain ⟨x, hx⟩ := Option.ne_none_iff_exists'.mp hσ
  simp only [ReplyOK, hx] at hr
  refine ⟨w, reg', rs, x.view, h1, by rw [hrs]; simp [hr], ?_⟩
  cases hgn : GoMap.get w1.views (effName v m) with
  | none => rw [hrel.none_iff _ hgn] at hx; simp at hx
  | some a =>
    obtain ⟨vi, y, _, e2, _, e4⟩ := hrel.some_iff _ a hgn
    rw [hx] at e2
    simp only [Option.some.injEq] at e2
    subst e2
    exact e4

/-- C20 is violated: a view and measure with empty names are accepted. -/
theorem empty_name_accepted :
    ∃ v v', canonicalize v = (v', none) ∧ v'.name = [] := by
  refine ⟨⟨0, [], [], [], some ⟨.int64, [], [], []⟩, some ⟨1, .count, [], some .count⟩⟩,
    ⟨0, [], [], [], some ⟨.int64, [], [], []⟩, some ⟨1, .count, [], some .count⟩⟩, ?_, rfl⟩
  · rw [canonicalize_iff]
    constructor
    · exact ⟨_, _, rfl, rfl, by decide, by decide, by simp⟩
    · exact ⟨_, _, ⟨1, .count, [], some .count⟩, rfl, rfl,
        show ViewDef.measure ⟨0, [], [], [], some ⟨.int64, [], [], []⟩, some ⟨1, .count, [], some .count⟩⟩ = _ from rfl,
        rfl, rfl, rfl, rfl, List.Perm.refl _, by simp, rfl, rfl, rfl, List.Perm.refl _, by simp⟩

/-- C20 is violated: duplicate bounds are kept. -/
theorem duplicate_bounds_accepted :
    ∃ v v' a, canonicalize v = (v', none) ∧ v'.agg = some a ∧ a.buckets = [.fin 1, .fin 1] := by
  refine ⟨⟨0, str "v", [], [], some ⟨.int64, [], [], []⟩, some ⟨1, .distribution, [.fin 1, .fin 1], some .distribution⟩⟩,
    ⟨0, str "v", [], [], some ⟨.int64, [], [], []⟩, some ⟨1, .distribution, [.fin 1, .fin 1], some .distribution⟩⟩, _, ?_, rfl, rfl⟩
  rw [canonicalize_iff]
  constructor
  · refine ⟨_, _, rfl, rfl, by decide, by decide, ?_⟩
    intro b hb
    simp only [List.mem_cons, List.not_mem_nil, or_false, or_self] at hb
    subst hb; decide
  · refine ⟨_, _, _, rfl, rfl, rfl, rfl, rfl, rfl, rfl, List.Perm.refl _, by simp, rfl, rfl, rfl, ?_, by simp [F64.lt]⟩
    have : [F64.fin 1, F64.fin 1].filter (fun b => F64.lt (.fin 0) b) = [.fin 1, .fin 1] := by decide
    simp only [this]; exact List.Perm.refl _

end Verif.Props.Canon
