import Verif.View.SnapshotLemmas

/-!
# C15: rows handed out never change

The rows returned by `RetrieveData` or passed to exporters are clones of the collector's data. Over the
heap model: whatever is recorded, collected, cleared or unregistered afterwards, and even if readers
modify other rows they were handed, an object handed out keeps reading as it did when it was handed
out, and readers modifying theirs never disturb the collector.
-/

namespace Verif.View.Snap
open Verif Verif.View

variable {F : Type} [Arith F]

/-! ## Specification: rows as values -/

/-- What the meter knows: for each view and signature, the aggregation data. -/
abbrev Table (F : Type) := Nat × Bytes → Option (AggData F)

/-- One event on values: handing out and modifying what was handed out do nothing. -/
inductive SpecStep : Table F → Ev F → Table F → Prop where
  | add (A : Table F) (v : Nat) (a : Aggregation F) (sig : Bytes) (s : Sample F) (d d' : AggData F)
      (hd : A (v, sig) = some d ∨ A (v, sig) = none ∧ a.mkData s.t = .ok d)
      (hs : d.addSample s.v s.att s.t = .ok d') :
      SpecStep A (.add v a sig s) (fun k => if k = (v, sig) then some d' else A k)
  | collect (A : Table F) (v : Nat) (qs : List (Bytes × Nat)) : SpecStep A (.collect v qs) A
  | clear (A : Table F) (v : Nat) : SpecStep A (.clear v) (fun k => if k.1 = v then none else A k)
  | scribble (A : Table F) (q : Nat) : SpecStep A (.scribble q) A

inductive SpecSteps : Table F → List (Ev F) → Table F → Prop where
  | nil (A : Table F) : SpecSteps A [] A
  | cons {A B C : Table F} {e : Ev F} {es : List (Ev F)} (h : SpecStep A e B) (t : SpecSteps B es C) :
      SpecSteps A (e :: es) C

/-- What the collectors hold, read through their pointers. -/
def Mem.table (m : Mem F) : Table F := fun k => (GoMap.get m.rows k).bind (deref m.heap)

/-! ## Proofs -/

omit [Arith F] in
theorem deref_some {h : Heap F} {a : Nat} (o : Obj h a) : ∃ d, deref h a = some d := by
  unfold Obj at o
  unfold deref
  cases e : h[a]? with
  | none => rw [e] at o; exact o.elim
  | some c =>
    rw [e] at o
    cases c with
    | dist d =>
      obtain ⟨l, es, h1, h2, _⟩ := o
      simp [h1, h2]
    | ints _ => exact o.elim
    | exs _ => exact o.elim
    | ex _ => exact o.elim
    | _ => simp

omit [Arith F] in
theorem mem_objs_of_get {m : Mem F} {k : Nat × Bytes} {p : Nat} (h : GoMap.get m.rows k = some p) :
    p ∈ m.objs :=
  List.mem_append.mpr (.inl (List.mem_map.mpr ⟨(k, p), GoMap.mem_of_get h, rfl⟩))

omit [Arith F] in
theorem rows_inj {m : Mem F} (i : Inv m) {k k' : Nat × Bytes} {p : Nat}
    (h : GoMap.get m.rows k = some p) (h' : GoMap.get m.rows k' = some p) : k = k' := by
  have hw := i.wf
  have hs := (List.pairwise_append.mp i.sep.sep).1
  have hm := GoMap.mem_of_get h
  have hm' := GoMap.mem_of_get h'
  generalize m.rows = l at hs hm hm'
  clear h h' hw
  induction l with
  | nil => simp at hm
  | cons e l ih =>
    simp only [List.map_cons, List.pairwise_cons] at hs
    have nself : ∀ x, ¬ Disj m.heap x x := fun x hd => hd x (Obj.mem_self _ _) (Obj.mem_self _ _)
    rcases List.mem_cons.mp hm with h1 | hn <;> rcases List.mem_cons.mp hm' with h2 | hn'
    · exact congrArg Prod.fst (h1.trans h2.symm)
    · subst h1
      exact absurd (hs.1 p (List.mem_map.mpr ⟨(k', p), hn', rfl⟩)) (nself p)
    · subst h2
      exact absurd (hs.1 p (List.mem_map.mpr ⟨(k, p), hn, rfl⟩)) (nself p)
    · exact ih hs.2 hn hn'

omit [Arith F] in
theorem set_snd_perm (m : GoMap (Nat × Bytes) Nat) (k : Nat × Bytes) (p : Nat)
    (h : GoMap.get m k = none) : ((GoMap.set m k p).map Prod.snd).Perm (p :: m.map Prod.snd) := by
  induction m with
  | nil => simp [GoMap.set]
  | cons e m ih =>
    obtain ⟨k', v⟩ := e
    by_cases he : k' = k
    · simp [GoMap.get, he] at h
    · simp only [GoMap.get, he, if_false] at h
      simp only [GoMap.set, he, if_false, List.map_cons]
      exact ((ih h).cons v).trans (List.Perm.swap _ _ _)

omit [Arith F] in
theorem get_filter (m : GoMap (Nat × Bytes) Nat) (v : Nat) (k : Nat × Bytes) :
    GoMap.get (m.filter (fun e => decide (e.1.1 ≠ v))) k = if k.1 = v then none else GoMap.get m k := by
  induction m with
  | nil => simp
  | cons e m ih =>
    obtain ⟨k', p⟩ := e
    by_cases hv : k'.1 = v
    · rw [List.filter_cons_of_neg (by simp [hv]), ih]
      by_cases hk : k.1 = v
      · simp [hk]
      · have : k' ≠ k := fun he => hk (by rw [← he]; exact hv)
        simp [hk, GoMap.get, this]
    · rw [List.filter_cons_of_pos (by simp [hv])]
      by_cases hkk : k' = k
      · subst hkk; simp [GoMap.get, hv]
      · simp only [GoMap.get, hkk, if_false, ih]

/-- One step: the invariant is kept, the collectors behave as in the specification, what was handed out
stays handed out and, except for the object a reader modifies, reads the same. -/
theorem step_spec {m m' : Mem F} {e : Ev F} (i : Inv m) (h : Step m e m') :
    Inv m' ∧ SpecStep m.table e m'.table ∧
      ∀ q ∈ m.given, q ∈ m'.given ∧ (e ≠ .scribble q → deref m'.heap q = deref m.heap q) := by
  cases h with
  | add v a sig s h =>
    unfold Mem.add at h
    cases hg : GoMap.get m.rows (v, sig) with
    | some p =>
      rw [hg] at h
      cases ha : addSample m.heap p s with
      | err => simp [ha, Res.bind] at h
      | panic => simp [ha, Res.bind] at h
      | ok h' =>
        simp only [ha, Res.bind, Res.ok.injEq] at h
        subst h
        have hp := mem_objs_of_get hg
        obtain ⟨f, o, fp, d, d', hd, hs, hd'⟩ := addSample_spec (i.sep.obj p hp) ha
        obtain ⟨sep', oth⟩ := i.sep.modify hp f o fp
        refine ⟨⟨i.wf, sep'⟩, ?_, ?_⟩
        · have := SpecStep.add m.table v a sig s d d' (.inl (by simp [Mem.table, hg, hd])) hs
          convert this using 1
          funext k
          simp only [Mem.table]
          by_cases hk : k = (v, sig)
          · subst hk; simp [hg, hd']
          · simp only [hk, if_false]
            cases hgk : GoMap.get m.rows k with
            | none => rfl
            | some p' =>
              have hne : p' ≠ p := by
                intro he; subst he
                exact hk (rows_inj i hgk hg)
              simp [oth p' (mem_objs_of_get hgk) hne]
        · intro q hq
          refine ⟨hq, fun _ => ?_⟩
          have hqo : q ∈ m.objs := List.mem_append.mpr (.inr hq)
          apply oth q hqo
          rintro rfl
          have := (List.pairwise_append.mp i.sep.sep).2.2 q (List.mem_map.mpr ⟨_, GoMap.mem_of_get hg, rfl⟩) q hq
          exact this q (Obj.mem_self _ _) (Obj.mem_self _ _)
    | none =>
      rw [hg] at h
      cases hn : newData m.heap a s.t with
      | err => simp [hn, Res.bind] at h
      | panic => simp [hn, Res.bind] at h
      | ok r =>
        obtain ⟨h1, p⟩ := r
        simp only [hn, Res.bind] at h
        cases ha : addSample h1 p s with
        | err => simp [ha] at h
        | panic => simp [ha] at h
        | ok h2 =>
          simp only [ha, Res.ok.injEq] at h
          subst h
          obtain ⟨f, o, fresh, d, hmk, hd⟩ := newData_spec hn
          obtain ⟨s1, oth1⟩ := i.sep.new f o fresh
          obtain ⟨f2, o2, fp2, d0, d', hd0, hs, hd'⟩ := addSample_spec o ha
          have : d0 = d := by rw [hd] at hd0; simpa using hd0.symm
          subst this
          obtain ⟨s2, oth2⟩ := s1.modify (by simp) f2 o2 fp2
          have hnp : p ∉ m.objs := by
            intro hp
            have h1 := (i.sep.obj p hp).lt p (Obj.mem_self _ _)
            have h2 := fresh p (Obj.mem_self _ _)
            omega
          have hoth : ∀ b ∈ m.objs, deref h2 b = deref m.heap b := by
            intro b hb
            rw [oth2 b (List.mem_cons_of_mem _ hb) (by rintro rfl; exact hnp hb), oth1 b hb]
          refine ⟨⟨GoMap.WF_set i.wf _ _, ?_⟩, ?_, ?_⟩
          · refine s2.perm ?_
            unfold Mem.objs
            exact ((set_snd_perm m.rows (v, sig) p hg).append_right m.given).symm
          · have := SpecStep.add m.table v a sig s d0 d' (.inr ⟨by simp [Mem.table, hg], hmk⟩) hs
            convert this using 1
            funext k
            simp only [Mem.table, GoMap.get_set]
            by_cases hk : k = (v, sig)
            · simp [hk, hd']
            · simp only [hk, if_false]
              cases hgk : GoMap.get m.rows k with
              | none => rfl
              | some p' => simp [hoth p' (mem_objs_of_get hgk)]
          · intro q hq
            exact ⟨hq, fun _ => hoth q (List.mem_append.mpr (.inr hq))⟩
  | collect v qs h =>
    unfold Mem.collect at h
    cases hc : cloneAll m.heap (m.rowsOf v) with
    | err => simp [hc, Res.bind] at h
    | panic => simp [hc, Res.bind] at h
    | ok r =>
      obtain ⟨h1, qs'⟩ := r
      simp only [hc, Res.bind, Res.ok.injEq, Prod.mk.injEq] at h
      obtain ⟨rfl, rfl⟩ := h
      have hm : ∀ e ∈ m.rowsOf v, e.2 ∈ m.objs := by
        intro e he
        simp only [Mem.rowsOf, List.mem_map, List.mem_filter] at he
        obtain ⟨x, ⟨hx, _⟩, rfl⟩ := he
        exact List.mem_append.mpr (.inl (List.mem_map.mpr ⟨x, hx, rfl⟩))
      obtain ⟨s1, oth, _⟩ := cloneAll_spec i.sep hm hc
      refine ⟨⟨i.wf, ?_⟩, ?_, ?_⟩
      · refine s1.perm ?_
        unfold Mem.objs
        simp only
        rw [← List.append_assoc (m.rows.map Prod.snd)]
        exact List.perm_append_comm
      · have := SpecStep.collect m.table v qs'
        convert this using 1
        funext k
        simp only [Mem.table]
        cases hgk : GoMap.get m.rows k with
        | none => rfl
        | some p' => simp [oth p' (mem_objs_of_get hgk)]
      · intro q hq
        exact ⟨List.mem_append.mpr (.inl hq), fun _ => oth q (List.mem_append.mpr (.inr hq))⟩
  | clear v =>
    have sub : (m.clear v).objs.Sublist m.objs := by
      unfold Mem.objs Mem.clear
      exact (List.filter_sublist.map _).append_right _
    refine ⟨⟨?_, ⟨fun a ha => i.sep.obj a (sub.subset ha), i.sep.sep.sublist sub⟩⟩, ?_, fun q hq => ⟨hq, fun _ => rfl⟩⟩
    · exact i.wf.sublist (List.filter_sublist.map _)
    · have := SpecStep.clear m.table v
      convert this using 1
      funext k
      simp only [Mem.table, Mem.clear, get_filter]
      by_cases hk : k.1 = v <;> simp [hk]
  | scribble q hq p hp c c' hc hs =>
    have hqo : q ∈ m.objs := List.mem_append.mpr (.inr hq)
    obtain ⟨f, o, fp⟩ := scribble_spec (i.sep.obj q hqo) hp hc hs
    obtain ⟨s1, oth⟩ := i.sep.modify hqo f o fp
    refine ⟨⟨i.wf, s1⟩, ?_, ?_⟩
    · have := SpecStep.scribble m.table q
      convert this using 1
      funext k
      simp only [Mem.table]
      cases hgk : GoMap.get m.rows k with
      | none => rfl
      | some p' =>
        have hne : p' ≠ q := by
          rintro rfl
          have := (List.pairwise_append.mp i.sep.sep).2.2 p' (List.mem_map.mpr ⟨_, GoMap.mem_of_get hgk, rfl⟩) p' hq
          exact this p' (Obj.mem_self _ _) (Obj.mem_self _ _)
        simp [oth p' (mem_objs_of_get hgk) hne]
    · intro b hb
      refine ⟨hb, fun hne => ?_⟩
      exact oth b (List.mem_append.mpr (.inr hb)) (by rintro rfl; exact hne rfl)

theorem steps_spec {m m' : Mem F} {es : List (Ev F)} (i : Inv m) (h : Steps m es m') :
    Inv m' ∧ SpecSteps m.table es m'.table ∧
      ∀ q ∈ m.given, q ∈ m'.given ∧ (Ev.scribble q ∉ es → deref m'.heap q = deref m.heap q) := by
  induction h with
  | nil m => exact ⟨i, .nil _, fun q hq => ⟨hq, fun _ => rfl⟩⟩
  | cons h t ih =>
    obtain ⟨i1, s1, g1⟩ := step_spec i h
    obtain ⟨i2, s2, g2⟩ := ih i1
    refine ⟨i2, .cons s1 s2, fun q hq => ?_⟩
    obtain ⟨h1, h2⟩ := g1 q hq
    obtain ⟨h3, h4⟩ := g2 q h1
    refine ⟨h3, fun hn => ?_⟩
    simp only [List.mem_cons, not_or] at hn
    rw [h4 hn.2, h2 (Ne.symm hn.1)]

omit [Arith F] in
/-- What `collectedRows` hands out: for every signature with data, and no other, one new object reading
as the collector's. -/
theorem collect_rows {m m' : Mem F} {v : Nat} {qs : List (Bytes × Nat)} (i : Inv m)
    (h : m.collect v = .ok (m', qs)) (sig : Bytes) (d : AggData F) :
    m.table (v, sig) = some d ↔ ∃ q, (sig, q) ∈ qs ∧ q ∈ m'.given ∧ deref m'.heap q = some d := by
  unfold Mem.collect at h
  cases hc : cloneAll m.heap (m.rowsOf v) with
  | err => simp [hc, Res.bind] at h
  | panic => simp [hc, Res.bind] at h
  | ok r =>
    obtain ⟨h1, qs'⟩ := r
    simp only [hc, Res.bind, Res.ok.injEq, Prod.mk.injEq] at h
    obtain ⟨rfl, rfl⟩ := h
    have hmem : ∀ sig p, (sig, p) ∈ m.rowsOf v ↔ GoMap.get m.rows (v, sig) = some p := by
      intro sig p
      rw [GoMap.get_iff_mem i.wf]
      simp only [Mem.rowsOf, List.mem_map, List.mem_filter, decide_eq_true_eq, Prod.mk.injEq]
      constructor
      · rintro ⟨⟨⟨a, b⟩, c⟩, ⟨h1, h2⟩, rfl, rfl⟩
        simp only at h2; subst h2; exact h1
      · intro h
        exact ⟨((v, sig), p), ⟨h, rfl⟩, rfl, rfl⟩
    have hm : ∀ e ∈ m.rowsOf v, e.2 ∈ m.objs := fun e he => mem_objs_of_get ((hmem e.1 e.2).mp he)
    obtain ⟨_, _, fa⟩ := cloneAll_spec i.sep hm hc
    have fwd : ∀ ps qs : List (Bytes × Nat), List.Forall₂ (fun p q => q.1 = p.1 ∧ deref h1 q.2 = deref m.heap p.2) ps qs →
        (∀ p ∈ ps, ∃ q ∈ qs, q.1 = p.1 ∧ deref h1 q.2 = deref m.heap p.2) ∧
        (∀ q ∈ qs, ∃ p ∈ ps, q.1 = p.1 ∧ deref h1 q.2 = deref m.heap p.2) := by
      intro ps qs fa
      induction fa with
      | nil => simp
      | cons h t ih =>
        constructor
        · intro p hp
          rcases List.mem_cons.mp hp with rfl | hp
          · exact ⟨_, List.mem_cons_self .., h⟩
          · obtain ⟨q, hq, h⟩ := ih.1 p hp
            exact ⟨q, List.mem_cons_of_mem _ hq, h⟩
        · intro q hq
          rcases List.mem_cons.mp hq with rfl | hq
          · exact ⟨_, List.mem_cons_self .., h⟩
          · obtain ⟨p, hp, h⟩ := ih.2 q hq
            exact ⟨p, List.mem_cons_of_mem _ hp, h⟩
    obtain ⟨f1, f2⟩ := fwd _ _ fa
    constructor
    · intro ht
      simp only [Mem.table] at ht
      cases hg : GoMap.get m.rows (v, sig) with
      | none => simp [hg] at ht
      | some p =>
        obtain ⟨⟨s', q⟩, hq, h1', h2'⟩ := f1 (sig, p) ((hmem sig p).mpr hg)
        simp only at h1' h2'
        subst h1'
        refine ⟨q, hq, List.mem_append.mpr (.inr (List.mem_map.mpr ⟨_, hq, rfl⟩)), ?_⟩
        rw [h2']; simpa [hg] using ht
    · rintro ⟨q, hq, _, hd⟩
      obtain ⟨⟨s', p⟩, hp, h1', h2'⟩ := f2 (sig, q) hq
      simp only at h1' h2' hd
      subst h1'
      simp only [Mem.table, (hmem _ p).mp hp, Option.bind_some, ← h2', hd]

/-! ## C15 -/

/-- Rows handed out never change: whatever happens after view `v`'s rows were handed out, every row
handed out reads as the data the view had at that time, unless its holder modified it. -/
theorem rows_never_change {m m₁ m₂ : Mem F} {before after : List (Ev F)} {v : Nat}
    {qs : List (Bytes × Nat)} (h₀ : Steps Mem.init before m) (h₁ : Step m (.collect v qs) m₁)
    (h₂ : Steps m₁ after m₂) (sig : Bytes) (q : Nat) (hq : (sig, q) ∈ qs)
    (hs : Ev.scribble q ∉ after) :
    ∃ d, m.table (v, sig) = some d ∧ deref m₂.heap q = some d := by
  obtain ⟨i, _, _⟩ := steps_spec inv_init h₀
  obtain ⟨i₁, _, _⟩ := step_spec i h₁
  cases h₁ with
  | collect _ _ h =>
    have hg : q ∈ m₁.given := by
      unfold Mem.collect at h
      cases hc : cloneAll m.heap (m.rowsOf v) with
      | err => simp [hc, Res.bind] at h
      | panic => simp [hc, Res.bind] at h
      | ok r =>
        simp only [hc, Res.bind, Res.ok.injEq, Prod.mk.injEq] at h
        obtain ⟨rfl, rfl⟩ := h
        exact List.mem_append.mpr (.inr (List.mem_map.mpr ⟨_, hq, rfl⟩))
    obtain ⟨d, hd⟩ := deref_some (i₁.sep.obj q (List.mem_append.mpr (.inr hg)))
    refine ⟨d, (collect_rows i h sig d).mpr ⟨q, hq, hg, hd⟩, ?_⟩
    rw [((steps_spec i₁ h₂).2.2 q hg).2 hs, hd]

/-- Handing rows out, and readers modifying what they were handed, never disturb what is collected:
the collectors go through the same tables as in the specification, which ignores both. -/
theorem collectors_undisturbed {m : Mem F} {es : List (Ev F)} (h : Steps Mem.init es m) :
    SpecSteps (fun _ => none) es m.table := by
  have := (steps_spec inv_init h).2.1
  exact this

/-- Every row is handed out: a view's current data all appear among the rows. -/
theorem all_rows_handed_out {m m₁ : Mem F} {es : List (Ev F)} {v : Nat} {qs : List (Bytes × Nat)}
    (h₀ : Steps Mem.init es m) (h₁ : Step m (.collect v qs) m₁) (sig : Bytes) (d : AggData F)
    (h : m.table (v, sig) = some d) : ∃ q, (sig, q) ∈ qs ∧ deref m₁.heap q = some d := by
  cases h₁ with
  | collect _ _ hc =>
    obtain ⟨q, hq, _, hd⟩ := (collect_rows (steps_spec inv_init h₀).1 hc sig d).mp h
    exact ⟨q, hq, hd⟩

/-! ## The hypotheses are met: a distribution with an exemplar, handed out, then modified by further
samples, cleared, and handed out again. -/

def exAgg : Aggregation Rat := ⟨0, .distribution, [10], some .distribution⟩
def exS1 : Sample Rat := ⟨3, [(str "k", str "v")], 1⟩
def exS2 : Sample Rat := ⟨5, [(str "k", str "w")], 2⟩

def runAdds (m : Mem Rat) : List (Sample Rat) → Res (Mem Rat)
  | [] => .ok m
  | s :: l => (m.add 0 exAgg (str "x") s).bind fun m => runAdds m l

/-- Count, bucket counts and timestamps of exemplars (0 for none). -/
def digest : AggData Rat → List Int
  | .dist d => d.count :: d.cpb ++ d.epb.map fun e => (e.map fun e => e.timestamp).getD 0
  | _ => []

def exRun : Res (List (Option (List Int)) × Option (List Int)) :=
  (runAdds Mem.init [exS1]).bind fun m => (m.collect 0).bind fun (m, qs) =>
    (m.add 0 exAgg (str "x") exS2).bind fun m =>
      .ok (qs.map fun q => (deref m.heap q.2).map digest, (m.table (0, str "x")).map digest)

/-- The row handed out after the first sample shows a count of one and the first exemplar; after the
second sample the collector's own object shows two and the second. -/
example : exRun = .ok ([some [1, 1, 0, 1, 0]], some [2, 2, 0, 2, 0]) := by
  decide +kernel

example : ∃ (m m₁ m₂ : Mem Rat) (q : Nat), Steps Mem.init [.add 0 exAgg (str "x") exS1] m ∧
    Step m (.collect 0 [(str "x", q)]) m₁ ∧
    Steps m₁ [.add 0 exAgg (str "x") exS2, .clear 0] m₂ := by
  have ok : ∀ {α : Type} (r : Res α), r.isOk = true → ∃ a, r = .ok a := by
    intro α r h; cases r <;> simp_all [Res.isOk]
  have h : ((Mem.init.add 0 exAgg (str "x") exS1).bind fun m => (m.collect 0).bind fun (m, _) =>
    m.add 0 exAgg (str "x") exS2).isOk = true := by decide +kernel
  have hq : ((Mem.init.add 0 exAgg (str "x") exS1).bind fun m => (m.collect 0).bind fun (_, qs) => .ok qs) =
    .ok [(str "x", 6)] := by decide +kernel
  cases h1 : Mem.init.add 0 exAgg (str "x") exS1 with
  | err => simp [h1, Res.bind, Res.isOk] at h
  | panic => simp [h1, Res.bind, Res.isOk] at h
  | ok m =>
    cases h2 : m.collect 0 with
    | err => simp [h1, h2, Res.bind, Res.isOk] at h
    | panic => simp [h1, h2, Res.bind, Res.isOk] at h
    | ok r =>
      obtain ⟨m₁, qs⟩ := r
      simp only [h1, h2, Res.bind] at h hq
      obtain ⟨m₂, h3⟩ := ok _ h
      simp only [Res.ok.injEq] at hq
      subst hq
      exact ⟨m, m₁, _, 6, .cons (.add _ _ _ _ h1) (.nil _), .collect 0 _ h2,
        .cons (.add _ _ _ _ h3) (.cons (.clear _ _) (.nil _))⟩

end Verif.View.Snap
