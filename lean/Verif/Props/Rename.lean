import Verif.View.Rename

/-!
# C115: views may be changed while they are not registered

If a program writes only to views that no meter holds, what is reported is that of a meter which copies the views when it registers them.
If it changes a view that is registered, views can be reported that were unregistered, twice, or not at all though they were not
unregistered, and a view can be registered without ever collecting anything.
-/

namespace Verif.Props.Rename
open Verif Verif.View.Rename

/-! ## Specification: a meter that keeps copies -/

/-- A registered view: where it came from, and what it was then. -/
structure Entry where
  ptr : Nat
  measure : Nat
  agg : Nat
  rows : List Nat
  deriving DecidableEq

/-- The views of the program, and the registered ones by name. -/
structure Spec where
  objs : List Obj
  reg : Nat → Option Entry

def Spec.init : Spec := ⟨[], fun _ => none⟩

def Spec.step (s : Spec) : Op → Spec × Bool
  | .make o => ({ s with objs := s.objs ++ [o] }, true)
  | .write p o => ({ s with objs := s.objs.set p o }, true)
  | .register p => match s.objs[p]? with
    | none => (s, false)
    | some o => match s.reg o.name with
      | some e => (s, decide (e.agg = o.agg ∧ e.measure = o.measure))
      | none => ({ s with reg := fun n => if n = o.name then some ⟨p, o.measure, o.agg, []⟩ else s.reg n }, true)
  | .unregister p => match s.objs[p]? with
    | none => (s, true)
    | some o => ({ s with reg := fun n => if n = o.name then none else s.reg n }, true)
  | .record m x => ({ s with reg := fun n => (s.reg n).map fun e => if e.measure = m then { e with rows := e.rows ++ [x] } else e }, true)

def Spec.run (s : Spec) : List Op → Spec × List Bool
  | [] => (s, [])
  | op :: ops => let (s, b) := s.step op; let (s, bs) := s.run ops; (s, b :: bs)

/-- The program does not write to a view that is registered. -/
def Fair (s : Spec) : List Op → Prop
  | [] => True
  | op :: ops => (∀ p o, op = .write p o → ∀ n e, s.reg n = some e → e.ptr ≠ p) ∧ Fair (s.step op).1 ops

/-! ## The relation -/

/-- `a` is the view registered as `n`. -/
def Holds (st : St) (n a : Nat) (x : VI) (o : Obj) : Prop :=
  GoMap.get st.views n = some a ∧ st.vis[a]? = some x ∧ st.objs[x.view]? = some o

structure Rel (st : St) (s : Spec) : Prop where
  objs : st.objs = s.objs
  wf : GoMap.WF st.views
  free : ∀ n, GoMap.get st.views n = none → s.reg n = none
  held : ∀ n a, GoMap.get st.views n = some a → ∃ x o, Holds st n a x o ∧ x.subscribed = true ∧ o.name = n ∧
    s.reg n = some ⟨x.view, o.measure, o.agg, x.rows⟩
  refs : ∀ m a, a ∈ st.refsOf m ↔ ∃ n x o, Holds st n a x o ∧ o.measure = m
  nodup : ∀ m, (st.refsOf m).Nodup

theorem rel_init : Rel View.Rename.init Spec.init where
  objs := rfl
  wf := GoMap.WF_nil
  free := fun _ _ => rfl
  held := fun n a h => by simp [View.Rename.init] at h
  refs := fun m a => by simp [St.refsOf, View.Rename.init, Holds]
  nodup := fun m => by simp [St.refsOf, View.Rename.init]

/-- A view has one name only. -/
theorem Rel.inj {st : St} {s : Spec} (r : Rel st s) {n n' a : Nat} (h : GoMap.get st.views n = some a)
    (h' : GoMap.get st.views n' = some a) : n = n' := by
  obtain ⟨x, o, ⟨_, h1, h2⟩, _, h3, _⟩ := r.held n a h
  obtain ⟨x', o', ⟨_, h1', h2'⟩, _, h3', _⟩ := r.held n' a h'
  rw [h1] at h1'; cases h1'
  rw [h2] at h2'; cases h2'
  rw [← h3, ← h3']

theorem rel_objs {st : St} {s : Spec} (r : Rel st s) (objs : List Obj)
    (h : ∀ n a x o, Holds st n a x o → objs[x.view]? = some o) : Rel { st with objs := objs } { s with objs := objs } where
  objs := rfl
  wf := r.wf
  free := r.free
  held := fun n a hn => by
    obtain ⟨x, o, ho, h1, h2, h3⟩ := r.held n a hn
    exact ⟨x, o, ⟨ho.1, ho.2.1, h n a x o ho⟩, h1, h2, h3⟩
  refs := fun m a => by
    refine (r.refs m a).trans ⟨?_, ?_⟩
    · rintro ⟨n, x, o, ho, hm⟩; exact ⟨n, x, o, ⟨ho.1, ho.2.1, h n a x o ho⟩, hm⟩
    · rintro ⟨n, x, o, ho, hm⟩
      obtain ⟨x', o', ho', _⟩ := r.held n a ho.1
      have hx : x' = x := by have h1 := ho'.2.1; rw [ho.2.1] at h1; cases h1; rfl
      subst hx
      have h1 := h n a x' o' ho'
      have h2 := ho.2.2
      simp only at h2
      rw [h1] at h2; cases h2
      exact ⟨n, x', _, ho', hm⟩
  nodup := r.nodup

theorem foldl_modify (f : VI → VI) : ∀ (l : List Nat) (vis : List VI), l.Nodup → ∀ i,
    (l.foldl (fun vis a => vis.modify a f) vis)[i]? = if i ∈ l then vis[i]?.map f else vis[i]?
  | [], vis, _, i => by simp
  | a :: l, vis, hn, i => by
    obtain ⟨h1, h2⟩ := List.nodup_cons.mp hn
    simp only [List.foldl_cons]
    rw [foldl_modify f l _ h2 i, List.getElem?_modify]
    by_cases hi : i = a
    · subst hi; simp [h1]
    · have hi' : ¬ a = i := fun h => hi h.symm
      simp [hi, hi']

theorem rel_step {st : St} {s : Spec} (r : Rel st s) (op : Op) (hf : ∀ p o, op = .write p o → ∀ n e, s.reg n = some e → e.ptr ≠ p) :
    Rel (step st op).1 (s.step op).1 ∧ (step st op).2 = (s.step op).2 := by
  cases op with
  | make o =>
    refine ⟨?_, rfl⟩
    have := rel_objs r (st.objs ++ [o]) (fun n a x o' ho => by
      rw [List.getElem?_append_left (List.getElem?_eq_some_iff.mp ho.2.2).1]; exact ho.2.2)
    simpa only [step, Spec.step, ← r.objs] using this
  | write p o =>
    refine ⟨?_, rfl⟩
    have := rel_objs r (st.objs.set p o) (fun n a x o' ho => by
      obtain ⟨x', o'', ho', _, _, hr⟩ := r.held n a ho.1
      have hx : x' = x := by have h1 := ho'.2.1; rw [ho.2.1] at h1; cases h1; rfl
      subst hx
      have := hf p o rfl n _ hr
      rw [List.getElem?_set_ne (fun h => this h.symm)]; exact ho.2.2)
    simpa only [step, Spec.step, ← r.objs] using this
  | register p =>
    simp only [step, Spec.step, register, ← r.objs]
    cases hp : st.objs[p]? with
    | none => exact ⟨r, rfl⟩
    | some o =>
      simp only
      cases hg : GoMap.get st.views o.name with
      | some a =>
        obtain ⟨x, o', ⟨_, h1, h2⟩, hsub, hn, hr⟩ := r.held _ _ hg
        have hsame : same st x.view p = decide (o'.agg = o.agg ∧ o'.measure = o.measure) := by
          unfold same
          simp only [h2, hp]
          by_cases hxp : x.view = p
          · subst hxp; rw [hp] at h2; cases h2; simp
          · simp [hxp]
        have hmod : st.vis.modify a (fun v => { v with subscribed := true }) = st.vis := by
          apply List.ext_getElem?
          intro i
          rw [List.getElem?_modify]
          by_cases hi : a = i
          · subst hi; simp only [h1, if_true, Option.map_eq_map, Option.map_some]; cases x; simp_all
          · simp [hi]
        simp only [h1, hr, hsame, hmod]
        by_cases hc : o'.agg = o.agg ∧ o'.measure = o.measure
        · simp only [decide_eq_true hc, if_true]; exact ⟨r, trivial⟩
        · simp only [decide_eq_false hc]; exact ⟨r, rfl⟩
      | none =>
        simp only [r.free _ hg]
        refine ⟨?_, trivial⟩
        have hlt : ∀ n a, GoMap.get st.views n = some a → a < st.vis.length := by
          intro n a hh
          obtain ⟨x, o', ⟨_, h1, _⟩, _⟩ := r.held n a hh
          exact (List.getElem?_eq_some_iff.mp h1).1
        have hne : ∀ n a, GoMap.get st.views n = some a → n ≠ o.name := by
          intro n a hh he; rw [he, hg] at hh; cases hh
        have hfr : ∀ m, st.vis.length ∉ st.refsOf m := by
          intro m hm
          obtain ⟨n, x, o', ho, _⟩ := (r.refs m _).mp hm
          exact absurd (hlt _ _ ho.1) (by omega)
        -- what is held afterwards
        have holds : ∀ n a x o', Holds { st with vis := st.vis ++ [⟨p, true, []⟩], views := GoMap.set st.views o.name st.vis.length, refs := GoMap.set st.refs o.measure (st.refsOf o.measure ++ [st.vis.length]) } n a x o' ↔
            (Holds st n a x o' ∨ (n = o.name ∧ a = st.vis.length ∧ x = ⟨p, true, []⟩ ∧ o' = o)) := by
          intro n a x o'
          simp only [Holds, GoMap.get_set]
          constructor
          · rintro ⟨h1, h2, h3⟩
            by_cases hn : n = o.name
            · rw [if_pos hn] at h1; cases h1
              rw [List.getElem?_append_right (Nat.le_refl _)] at h2
              simp at h2; subst h2
              simp only [hp] at h3; cases h3
              exact .inr ⟨hn, rfl, rfl, rfl⟩
            · rw [if_neg hn] at h1
              rw [List.getElem?_append_left (hlt _ _ h1)] at h2
              exact .inl ⟨h1, h2, h3⟩
          · rintro (⟨h1, h2, h3⟩ | ⟨rfl, rfl, rfl, rfl⟩)
            · rw [if_neg (hne _ _ h1), List.getElem?_append_left (hlt _ _ h1)]; exact ⟨h1, h2, h3⟩
            · exact ⟨by simp, by simp, hp⟩
        refine ⟨rfl, GoMap.WF_set r.wf _ _, ?_, ?_, ?_, ?_⟩
        · intro n hn
          simp only [GoMap.get_set] at hn
          split at hn
          · cases hn
          · next hne' => simp only [if_neg hne']; exact r.free n hn
        · intro n a hn
          by_cases hno : n = o.name
          · simp only [GoMap.get_set, if_pos hno] at hn
            cases hn
            exact ⟨_, _, (holds _ _ _ _).mpr (.inr ⟨hno, rfl, rfl, rfl⟩), rfl, hno.symm, by simp [hno]⟩
          · simp only [GoMap.get_set, if_neg hno] at hn
            obtain ⟨x, o', ho, h1, h2, h3⟩ := r.held n a hn
            exact ⟨x, o', (holds _ _ _ _).mpr (.inl ho), h1, h2, by simp [hno, h3]⟩
        · intro m a
          have e : ∀ m, St.refsOf { st with vis := st.vis ++ [⟨p, true, []⟩], views := GoMap.set st.views o.name st.vis.length, refs := GoMap.set st.refs o.measure (st.refsOf o.measure ++ [st.vis.length]) } m =
              if m = o.measure then st.refsOf o.measure ++ [st.vis.length] else st.refsOf m := by
            intro m; simp only [St.refsOf, GoMap.get_set]; split <;> rfl
          rw [e]
          simp only [holds]
          constructor
          · intro hm
            split at hm
            · next hmo =>
              rcases List.mem_append.mp hm with hm | hm
              · obtain ⟨n, x, o', ho, h2⟩ := (r.refs _ _).mp hm
                exact ⟨n, x, o', .inl ho, by rw [h2, hmo]⟩
              · simp at hm; exact ⟨o.name, _, o, .inr ⟨rfl, hm, rfl, rfl⟩, hmo.symm⟩
            · obtain ⟨n, x, o', ho, h2⟩ := (r.refs _ _).mp hm
              exact ⟨n, x, o', .inl ho, h2⟩
          · rintro ⟨n, x, o', ho | ⟨_, rfl, _, rfl⟩, h2⟩
            · have := (r.refs m a).mpr ⟨n, x, o', ho, h2⟩
              split
              · next hmo => rw [← hmo]; exact List.mem_append_left _ this
              · exact this
            · rw [if_pos h2.symm]; simp
        · intro m
          simp only [St.refsOf, GoMap.get_set]
          split
          · simp only [Option.getD_some]
            refine List.nodup_append.mpr ⟨r.nodup _, by simp, ?_⟩
            intro a ha b hb
            simp at hb; subst hb
            intro he; subst he
            exact hfr _ ha
          · exact r.nodup m
  | unregister p =>
    simp only [step, Spec.step, unregister, ← r.objs]
    cases hp : st.objs[p]? with
    | none => exact ⟨r, rfl⟩
    | some o =>
      refine ⟨?_, rfl⟩
      simp only
      cases hg : GoMap.get st.views o.name with
      | none =>
        have : (fun n => if n = o.name then none else s.reg n) = s.reg := by
          funext n; split
          · next h => rw [h, r.free _ hg]
          · rfl
        rw [this, r.objs]; exact r
      | some a =>
        obtain ⟨x, o', ⟨_, h1, h2⟩, hsub, hn, hr⟩ := r.held _ _ hg
        have hma : (st.vis.modify a fun v => { v with subscribed := false, rows := [] })[a]? = some { x with subscribed := false, rows := [] } := by
          rw [List.getElem?_modify]; simp [h1]
        have hmo : ∀ b, b ≠ a → (st.vis.modify a fun v => { v with subscribed := false, rows := [] })[b]? = st.vis[b]? := by
          intro b hb; rw [List.getElem?_modify]
          have : ¬ a = b := fun h => hb h.symm
          simp [this]
        have ham : a ∈ st.refsOf o'.measure := (r.refs _ _).mpr ⟨_, x, o', ⟨hg, h1, h2⟩, rfl⟩
        obtain ⟨l, hl⟩ : ∃ l, GoMap.get st.refs o'.measure = some l := by
          cases hh : GoMap.get st.refs o'.measure with
          | none => simp [St.refsOf, hh] at ham
          | some l => exact ⟨l, rfl⟩
        have hlm : st.refsOf o'.measure = l := by simp [St.refsOf, hl]
        have hd : drop { st with vis := st.vis.modify a fun v => { v with subscribed := false, rows := [] } } a =
            { st with vis := st.vis.modify a fun v => { v with subscribed := false, rows := [] }, views := GoMap.del st.views o.name, refs := GoMap.set st.refs o'.measure (l.filter (· ≠ a)) } := by
          unfold drop
          simp only [hma, Option.bind_some, h2, hl, hn]
        simp only []
        rw [hd]
        have holds : ∀ n b y q, Holds { st with vis := st.vis.modify a fun v => { v with subscribed := false, rows := [] }, views := GoMap.del st.views o.name, refs := GoMap.set st.refs o'.measure (l.filter (· ≠ a)) } n b y q ↔
            (Holds st n b y q ∧ n ≠ o.name) := by
          intro n b y q
          simp only [Holds, GoMap.get_del]
          by_cases hno : n = o.name
          · simp [hno]
          · simp only [if_neg hno]
            constructor
            · rintro ⟨g1, g2, g3⟩
              have hb : b ≠ a := by intro hb; subst hb; exact hno (r.inj g1 hg)
              rw [hmo b hb] at g2
              exact ⟨⟨g1, g2, g3⟩, hno⟩
            · rintro ⟨⟨g1, g2, g3⟩, _⟩
              have hb : b ≠ a := by intro hb; subst hb; exact hno (r.inj g1 hg)
              rw [hmo b hb]
              exact ⟨g1, g2, g3⟩
        refine ⟨rfl, GoMap.WF_del r.wf _, ?_, ?_, ?_, ?_⟩
        · intro n hh
          simp only [GoMap.get_del] at hh
          split at hh
          · next h => simp [h]
          · next h => simp only [if_neg h]; exact r.free n hh
        · intro n b hh
          simp only [GoMap.get_del] at hh
          split at hh
          · cases hh
          · next h =>
            obtain ⟨y, q, ho, g1, g2, g3⟩ := r.held n b hh
            exact ⟨y, q, (holds _ _ _ _).mpr ⟨ho, h⟩, g1, g2, by simp only [if_neg h]; exact g3⟩
        · intro m b
          simp only [holds, St.refsOf, GoMap.get_set]
          constructor
          · intro hm
            by_cases hmm : m = o'.measure
            · rw [if_pos hmm] at hm
              simp at hm
              obtain ⟨n, y, q, ho, g⟩ := (r.refs m b).mp (by rw [hmm, hlm]; exact hm.1)
              refine ⟨n, y, q, ⟨ho, ?_⟩, g⟩
              intro he; subst he
              have := ho.1; rw [hg] at this; cases this; exact hm.2 rfl
            · rw [if_neg hmm] at hm
              obtain ⟨n, y, q, ho, g⟩ := (r.refs m b).mp hm
              refine ⟨n, y, q, ⟨ho, ?_⟩, g⟩
              intro he; subst he
              have := ho.1; rw [hg] at this; cases this
              have g1 := ho.2.1; rw [h1] at g1; cases g1
              have g2 := ho.2.2; rw [h2] at g2; cases g2
              exact hmm g.symm
          · rintro ⟨n, y, q, ⟨ho, hno⟩, g⟩
            have hb : b ≠ a := by intro hb; subst hb; exact hno (r.inj ho.1 hg)
            have := (r.refs m b).mpr ⟨n, y, q, ho, g⟩
            split
            · next hmm => rw [hmm, hlm] at this; simp [this, hb]
            · exact this
        · intro m
          simp only [St.refsOf, GoMap.get_set]
          split
          · have := r.nodup o'.measure
            rw [hlm] at this
            exact this.filter _
          · exact r.nodup m
  | record m n =>
    refine ⟨?_, rfl⟩
    simp only [step, Spec.step, record]
    have hv := foldl_modify (·.add n) (st.refsOf m) st.vis (r.nodup m)
    have fwd : ∀ k a x o, Holds st k a x o → x.subscribed = true →
        Holds { st with vis := (st.refsOf m).foldl (fun vis a => vis.modify a (·.add n)) st.vis } k a
          (if o.measure = m then { x with rows := x.rows ++ [n] } else x) o := by
      intro k a x o ho hs
      by_cases hm : o.measure = m
      · have ha : a ∈ st.refsOf m := (r.refs m a).mpr ⟨k, x, o, ho, hm⟩
        refine ⟨ho.1, ?_, ?_⟩
        · have := hv a
          rw [if_pos ha, ho.2.1] at this
          simpa [VI.add, hs, hm] using this
        · simp only [if_pos hm]; exact ho.2.2
      · have ha : a ∉ st.refsOf m := by
          intro ha
          obtain ⟨k', x', o', ho', hm'⟩ := (r.refs m a).mp ha
          have g1 := ho'.2.1; rw [ho.2.1] at g1; cases g1
          have g2 := ho'.2.2; rw [ho.2.2] at g2; cases g2
          exact hm hm'
        refine ⟨ho.1, ?_, ?_⟩
        · simp only [hv, if_neg ha, if_neg hm]; exact ho.2.1
        · simp only [if_neg hm]; exact ho.2.2
    refine ⟨r.objs, r.wf, ?_, ?_, ?_, r.nodup⟩
    · intro k hk; simp only [r.free k hk, Option.map_none]
    · intro k a hk
      obtain ⟨x, o, ho, h1, h2, h3⟩ := r.held k a hk
      refine ⟨_, o, fwd k a x o ho h1, ?_, h2, ?_⟩
      · split <;> exact h1
      · simp only [h3, Option.map_some]
        split <;> rfl
    · intro m' a
      refine (r.refs m' a).trans ⟨?_, ?_⟩
      · rintro ⟨k, x, o, ho, hm⟩
        obtain ⟨x', o', ho', h1, _⟩ := r.held k a ho.1
        have g1 := ho'.2.1; rw [ho.2.1] at g1; cases g1
        exact ⟨k, _, o, fwd k a x o ho h1, hm⟩
      · rintro ⟨k, x, o, ho, hm⟩
        obtain ⟨x', o', ho', h1, _⟩ := r.held k a ho.1
        have f := fwd k a x' o' ho' h1
        have g1 := ho.2.1
        rw [f.2.1] at g1
        cases g1
        have g2 := ho.2.2
        rw [f.2.2] at g2
        cases g2
        exact ⟨k, x', _, ho', hm⟩

theorem rel_run : ∀ (ops : List Op) {st : St} {s : Spec}, Rel st s → Fair s ops →
    Rel (run st ops).1 (s.run ops).1 ∧ (run st ops).2 = (s.run ops).2
  | [], st, s, r, _ => ⟨r, rfl⟩
  | op :: ops, st, s, r, hf => by
    obtain ⟨r1, e1⟩ := rel_step r op hf.1
    obtain ⟨r2, e2⟩ := rel_run ops r1 hf.2
    exact ⟨r2, by simp only [run, Spec.run, e1, e2]⟩

/-! ## The claims -/

/-- **C115.** If the program does not write to views that are registered, calls of `Register` succeed exactly when they would with a meter
that keeps copies, and the reports have each registered view once, under its name and with what was recorded since it was
registered. -/
theorem reports_partial {ops : List Op} (hf : Fair Spec.init ops) :
    (run View.Rename.init ops).2 = (Spec.init.run ops).2 ∧
    ((report (run View.Rename.init ops).1).map Prod.fst).Nodup ∧
    ∀ n rows, (n, rows) ∈ report (run View.Rename.init ops).1 ↔ ∃ e, (Spec.init.run ops).1.reg n = some e ∧ e.rows = rows := by
  obtain ⟨r, e⟩ := rel_run ops rel_init hf
  generalize (run View.Rename.init ops).1 = st at *
  generalize (Spec.init.run ops).1 = s at *
  have hrep : ∀ (l : GoMap Nat Nat), (∀ q ∈ l, GoMap.get st.views q.1 = some q.2) →
      (l.filterMap fun (q : Nat × Nat) => match st.vis[q.2]? with
        | none => none
        | some x => if x.subscribed then (st.objs[x.view]?).map fun o => (o.name, x.rows) else none).map Prod.fst = l.map Prod.fst := by
    intro l
    induction l with
    | nil => intro _; rfl
    | cons q l ih =>
      intro hq
      obtain ⟨x, o, ho, h1, h2, _⟩ := r.held q.1 q.2 (hq q List.mem_cons_self)
      rw [List.filterMap_cons]
      simp only [ho.2.1, h1, if_true, ho.2.2, Option.map_some, List.map_cons, h2]
      rw [ih (fun q' hq' => hq q' (List.mem_cons_of_mem _ hq'))]
  refine ⟨e, ?_, ?_⟩
  · have : (report st).map Prod.fst = st.views.map Prod.fst := hrep st.views (fun q hq => GoMap.get_of_mem r.wf hq)
    rw [this]
    exact r.wf
  · intro n rows
    unfold report
    rw [List.mem_filterMap]
    constructor
    · rintro ⟨⟨k, a⟩, hm, hh⟩
      have hg := GoMap.get_of_mem r.wf hm
      obtain ⟨x, o, ho, h1, h2, h3⟩ := r.held k a hg
      simp only [ho.2.1, h1, if_true, ho.2.2, Option.map_some, Option.some.injEq, Prod.mk.injEq] at hh
      obtain ⟨rfl, rfl⟩ := hh
      exact ⟨_, by rw [h2]; exact h3, rfl⟩
    · rintro ⟨en, he, rfl⟩
      cases hg : GoMap.get st.views n with
      | none => rw [r.free n hg] at he; cases he
      | some a =>
        obtain ⟨x, o, ho, h1, h2, h3⟩ := r.held n a hg
        rw [h3] at he; cases he
        refine ⟨(n, a), GoMap.mem_of_get hg, ?_⟩
        simp only [ho.2.1, h1, if_true, ho.2.2, Option.map_some, h2]

/-! ## Views that are changed while they are registered -/

/-- **C115.** A view that is renamed after registering cannot be unregistered: it is reported and collects still, under the new name. -/
theorem renamed_stays : report (run View.Rename.init [.make ⟨1, 7, 0⟩, .register 0, .write 0 ⟨2, 7, 0⟩, .unregister 0, .record 7 5]).1 =
    [(2, [5])] := by decide

/-- **C115.** A view that is renamed and registered again is reported twice, under one name, and with different data. -/
theorem renamed_twice : report (run View.Rename.init [.make ⟨1, 7, 0⟩, .register 0, .record 7 5, .write 0 ⟨2, 7, 0⟩, .register 0,
    .record 7 6]).1 = [(2, [5, 6]), (2, [6])] := by decide

/-- Two views; the first takes the name of the second; a third, with the name that the first had, is unregistered. -/
def clash : List Op := [.make ⟨1, 7, 0⟩, .make ⟨2, 7, 0⟩, .make ⟨1, 7, 0⟩, .register 0, .register 1, .write 0 ⟨2, 7, 0⟩, .unregister 2]

/-- **C115.** Unregistering a view then removes another, which nobody has unregistered; and the name can be registered again without an
error, but the view does not collect anything, and unregistering by the name takes no effect on the table. -/
theorem other_removed : report (run View.Rename.init clash).1 = [] ∧
    (run View.Rename.init (clash ++ [.register 2])).2.getLast? = some true ∧
    report (run View.Rename.init (clash ++ [.register 2, .record 7 5])).1 = [(2, [])] ∧
    GoMap.get (run View.Rename.init (clash ++ [.unregister 2])).1.views 1 = some 0 := by decide

/-- **C115.** A view whose measure is changed is still collected under the measure it had when it was registered, and after `Unregister` the meter
refers to it for ever. -/
theorem measure_changed :
    report (run View.Rename.init [.make ⟨1, 7, 0⟩, .register 0, .write 0 ⟨1, 8, 0⟩, .record 8 5, .record 7 6]).1 = [(1, [6])] ∧
    (run View.Rename.init [.make ⟨1, 7, 0⟩, .register 0, .write 0 ⟨1, 8, 0⟩, .unregister 0]).1.refsOf 7 = [0] := by decide

/-- **C115.** So, that reports are those of a meter with copies whatever the program writes, is false. -/
theorem reports_fails : ¬ ∀ (ops : List Op) (n : Nat) (rows : List Nat), (n, rows) ∈ report (run View.Rename.init ops).1 ↔
    ∃ e, (Spec.init.run ops).1.reg n = some e ∧ e.rows = rows := by
  intro h
  have := (h [.make ⟨1, 7, 0⟩, .register 0, .write 0 ⟨2, 7, 0⟩, .unregister 0, .record 7 5] 2 [5]).mp (by decide)
  obtain ⟨e, he, _⟩ := this
  simp [Spec.run, Spec.step, Spec.init] at he

/-! ## The hypothesis can be met -/

/-- A view is renamed before it is registered and after it was unregistered, and another of the same name meanwhile. -/
def sample : List Op := [.make ⟨1, 7, 0⟩, .make ⟨3, 7, 0⟩, .write 0 ⟨2, 7, 0⟩, .write 1 ⟨2, 7, 0⟩, .register 0, .register 1, .write 1 ⟨4, 8, 1⟩,
  .record 7 5, .register 1, .record 8 6, .unregister 0, .write 0 ⟨9, 8, 1⟩, .register 0, .record 8 7]

example : Fair Spec.init sample ∧ report (run View.Rename.init sample).1 = [(4, [6, 7]), (9, [7])] := by
  refine ⟨?_, by decide⟩
  simp [sample, Fair, Spec.step, Spec.init]
  intro n e h2 x hx he
  rw [← he]
  split at hx
  · cases hx; simp
  · simp [h2] at hx

end Verif.Props.Rename
