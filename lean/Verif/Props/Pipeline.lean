import Verif.Metric.Pipeline
import Verif.Props.RegConc
import Mathlib.Tactic.IntervalCases

/-!
# C95: what is exported while other goroutines use the registries
-/

namespace Verif.Props.Pipeline
open Verif Verif.Metric Verif.Metric.Pipeline
open Verif.Props.RegConc (thread registered entryAt valueAt ReadIs)

variable {V : Type}

/-! ## Specification -/

/-- What happened in registry `r`. -/
def inRegistry (r : Nat) (l : List (Ev V)) : List (RegConc.Ev V) := l.filterMap fun x => match x with
  | .reg q y => if q = r then some y else none
  | _ => none

/-- Whether registry `r` is a producer: it was added and not removed since. -/
def isProducer (r : Nat) (l : List (Ev V)) : Bool := ((l.filterMap fun x => match x with
  | .added q => if q = r then some true else none
  | .removed q => if q = r then some false else none
  | _ => none).getLast?).getD false

/-- Goroutine `g` called `Read` of registry `r` after `lo`, and before `hi` it returned `ms`. -/
def Reading (l : List (Ev V)) (g r lo hi : Nat) (ms : List (RegConc.Report V)) : Prop :=
  ∃ d e, lo < d ∧ d < e ∧ e < hi ∧ l[d]? = some (.reg r (.readCalled g)) ∧ l[e]? = some (.reg r (.readDone g ms)) ∧
    ∀ j x, d < j → j < e → l[j]? = some (.reg r x) → thread x ≠ g

/-- What `GetAll` returned at `c`: the registries that are producers at that moment, each once. -/
structure Listed (l : List (Ev V)) (g c : Nat) (rs : List Nat) : Prop where
  got : l[c]? = some (.listed g rs)
  once : rs.Nodup
  all : ∀ r, r ∈ rs ↔ isProducer r (l.take c) = true

/-- The data of the readings, in order. -/
def flat (reads : List (Nat × List (RegConc.Report V))) : List (Nat × RegConc.Report V) :=
  reads.flatMap fun x => x.2.map fun m => (x.1, m)

/-- The `ReadAndExport` that goroutine `g` called at `b` found the producers at `c` and exported at `i` what it read:
one reading of each of the producers, made in between. -/
structure ExportIs (l : List (Ev V)) (g b c i : Nat) (reads : List (Nat × List (RegConc.Report V))) : Prop where
  began : l[b]? = some (.began g)
  same : ∀ j, b < j → j < i → l[j]? ≠ some (.began g)
  order : b < c ∧ c < i
  listed : Listed l g c (reads.map Prod.fst)
  exported : l[i]? = some (.exported g (flat reads))
  each : ∀ x ∈ reads, Reading l g x.1 c i x.2

/-! ## Lemmas: one registry -/

/-- In `Read`. -/
def busy : RegConc.PC V → Bool
  | .reading _ _ => true
  | .inside _ _ _ _ _ _ => true
  | .loading _ _ _ _ _ _ _ _ => true
  | _ => false

theorem reg_step {zero : V} {s s' : RegConc.St V} {t : Nat} {mv : RegConc.Move V}
    (h : RegConc.step zero s t mv = some s') :
    (s'.log = s.log ∨ ∃ x, s'.log = s.log ++ [x] ∧ thread x = t) ∧ ∀ u, u ≠ t → s'.pc u = s.pc u := by
  have e1 : ∀ pc, ((s.at t pc).log = s.log ∨ ∃ x, (s.at t pc).log = s.log ++ [x] ∧ thread x = t) ∧
      ∀ u, u ≠ t → (s.at t pc).pc u = s.pc u := fun pc =>
    ⟨.inl rfl, fun u hu => by simp [RegConc.St.at, hu]⟩
  have e2 : ∀ x pc, thread x = t → ((s.emit x t pc).log = s.log ∨ ∃ y, (s.emit x t pc).log = s.log ++ [y] ∧ thread y = t) ∧
      ∀ u, u ≠ t → (s.emit x t pc).pc u = s.pc u := fun x pc hx =>
    ⟨.inr ⟨x, rfl, hx⟩, fun u hu => by simp [RegConc.St.emit, hu]⟩
  unfold RegConc.step at h
  simp only at h
  split at h <;> (try split at h) <;> (try split at h) <;> first
    | (cases h; done)
    | (cases h; exact e1 _)
    | (cases h; exact e2 _ _ rfl)
    | (simp only [Option.map_eq_some_iff] at h; obtain ⟨p, _, rfl⟩ := h; exact e1 _)

theorem busy_step {zero : V} {s s' : RegConc.St V} {t : Nat} {mv : RegConc.Move V} (hb : busy (s.pc t) = true)
    (h : RegConc.step zero s t mv = some s') :
    (s'.log = s.log ∧ busy (s'.pc t) = true) ∨ ∃ ms, s'.log = s.log ++ [.readDone t ms] ∧ s'.pc t = .idle := by
  unfold RegConc.step at h
  simp only at h
  split at h <;> rename_i hpc <;> first
    | (rw [hpc] at hb; cases hb; done)
    | skip
  · simp only [Option.map_eq_some_iff] at h
    obtain ⟨p, _, rfl⟩ := h
    exact .inl ⟨rfl, by simp [RegConc.St.at, busy]⟩
  · split at h
    · cases h; exact .inr ⟨_, rfl, by simp [RegConc.St.emit]⟩
    · cases h
  · simp only [Option.map_eq_some_iff] at h
    obtain ⟨p, _, rfl⟩ := h
    exact .inl ⟨rfl, by simp [RegConc.St.at, busy]⟩
  · cases h; exact .inl ⟨rfl, by simp [RegConc.St.at, busy]⟩
  · split at h
    · cases h; exact .inl ⟨rfl, by simp [RegConc.St.at, busy]⟩
    · cases h
  · cases h

theorem read_step {zero : V} {s s' : RegConc.St V} {t : Nat} (h : RegConc.step zero s t .read = some s') :
    s'.log = s.log ++ [.readCalled t] ∧ busy (s'.pc t) = true := by
  unfold RegConc.step at h
  simp only at h
  split at h <;> first
    | (cases h; done)
    | skip
  all_goals first
    | (cases h; exact ⟨rfl, by simp [RegConc.St.emit, busy]⟩)
    | (rename_i hm; cases hm)

/-! ## Lemmas: logs -/

theorem inRegistry_append (r : Nat) (a b : List (Ev V)) : inRegistry r (a ++ b) = inRegistry r a ++ inRegistry r b := by
  simp [inRegistry]

theorem inRegistry_map (r q : Nat) (l : List (RegConc.Ev V)) :
    inRegistry r (l.map (Ev.reg q)) = if q = r then l else [] := by
  induction l with
  | nil => simp [inRegistry]
  | cons x l ih =>
    rw [List.map_cons, show Ev.reg q x :: l.map (Ev.reg q) = [Ev.reg q x] ++ l.map (Ev.reg q) from rfl,
      inRegistry_append, ih]
    by_cases h : q = r <;> simp [inRegistry, h]

theorem isProducer_snoc (r : Nat) (l : List (Ev V)) (x : Ev V) : isProducer r (l ++ [x]) = match x with
    | .added q => if q = r then true else isProducer r l
    | .removed q => if q = r then false else isProducer r l
    | _ => isProducer r l := by
  unfold isProducer
  rw [List.filterMap_append, List.getLast?_append]
  cases x with
  | added q => by_cases h : q = r <;> simp [h]
  | removed q => by_cases h : q = r <;> simp [h]
  | _ => simp

theorem isProducer_map (r q : Nat) (a : List (Ev V)) (l : List (RegConc.Ev V)) :
    isProducer r (a ++ l.map (Ev.reg q)) = isProducer r a := by
  unfold isProducer
  rw [List.filterMap_append]
  have : List.filterMap (fun x : Ev V => match x with
    | .added q => if q = r then some true else none
    | .removed q => if q = r then some false else none
    | _ => none) (l.map (Ev.reg q)) = [] := by
    rw [List.filterMap_map]
    apply List.filterMap_eq_nil_iff.mpr
    intro x _; rfl
  rw [this, List.append_nil]

theorem Reading.append {l : List (Ev V)} {g r lo hi : Nat} {ms : List (RegConc.Report V)} (h : Reading l g r lo hi ms)
    (hh : hi ≤ l.length) (m : List (Ev V)) : Reading (l ++ m) g r lo hi ms := by
  obtain ⟨d, e, h1, h2, h3, h4, h5, h6⟩ := h
  refine ⟨d, e, h1, h2, h3, ?_, ?_, ?_⟩
  · rw [List.getElem?_append_left (by omega)]; exact h4
  · rw [List.getElem?_append_left (by omega)]; exact h5
  · intro j x j1 j2 hx
    rw [List.getElem?_append_left (by omega)] at hx
    exact h6 j x j1 j2 hx

theorem Reading.wider {l : List (Ev V)} {g r lo hi hi' : Nat} {ms : List (RegConc.Report V)} (h : Reading l g r lo hi ms)
    (hh : hi ≤ hi') : Reading l g r lo hi' ms := by
  obtain ⟨d, e, h1, h2, h3, h4⟩ := h
  exact ⟨d, e, h1, h2, by omega, h4⟩

theorem lt_of_some {α : Type} {l : List α} {i : Nat} {x : α} (h : l[i]? = some x) : i < l.length :=
  (List.getElem?_eq_some_iff.1 h).1

theorem Listed.append {l : List (Ev V)} {g c : Nat} {rs : List Nat} (h : Listed l g c rs) (m : List (Ev V)) :
    Listed (l ++ m) g c rs := by
  have hc := lt_of_some h.got
  exact ⟨by rw [List.getElem?_append_left hc]; exact h.got, h.once, by
    rw [List.take_append_of_le_length (by omega)]; exact h.all⟩

theorem ExportIs.append {l : List (Ev V)} {g b c i : Nat} {reads : List (Nat × List (RegConc.Report V))}
    (h : ExportIs l g b c i reads) (m : List (Ev V)) : ExportIs (l ++ m) g b c i reads := by
  have hi := lt_of_some h.exported
  have ho := h.order
  refine ⟨?_, ?_, h.order, h.listed.append m, ?_, ?_⟩
  · rw [List.getElem?_append_left (by omega)]; exact h.began
  · intro j j1 j2
    rw [List.getElem?_append_left (by omega)]; exact h.same j j1 j2
  · rw [List.getElem?_append_left hi]; exact h.exported
  · intro x hx
    exact (h.each x hx).append (by omega) m

/-! ## The invariant -/

/-- The last call of `ReadAndExport` by `g` is at `b`. -/
def BeganAt (l : List (Ev V)) (g b : Nat) : Prop :=
  l[b]? = some (.began g) ∧ ∀ j, b < j → l[j]? ≠ some (.began g)

/-- The last thing `g` did in registry `r` is to call `Read`, at `d`. -/
def OpenAt (l : List (Ev V)) (g r d : Nat) : Prop :=
  l[d]? = some (.reg r (.readCalled g)) ∧ ∀ j x, d < j → l[j]? = some (.reg r x) → thread x ≠ g

/-- The export of `g` so far: the registries still to read are `rest`. -/
structure Going (l : List (Ev V)) (g b c : Nat) (reads : List (Nat × List (RegConc.Report V))) (rest : List Nat)
    (data : List (Nat × RegConc.Report V)) : Prop where
  began : BeganAt l g b
  order : b < c
  listed : Listed l g c (reads.map Prod.fst ++ rest)
  data_eq : data = flat reads
  each : ∀ x ∈ reads, Reading l g x.1 c l.length x.2

def PcOK (s : St V) (g : Nat) : PC V → Prop
  | .idle => True
  | .began => ∃ b, BeganAt s.log g b
  | .next rest data => ∃ b c reads, Going s.log g b c reads rest data
  | .inside r rest data => ∃ b c reads, Going s.log g b c reads (r :: rest) data ∧
      ∃ d, c < d ∧ OpenAt s.log g r d ∧ busy ((s.regs r).pc g) = true

structure Inv (zero : V) (s : St V) : Prop where
  logs : ∀ r, (s.regs r).log = inRegistry r s.log
  reach : ∀ r, ∃ mvs, RegConc.run zero RegConc.init mvs = some (s.regs r)
  man : ∃ m, s.man.producers = some m ∧ GoMap.WF m ∧ (∀ p ∈ GoMap.keys m, p.hashable = true) ∧
    ∀ r, producer r ∈ GoMap.keys m ↔ isProducer r s.log = true
  pc : ∀ g, PcOK s g (s.pc g)
  exports : ∀ i g data, s.log[i]? = some (.exported g data) → ∃ b c reads, ExportIs s.log g b c i reads ∧ data = flat reads

/-- The events are not of goroutine `g`. -/
def Apart (g : Nat) (m : List (Ev V)) : Prop := .began g ∉ m ∧ ∀ r x, .reg r x ∈ m → thread x ≠ g

theorem BeganAt.append {l m : List (Ev V)} {g b : Nat} (h : BeganAt l g b) (hm : .began g ∉ m) : BeganAt (l ++ m) g b := by
  have hb := lt_of_some h.1
  refine ⟨by rw [List.getElem?_append_left hb]; exact h.1, fun j hj he => ?_⟩
  by_cases hl : j < l.length
  · rw [List.getElem?_append_left hl] at he; exact h.2 j hj he
  · rw [List.getElem?_append_right (by omega)] at he
    exact hm (List.mem_of_getElem? he)

theorem OpenAt.append {l m : List (Ev V)} {g r d : Nat} (h : OpenAt l g r d) (hm : ∀ x, .reg r x ∈ m → thread x ≠ g) :
    OpenAt (l ++ m) g r d := by
  have hb := lt_of_some h.1
  refine ⟨by rw [List.getElem?_append_left hb]; exact h.1, fun j x hj he => ?_⟩
  by_cases hl : j < l.length
  · rw [List.getElem?_append_left hl] at he; exact h.2 j x hj he
  · rw [List.getElem?_append_right (by omega)] at he
    exact hm x (List.mem_of_getElem? he)

theorem Going.append {l m : List (Ev V)} {g b c : Nat} {reads : List (Nat × List (RegConc.Report V))} {rest : List Nat}
    {data : List (Nat × RegConc.Report V)} (h : Going l g b c reads rest data) (hm : .began g ∉ m) :
    Going (l ++ m) g b c reads rest data :=
  ⟨h.began.append hm, h.order, h.listed.append m, h.data_eq, fun x hx =>
    ((h.each x hx).append (Nat.le_refl _) m).wider (by simp)⟩

theorem PcOK.append {s s' : St V} {g : Nat} {pc : PC V} {m : List (Ev V)} (h : PcOK s g pc) (hl : s'.log = s.log ++ m)
    (hm : Apart g m) (hpc : ∀ r, (s'.regs r).pc g = (s.regs r).pc g) : PcOK s' g pc := by
  cases pc with
  | idle => trivial
  | began =>
    obtain ⟨b, hb⟩ := h
    exact ⟨b, hl ▸ hb.append hm.1⟩
  | next rest data =>
    obtain ⟨b, c, reads, hg⟩ := h
    exact ⟨b, c, reads, hl ▸ hg.append hm.1⟩
  | inside r rest data =>
    obtain ⟨b, c, reads, hg, d, h1, h2, h3⟩ := h
    exact ⟨b, c, reads, hl ▸ hg.append hm.1, d, h1, hl ▸ h2.append (hm.2 r), by rw [hpc]; exact h3⟩

/-- What a step does, as far as the invariant is concerned: `m` is added to the log, nothing changes for others. -/
theorem Inv.extend {zero : V} {s s' : St V} (h : Inv zero s) {g : Nat} {m : List (Ev V)} (hl : s'.log = s.log ++ m)
    (hm : ∀ u, u ≠ g → Apart u m) (hpc : ∀ u, u ≠ g → s'.pc u = s.pc u ∧ ∀ r, (s'.regs r).pc u = (s.regs r).pc u)
    (hlogs : ∀ r, (s'.regs r).log = inRegistry r s'.log)
    (hreach : ∀ r, ∃ mvs, RegConc.run zero RegConc.init mvs = some (s'.regs r))
    (hman : ∃ m, s'.man.producers = some m ∧ GoMap.WF m ∧ (∀ p ∈ GoMap.keys m, p.hashable = true) ∧
      ∀ r, producer r ∈ GoMap.keys m ↔ isProducer r s'.log = true)
    (hg : PcOK s' g (s'.pc g))
    (hexp : ∀ i u data, s'.log[i]? = some (.exported u data) → s.log.length ≤ i →
      ∃ b c reads, ExportIs s'.log u b c i reads ∧ data = flat reads) : Inv zero s' := by
  refine ⟨hlogs, hreach, hman, fun u => ?_, fun i u data hi => ?_⟩
  · by_cases hu : u = g
    · subst hu; exact hg
    · rw [(hpc u hu).1]
      exact (h.pc u).append hl (hm u hu) (hpc u hu).2
  · by_cases hlt : i < s.log.length
    · rw [hl, List.getElem?_append_left hlt] at hi
      obtain ⟨b, c, reads, h1, h2⟩ := h.exports i u data hi
      exact ⟨b, c, reads, hl ▸ h1.append m, h2⟩
    · exact hexp i u data hi (by omega)

theorem run_snoc {zero : V} {s s1 s2 : RegConc.St V} {mvs : List (Nat × RegConc.Move V)} {t : Nat} {mv : RegConc.Move V}
    (h : RegConc.run zero s mvs = some s1) (h' : RegConc.step zero s1 t mv = some s2) :
    RegConc.run zero s (mvs ++ [(t, mv)]) = some s2 := by
  induction mvs generalizing s with
  | nil => cases h; simp [RegConc.run, h']
  | cons x mvs ih =>
    obtain ⟨u, mv'⟩ := x
    simp only [RegConc.run, Option.bind_eq_some_iff, List.cons_append] at h ⊢
    obtain ⟨s3, h1, h2⟩ := h
    exact ⟨s3, h1, ih h2⟩

/-- A step in a registry. -/
theorem Inv.inReg {zero : V} {s : St V} (h : Inv zero s) {g r : Nat} {mv : RegConc.Move V} {s1 : RegConc.St V}
    (h1 : RegConc.step zero (s.regs r) g mv = some s1) {pc : PC V} (hpc : PcOK ((s.inReg r s1).at g pc) g pc) :
    Inv zero ((s.inReg r s1).at g pc) := by
  obtain ⟨e1, e2⟩ := reg_step h1
  have hm : ∀ u, u ≠ g → Apart u ((s1.log.drop (s.regs r).log.length).map (Ev.reg r)) := by
    intro u hu
    refine ⟨fun hx => ?_, fun q x hx => ?_⟩
    · obtain ⟨y, _, hy⟩ := List.mem_map.1 hx
      cases hy
    rcases e1 with e | ⟨y, e, hy⟩
    · rw [e] at hx; simp at hx
    · rw [e] at hx
      simp only [List.drop_left', List.map_cons, List.map_nil, List.mem_singleton, Ev.reg.injEq] at hx
      rw [hx.2, hy]; exact fun h => hu h.symm
  have hlog : s1.log = (s.regs r).log ++ s1.log.drop (s.regs r).log.length := by
    rcases e1 with e | ⟨y, e, hy⟩
    · rw [e]; simp
    · rw [e]; simp
  refine h.extend (g := g) (s' := (s.inReg r s1).at g pc) rfl hm ?_ ?_ ?_ ?_ ?_ ?_
  · intro u hu
    refine ⟨by simp [St.at, St.inReg, hu], fun q => ?_⟩
    by_cases hq : q = r
    · subst hq; simp [St.at, St.inReg, e2 u hu]
    · simp [St.at, St.inReg, hq]
  · intro q
    simp only [St.at, St.inReg, inRegistry_append, inRegistry_map]
    by_cases hq : q = r
    · subst hq; rw [if_pos rfl, if_pos rfl, ← h.logs q]; exact hlog
    · rw [if_neg hq, if_neg (fun h => hq h.symm), List.append_nil]; exact h.logs q
  · intro q
    by_cases hq : q = r
    · subst hq
      obtain ⟨mvs, hr⟩ := h.reach q
      exact ⟨mvs ++ [(g, mv)], by simpa [St.at, St.inReg] using run_snoc hr h1⟩
    · simpa [St.at, St.inReg, hq] using h.reach q
  · obtain ⟨m, m1, m2, m3, m4⟩ := h.man
    exact ⟨m, m1, m2, m3, fun q => by simp only [St.at, St.inReg, isProducer_map]; exact m4 q⟩
  · simpa [St.at] using hpc
  · intro i u data hi hle
    simp only [St.at, St.inReg] at hi
    rw [List.getElem?_append_right hle] at hi
    obtain ⟨y, _, hy⟩ := List.mem_map.1 (List.mem_of_getElem? hi)
    cases hy

theorem snoc_get {α : Type} {l : List α} {x y : α} {i : Nat} (h : (l ++ [x])[i]? = some y) (hi : l.length ≤ i) :
    i = l.length ∧ y = x := by
  rw [List.getElem?_append_right hi] at h
  have := lt_of_some h
  simp only [List.length_singleton] at this
  have e : i - l.length = 0 := by omega
  rw [e] at h
  simp at h
  exact ⟨by omega, h.symm⟩

/-- A step that adds one event that is not in a registry. -/
theorem Inv.emit {zero : V} {s s' : St V} (h : Inv zero s) {g : Nat} {x : Ev V} (hl : s'.log = s.log ++ [x])
    (hx : (∀ r y, x ≠ .reg r y) ∧ ∀ u, u ≠ g → x ≠ .began u)
    (hpc : ∀ u, u ≠ g → s'.pc u = s.pc u) (hregs : s'.regs = s.regs)
    (hman : ∃ m, s'.man.producers = some m ∧ GoMap.WF m ∧ (∀ p ∈ GoMap.keys m, p.hashable = true) ∧
      ∀ r, producer r ∈ GoMap.keys m ↔ isProducer r s'.log = true)
    (hg : PcOK s' g (s'.pc g))
    (hexp : ∀ u data, x = .exported u data → ∃ b c reads, ExportIs s'.log u b c s.log.length reads ∧ data = flat reads) :
    Inv zero s' := by
  refine h.extend (g := g) hl ?_ (fun u hu => ⟨hpc u hu, fun r => by rw [hregs]⟩) ?_ ?_ hman hg ?_
  · intro u hu
    refine ⟨fun hm => hx.2 u hu (List.mem_singleton.1 hm).symm, fun r y hm => ?_⟩
    exact absurd (List.mem_singleton.1 hm).symm (hx.1 r y)
  · intro r
    rw [hregs, hl, inRegistry_append, h.logs r]
    have : inRegistry r [x] = [] := by
      cases x with
      | reg q y => exact absurd rfl (hx.1 q y)
      | _ => rfl
    rw [this, List.append_nil]
  · intro r; rw [hregs]; exact h.reach r
  · intro i u data hi hle
    rw [hl] at hi
    obtain ⟨e1, e2⟩ := snoc_get hi hle
    subst e1
    exact hexp u data e2.symm

theorem inv_init (zero : V) : Inv zero (init : St V) := by
  refine ⟨fun r => rfl, fun r => ⟨[], rfl⟩, ⟨[], rfl, GoMap.WF_nil, by simp, fun r => by simp [isProducer, init]⟩,
    fun g => trivial, fun i g data h => by simp [init] at h⟩

theorem inv_step {zero : V} {s s' : St V} (h : Inv zero s) {g : Nat} {mv : Move V} (hs : step zero s g mv = some s') :
    Inv zero s' := by
  unfold step at hs
  split at hs
  · -- use
    rename_i r mv hpc
    simp only [Option.map_eq_some_iff] at hs
    obtain ⟨s1, h1, rfl⟩ := hs
    have e : s.inReg r s1 = (s.inReg r s1).at g .idle := by
      have : (s.inReg r s1).pc g = .idle := hpc
      have e' : (s.inReg r s1).pc = fun h => if h = g then .idle else (s.inReg r s1).pc h := by
        funext u
        split
        · rename_i hu; rw [hu]; exact this
        · rfl
      show (⟨_, _, _, _⟩ : St V) = ⟨_, _, _, _⟩
      rw [← e']
      rfl
    rw [e]
    exact h.inReg h1 trivial
  · -- add
    rename_i r hpc
    obtain ⟨m, m1, m2, m3, m4⟩ := h.man
    simp only [Manager.addProducer, m1, producer, if_true, Res.toOption, Option.map_some, Option.some.injEq] at hs
    subst hs
    refine h.emit (g := g) rfl ⟨by simp, by simp⟩ (fun u _ => rfl) rfl ?_ ?_ (by simp)
    · refine ⟨_, rfl, GoMap.WF_set m2 _ _, ?_, ?_⟩
      · intro p hp
        rcases (GoMap.keys_set_mem _ _ _ _).1 hp with rfl | hp
        · rfl
        · exact m3 p hp
      · intro q
        simp only [St.emit]
        rw [GoMap.keys_set_mem, isProducer_snoc, m4 q]
        by_cases hq : r = q
        · simp [hq, producer]
        · have : ¬ q = r := fun h => hq h.symm
          simp [hq, this, producer]
    · show PcOK _ g (s.pc g)
      rw [hpc]; trivial
  · -- remove
    rename_i r hpc
    obtain ⟨m, m1, m2, m3, m4⟩ := h.man
    simp only [Manager.deleteProducer, m1, producer, if_true, Res.toOption, Option.map_some, Option.some.injEq] at hs
    subst hs
    refine h.emit (g := g) rfl ⟨by simp, by simp⟩ (fun u _ => rfl) rfl ?_ ?_ (by simp)
    · refine ⟨_, rfl, GoMap.WF_del m2 _, ?_, ?_⟩
      · intro p hp
        exact m3 p ((GoMap.keys_del_mem _ _ _).1 hp).2
      · intro q
        simp only [St.emit]
        rw [GoMap.keys_del_mem, isProducer_snoc, m4 q]
        by_cases hq : r = q
        · simp [hq, producer]
        · have : ¬ q = r := fun h => hq h.symm
          simp [hq, this, producer]
    · show PcOK _ g (s.pc g)
      rw [hpc]; trivial
  · -- began
    cases hs
    refine h.emit (g := g) (x := .began g) rfl ⟨by simp, fun u hu => by simpa using fun h => hu h.symm⟩ (fun u hu => by simp [St.at, St.emit, hu]) rfl ?_ ?_ (by simp)
    · obtain ⟨m, m1, m2, m3, m4⟩ := h.man
      exact ⟨m, m1, m2, m3, fun q => by simp only [St.at, St.emit]; rw [isProducer_snoc]; exact m4 q⟩
    · simp only [St.at, St.emit, if_true]
      refine ⟨s.log.length, by simp, fun j hj he => ?_⟩
      have := lt_of_some he
      simp at this; omega
  · -- listed
    rename_i order hpc
    simp only at hs
    split at hs
    · rename_i hperm
      cases hs
      obtain ⟨m, m1, m2, m3, m4⟩ := h.man
      rw [m1, Option.getD_some, List.isPerm_iff] at hperm
      have hkeys : (order.map producer).Perm (GoMap.keys m) := by
        have := hperm.map Prod.fst
        simpa [GoMap.keys, List.map_map, Function.comp_def] using this
      have hrs : (s.man.getAll (order.map fun r => (producer r, ()))).map Producer.id = order := by
        simp [Manager.getAll, producer, Function.comp_def]
      rw [hrs]
      have hinj : Function.Injective producer := fun a b hab => by simpa [producer] using hab
      refine h.emit (g := g) (x := .listed g order) rfl ⟨by simp, by simp⟩ (fun u hu => by simp [St.at, St.emit, hu]) rfl ?_ ?_ (by simp)
      · exact ⟨m, m1, m2, m3, fun q => by simp only [St.at, St.emit]; rw [isProducer_snoc]; exact m4 q⟩
      · simp only [St.at, St.emit, if_true]
        obtain ⟨b, hb⟩ := hpc ▸ h.pc g
        refine ⟨b, s.log.length, [], ?_, lt_of_some hb.1, ⟨by simp, ?_, ?_⟩, rfl, by simp⟩
        · exact hb.append (by simp)
        · have hn : (order.map producer).Nodup := hkeys.nodup_iff.2 m2
          simpa using hn.of_map
        · intro r
          rw [List.take_append_of_le_length (Nat.le_refl _), List.take_length, ← m4 r, ← hkeys.mem_iff]
          simp [List.mem_map, hinj.eq_iff]
    · cases hs
  · -- enter
    rename_i r rest data hpc
    simp only [Option.map_eq_some_iff] at hs
    obtain ⟨s1, h1, rfl⟩ := hs
    obtain ⟨e1, e2⟩ := read_step h1
    apply h.inReg h1
    obtain ⟨b, c, reads, hg⟩ := hpc ▸ h.pc g
    have hlog : ((s.inReg r s1).at g (.inside r rest data)).log = s.log ++ [.reg r (.readCalled g)] := by
      simp [St.at, St.inReg, e1]
    refine ⟨b, c, reads, hlog ▸ hg.append (by simp), s.log.length, lt_of_some hg.listed.got, ?_, ?_⟩
    · rw [hlog]
      refine ⟨by simp, fun j x hj he => ?_⟩
      have := lt_of_some he
      simp at this; omega
    · simpa [St.at, St.inReg] using e2
  · -- within
    rename_i r rest data mv hpc
    simp only [Option.map_eq_some_iff] at hs
    obtain ⟨s1, h1, rfl⟩ := hs
    obtain ⟨b, c, reads, hg, d, hd, ho, hb⟩ := hpc ▸ h.pc g
    rcases busy_step hb h1 with ⟨e1, e2⟩ | ⟨ms, e1, e2⟩
    · have hr : returned s1 g = none := by
        unfold returned
        split
        · rename_i hp _; rw [hp] at e2; cases e2
        · rfl
      rw [hr]
      apply h.inReg h1
      have hlog : ((s.inReg r s1).at g (.inside r rest data)).log = s.log := by
        simp [St.at, St.inReg, e1]
      exact ⟨b, c, reads, hlog ▸ hg, d, hd, hlog ▸ ho, by simpa [St.at, St.inReg] using e2⟩
    · have hr : returned s1 g = some ms := by simp [returned, e1, e2]
      rw [hr]
      apply h.inReg h1
      have hlog : ∀ pc, ((s.inReg r s1).at g pc).log = s.log ++ [.reg r (.readDone g ms)] := by
        intro pc; simp [St.at, St.inReg, e1]
      refine ⟨b, c, reads ++ [(r, ms)], ?_⟩
      rw [hlog]
      have hg' := hg.append (m := [.reg r (.readDone g ms)]) (by simp)
      refine ⟨hg'.began, hg'.order, by simpa using hg'.listed, by rw [hg'.data_eq]; simp [flat], ?_⟩
      intro x hx
      rcases List.mem_append.1 hx with hx | hx
      · exact hg'.each x hx
      · rw [List.mem_singleton.1 hx]
        have hdl := lt_of_some ho.1
        refine ⟨d, s.log.length, hd, hdl, by simp, ?_, by simp, ?_⟩
        · rw [List.getElem?_append_left hdl]; exact ho.1
        · intro j y j1 j2 hy
          rw [List.getElem?_append_left j2] at hy
          exact ho.2 j y j1 hy
  · -- exported
    rename_i data hpc
    cases hs
    obtain ⟨b, c, reads, hg⟩ := hpc ▸ h.pc g
    refine h.emit (g := g) (x := .exported g data) rfl ⟨by simp, by simp⟩ (fun u hu => by simp [St.at, St.emit, hu]) rfl ?_ ?_ ?_
    · obtain ⟨m, m1, m2, m3, m4⟩ := h.man
      exact ⟨m, m1, m2, m3, fun q => by simp only [St.at, St.emit]; rw [isProducer_snoc]; exact m4 q⟩
    · simp [St.at, PcOK]
    · intro u dat he
      cases he
      have hc := lt_of_some hg.listed.got
      have hb := lt_of_some hg.began.1
      refine ⟨b, c, reads, ⟨?_, ?_, ⟨hg.order, hc⟩, ?_, ?_, ?_⟩, hg.data_eq⟩
      · simp only [St.at, St.emit]
        rw [List.getElem?_append_left hb]; exact hg.began.1
      · intro j j1 j2
        simp only [St.at, St.emit]
        rw [List.getElem?_append_left j2]; exact hg.began.2 j j1
      · have := hg.listed.append [.exported g data]
        rw [List.append_nil] at this
        exact this
      · simp only [St.at, St.emit]
        rw [hg.data_eq]; simp
      · intro x hx
        exact (hg.each x hx).append (Nat.le_refl _) _
  · cases hs

theorem inv_run {zero : V} {mvs : List (Nat × Move V)} {s s' : St V} (h : Inv zero s) (hr : run zero s mvs = some s') :
    Inv zero s' := by
  induction mvs generalizing s with
  | nil => cases hr; exact h
  | cons x mvs ih =>
    obtain ⟨g, mv⟩ := x
    simp only [run, Option.bind_eq_some_iff] at hr
    obtain ⟨s1, h1, h2⟩ := hr
    exact ih (inv_step h h1) h2

/-! ## Moments here and moments in a registry -/

/-- How much has happened in registry `r` by moment `j`. -/
def pos (r : Nat) (l : List (Ev V)) (j : Nat) : Nat := (inRegistry r (l.take j)).length

theorem pos_mono (r : Nat) (l : List (Ev V)) {i j : Nat} (h : i ≤ j) : pos r l i ≤ pos r l j := by
  unfold pos
  have : l.take j = l.take i ++ (l.take j).drop i := by
    have := List.take_append_drop i (l.take j)
    rw [List.take_take, Nat.min_eq_left h] at this
    exact this.symm
  rw [this, inRegistry_append, List.length_append]
  omega

theorem take_pos (r : Nat) (l : List (Ev V)) (j : Nat) : (inRegistry r l).take (pos r l j) = inRegistry r (l.take j) := by
  unfold pos
  conv_lhs => rw [← List.take_append_drop j l, inRegistry_append]
  simp

theorem get_pos {r : Nat} {l : List (Ev V)} {d : Nat} {x : RegConc.Ev V} (h : l[d]? = some (.reg r x)) :
    (inRegistry r l)[pos r l d]? = some x := by
  have hd := lt_of_some h
  have e : l = l.take d ++ .reg r x :: l.drop (d + 1) := by
    rw [List.getElem?_eq_some_iff] at h
    obtain ⟨h1, h2⟩ := h
    rw [← h2]; simp
  unfold pos
  conv_lhs => rw [e]
  rw [inRegistry_append, show (Ev.reg r x :: l.drop (d + 1)) = [Ev.reg r x] ++ l.drop (d + 1) from rfl, inRegistry_append]
  have h1 : inRegistry r [Ev.reg r x] = [x] := by simp [inRegistry]
  have h2 : (l.take d ++ ([Ev.reg r x] ++ l.drop (d + 1))).take d = l.take d := by
    rw [List.take_append_of_le_length (by rw [List.length_take]; omega)]
    rw [List.take_take, Nat.min_self]
  rw [h1, h2]
  simp

theorem pos_succ {r : Nat} {l : List (Ev V)} (d : Nat) : pos r l (d + 1) ≤ pos r l d + 1 := by
  unfold pos
  rw [List.take_succ, inRegistry_append, List.length_append]
  have : (inRegistry r (l[d]?.toList)).length ≤ (l[d]?.toList).length := List.length_filterMap_le _ _
  have h2 : (l[d]?.toList).length ≤ 1 := by cases l[d]? <;> simp
  omega

/-- Every moment of the registry is one here. -/
theorem pos_between {r : Nat} {l : List (Ev V)} {d e j : Nat} (hde : d ≤ e) (h1 : pos r l d ≤ j) (h2 : j ≤ pos r l e) :
    ∃ i, d ≤ i ∧ i ≤ e ∧ pos r l i = j := by
  induction e, hde using Nat.le_induction with
  | base => exact ⟨d, Nat.le_refl _, Nat.le_refl _, by omega⟩
  | succ e hde ih =>
    by_cases h : j ≤ pos r l e
    · obtain ⟨i, i1, i2, i3⟩ := ih h
      exact ⟨i, i1, by omega, i3⟩
    · have := pos_succ (r := r) (l := l) e
      exact ⟨e + 1, by omega, Nat.le_refl _, by omega⟩

theorem pos_get {r : Nat} {l : List (Ev V)} {j : Nat} {x : RegConc.Ev V} (h : (inRegistry r l)[j]? = some x) :
    ∃ d, l[d]? = some (.reg r x) ∧ pos r l d = j := by
  obtain ⟨e, e1, e2, e3⟩ : ∃ e, e ≤ l.length ∧ pos r l e = j ∧ pos r l (e + 1) = j + 1 := by
    have hlen : pos r l l.length = (inRegistry r l).length := by unfold pos; rw [List.take_length]
    have hj := lt_of_some h
    obtain ⟨i, i1, i2, i3⟩ := pos_between (r := r) (l := l) (d := 0) (e := l.length) (j := j + 1) (by omega)
      (by simp [pos, inRegistry]) (by omega)
    -- the first moment with `j + 1`
    clear i1
    induction i with
    | zero => simp [pos, inRegistry] at i3
    | succ i ih =>
      by_cases hc : pos r l i = j + 1
      · exact ih (by omega) hc
      · have := pos_succ (r := r) (l := l) i
        have := pos_mono r l (show i ≤ i + 1 by omega)
        exact ⟨i, by omega, by omega, i3⟩
  have hne : pos r l (e + 1) ≠ pos r l e := by omega
  unfold pos at hne
  rw [List.take_succ, inRegistry_append] at hne
  cases hx : l[e]? with
  | none => rw [hx] at hne; simp [inRegistry] at hne
  | some y =>
    rw [hx] at hne
    cases y with
    | reg q y =>
      by_cases hq : q = r
      · subst hq
        have := get_pos hx
        rw [e2, h] at this
        cases this
        exact ⟨e, hx, e2⟩
      · simp [inRegistry, hq] at hne
    | _ => simp [inRegistry] at hne

/-- A reading is a `Read` of the registry. -/
theorem Reading.readIs {l : List (Ev V)} {g r lo hi : Nat} {ms : List (RegConc.Report V)} (h : Reading l g r lo hi ms) :
    ∃ d e, lo < d ∧ d < e ∧ e < hi ∧ ReadIs (inRegistry r l) g (pos r l d) (pos r l e) ms := by
  obtain ⟨d, e, h1, h2, h3, h4, h5, h6⟩ := h
  have g4 := get_pos h4
  have g5 := get_pos h5
  refine ⟨d, e, h1, h2, h3, g4, g5, ?_, ?_⟩
  · have := pos_mono r l (show d ≤ e by omega)
    rcases Nat.lt_or_ge (pos r l d) (pos r l e) with hl | hl
    · exact hl
    · have : pos r l d = pos r l e := by omega
      rw [this, g5] at g4; cases g4
  · intro j j1 j2 hj
    obtain ⟨i, i1, i2⟩ := pos_get hj
    have a1 : d < i := by
      by_contra hc
      have := pos_mono r l (show i ≤ d by omega); omega
    have a2 : i < e := by
      by_contra hc
      have := pos_mono r l (show e ≤ i by omega); omega
    exact h6 i _ a1 a2 i1 rfl

/-! ## The theorems -/

/-- Every call of `ExportMetrics` is that of one `ReadAndExport`, and hands over one reading of each of the registries
that were producers when `GetAll` returned, in the order of `GetAll`, made in between, and nothing else. -/
theorem export_is {zero : V} {mvs : List (Nat × Move V)} {s : St V} (h : run zero init mvs = some s) {i g : Nat}
    {data : List (Nat × RegConc.Report V)} (hi : s.log[i]? = some (.exported g data)) :
    ∃ b c reads, ExportIs s.log g b c i reads ∧ data = flat reads :=
  (inv_run (inv_init zero) h).exports i g data hi

theorem filter_map_unique {α : Type} {l : List α} {β : Type} [DecidableEq β] {f : α → β} (hn : (l.map f).Nodup) {a : α} (ha : a ∈ l) :
    l.filter (fun x => decide (f x = f a)) = [a] := by
  induction l with
  | nil => cases ha
  | cons x l ih =>
    rw [List.map_cons, List.nodup_cons] at hn
    rcases List.mem_cons.1 ha with rfl | ha
    · rw [List.filter_cons_of_pos (by simp)]
      congr 1
      rw [List.filter_eq_nil_iff]
      intro y hy hc
      exact hn.1 (List.mem_map.2 ⟨y, hy, of_decide_eq_true hc⟩)
    · have : f x ≠ f a := fun hc => hn.1 (List.mem_map.2 ⟨a, ha, hc.symm⟩)
      rw [List.filter_cons_of_neg (by simpa using this)]
      exact ih hn.2 ha

theorem flat_filter {reads : List (Nat × List (RegConc.Report V))} (hn : (reads.map Prod.fst).Nodup) {r : Nat}
    {ms : List (RegConc.Report V)} (hx : (r, ms) ∈ reads) (q : RegConc.Report V → Bool) :
    (flat reads).filter (fun x => decide (x.1 = r) && q x.2) = (ms.filter q).map fun m => (r, m) := by
  have h1 : (flat reads).filter (fun x => decide (x.1 = r) && q x.2) =
      flat ((reads.filter fun x => decide (x.1 = r)).map fun x => (x.1, x.2.filter q)) := by
    clear hn hx
    induction reads with
    | nil => rfl
    | cons x reads ih =>
      simp only [flat, List.flatMap_cons, List.filter_append] at ih ⊢
      rw [ih]
      by_cases hc : x.1 = r
      · rw [List.filter_cons_of_pos (by simpa using hc)]
        simp [hc, List.filter_map, Function.comp_def]
      · rw [List.filter_cons_of_neg (by simpa using hc)]
        simp [hc, List.filter_map, Function.comp_def]
  rw [h1]
  have := filter_map_unique (f := Prod.fst) hn hx
  simp only at this
  rw [this]
  simp [flat]

/-- An entry that `GetEntry` returned before `ReadAndExport` was called, of a metric that keeps its name, in a registry
that stays a producer, is in the exported data exactly once, with a value it had at some moment of the call. -/
theorem entry_exported {zero : V} {mvs : List (Nat × Move V)} {s : St V} (h : run zero init mvs = some s)
    {g b c i : Nat} {reads : List (Nat × List (RegConc.Report V))} (hx : ExportIs s.log g b c i reads)
    {r p e a u : Nat} {n k : Bytes}
    (hprod : ∀ j, b < j → j ≤ i → isProducer r (s.log.take j) = true)
    (hreg : ∀ j, b < j → j ≤ i → registered n (inRegistry r (s.log.take j)) = some p)
    (hgot : s.log[a]? = some (.reg r (.got u p k e))) (ha : a < b)
    (hdel : ∀ d < i, ∀ t, s.log[d]? ≠ some (.reg r (.deleted t p k))) :
    ∃ rep v, (flat reads).filter (fun x => decide (x.1 = r) && decide (x.2.name = n)) = [(r, rep)] ∧ rep.bm = p ∧
      rep.series.filter (fun y => decide (y.1 = k)) = [(k, e, v)] ∧
      ∃ j, b < j ∧ j ≤ i ∧ v = valueAt zero e (inRegistry r (s.log.take j)) := by
  have hinv := inv_run (inv_init zero) h
  obtain ⟨hbc, hci⟩ := hx.order
  have hm := (hx.listed.all r).2 (hprod c hbc (by omega))
  obtain ⟨⟨r', ms⟩, hrm, rfl⟩ := List.mem_map.1 hm
  obtain ⟨d, f, d1, d2, d3, hr⟩ := (hx.each _ hrm).readIs
  simp only at hr hprod hreg hgot hdel ⊢
  obtain ⟨rmvs, hrun⟩ := hinv.reach r'
  have hlogs := hinv.logs r'
  rw [← hlogs] at hr
  have hmom : ∀ j, pos r' s.log d < j → j ≤ pos r' s.log f →
      ∃ m, b < m ∧ m ≤ i ∧ (s.regs r').log.take j = inRegistry r' (s.log.take m) := by
    intro j j1 j2
    obtain ⟨m, m1, m2, m3⟩ := pos_between (r := r') (l := s.log) (show d ≤ f by omega) (by omega) j2
    exact ⟨m, by omega, by omega, by rw [hlogs, ← m3, take_pos]⟩
  obtain ⟨rep, e1, e2, e3, e4, v, e5, e6, j, j1, j2, e7⟩ := RegConc.entry_seen hrun hr (n := n) (k := k) (p := p) (e := e)
    (c := pos r' s.log a) (u := u)
    (by
      intro j j1 j2
      obtain ⟨m, m1, m2, m3⟩ := hmom j j1 j2
      rw [m3]; exact hreg m m1 m2)
    (by rw [hlogs]; exact get_pos hgot)
    (by
      have h1 := pos_mono r' s.log (show a + 1 ≤ d by omega)
      have h2 : pos r' s.log (a + 1) = pos r' s.log a + 1 := by
        unfold pos
        rw [List.take_succ, hgot, inRegistry_append]
        simp [inRegistry]
      omega)
    (by
      intro q hq t hc
      rw [hlogs] at hc
      obtain ⟨m, m1, m2⟩ := pos_get hc
      refine hdel m ?_ t m1
      by_contra hge
      have := pos_mono r' s.log (show f ≤ m by omega)
      omega)
  obtain ⟨m, m1, m2, m3⟩ := hmom j j1 j2
  refine ⟨rep, v, ?_, e4, ?_, m, m1, m2, by rw [e7, m3]⟩
  · rw [flat_filter hx.listed.once hrm (fun x => decide (x.name = n))]
    have hnd := (RegConc.read_beside hrun hr).1
    have := filter_map_unique hnd e1
    rw [e3] at this
    rw [this]; rfl
  · have hnd := ((RegConc.read_beside hrun hr).2.2 rep e1).2.1
    have := filter_map_unique hnd e5
    exact this

/-- The value is exact if the entry is not updated while the export goes on, as when what updates it has been
stopped before `Flush`. -/
theorem value_exact {zero : V} {l : List (Ev V)} {r e b i j : Nat} (hb : b < j) (hj : j ≤ i)
    (hq : ∀ d, b ≤ d → d < i → ∀ t f, l[d]? ≠ some (.reg r (.update t e f))) :
    valueAt zero e (inRegistry r (l.take j)) = valueAt zero e (inRegistry r (l.take b)) := by
  induction j, hb using Nat.le_induction with
  | base =>
    rw [List.take_succ, inRegistry_append]
    cases hx : l[b]? with
    | none => simp [inRegistry]
    | some x =>
      cases x with
      | reg q y =>
        by_cases hqr : q = r
        · subst hqr
          have : inRegistry q [Ev.reg q y] = [y] := by simp [inRegistry]
          rw [Option.toList_some, this, RegConc.valueAt_snoc]
          cases y with
          | update t e' f =>
            simp only
            rw [if_neg]
            rintro rfl
            exact hq b (Nat.le_refl _) (by omega) t f hx
          | _ => rfl
        · simp [inRegistry, hqr]
      | _ => simp [inRegistry]
  | succ j hbj ih =>
    rw [← ih (by omega), List.take_succ, inRegistry_append]
    cases hx : l[j]? with
    | none => simp [inRegistry]
    | some x =>
      cases x with
      | reg q y =>
        by_cases hqr : q = r
        · subst hqr
          have : inRegistry q [Ev.reg q y] = [y] := by simp [inRegistry]
          rw [Option.toList_some, this, RegConc.valueAt_snoc]
          cases y with
          | update t e' f =>
            simp only
            rw [if_neg]
            rintro rfl
            exact hq j (by omega) (by omega) t f hx
          | _ => rfl
        · simp [inRegistry, hqr]
      | _ => simp [inRegistry]

/-- So an export that begins after the last update of an entry hands over its value. -/
theorem flush_exact {zero : V} {mvs : List (Nat × Move V)} {s : St V} (h : run zero init mvs = some s)
    {g b c i : Nat} {reads : List (Nat × List (RegConc.Report V))} (hx : ExportIs s.log g b c i reads)
    {r p e a u : Nat} {n k : Bytes}
    (hprod : ∀ j, b < j → j ≤ i → isProducer r (s.log.take j) = true)
    (hreg : ∀ j, b < j → j ≤ i → registered n (inRegistry r (s.log.take j)) = some p)
    (hgot : s.log[a]? = some (.reg r (.got u p k e))) (ha : a < b)
    (hdel : ∀ d < i, ∀ t, s.log[d]? ≠ some (.reg r (.deleted t p k)))
    (hq : ∀ d, b ≤ d → d < i → ∀ t f, s.log[d]? ≠ some (.reg r (.update t e f))) :
    ∃ rep, (flat reads).filter (fun x => decide (x.1 = r) && decide (x.2.name = n)) = [(r, rep)] ∧ rep.bm = p ∧
      rep.series.filter (fun y => decide (y.1 = k)) = [(k, e, valueAt zero e (inRegistry r (s.log.take b)))] := by
  obtain ⟨rep, v, h1, h2, h3, j, j1, j2, rfl⟩ := entry_exported h hx hprod hreg hgot ha hdel
  exact ⟨rep, h1, h2, by rw [h3, value_exact j1 j2 hq]⟩

/-- What is exported was in the registry: the metric was the one of its name, and the series the one of its key, at
some moment of the export, and the value is one the entry had at a moment of it. -/
theorem exported_was {zero : V} {mvs : List (Nat × Move V)} {s : St V} (h : run zero init mvs = some s)
    {g b c i : Nat} {reads : List (Nat × List (RegConc.Report V))} (hx : ExportIs s.log g b c i reads)
    {r : Nat} {rep : RegConc.Report V} (hm : (r, rep) ∈ flat reads) :
    isProducer r (s.log.take c) = true ∧
    (∃ j, c < j ∧ j ≤ i ∧ registered rep.name (inRegistry r (s.log.take j)) = some rep.bm) ∧
    ∀ k e v, (k, e, v) ∈ rep.series → ∃ j j', c < j ∧ j ≤ j' ∧ j' ≤ i ∧
      entryAt rep.bm k (inRegistry r (s.log.take j)) = some e ∧ v = valueAt zero e (inRegistry r (s.log.take j')) := by
  have hinv := inv_run (inv_init zero) h
  simp only [flat, List.mem_flatMap, List.mem_map, Prod.mk.injEq] at hm
  obtain ⟨⟨r', ms⟩, hrm, m, hmm, rfl, rfl⟩ := hm
  obtain ⟨d, f, d1, d2, d3, hr⟩ := (hx.each _ hrm).readIs
  simp only at hr ⊢
  obtain ⟨rmvs, hrun⟩ := hinv.reach r'
  have hlogs := hinv.logs r'
  rw [← hlogs] at hr
  obtain ⟨_, _, h3⟩ := RegConc.read_beside hrun hr
  obtain ⟨⟨j, j1, j2, j3⟩, _, h6, _⟩ := h3 m hmm
  refine ⟨(hx.listed.all r').1 (List.mem_map.2 ⟨_, hrm, rfl⟩), ?_, ?_⟩
  · obtain ⟨x, x1, x2, x3⟩ := pos_between (r := r') (l := s.log) (show d ≤ f by omega) (by omega) j2
    exact ⟨x, by omega, by omega, by rw [← take_pos, x3, ← hlogs]; exact j3⟩
  · intro k e v hv
    obtain ⟨q, q', q1, q2, q3, q4, q5⟩ := h6 k e v hv
    obtain ⟨x, x1, x2, x3⟩ := pos_between (r := r') (l := s.log) (show d ≤ f by omega) (by omega) (show q ≤ pos r' s.log f by omega)
    obtain ⟨y, y1, y2, y3⟩ := pos_between (r := r') (l := s.log) x2 (by omega) q3
    exact ⟨x, y, by omega, y1, by omega, by rw [← take_pos, x3, ← hlogs]; exact q4, by rw [← take_pos, y3, ← hlogs]; exact q5⟩

theorem valueAt_mono [Preorder V] {zero : V} {l : List (Ev V)} {r e : Nat}
    (hup : ∀ t f, .reg r (.update t e f) ∈ l → ∀ v, v ≤ f v) {i j : Nat} (hij : i ≤ j) :
    valueAt zero e (inRegistry r (l.take i)) ≤ valueAt zero e (inRegistry r (l.take j)) := by
  rw [← take_pos, ← take_pos]
  refine RegConc.valueAt_mono ?_ (pos_mono r l hij)
  intro t f hm
  obtain ⟨d, hd⟩ := List.mem_iff_getElem?.1 hm
  obtain ⟨x, hx, _⟩ := pos_get hd
  exact hup t f (List.mem_of_getElem? hx)

/-- What an exporter is told of an entry whose updates all make it greater, as those of a cumulative do, never goes
back from one export to a later one; and it is no less than what the entry had when the export began. -/
theorem never_back [Preorder V] {zero : V} {mvs : List (Nat × Move V)} {s : St V} (h : run zero init mvs = some s)
    {g b c i : Nat} {reads : List (Nat × List (RegConc.Report V))} (hx : ExportIs s.log g b c i reads)
    {g' b' c' i' : Nat} {reads' : List (Nat × List (RegConc.Report V))} (hx' : ExportIs s.log g' b' c' i' reads')
    (hlater : i ≤ b') {r : Nat} {rep rep' : RegConc.Report V} (hm : (r, rep) ∈ flat reads) (hm' : (r, rep') ∈ flat reads')
    {k k' : Bytes} {e : Nat} {v v' : V} (hv : (k, e, v) ∈ rep.series) (hv' : (k', e, v') ∈ rep'.series)
    (hup : ∀ t f, .reg r (.update t e f) ∈ s.log → ∀ v, v ≤ f v) :
    v ≤ v' ∧ valueAt zero e (inRegistry r (s.log.take b')) ≤ v' := by
  obtain ⟨_, _, h1⟩ := exported_was h hx hm
  obtain ⟨_, _, h2⟩ := exported_was h hx' hm'
  obtain ⟨j1, j2, a1, a2, a3, _, rfl⟩ := h1 k e v hv
  obtain ⟨j1', j2', b1, b2, b3, _, rfl⟩ := h2 k' e v' hv'
  have := hx'.order
  exact ⟨valueAt_mono hup (by omega), valueAt_mono hup (by omega)⟩

/-! ## An execution -/

/-- Goroutine 0 has a cumulative in registry 0 and makes registries 0 and 1 producers; goroutine 1 exports; goroutine 0
increments the entry while registry 0 is read, once more while registry 1 is, and goroutine 1 exports again. -/
def demo : List (Nat × Move Nat) := [(0, .use 0 (.add [1] .cumulativeInt64)), (0, .use 0 .go), (0, .use 0 .go),
  (0, .use 0 (.getEntry 0 [7])), (0, .use 0 .go), (0, .use 0 .go), (0, .add 0), (0, .add 1),
  (1, .export_), (1, .list [1, 0]), (1, .enter), (1, .within .stop), (1, .enter), (1, .within (.visit [1] 5)),
  (1, .within (.visit [7] 5)), (0, .use 0 (.update 0 (· + 2))), (1, .within .go), (0, .use 0 (.update 0 (· + 3))),
  (1, .within .stop), (1, .within .stop), (1, .finish),
  (1, .export_), (1, .list [0, 1]), (1, .enter), (1, .within (.visit [1] 9)), (1, .within (.visit [7] 9)), (1, .within .go),
  (1, .within .stop), (1, .within .stop), (1, .enter), (1, .within .stop), (1, .finish)]

/-- The two sets of data. -/
def data1 : List (RegConc.Report Nat) := [⟨[1], 0, [([7], 0, 2)]⟩]
def data2 : List (RegConc.Report Nat) := [⟨[1], 0, [([7], 0, 5)]⟩]

/-- What happens in it. -/
def demoLog : List (Ev Nat) := [.reg 0 (.addCalled 0 [1] .cumulativeInt64), .reg 0 (.stored 0 [1] 0 .cumulativeInt64),
  .reg 0 (.put 0 0 [7] 0), .reg 0 (.got 0 0 [7] 0), .added 0, .added 1,
  .began 1, .listed 1 [1, 0], .reg 1 (.readCalled 1), .reg 1 (.readDone 1 []), .reg 0 (.readCalled 1),
  .reg 0 (.update 0 0 (· + 2)), .reg 0 (.update 0 0 (· + 3)), .reg 0 (.readDone 1 data1), .exported 1 (data1.map fun m => (0, m)),
  .began 1, .listed 1 [0, 1], .reg 0 (.readCalled 1), .reg 0 (.readDone 1 data2), .reg 1 (.readCalled 1), .reg 1 (.readDone 1 []),
  .exported 1 (data2.map fun m => (0, m))]

theorem demo_log : (run 0 init demo).map St.log = some demoLog := rfl

theorem demo_producers (c : Nat) (hc : c = 7 ∨ c = 16) (r : Nat) : r = 0 ∨ r = 1 ↔ isProducer r (demoLog.take c) = true := by
  have h : isProducer r (demoLog.take c) = ((if 0 = r then [true] else []) ++ (if 1 = r then [true] else []) : List Bool).getLast?.getD false := by
    rcases hc with rfl | rfl <;>
    · simp only [isProducer, demoLog, List.take, List.filterMap_cons, List.filterMap_nil]
      split_ifs <;> rfl
  rw [h]
  by_cases h0 : 0 = r <;> by_cases h1 : 1 = r <;> simp [h0, h1] <;> omega

/-- The two calls of `ReadAndExport` in it. -/
theorem demo_exports : ExportIs demoLog 1 6 7 14 [(1, []), (0, data1)] ∧ ExportIs demoLog 1 15 16 21 [(0, data2), (1, [])] := by
  refine ⟨⟨rfl, ?_, by decide, ⟨rfl, by decide, ?_⟩, rfl, ?_⟩, ⟨rfl, ?_, by decide, ⟨rfl, by decide, ?_⟩, rfl, ?_⟩⟩
  · intro j h1 h2
    interval_cases j <;> exact fun h => by cases h
  · intro r
    rw [← demo_producers 7 (.inl rfl)]
    simp [or_comm]
  · intro x hx
    simp only [List.mem_cons, List.not_mem_nil, or_false] at hx
    rcases hx with rfl | rfl
    · exact ⟨8, 9, by decide, by decide, by decide, rfl, rfl, fun j x h1 h2 => by omega⟩
    · refine ⟨10, 13, by decide, by decide, by decide, rfl, rfl, fun j x h1 h2 => ?_⟩
      interval_cases j <;> intro h <;> cases h <;> exact fun h => by cases h
  · intro j h1 h2
    interval_cases j <;> exact fun h => by cases h
  · intro r
    rw [← demo_producers 16 (.inr rfl)]
    simp
  · intro x hx
    simp only [List.mem_cons, List.not_mem_nil, or_false] at hx
    rcases hx with rfl | rfl
    · exact ⟨17, 18, by decide, by decide, by decide, rfl, rfl, fun j x h1 h2 => by omega⟩
    · exact ⟨19, 20, by decide, by decide, by decide, rfl, rfl, fun j x h1 h2 => by omega⟩

/-- The hypotheses of `entry_exported` hold of the first, those of `flush_exact` of the second and those of `never_back`
of the two. -/
example : (∀ j, 6 < j → j ≤ 21 → isProducer 0 (demoLog.take j) = true) ∧
    (∀ j, 6 < j → j ≤ 21 → registered [1] (inRegistry 0 (demoLog.take j)) = some 0) ∧
    demoLog[3]? = some (.reg 0 (.got 0 0 [7] 0)) ∧ (∀ d < 21, ∀ t, demoLog[d]? ≠ some (.reg 0 (.deleted t 0 [7]))) ∧
    (∀ t f, .reg 0 (.update t 0 f) ∈ demoLog → ∀ v, v ≤ f v) ∧
    (∀ d, 15 ≤ d → d < 21 → ∀ t f, demoLog[d]? ≠ some (.reg 0 (.update t 0 f))) ∧
    valueAt 0 0 (inRegistry 0 (demoLog.take 12)) = 2 ∧ valueAt 0 0 (inRegistry 0 (demoLog.take 15)) = 5 := by
  refine ⟨?_, ?_, rfl, ?_, ?_, ?_, rfl, rfl⟩
  · intro j h1 h2
    interval_cases j <;> rfl
  · intro j h1 h2
    interval_cases j <;> rfl
  · intro d hd t
    interval_cases d <;> exact fun h => by cases h
  · intro t f hf v
    obtain ⟨i, hi⟩ := List.mem_iff_getElem?.1 hf
    have hl : i < 22 := (List.getElem?_eq_some_iff.1 hi).1
    interval_cases i <;> cases hi <;> exact Nat.le_add_right _ _
  · intro d h1 h2 t f
    interval_cases d <;> exact fun h => by cases h

/-- What is exported may be behind: the entry is at 5 when `ExportMetrics` is called with 2. -/
example : valueAt 0 0 (inRegistry 0 (demoLog.take 14)) = 5 ∧ demoLog[14]? = some (.exported 1 [(0, ⟨[1], 0, [([7], 0, 2)]⟩)]) := ⟨rfl, rfl⟩

end Verif.Props.Pipeline
