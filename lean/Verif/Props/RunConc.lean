import Verif.Runmetrics.Conc
import Verif.Props.Runmetrics

/-!
# C102: what the runtime metrics show when several goroutines read them
-/

namespace Verif.Props.RunConc
open Verif Verif.Metric Verif.Runmetrics Verif.Runmetrics.Conc Verif.Props.Runmetrics

/-! ## Specification -/

/-- Whether `Read` of the goroutine `t` is running after these events. -/
def running (t : Nat) (l : List Ev) : Bool :=
  l.foldl (fun b e => match e with
    | .called u => if u = t then true else b
    | .returned u _ => if u = t then false else b
    | _ => b) false

/-- What the runtime said in `e` is what the point `v` of the metric shows. -/
def Tells : Ev → Row → Val → Prop
  | .sampled _ m, r, v => ∀ g c, Means v (r.shown ⟨m, g, c⟩)
  | .counted _ .numGoroutines n, r, v => ∀ m c, Means v (r.shown ⟨m, n, c⟩)
  | .counted _ .numCgoCalls n, r, v => ∀ m g, Means v (r.shown ⟨m, g, n⟩)
  | _, _, _ => False

/-- The `k`th event is not before the call of some reading that was running at the end of `a`, or is after `a`. -/
def NotBefore (a : List Ev) (k : Nat) : Prop :=
  a.length < k ∨ ∃ w a1 a2, a = a1 ++ .called w :: a2 ∧ (∀ out, .returned w out ∉ a2) ∧ a1.length < k

/-- The metric is the one of the row. -/
def IsRow (r : Row) (c : Create) : Prop := r.name = c.name ∧ r.unit = c.unit ∧ r.type = bmTypeToMetricType c.type

/-- What the runtime says is below 2^63 and not negative. -/
def SaneEv : Ev → Prop
  | .sampled _ m => Sane ⟨m, 0, 0⟩
  | .counted _ _ n => n.toNat < 2 ^ 63
  | _ => True

/-! ## The statements -/

def isD : Field → Bool
  | .memTotal | .memLookups | .memMalloc | .memFrees | .heapReleased | .numGC | .numForcedGC | .pauseTotalNs => true
  | _ => false

def Cell.isD : Cell → Bool
  | .derived _ => true
  | _ => false

def zero : Sample := ⟨MemStats.zero, 0, 0⟩

def flds (o : Verif.Runmetrics.Options) : List Field := (actions o MemStats.zero zero).map Action.field

theorem flds_eq (o : Verif.Runmetrics.Options) (m : MemStats) (s : Sample) : (actions o m s).map Action.field = flds o := by
  obtain ⟨cpu, mem, pre, d⟩ := o
  cases cpu <;> cases mem <;> cases d <;> rfl

theorem action_isD (o : Verif.Runmetrics.Options) (m : MemStats) (s : Sample) : ∀ a ∈ actions o m s, Cell.isD a.cell = isD a.field := by
  have : (actions o m s).all (fun a => Cell.isD a.cell == isD a.field) = true := by
    obtain ⟨cpu, mem, pre, d⟩ := o
    cases cpu <;> cases mem <;> cases d <;> rfl
  intro a ha
  simpa using List.all_eq_true.1 this a ha

theorem creates_flds (o : Verif.Runmetrics.Options) (ho : o.enableMemory = true → o.useDerivedCumulative = true) :
    ∀ c ∈ creates o, c.field ∈ flds o ∧ (c.type = .derivedCumulativeInt64 ↔ isD c.field = true) := by
  obtain ⟨cpu, mem, pre, d⟩ := o
  have : ∀ cpu mem d, (mem = true → d = true) → ∀ c ∈ creates ⟨cpu, mem, [], d⟩,
      c.field ∈ flds ⟨cpu, mem, [], d⟩ ∧ (c.type = .derivedCumulativeInt64 ↔ isD c.field = true) := by decide +kernel
  exact this cpu mem d ho

/-- A function that is the one of a derived cumulative. -/
def DFn (f : Field) (fn : MemStats → BitVec 64) : Prop := ∀ m, ∃ a ∈ memActions m, a.field = f ∧ a.cell = .derived fn

/-- The event says that the value of the field is `v`. -/
def TellsV : Ev → Field → Val → Prop
  | .sampled _ m, f, v => ∃ a ∈ memActions m, a.field = f ∧ v = a.cell.read m
  | .counted _ g n, f, v => g = f ∧ (g = .numGoroutines ∨ g = .numCgoCalls) ∧ v = Cell.read MemStats.zero (.int n)
  | _, _, _ => False

theorem read_nonD {c : Cell} (h : Cell.isD c = false) (m m' : MemStats) : c.read m = c.read m' := by
  cases c <;> first | rfl | (simp [Cell.isD] at h)

theorem dfn_of (o : Verif.Runmetrics.Options) {m : MemStats} {s : Sample} {f : Field} {fn : MemStats → BitVec 64} {i : Nat}
    (h : (actions o m s)[i]? = some (.upsert f fn)) : DFn f fn := by
  have hm : Action.upsert f fn ∈ memActions m := by
    have := List.mem_of_getElem? h
    unfold actions at this
    rcases List.mem_append.1 this with h | h
    · split at h
      · exact h
      · simp at h
    · split at h
      · simp [cpuActions] at h
      · simp at h
  intro m'
  refine ⟨.upsert f fn, ?_, rfl, rfl⟩
  simp only [memActions, List.mem_cons, List.not_mem_nil, or_false, reduceCtorEq, false_or, Action.upsert.injEq] at hm ⊢
  exact hm

/-- The value that a statement has loaded is what an event says. -/
theorem tells_of (o : Verif.Runmetrics.Options) {m : MemStats} {s : Sample} {a : Action} (h : a ∈ actions o m s)
    (hd : isD a.field = false) (t : Nat) :
    (hasMem o = true ∧ counts t a = [] ∧ ∀ u, TellsV (.sampled u m) a.field (a.cell.read MemStats.zero)) ∨
      ∃ e, counts t a = [e] ∧ TellsV e a.field (a.cell.read MemStats.zero) ∧ ∃ f n, e = .counted t f n := by
  have hc := action_isD o m s a h
  unfold actions at h
  rcases List.mem_append.1 h with h | h
  · split at h
    · left
      refine ⟨by assumption, ?_, fun u => ⟨a, h, rfl, read_nonD (by rw [hc, hd]) _ _⟩⟩
      have : (memActions m).all (fun a => (counts t a).isEmpty) = true := rfl
      simpa using List.all_eq_true.1 this a h
    · simp at h
  · split at h
    · right
      simp only [cpuActions, List.mem_cons, List.not_mem_nil, or_false] at h
      rcases h with rfl | rfl
      · exact ⟨_, rfl, ⟨rfl, .inl rfl, rfl⟩, _, _, rfl⟩
      · exact ⟨_, rfl, ⟨rfl, .inr rfl, rfl⟩, _, _, rfl⟩
    · simp at h

/-! ## Readings in the log -/

theorem running_append (t : Nat) (l : List Ev) (e : Ev) : running t (l ++ [e]) =
    (match e with
      | .called u => if u = t then true else running t l
      | .returned u _ => if u = t then false else running t l
      | _ => running t l) := by
  unfold running
  rw [List.foldl_append]
  cases e <;> rfl

/-- Neither called nor returned. -/
def quiet (t : Nat) : Ev → Bool
  | .called u => u ≠ t
  | .returned u _ => u ≠ t
  | _ => true

theorem running_quiet (t : Nat) (l b : List Ev) (h : ∀ e ∈ b, quiet t e = true) : running t (l ++ b) = running t l := by
  unfold running
  rw [List.foldl_append]
  generalize List.foldl _ false l = x
  induction b generalizing x with
  | nil => rfl
  | cons e b ih =>
    rw [List.foldl_cons]
    have he := h e (by simp)
    rw [ih (fun e he => h e (by simp [he]))]
    cases e <;> simp_all [quiet]

/-- If the goroutine is running, it was called and has not returned since. -/
theorem running_split {t : Nat} {l : List Ev} (h : running t l = true) :
    ∃ a b, l = a ++ .called t :: b ∧ ∀ e ∈ b, quiet t e = true := by
  induction l using List.reverseRecOn with
  | nil => cases h
  | append_singleton l e ih =>
    rw [running_append] at h
    by_cases hq : quiet t e = true
    · have h' : running t l = true := by
        cases e <;> simp_all [quiet]
      obtain ⟨a, b, rfl, hb⟩ := ih h'
      refine ⟨a, b ++ [e], by simp, fun x hx => ?_⟩
      rcases List.mem_append.1 hx with hx | hx
      · exact hb x hx
      · rw [List.mem_singleton.1 hx]; exact hq
    · cases e with
      | called u =>
        have : u = t := by simpa [quiet] using hq
        subst this
        exact ⟨l, [], rfl, by simp⟩
      | returned u out =>
        have : u = t := by simpa [quiet] using hq
        simp [this] at h
      | sampled u m => simp [quiet] at hq
      | counted u f n => simp [quiet] at hq

theorem getElem?_mono {α : Type} {l : List α} {k : Nat} {e : α} (h : l[k]? = some e) (b : List α) : (l ++ b)[k]? = some e := by
  rw [List.getElem?_append_left (List.getElem?_eq_some_iff.1 h).1]
  exact h

/-- What happened after the call of a running reading is not before any running reading. -/
theorem notBefore_of {t u : Nat} {a b a' b' : List Ev} (h : a ++ Ev.called t :: b = a' ++ Ev.called u :: b')
    (hb : ∀ e ∈ b, quiet t e = true) {k : Nat} (hk : a.length < k) : NotBefore a' k := by
  by_cases hl : a'.length < k
  · exact .inl hl
  · right
    rcases List.append_eq_append_iff.1 h with ⟨x, h1, h2⟩ | ⟨x, h1, h2⟩
    · cases x with
      | nil => subst h1; simp at hl; omega
      | cons y x =>
        simp only [List.cons_append, List.cons.injEq] at h2
        obtain ⟨rfl, h2⟩ := h2
        refine ⟨t, a, x, h1, fun out ho => ?_, hk⟩
        have := hb (.returned t out) (by rw [h2]; simp [ho])
        simp [quiet] at this
    · have := congrArg List.length h1
      simp at this
      omega

/-! ## The invariant -/

/-- What the figure of a field is from. -/
def Orig (a l : List Ev) (f : Field) (v : Val) : Prop :=
  ∃ (k : Nat) (e : Ev), l[k]? = some e ∧ TellsV e f v ∧ NotBefore a k ∧ (isD f = true → a.length < k)

/-- Somebody else was running at a moment of the reading. -/
def Other (t : Nat) (a l : List Ev) : Prop :=
  ∃ w q, w ≠ t ∧ (a ++ [.called t]) <+: q ∧ q <+: l ∧ running w q = true

def OutOK (t : Nat) (a l : List Ev) (out : List (Create × Option Val)) : Prop :=
  ∀ c x, (c, x) ∈ out → (∀ v, x = some v → Orig a l c.field v) ∧ (x = none → isD c.field = true ∧ Other t a l)

/-- How many statements are done. -/
def prog (n : Nat) : PC → Nat
  | .idle | .sample => 0
  | .stmt i | .set _ _ i | .put _ _ i => i
  | .read .. | .value .. => n

def AtPC (o : Verif.Runmetrics.Options) (t : Nat) (a l : List Ev) : PC → Prop
  | .idle => False
  | .sample => True
  | .stmt i => i ≤ (flds o).length
  | .set f c i => (flds o)[i]? = some f ∧ isD f = false ∧ Cell.isD c = false ∧
      ∃ (k : Nat) (e : Ev), l[k]? = some e ∧ TellsV e f (c.read MemStats.zero) ∧ a.length < k
  | .put f c i => (flds o)[i]? = some f ∧ isD f = true ∧ ∃ fn, c = .derived fn ∧ DFn f fn
  | .read rest out => (out.map Prod.fst ++ rest).Perm (creates o) ∧ OutOK t a l out
  | .value c x rest out => (out.map Prod.fst ++ c :: rest).Perm (creates o) ∧ OutOK t a l out ∧ Cell.isD x = isD c.field ∧
      ∀ fn, x = .derived fn → DFn c.field fn

/-- The goroutine `t` is in `Read`. -/
structure TInv (o : Verif.Runmetrics.Options) (st : St) (t : Nat) (a b : List Ev) : Prop where
  log : st.log = a ++ .called t :: b
  quiet : ∀ e ∈ b, quiet t e = true
  unsampled : st.pc t = .sample → hasMem o = true ∧ ∀ m, .sampled t m ∉ b
  sampled : st.pc t ≠ .sample → hasMem o = true → ∃ m, .sampled t m ∈ b ∧ ∀ m', .sampled t m' ∈ b → m' = m
  gauge : ∀ f ∈ (flds o).take (prog (flds o).length (st.pc t)), isD f = false →
    ∃ c, st.cur f = some c ∧ Cell.isD c = false ∧ Orig a st.log f (c.read MemStats.zero)
  derived : ∀ f ∈ (flds o).take (prog (flds o).length (st.pc t)), isD f = true →
    (∃ c, st.cur f = some c) ∨ ∃ w c i, w ≠ t ∧ st.pc w = .put f c i
  at_ : AtPC o t a st.log (st.pc t)

structure Inv (o : Verif.Runmetrics.Options) (st : St) : Prop where
  run : ∀ t, running t st.log = true ↔ st.pc t ≠ .idle
  mem : (∃ k u, st.log[k]? = some (.sampled u st.mem) ∧ ∀ (j : Nat) u' m', st.log[j]? = some (.sampled u' m') → j ≤ k) ∨
    ∀ u m, .sampled u m ∉ st.log
  cur : ∀ f c, st.cur f = some c → Cell.isD c = isD f ∧ ∀ fn, c = .derived fn → DFn f fn
  by_ : ∀ x u m y, st.log = x ++ .sampled u m :: y → running u x = true
  nomem : ∀ u m, .sampled u m ∈ st.log → hasMem o = true
  thread : ∀ t, st.pc t ≠ .idle → ∃ a b, TInv o st t a b

theorem Orig.mono {a l : List Ev} {f : Field} {v : Val} (h : Orig a l f v) (b : List Ev) : Orig a (l ++ b) f v := by
  obtain ⟨k, e, h1, h2⟩ := h
  exact ⟨k, e, getElem?_mono h1 b, h2⟩

theorem Other.mono {t : Nat} {a l : List Ev} (h : Other t a l) (b : List Ev) : Other t a (l ++ b) := by
  obtain ⟨w, q, h1, h2, h3, h4⟩ := h
  exact ⟨w, q, h1, h2, h3.trans (List.prefix_append _ _), h4⟩

theorem OutOK.mono {t : Nat} {a l : List Ev} {out : List (Create × Option Val)} (h : OutOK t a l out) (b : List Ev) :
    OutOK t a (l ++ b) out := fun c x hx =>
  ⟨fun v hv => ((h c x hx).1 v hv).mono b, fun hn => ⟨((h c x hx).2 hn).1, ((h c x hx).2 hn).2.mono b⟩⟩

theorem AtPC.mono {o : Verif.Runmetrics.Options} {t : Nat} {a l : List Ev} {pc : PC} (h : AtPC o t a l pc) (b : List Ev) :
    AtPC o t a (l ++ b) pc := by
  cases pc with
  | idle => exact h
  | sample => exact h
  | stmt i => exact h
  | set f c i =>
    obtain ⟨h1, h2, h3, k, e, h4, h5⟩ := h
    exact ⟨h1, h2, h3, k, e, getElem?_mono h4 b, h5⟩
  | put f c i => exact h
  | read rest out => exact ⟨h.1, h.2.mono b⟩
  | value c x rest out => exact ⟨h.1, h.2.1.mono b, h.2.2⟩

/-- The event is of `t`, if of anybody. -/
def OfT (t : Nat) : Ev → Prop
  | .called u => u = t
  | .sampled u _ => u = t
  | .counted u _ _ => u = t
  | .returned u _ => u = t

/-- A step of `t` does not disturb another reading. -/
theorem TInv.frame {o : Verif.Runmetrics.Options} {st st' : St} {t u : Nat} {a b evs : List Ev} (h : TInv o st u a b) (hu : u ≠ t)
    (hlog : st'.log = st.log ++ evs) (hev : ∀ e ∈ evs, OfT t e) (hpc : ∀ w, w ≠ t → st'.pc w = st.pc w)
    (hg : ∀ f, isD f = false → st'.cur f = st.cur f ∨
      ∃ c, st'.cur f = some c ∧ Cell.isD c = false ∧ Orig a st'.log f (c.read MemStats.zero))
    (hd : ∀ f, isD f = true → ((∃ c, st.cur f = some c) ∨ ∃ c i, st.pc t = .put f c i) →
      ((∃ c, st'.cur f = some c) ∨ ∃ c i, st'.pc t = .put f c i)) :
    TInv o st' u a (b ++ evs) := by
  have hns : ∀ m, .sampled u m ∉ evs := fun m hm => hu (hev _ hm)
  have e := hpc u hu
  refine ⟨by rw [hlog, h.log]; simp, ?_, ?_, ?_, ?_, ?_, ?_⟩
  · intro x hx
    rcases List.mem_append.1 hx with hx | hx
    · exact h.quiet x hx
    · have := hev x hx
      cases x <;> simp_all [RunConc.quiet, OfT, Ne.symm hu]
  · intro hs
    rw [e] at hs
    obtain ⟨h1, h2⟩ := h.unsampled hs
    exact ⟨h1, fun m hm => (List.mem_append.1 hm).elim (h2 m) (hns m)⟩
  · intro hs hm
    rw [e] at hs
    obtain ⟨m, h1, h2⟩ := h.sampled hs hm
    exact ⟨m, List.mem_append_left _ h1, fun m' hm' => (List.mem_append.1 hm').elim (h2 m') fun x => absurd x (hns m')⟩
  · intro f hf hfd
    rw [e] at hf
    rcases hg f hfd with h1 | h1
    · obtain ⟨c, h2, h3, h4⟩ := h.gauge f hf hfd
      exact ⟨c, by rw [h1, h2], h3, by rw [hlog]; exact h4.mono _⟩
    · exact h1
  · intro f hf hfd
    rw [e] at hf
    have key : (∃ c, st'.cur f = some c) ∨ (∃ c i, st'.pc t = .put f c i) ∨ ∃ w c i, w ≠ u ∧ w ≠ t ∧ st.pc w = .put f c i := by
      rcases h.derived f hf hfd with h1 | ⟨w, c, i, h1, h2⟩
      · exact (hd f hfd (.inl h1)).imp id .inl
      · by_cases hw : w = t
        · subst hw
          exact (hd f hfd (.inr ⟨c, i, h2⟩)).imp id .inl
        · exact .inr (.inr ⟨w, c, i, h1, hw, h2⟩)
    rcases key with h1 | ⟨c, i, h1⟩ | ⟨w, c, i, h1, h2, h3⟩
    · exact .inl h1
    · exact .inr ⟨t, c, i, Ne.symm hu, h1⟩
    · exact .inr ⟨w, c, i, h1, by rw [hpc w h2]; exact h3⟩
  · rw [e, hlog]
    exact h.at_.mono _

theorem running_ofT {t u : Nat} {l evs : List Ev} (hev : ∀ e ∈ evs, OfT t e) (hu : u ≠ t) : running u (l ++ evs) = running u l := by
  apply running_quiet
  intro e he
  have := hev e he
  cases e <;> simp_all [quiet, OfT, Ne.symm hu]

theorem inv_of {o : Verif.Runmetrics.Options} {st st' : St} {t : Nat} {evs : List Ev} (h : Inv o st)
    (hlog : st'.log = st.log ++ evs) (hev : ∀ e ∈ evs, OfT t e) (hpc : ∀ w, w ≠ t → st'.pc w = st.pc w)
    (hrun : running t st'.log = true ↔ st'.pc t ≠ .idle)
    (hmem : (st'.mem = st.mem ∧ ∀ u m, .sampled u m ∉ evs) ∨ (evs = [.sampled t st'.mem] ∧ st.pc t ≠ .idle ∧ hasMem o = true))
    (hcur : ∀ f c, st'.cur f = some c → st.cur f = some c ∨ (Cell.isD c = isD f ∧ ∀ fn, c = .derived fn → DFn f fn))
    (hg : ∀ f, isD f = false → st'.cur f = st.cur f ∨
      ∃ a b c, st.log = a ++ .called t :: b ∧ (∀ e ∈ b, quiet t e = true) ∧ st'.cur f = some c ∧ Cell.isD c = false ∧
        ∃ (k : Nat) (e : Ev), st.log[k]? = some e ∧ TellsV e f (c.read MemStats.zero) ∧ a.length < k)
    (hd : ∀ f, isD f = true → ((∃ c, st.cur f = some c) ∨ ∃ c i, st.pc t = .put f c i) →
      ((∃ c, st'.cur f = some c) ∨ ∃ c i, st'.pc t = .put f c i))
    (self : st'.pc t ≠ .idle → ∃ a b, TInv o st' t a b) : Inv o st' := by
  refine ⟨?_, ?_, ?_, ?_, ?_, ?_⟩
  · intro u
    by_cases hu : u = t
    · rw [hu]; exact hrun
    · rw [hlog, running_ofT hev hu, hpc u hu]; exact h.run u
  · rcases hmem with ⟨e, hn⟩ | ⟨he, _⟩
    · rw [e, hlog]
      rcases h.mem with ⟨k, u, h1, h2⟩ | h1
      · refine .inl ⟨k, u, getElem?_mono h1 _, fun j u' m' hj => ?_⟩
        by_cases hlt : j < st.log.length
        · rw [List.getElem?_append_left hlt] at hj
          exact h2 j u' m' hj
        · rw [List.getElem?_append_right (by omega)] at hj
          exact absurd (List.mem_of_getElem? hj) (hn _ _)
      · exact .inr fun u m hm => (List.mem_append.1 hm).elim (h1 u m) (hn u m)
    · rw [hlog, he]
      refine .inl ⟨st.log.length, t, by simp, fun j u' m' hj => ?_⟩
      have := (List.getElem?_eq_some_iff.1 hj).1
      simp at this
      omega
  · intro f c hc
    exact (hcur f c hc).elim (h.cur f c) id
  · intro x u m y e
    rw [hlog] at e
    rcases List.append_eq_append_iff.1 e with ⟨z, h1, h2⟩ | ⟨z, h1, h2⟩
    · rcases hmem with ⟨_, hn⟩ | ⟨he, hp, _⟩
      · exact absurd (by rw [h2]; simp) (hn u m)
      · rw [he] at h2
        have hz : z = [] := by
          cases z with
          | nil => rfl
          | cons a z => have := congrArg List.length h2; simp at this
        subst hz
        simp only [List.nil_append, List.cons.injEq, Ev.sampled.injEq] at h2
        rw [h1, List.append_nil, ← h2.1.1]
        exact (h.run t).2 hp
    · cases z with
      | nil =>
        simp only [List.nil_append] at h2
        rcases hmem with ⟨_, hn⟩ | ⟨he, hp, _⟩
        · exact absurd (by rw [← h2]; simp) (hn u m)
        · rw [he] at h2
          simp only [List.cons.injEq, Ev.sampled.injEq] at h2
          rw [List.append_nil] at h1
          rw [← h1, h2.1.1]
          exact (h.run t).2 hp
      | cons w z =>
        simp only [List.cons_append, List.cons.injEq] at h2
        obtain ⟨rfl, _⟩ := h2
        exact h.by_ x u m z h1
  · intro u m hm
    rw [hlog] at hm
    rcases List.mem_append.1 hm with hm | hm
    · exact h.nomem u m hm
    · rcases hmem with ⟨_, hn⟩ | ⟨_, _, hx⟩
      · exact absurd hm (hn u m)
      · exact hx
  · intro u hu
    by_cases hut : u = t
    · subst hut; exact self hu
    · rw [hpc u hut] at hu
      obtain ⟨a, b, hT⟩ := h.thread u hu
      refine ⟨a, _, hT.frame hut hlog hev hpc (fun f hf => ?_) hd⟩
      rcases hg f hf with h1 | ⟨a', b', c, h1, h2, h3, h4, k, e, h5, h6, h7⟩
      · exact .inl h1
      · refine .inr ⟨c, h3, h4, k, e, ?_, h6, notBefore_of (h1.symm.trans hT.log) h2 h7, fun hx => by rw [hf] at hx; cases hx⟩
        rw [hlog]; exact getElem?_mono h5 _

theorem go_pc (st : St) (t : Nat) (pc : PC) (evs : List Ev) : (st.go t pc evs).pc t = pc := by simp [St.go]
theorem go_other (st : St) (t : Nat) (pc : PC) (evs : List Ev) (w : Nat) (h : w ≠ t) : (st.go t pc evs).pc w = st.pc w := by
  simp [St.go, h]

theorem take_succ' {α : Type} {l : List α} {i : Nat} {x y : α} (h : l[i]? = some x) (hy : y ∈ l.take (i + 1)) : y ∈ l.take i ∨ y = x := by
  rw [List.take_add_one, h] at hy
  simpa using hy

/-- The last sample is after the call, once it was taken. -/
theorem sample_after {o : Verif.Runmetrics.Options} {st : St} (h : Inv o st) {t : Nat} {a b : List Ev} (hT : TInv o st t a b)
    (hs : st.pc t ≠ .sample) (hm : hasMem o = true) : ∃ k u, st.log[k]? = some (.sampled u st.mem) ∧ a.length < k := by
  obtain ⟨m, h1, _⟩ := hT.sampled hs hm
  obtain ⟨j, hj⟩ := List.getElem?_of_mem h1
  have hj' : st.log[a.length + 1 + j]? = some (.sampled t m) := by
    rw [hT.log, List.getElem?_append_right (by omega), show a.length + 1 + j - a.length = j + 1 by omega, List.getElem?_cons_succ]
    exact hj
  rcases h.mem with ⟨k, u, h2, h3⟩ | h2
  · exact ⟨k, u, h2, by have := h3 _ _ _ hj'; omega⟩
  · exact absurd (List.mem_of_getElem? hj') (h2 _ _)

theorem hasMem_of_derived {o : Verif.Runmetrics.Options} {f : Field} (h : f ∈ flds o) (hd : isD f = true) : hasMem o = true := by
  obtain ⟨cpu, mem, pre, d⟩ := o
  have : ∀ cpu mem d, ∀ f ∈ flds ⟨cpu, mem, [], d⟩, isD f = true → hasMem ⟨cpu, mem, [], d⟩ = true := by decide +kernel
  exact this cpu mem d f h hd

theorem prefix_self {t : Nat} {a b l : List Ev} (h : l = a ++ Ev.called t :: b) : (a ++ [Ev.called t]) <+: l := by
  rw [h]; exact ⟨b, by simp⟩

theorem inv_step {o : Verif.Runmetrics.Options} (ho : o.enableMemory = true → o.useDerivedCumulative = true)
    {st st' : St} {mv : Move} (h : Inv o st) (hs : Conc.step o st mv = some st') : Inv o st' := by
  obtain ⟨t, now, order⟩ := mv
  unfold Conc.step at hs
  simp only at hs
  cases hp : st.pc t with
  | idle =>
    rw [hp] at hs
    simp only [Option.some.injEq] at hs
    subst hs
    have hni : (if hasMem o then PC.sample else .stmt 0) ≠ .idle := by split <;> simp
    refine inv_of (t := t) h rfl (by simp [OfT]) (go_other _ _ _ _) ?_ (.inl ⟨rfl, by simp⟩) (fun f c hc => .inl hc)
      (fun f _ => .inl rfl) (fun f _ hx => ?_) fun _ => ⟨st.log, [], ?_⟩
    · rw [go_pc]
      simp only [St.go, running_append, if_true, true_iff]
      exact hni
    · rcases hx with hx | ⟨c, i, hx⟩
      · exact .inl hx
      · rw [hp] at hx; cases hx
    · refine ⟨rfl, by simp, ?_, ?_, ?_, ?_, ?_⟩
      · rw [go_pc]; intro hx
        split at hx
        · exact ⟨by assumption, by simp⟩
        · cases hx
      · rw [go_pc]; intro hx hm
        rw [if_pos hm] at hx
        exact absurd rfl hx
      · rw [go_pc]; split <;> simp [prog]
      · rw [go_pc]; split <;> simp [prog]
      · rw [go_pc]; split <;> simp [AtPC]
  | sample =>
    rw [hp] at hs
    simp only [Option.some.injEq] at hs
    subst hs
    have hni : st.pc t ≠ .idle := by rw [hp]; simp
    obtain ⟨a, b, hT⟩ := h.thread t hni
    refine inv_of (t := t) h rfl (by simp [OfT]) (go_other _ _ _ _) ?_ (.inr ⟨rfl, hni, (hT.unsampled hp).1⟩) (fun f c hc => .inl hc)
      (fun f _ => .inl rfl) (fun f _ hx => ?_) fun _ => ⟨a, b ++ [.sampled t now.mem], ?_⟩
    · rw [go_pc]
      simp only [St.go, running_append]
      simpa using (h.run t).2 hni
    · rcases hx with hx | ⟨c, i, hx⟩
      · exact .inl hx
      · rw [hp] at hx; cases hx
    · refine ⟨by simp [St.go, hT.log], ?_, ?_, ?_, ?_, ?_, ?_⟩
      · intro e he
        rcases List.mem_append.1 he with he | he
        · exact hT.quiet e he
        · rw [List.mem_singleton.1 he]; rfl
      · rw [go_pc]; intro hx; cases hx
      · intro _ _
        refine ⟨now.mem, by simp, fun m' hm' => ?_⟩
        rcases List.mem_append.1 hm' with hm' | hm'
        · exact absurd hm' ((hT.unsampled hp).2 m')
        · simp at hm'; exact hm'
      · rw [go_pc]; simp [prog]
      · rw [go_pc]; simp [prog]
      · rw [go_pc]; simp [AtPC]
  | stmt i =>
    rw [hp] at hs
    simp only at hs
    have hni : st.pc t ≠ .idle := by rw [hp]; simp
    obtain ⟨a, b, hT⟩ := h.thread t hni
    have hns : st.pc t ≠ .sample := by rw [hp]; simp
    have hfi : ∀ act, (actions o st.mem now)[i]? = some act → (flds o)[i]? = some act.field := by
      intro act hact
      rw [← flds_eq o st.mem now, List.getElem?_map, hact]; rfl
    have hrun : ∀ pc evs, pc ≠ .idle → (∀ e ∈ evs, quiet t e = true) →
        (running t (st.go t pc evs).log = true ↔ (st.go t pc evs).pc t ≠ .idle) := by
      intro pc evs hpc hq
      rw [go_pc]
      simp only [St.go]
      rw [running_quiet t _ _ hq, h.run t]
      simp [hni, hpc]
    -- a statement that sets a gauge
    have set_ : ∀ act, (actions o st.mem now)[i]? = some act → isD act.field = false →
        Inv o (st.go t (.set act.field act.cell i) (counts t act)) := by
      intro act hact hd
      have hq : ∀ e ∈ counts t act, quiet t e = true ∧ OfT t e ∧ ∀ u m, e ≠ .sampled u m := by
        intro e he
        unfold counts at he
        split at he <;> simp at he <;> subst he <;> simp [quiet, OfT]
      refine inv_of (t := t) h rfl (fun e he => (hq e he).2.1) (go_other _ _ _ _) (hrun _ _ (by simp) fun e he => (hq e he).1)
        (.inl ⟨rfl, fun u m hm => (hq _ hm).2.2 u m rfl⟩) (fun f c hc => .inl hc) (fun f _ => .inl rfl) (fun f _ hx => ?_)
        fun _ => ⟨a, b ++ counts t act, ?_⟩
      · rcases hx with hx | ⟨c, i, hx⟩
        · exact .inl hx
        · rw [hp] at hx; cases hx
      · refine ⟨by simp [St.go, hT.log], ?_, ?_, ?_, ?_, ?_, ?_⟩
        · intro e he
          exact (List.mem_append.1 he).elim (hT.quiet e) fun he => (hq e he).1
        · rw [go_pc]; intro hx; cases hx
        · intro _ hm
          obtain ⟨m, h1, h2⟩ := hT.sampled hns hm
          exact ⟨m, by simp [h1], fun m' hm' => (List.mem_append.1 hm').elim (h2 m') fun x => absurd rfl ((hq _ x).2.2 _ _)⟩
        · rw [go_pc]
          intro f hf hfd
          obtain ⟨c, h1, h2, h3⟩ := hT.gauge f (by rw [hp]; exact hf) hfd
          exact ⟨c, h1, h2, h3.mono _⟩
        · rw [go_pc]
          intro f hf hfd
          rcases hT.derived f (by rw [hp]; exact hf) hfd with h1 | ⟨w, c, j, h1, h2⟩
          · exact .inl h1
          · exact .inr ⟨w, c, j, h1, by rw [go_other _ _ _ _ _ h1]; exact h2⟩
        · rw [go_pc]
          have hmem := List.mem_of_getElem? hact
          refine ⟨hfi act hact, hd, by rw [action_isD o _ _ act hmem, hd], ?_⟩
          rcases tells_of o hmem hd t with ⟨g1, g2, g3⟩ | ⟨e, g1, g2, _⟩
          · obtain ⟨k, u, k1, k2⟩ := sample_after h hT hns g1
            exact ⟨k, _, getElem?_mono k1 _, g3 u, k2⟩
          · refine ⟨st.log.length, e, ?_, g2, ?_⟩
            · simp [St.go, g1]
            · rw [hT.log]; simp
    cases hact : (actions o st.mem now)[i]? with
    | none =>
      rw [hact] at hs
      simp only at hs
      split at hs
      · rename_i hperm
        rw [List.isPerm_iff] at hperm
        simp only [Option.some.injEq] at hs
        subst hs
        have hlen : (flds o).length ≤ i := by
          rw [← flds_eq o st.mem now, List.length_map]
          exact List.getElem?_eq_none_iff.1 hact
        have htake : (flds o).take i = (flds o).take (flds o).length := by
          rw [List.take_of_length_le hlen, List.take_length]
        refine inv_of (t := t) (evs := []) h rfl (by simp) (go_other _ _ _ _) (hrun _ _ (by simp) (by simp)) (.inl ⟨rfl, by simp⟩)
          (fun f c hc => .inl hc) (fun f _ => .inl rfl) (fun f _ hx => ?_) fun _ => ⟨a, b, ?_⟩
        · rcases hx with hx | ⟨c, i, hx⟩
          · exact .inl hx
          · rw [hp] at hx; cases hx
        · have elog : (st.go t (.read order []) []).log = st.log := by simp [St.go]
          refine ⟨by rw [elog]; exact hT.log, hT.quiet, by rw [go_pc]; simp, fun _ => hT.sampled hns, ?_, ?_, ?_⟩
          · rw [go_pc, elog]
            intro f hf hfd
            simp only [prog] at hf
            exact hT.gauge f (by rw [hp]; simp only [prog]; rw [htake]; exact hf) hfd
          · rw [go_pc]
            intro f hf hfd
            simp only [prog] at hf
            rcases hT.derived f (by rw [hp]; simp only [prog]; rw [htake]; exact hf) hfd with h1 | ⟨w, c, j, h1, h2⟩
            · exact .inl h1
            · exact .inr ⟨w, c, j, h1, by rw [go_other _ _ _ _ _ h1]; exact h2⟩
          · rw [go_pc]
            exact ⟨by simpa using hperm, by intro c x hx; simp at hx⟩
      · cases hs
    | some act =>
      have hmem := List.mem_of_getElem? hact
      have hcd := action_isD o _ _ act hmem
      rw [hact] at hs
      cases act with
      | set f v =>
        simp only [Option.some.injEq] at hs
        subst hs
        exact set_ _ hact (by rw [← hcd]; rfl)
      | setFloat f v =>
        simp only [Option.some.injEq] at hs
        subst hs
        exact set_ _ hact (by rw [← hcd]; rfl)
      | upsert f fn =>
        simp only [Option.some.injEq] at hs
        subst hs
        have hfd : isD f = true := by rw [show f = (Action.upsert f fn).field from rfl, ← hcd]; rfl
        refine inv_of (t := t) (evs := []) h rfl (by simp) (go_other _ _ _ _) ?_ (.inl ⟨rfl, by simp⟩) ?_ ?_ ?_ fun _ => ⟨a, b, ?_⟩
        · rw [go_pc]
          simp only [St.go, List.append_nil]
          rw [h.run t]
          simp [hni]
        · intro g c hc
          simp only [St.go, Cur.upd] at hc
          split at hc
          · cases hc
          · exact .inl hc
        · intro g hg
          refine .inl ?_
          simp only [St.go, Cur.upd]
          rw [if_neg]
          rintro rfl
          rw [hfd] at hg; cases hg
        · intro g hg hx
          by_cases hgf : g = f
          · exact .inr ⟨_, _, by rw [go_pc, hgf]⟩
          · rcases hx with hx | ⟨c, i, hx⟩
            · exact .inl (by simpa [St.go, Cur.upd, hgf] using hx)
            · rw [hp] at hx; cases hx
        · have elog : ({ st with cur := st.cur.upd f none }.go t (.put f (.derived fn) i) []).log = st.log := by simp [St.go]
          refine ⟨by rw [elog]; exact hT.log, hT.quiet, by rw [go_pc]; simp, fun _ => hT.sampled hns, ?_, ?_, ?_⟩
          · rw [go_pc, elog]
            intro g hf hgd
            obtain ⟨c, h1, h2⟩ := hT.gauge g (by rw [hp]; exact hf) hgd
            refine ⟨c, ?_, h2⟩
            simp only [St.go, Cur.upd]
            rw [if_neg, h1]
            rintro rfl
            rw [hfd] at hgd; cases hgd
          · rw [go_pc]
            intro g hf hgd
            have hne : g ≠ f := by
              rintro rfl
              have hnd : (flds o).Nodup := by
                obtain ⟨cpu, mem, pre, d⟩ := o
                have : ∀ cpu mem d, (flds ⟨cpu, mem, [], d⟩).Nodup := by decide +kernel
                exact this cpu mem d
              have hfi' := hfi _ hact
              simp only [prog] at hf
              obtain ⟨j, hj⟩ := List.getElem?_of_mem hf
              rw [List.getElem?_take] at hj
              split at hj
              · have := (List.getElem?_inj (List.getElem?_eq_some_iff.1 hj).1 hnd).1 (hj.trans hfi'.symm)
                omega
              · cases hj
            rcases hT.derived g (by rw [hp]; exact hf) hgd with ⟨c, h1⟩ | ⟨w, c, j, h1, h2⟩
            · exact .inl ⟨c, by simpa [St.go, Cur.upd, hne] using h1⟩
            · exact .inr ⟨w, c, j, h1, by rw [go_other _ _ _ _ _ h1]; exact h2⟩
          · rw [go_pc]
            exact ⟨hfi _ hact, hfd, fn, rfl, dfn_of o hact⟩
  | set f c i =>
    rw [hp] at hs
    simp only [Option.some.injEq] at hs
    subst hs
    have hni : st.pc t ≠ .idle := by rw [hp]; simp
    obtain ⟨a, b, hT⟩ := h.thread t hni
    have hns : st.pc t ≠ .sample := by rw [hp]; simp
    have hat := hT.at_
    rw [hp] at hat
    obtain ⟨h1, h2, h3, k, e, h4, h5, h6⟩ := hat
    refine inv_of (t := t) (evs := []) h rfl (by simp) (go_other _ _ _ _) ?_ (.inl ⟨rfl, by simp⟩) ?_ ?_ ?_ fun _ => ⟨a, b, ?_⟩
    · rw [go_pc]
      simp only [St.go, List.append_nil]
      rw [h.run t]
      simp [hni]
    · intro g x hx
      simp only [St.go, Cur.upd] at hx
      split at hx
      · rename_i e
        cases hx
        refine .inr ⟨by rw [e, h2, h3], fun fn e' => ?_⟩
        rw [e'] at h3; cases h3
      · exact .inl hx
    · intro g hg
      by_cases e' : g = f
      · subst e'
        exact .inr ⟨a, b, c, hT.log, hT.quiet, by simp [St.go, Cur.upd], h3, k, e, h4, h5, h6⟩
      · exact .inl (by simp [St.go, Cur.upd, e'])
    · intro g hg hx
      have e' : g ≠ f := by rintro rfl; rw [h2] at hg; cases hg
      rcases hx with hx | ⟨c, i, hx⟩
      · exact .inl (by simpa [St.go, Cur.upd, e'] using hx)
      · rw [hp] at hx; cases hx
    · have elog : ({ st with cur := st.cur.upd f (some c) }.go t (.stmt (i + 1)) []).log = st.log := by simp [St.go]
      refine ⟨by rw [elog]; exact hT.log, hT.quiet, by rw [go_pc]; simp, fun _ => hT.sampled hns, ?_, ?_, ?_⟩
      · rw [go_pc, elog]
        intro g hg hgd
        simp only [prog] at hg
        by_cases e' : g = f
        · subst e'
          exact ⟨c, by simp [St.go, Cur.upd], h3, k, e, h4, h5, .inl h6, fun _ => h6⟩
        · rcases take_succ' h1 hg with hg | hg
          · obtain ⟨x, g1, g2⟩ := hT.gauge g (by rw [hp]; exact hg) hgd
            exact ⟨x, by simpa [St.go, Cur.upd, e'] using g1, g2⟩
          · exact absurd hg e'
      · rw [go_pc]
        intro g hg hgd
        have e' : g ≠ f := by rintro rfl; rw [h2] at hgd; cases hgd
        simp only [prog] at hg
        rcases take_succ' h1 hg with hg | hg
        · rcases hT.derived g (by rw [hp]; exact hg) hgd with ⟨x, g1⟩ | ⟨w, x, j, g1, g2⟩
          · exact .inl ⟨x, by simpa [St.go, Cur.upd, e'] using g1⟩
          · exact .inr ⟨w, x, j, g1, by rw [go_other _ _ _ _ _ g1]; exact g2⟩
        · exact absurd hg e'
      · rw [go_pc]
        exact (List.getElem?_eq_some_iff.1 h1).1
  | put f c i =>
    rw [hp] at hs
    simp only [Option.some.injEq] at hs
    subst hs
    have hni : st.pc t ≠ .idle := by rw [hp]; simp
    obtain ⟨a, b, hT⟩ := h.thread t hni
    have hns : st.pc t ≠ .sample := by rw [hp]; simp
    have hat := hT.at_
    rw [hp] at hat
    obtain ⟨h1, h2, fn, rfl, h3⟩ := hat
    refine inv_of (t := t) (evs := []) h rfl (by simp) (go_other _ _ _ _) ?_ (.inl ⟨rfl, by simp⟩) ?_ ?_ ?_ fun _ => ⟨a, b, ?_⟩
    · rw [go_pc]
      simp only [St.go, List.append_nil]
      rw [h.run t]
      simp [hni]
    · intro g x hx
      simp only [St.go, Cur.upd] at hx
      split at hx
      · rename_i e
        cases hx
        refine .inr ⟨by rw [e, h2]; rfl, fun fn' e' => ?_⟩
        cases e'
        rw [e]; exact h3
      · exact .inl hx
    · intro g hg
      have e' : g ≠ f := by rintro rfl; rw [h2] at hg; cases hg
      exact .inl (by simp [St.go, Cur.upd, e'])
    · intro g hg hx
      by_cases e' : g = f
      · exact .inl ⟨.derived fn, by simp [St.go, Cur.upd, e']⟩
      · rcases hx with hx | ⟨c, i, hx⟩
        · exact .inl (by simpa [St.go, Cur.upd, e'] using hx)
        · rw [hp] at hx; cases hx; exact absurd rfl e'
    · have elog : ({ st with cur := st.cur.upd f (some (.derived fn)) }.go t (.stmt (i + 1)) []).log = st.log := by simp [St.go]
      refine ⟨by rw [elog]; exact hT.log, hT.quiet, by rw [go_pc]; simp, fun _ => hT.sampled hns, ?_, ?_, ?_⟩
      · rw [go_pc, elog]
        intro g hg hgd
        have e' : g ≠ f := by rintro rfl; rw [h2] at hgd; cases hgd
        simp only [prog] at hg
        rcases take_succ' h1 hg with hg | hg
        · obtain ⟨x, g1, g2⟩ := hT.gauge g (by rw [hp]; exact hg) hgd
          exact ⟨x, by simpa [St.go, Cur.upd, e'] using g1, g2⟩
        · exact absurd hg e'
      · rw [go_pc]
        intro g hg hgd
        simp only [prog] at hg
        by_cases e' : g = f
        · exact .inl ⟨.derived fn, by simp [St.go, Cur.upd, e']⟩
        · rcases take_succ' h1 hg with hg | hg
          · rcases hT.derived g (by rw [hp]; exact hg) hgd with ⟨x, g1⟩ | ⟨w, x, j, g1, g2⟩
            · exact .inl ⟨x, by simpa [St.go, Cur.upd, e'] using g1⟩
            · exact .inr ⟨w, x, j, g1, by rw [go_other _ _ _ _ _ g1]; exact g2⟩
          · exact absurd hg e'
      · rw [go_pc]
        exact (List.getElem?_eq_some_iff.1 h1).1
  | read rest out =>
    have hni : st.pc t ≠ .idle := by rw [hp]; simp
    obtain ⟨a, b, hT⟩ := h.thread t hni
    have hns : st.pc t ≠ .sample := by rw [hp]; simp
    have hat := hT.at_
    rw [hp] at hat
    rw [hp] at hs
    cases rest with
    | nil =>
      simp only [Option.some.injEq] at hs
      subst hs
      refine inv_of (t := t) h rfl (by simp [OfT]) (go_other _ _ _ _) ?_ (.inl ⟨rfl, by simp⟩) (fun f c hc => .inl hc)
        (fun f _ => .inl rfl) (fun f _ hx => ?_) fun hx => ?_
      · rw [go_pc]
        simp [St.go, running_append]
      · rcases hx with hx | ⟨c, i, hx⟩
        · exact .inl hx
        · rw [hp] at hx; cases hx
      · rw [go_pc] at hx; exact absurd rfl hx
    | cons c rest =>
      obtain ⟨hperm, hout⟩ := hat
      have hc : c ∈ creates o := hperm.mem_iff.1 (by simp)
      obtain ⟨hcf, _⟩ := creates_flds o ho c hc
      have key : ∀ pc', AtPC o t a st.log pc' → prog (flds o).length pc' = (flds o).length → pc' ≠ .sample → pc' ≠ .idle →
          Inv o (st.go t pc' []) := by
        intro pc' h1 h2 h3 h4
        refine inv_of (t := t) (evs := []) h rfl (by simp) (go_other _ _ _ _) ?_ (.inl ⟨rfl, by simp⟩) (fun f c hc => .inl hc)
          (fun f _ => .inl rfl) (fun f _ hx => ?_) fun hx => ⟨a, b, ?_⟩
        · rw [go_pc]
          simp only [St.go, List.append_nil]
          rw [h.run t]
          simp [hni, h4]
        · rcases hx with hx | ⟨c, i, hx⟩
          · exact .inl hx
          · rw [hp] at hx; cases hx
        · have elog : (st.go t pc' []).log = st.log := by simp [St.go]
          refine ⟨by rw [elog]; exact hT.log, hT.quiet, by rw [go_pc]; intro hx; exact absurd hx h3, fun _ => hT.sampled hns, ?_, ?_, ?_⟩
          · rw [go_pc, elog, h2]
            intro f hf hfd
            exact hT.gauge f (by rw [hp]; exact hf) hfd
          · rw [go_pc, h2]
            intro f hf hfd
            rcases hT.derived f (by rw [hp]; exact hf) hfd with g1 | ⟨w, x, j, g1, g2⟩
            · exact .inl g1
            · exact .inr ⟨w, x, j, g1, by rw [go_other _ _ _ _ _ g1]; exact g2⟩
          · rw [go_pc, elog]; exact h1
      simp only at hs
      cases hx : st.cur c.field with
      | none =>
        rw [hx] at hs
        simp only [Option.some.injEq] at hs
        subst hs
        refine key _ ⟨by simpa using hperm, ?_⟩ rfl (by simp) (by simp)
        intro d x hd
        rcases List.mem_append.1 hd with hd | hd
        · exact hout d x hd
        · simp only [List.mem_singleton, Prod.mk.injEq] at hd
          obtain ⟨rfl, rfl⟩ := hd
          refine ⟨fun v hv => (by cases hv), fun _ => ?_⟩
          have hin : d.field ∈ (flds o).take (prog (flds o).length (st.pc t)) := by rw [hp]; simpa [prog] using hcf
          cases hdd : isD d.field with
          | false =>
            obtain ⟨x, g1, _⟩ := hT.gauge _ hin hdd
            rw [hx] at g1; cases g1
          | true =>
            refine ⟨rfl, ?_⟩
            rcases hT.derived _ hin hdd with ⟨x, g1⟩ | ⟨w, x, j, g1, g2⟩
            · rw [hx] at g1; cases g1
            · exact ⟨w, st.log, g1, prefix_self hT.log, List.prefix_refl _, (h.run w).2 (by rw [g2]; simp)⟩
      | some x =>
        rw [hx] at hs
        simp only [Option.some.injEq] at hs
        subst hs
        exact key _ ⟨hperm, hout, h.cur _ _ hx⟩ rfl (by simp) (by simp)
  | value c x rest out =>
    have hni : st.pc t ≠ .idle := by rw [hp]; simp
    obtain ⟨a, b, hT⟩ := h.thread t hni
    have hns : st.pc t ≠ .sample := by rw [hp]; simp
    have hat := hT.at_
    rw [hp] at hat
    rw [hp] at hs
    obtain ⟨hperm, hout, hxd, hfn⟩ := hat
    have hc : c ∈ creates o := hperm.mem_iff.1 (by simp)
    obtain ⟨hcf, _⟩ := creates_flds o ho c hc
    have key : ∀ y : Option Val, ((∀ v, y = some v → Orig a st.log c.field v) ∧ y ≠ none) →
        Inv o (st.go t (.read rest (out ++ [(c, y)])) []) := by
      intro y hy
      refine inv_of (t := t) (evs := []) h rfl (by simp) (go_other _ _ _ _) ?_ (.inl ⟨rfl, by simp⟩) (fun f c hc => .inl hc)
        (fun f _ => .inl rfl) (fun f _ hx => ?_) fun hx => ⟨a, b, ?_⟩
      · rw [go_pc]
        simp only [St.go, List.append_nil]
        rw [h.run t]
        simp [hni]
      · rcases hx with hx | ⟨c, i, hx⟩
        · exact .inl hx
        · rw [hp] at hx; cases hx
      · have elog : (st.go t (.read rest (out ++ [(c, y)])) []).log = st.log := by simp [St.go]
        refine ⟨by rw [elog]; exact hT.log, hT.quiet, by rw [go_pc]; simp, fun _ => hT.sampled hns, ?_, ?_, ?_⟩
        · rw [go_pc, elog]
          intro f hf hfd
          exact hT.gauge f (by rw [hp]; exact hf) hfd
        · rw [go_pc]
          intro f hf hfd
          rcases hT.derived f (by rw [hp]; exact hf) hfd with g1 | ⟨w, x, j, g1, g2⟩
          · exact .inl g1
          · exact .inr ⟨w, x, j, g1, by rw [go_other _ _ _ _ _ g1]; exact g2⟩
        · rw [go_pc, elog]
          refine ⟨by simpa using hperm, ?_⟩
          intro d z hd
          rcases List.mem_append.1 hd with hd | hd
          · exact hout d z hd
          · simp only [List.mem_singleton, Prod.mk.injEq] at hd
            obtain ⟨rfl, rfl⟩ := hd
            exact ⟨hy.1, fun hn => absurd hn hy.2⟩
    have hin : c.field ∈ (flds o).take (prog (flds o).length (st.pc t)) := by rw [hp]; simpa [prog] using hcf
    have gauge_ : isD c.field = false → ∀ y, y = (st.cur c.field).map (Cell.read st.mem) →
        ((∀ v, y = some v → Orig a st.log c.field v) ∧ y ≠ none) := by
      rintro hd y rfl
      obtain ⟨z, g1, g2, g3⟩ := hT.gauge _ hin hd
      rw [g1]
      refine ⟨fun v hv => ?_, by simp⟩
      simp only [Option.map_some, Option.some.injEq] at hv
      rw [← hv, read_nonD g2 _ MemStats.zero]
      exact g3
    cases x with
    | derived f =>
      simp only [Option.some.injEq] at hs
      subst hs
      refine key _ ⟨fun v hv => ?_, by simp⟩
      cases hv
      have hd : isD c.field = true := by rw [← hxd]; rfl
      obtain ⟨k, u, k1, k2⟩ := sample_after h hT hns (hasMem_of_derived hcf hd)
      obtain ⟨act, g1, g2, g3⟩ := hfn f rfl st.mem
      exact ⟨k, _, k1, ⟨act, g1, g2, by rw [g3]; rfl⟩, .inl k2, fun _ => k2⟩
    | int v =>
      simp only [Option.some.injEq] at hs
      subst hs
      exact key _ (gauge_ (by rw [← hxd]; rfl) _ rfl)
    | float v =>
      simp only [Option.some.injEq] at hs
      subst hs
      exact key _ (gauge_ (by rw [← hxd]; rfl) _ rfl)

theorem inv_init (o : Verif.Runmetrics.Options) (ho : o.enableMemory = true → o.useDerivedCumulative = true) : Inv o (Conc.init o) := by
  refine ⟨by simp [Conc.init, running], .inr (by simp [Conc.init]), ?_, by simp [Conc.init], by simp [Conc.init], by simp [Conc.init]⟩
  intro f c hc
  have hb : Cell.isD c = false ∧ isD f = false := by
    obtain ⟨cpu, mem, pre, d⟩ := o
    have : ∀ cpu mem d, (mem = true → d = true) → ∀ f ∈ [Field.memAlloc, .memTotal, .memSys, .memLookups, .memMalloc, .memFrees,
        .heapAlloc, .heapSys, .heapIdle, .heapInuse, .heapObjects, .heapReleased, .stackInuse, .stackSys, .stackMSpanInuse,
        .stackMSpanSys, .stackMCacheInuse, .stackMCacheSys, .otherSys, .gcSys, .numGC, .numForcedGC, .nextGC, .lastGC,
        .pauseTotalNs, .gcCPUFraction, .numGoroutines, .numCgoCalls],
        ((initials (fun _ => none) (creates ⟨cpu, mem, [], d⟩) f).all fun c => !Cell.isD c && !isD f) = true := by decide +kernel
    have h := this cpu mem d ho f (by cases f <;> simp)
    have hc' : initials (fun _ => none) (creates ⟨cpu, mem, [], d⟩) f = some c := hc
    rw [hc'] at h
    simpa using h
  refine ⟨by rw [hb.1, hb.2], fun fn e => ?_⟩
  rw [e] at hb
  cases hb.1

theorem run_inv {o : Verif.Runmetrics.Options} (ho : o.enableMemory = true → o.useDerivedCumulative = true) {st st' : St} {mvs : List Move}
    (h : Inv o st) (hr : Conc.run o st mvs = some st') : Inv o st' := by
  induction mvs generalizing st with
  | nil => cases hr; exact h
  | cons mv mvs ih =>
    unfold Conc.run at hr
    cases hs : Conc.step o st mv with
    | none => rw [hs] at hr; cases hr
    | some s1 => rw [hs] at hr; exact ih (inv_step ho h hs) hr

/-- What is known of a reading when it returns. -/
def Done (o : Verif.Runmetrics.Options) (l : List Ev) : Prop :=
  ∀ p t out, (p ++ [.returned t out]) <+: l → ∃ a b, p = a ++ .called t :: b ∧ (∀ e ∈ b, quiet t e = true) ∧
    (hasMem o = true → ∃ m, .sampled t m ∈ b ∧ ∀ m', .sampled t m' ∈ b → m' = m) ∧
    (out.map Prod.fst).Perm (creates o) ∧ OutOK t a p out ∧ (∀ x u m y, p = x ++ .sampled u m :: y → running u x = true) ∧
    running t a = false ∧ ∀ u m, .sampled u m ∈ p → hasMem o = true

theorem step_log {o : Verif.Runmetrics.Options} {st st' : St} {mv : Move} (h : Conc.step o st mv = some st') :
    ∃ evs, st'.log = st.log ++ evs ∧ evs.length ≤ 1 ∧
      ∀ t out, .returned t out ∈ evs → t = mv.t ∧ st.pc t = .read [] out := by
  obtain ⟨t, now, order⟩ := mv
  unfold Conc.step at h
  simp only at h
  split at h
  · cases h; exact ⟨_, rfl, by simp, by simp⟩
  · cases h; exact ⟨_, rfl, by simp, by simp⟩
  · split at h
    · cases h; exact ⟨_, rfl, by simp, by simp⟩
    · cases h
      refine ⟨_, rfl, ?_, ?_⟩
      · unfold counts; split <;> simp
      · intro t out ht; unfold counts at ht; split at ht <;> simp at ht
    · split at h
      · cases h; exact ⟨_, rfl, by simp, by simp⟩
      · cases h
  · cases h; exact ⟨_, rfl, by simp, by simp⟩
  · cases h; exact ⟨_, rfl, by simp, by simp⟩
  · rename_i out hp
    cases h
    refine ⟨_, rfl, by simp, fun u out' hu => ?_⟩
    simp only [List.mem_singleton, Ev.returned.injEq] at hu
    obtain ⟨rfl, rfl⟩ := hu
    exact ⟨rfl, hp⟩
  · split at h <;> (cases h; exact ⟨_, rfl, by simp, by simp⟩)
  · split at h <;> (cases h; exact ⟨_, rfl, by simp, by simp⟩)

theorem not_running_before {o : Verif.Runmetrics.Options} (ho : o.enableMemory = true → o.useDerivedCumulative = true) {st : St} {mvs : List Move}
    (hr : Conc.run o (Conc.init o) mvs = some st) : ∀ a t, (a ++ [.called t]) <+: st.log → running t a = false := by
  suffices H : ∀ (mvs : List Move) (s0 : St), Inv o s0 → (∀ a t, (a ++ [.called t]) <+: s0.log → running t a = false) →
      Conc.run o s0 mvs = some st → ∀ a t, (a ++ [.called t]) <+: st.log → running t a = false from
    H mvs _ (inv_init o ho) (by
      intro a t h
      have := List.prefix_nil.1 h
      simp at this) hr
  intro mvs
  induction mvs with
  | nil => intro s0 _ h hr; cases hr; exact h
  | cons mv mvs ih =>
    intro s0 hi h hr
    unfold Conc.run at hr
    cases hs : Conc.step o s0 mv with
    | none => rw [hs] at hr; cases hr
    | some s1 =>
      rw [hs] at hr
      refine ih s1 (inv_step ho hi hs) (fun a t hp => ?_) hr
      have hcl : ∃ evs, s1.log = s0.log ++ evs ∧ evs.length ≤ 1 ∧ ∀ u, .called u ∈ evs → s0.pc u = .idle := by
        obtain ⟨u, now, order⟩ := mv
        unfold Conc.step at hs
        simp only at hs
        split at hs
        · rename_i hpc
          cases hs
          refine ⟨_, rfl, by simp, fun w hw => ?_⟩
          simp only [List.mem_singleton, Ev.called.injEq] at hw
          rw [hw]; exact hpc
        · cases hs; exact ⟨_, rfl, by simp, by simp⟩
        · split at hs
          · cases hs; exact ⟨_, rfl, by simp, by simp⟩
          · cases hs
            refine ⟨_, rfl, ?_, ?_⟩
            · unfold counts; split <;> simp
            · intro w hw; unfold counts at hw; split at hw <;> simp at hw
          · split at hs
            · cases hs; exact ⟨_, rfl, by simp, by simp⟩
            · cases hs
        · cases hs; exact ⟨_, rfl, by simp, by simp⟩
        · cases hs; exact ⟨_, rfl, by simp, by simp⟩
        · cases hs; exact ⟨_, rfl, by simp, by simp⟩
        · split at hs <;> (cases hs; exact ⟨_, rfl, by simp, by simp⟩)
        · split at hs <;> (cases hs; exact ⟨_, rfl, by simp, by simp⟩)
      obtain ⟨evs, h1, h2, h3⟩ := hcl
      rw [h1] at hp
      match evs, h2, h3 with
      | [], _, _ => exact h a t (by simpa using hp)
      | [e], _, h3 =>
        rcases List.prefix_concat_iff.1 hp with hp | hp
        rotate_left
        · exact h a t hp
        · obtain ⟨h4, h5⟩ := List.append_inj' hp rfl
          simp only [List.cons.injEq, and_true] at h5
          subst h4 h5
          have := h3 t (by simp)
          have hn := hi.run t
          rw [this] at hn
          simpa using hn

theorem done {o : Verif.Runmetrics.Options} (ho : o.enableMemory = true → o.useDerivedCumulative = true) {st : St} {mvs : List Move}
    (hr : Conc.run o (Conc.init o) mvs = some st) : Done o st.log := by
  have hnr := not_running_before ho hr
  suffices H : ∀ (mvs : List Move) (s0 : St), Inv o s0 → Done o s0.log → Conc.run o s0 mvs = some st → Done o st.log from
    H mvs _ (inv_init o ho) (by
      intro p t out h
      have := List.prefix_nil.1 h
      simp at this) hr
  intro mvs
  induction mvs with
  | nil => intro s0 _ h hr; cases hr; exact h
  | cons mv mvs ih =>
    intro s0 hi h hr
    unfold Conc.run at hr
    cases hs : Conc.step o s0 mv with
    | none => rw [hs] at hr; cases hr
    | some s1 =>
      rw [hs] at hr
      refine ih s1 (inv_step ho hi hs) (fun p t out hp => ?_) hr
      have hpl : ∀ (mvs : List Move) (s : St), Conc.run o s mvs = some st → s.log <+: st.log := by
        intro mvs
        induction mvs with
        | nil => intro s hr; cases hr; exact List.prefix_refl _
        | cons mv mvs ih =>
          intro s hr
          unfold Conc.run at hr
          cases hs : Conc.step o s mv with
          | none => rw [hs] at hr; cases hr
          | some s1 =>
            rw [hs] at hr
            obtain ⟨evs, h1, _⟩ := step_log hs
            exact (List.prefix_append _ _).trans (h1 ▸ ih s1 hr)
      have hpre := hpl mvs s1 hr
      obtain ⟨evs, h1, h2, h3⟩ := step_log hs
      rw [h1] at hp
      match evs, h2, h3 with
      | [], _, _ => exact h p t out (by simpa using hp)
      | [e], _, h3 =>
        rcases List.prefix_concat_iff.1 hp with hp | hp
        rotate_left
        · exact h p t out hp
        · obtain ⟨h4, h5⟩ := List.append_inj' hp rfl
          simp only [List.cons.injEq, and_true] at h5
          subst h4 h5
          obtain ⟨_, hpc⟩ := h3 t out (by simp)
          obtain ⟨a, b, hT⟩ := hi.thread t (by rw [hpc]; simp)
          have hat := hT.at_
          rw [hpc] at hat
          refine ⟨a, b, hT.log, hT.quiet, hT.sampled (by rw [hpc]; simp), by simpa using hat.1, hat.2, hi.by_, ?_, hi.nomem⟩
          apply hnr a t
          refine List.IsPrefix.trans ?_ hpre
          rw [h1, hT.log]
          exact ⟨b ++ [.returned t out], by simp⟩

/-- The rows are those of the metrics. -/
theorem rows_eq (o : Verif.Runmetrics.Options) : rows o = (creates o).map rowOf := by
  obtain ⟨cpu, mem, pre, d⟩ := o
  cases cpu <;> cases mem <;> cases d <;> simp [rows, creates, memRows_eq, cpuRows_eq, deprecatedRows_eq]

theorem sane_with {m : MemStats} (h : Sane ⟨m, 0, 0⟩) : ∀ a ∈ memActions m, ∀ g c, Means (a.cell.read m) (shownOf a.field ⟨m, g, c⟩) := by
  have hm := h.1
  intro a ha g c
  simp only [memActions, List.mem_cons, List.not_mem_nil, or_false] at ha
  have hmem : ∀ f, f ≠ .numGoroutines → f ≠ .numCgoCalls → shownOf f ⟨m, g, c⟩ = shownOf f ⟨m, 0, 0⟩ := by
    intro f h1 h2; cases f <;> first | rfl | exact absurd rfl h1 | exact absurd rfl h2
  rcases ha with rfl | rfl | rfl | rfl | rfl | rfl | rfl | rfl | rfl | rfl | rfl | rfl | rfl | rfl | rfl | rfl | rfl | rfl | rfl | rfl |
    rfl | rfl | rfl | rfl | rfl | rfl
  · exact means_gauge (hm m.alloc (by simp)) _
  · exact means_derived (hm _ (by simp)) (·.totalAlloc) _ rfl
  · exact means_gauge (hm m.sys (by simp)) _
  · exact means_derived (hm _ (by simp)) (·.lookups) _ rfl
  · exact means_derived (hm _ (by simp)) (·.mallocs) _ rfl
  · exact means_derived (hm _ (by simp)) (·.frees) _ rfl
  · exact means_gauge (hm m.heapAlloc (by simp)) _
  · exact means_gauge (hm m.heapSys (by simp)) _
  · exact means_gauge (hm m.heapIdle (by simp)) _
  · exact means_gauge (hm m.heapInuse (by simp)) _
  · exact means_derived (hm _ (by simp)) (·.heapReleased) _ rfl
  · exact means_gauge (hm m.heapObjects (by simp)) _
  · exact means_gauge (hm m.stackInuse (by simp)) _
  · exact means_gauge (hm m.stackSys (by simp)) _
  · exact means_gauge (hm m.mSpanInuse (by simp)) _
  · exact means_gauge (hm m.mSpanSys (by simp)) _
  · exact means_gauge (hm m.mCacheInuse (by simp)) _
  · exact means_gauge (hm m.mCacheSys (by simp)) _
  · exact means_gauge (hm m.gcSys (by simp)) _
  · exact means_gauge (hm m.otherSys (by simp)) _
  · exact means_derived32 _ (·.numGC) _ rfl
  · exact means_derived32 _ (·.numForcedGC) _ rfl
  · exact means_gauge (hm m.nextGC (by simp)) _
  · exact means_millis_gauge (hm m.lastGC (by simp)) _
  · exact means_millis_derived (hm _ (by simp)) (·.pauseTotalNs) _ rfl
  · exact means_fraction h.2 _

theorem tells_row {e : Ev} {c : Create} {v : Val} (hs : SaneEv e) (h : TellsV e c.field v) : Tells e (rowOf c) v := by
  cases e with
  | called t => exact h
  | returned t out => exact h
  | sampled t m =>
    obtain ⟨a, h1, h2, rfl⟩ := h
    intro g k
    show Means _ (shownOf c.field _)
    rw [← h2]
    exact sane_with hs a h1 g k
  | counted t f n =>
    obtain ⟨h1, h2, rfl⟩ := h
    rcases h2 with rfl | rfl
    · intro m k
      show Means _ (shownOf c.field _)
      rw [← h1]
      exact means_gauge hs _
    · intro m k
      show Means _ (shownOf c.field _)
      rw [← h1]
      exact means_gauge hs _

theorem type_iff {o : Verif.Runmetrics.Options} (ho : o.enableMemory = true → o.useDerivedCumulative = true) {c : Create}
    (hc : c ∈ creates o) : (rowOf c).type = .cumulativeInt64 ↔ isD c.field = true := by
  obtain ⟨cpu, mem, pre, d⟩ := o
  have : ∀ cpu mem d, (mem = true → d = true) → ∀ c ∈ creates ⟨cpu, mem, [], d⟩,
      (bmTypeToMetricType c.type = .cumulativeInt64 ↔ isD c.field = true) := by decide +kernel
  exact this cpu mem d ho c hc

/-! ## The theorems -/

/-- **C102.** Whatever goroutines read at the same time: `Read` returns every metric once. Each point is what the runtime
said at a moment that is not before the call of the oldest reading then running (for a cumulative: not before this call).
A metric has its point, but for a cumulative while somebody else is reading. -/
theorem figures_partial {o : Verif.Runmetrics.Options} (ho : o.enableMemory = true → o.useDerivedCumulative = true) {st : St} {mvs : List Move}
    (hr : Conc.run o (Conc.init o) mvs = some st) (hsane : ∀ e ∈ st.log, SaneEv e)
    {p a b : List Ev} {t : Nat} {out : List (Create × Option Val)} (hp : (p ++ [.returned t out]) <+: st.log)
    (hab : p = a ++ .called t :: b) (hb : .called t ∉ b) :
    (out.map fun x => x.1.name).Perm ((rows o).map (·.name)) ∧ ∀ c x, (c, x) ∈ out → ∃ r ∈ rows o, IsRow r c ∧
      (∀ v, x = some v → ∃ (k : Nat) (e : Ev), p[k]? = some e ∧ Tells e r v ∧ NotBefore a k ∧
        (r.type = .cumulativeInt64 → a.length < k)) ∧
      (x = none → r.type = .cumulativeInt64 ∧ ∃ w q, w ≠ t ∧ (a ++ [.called t]) <+: q ∧ q <+: p ∧ running w q = true) := by
  obtain ⟨a', b', h1, h2, _, h4, h5, _⟩ := done ho hr p t out hp
  have hq : a' = a := by
    rw [h1] at hab
    have hb' : .called t ∉ b' := fun h => by have := h2 _ h; simp [quiet] at this
    rcases List.append_eq_append_iff.1 hab with ⟨x, g1, g2⟩ | ⟨x, g1, g2⟩
    · cases x with
      | nil => simpa using g1.symm
      | cons y x => simp only [List.cons_append, List.cons.injEq] at g2; exact absurd (by rw [g2.2]; simp) hb'
    · cases x with
      | nil => simpa using g1
      | cons y x => simp only [List.cons_append, List.cons.injEq] at g2; exact absurd (by rw [g2.2]; simp) hb
  subst hq
  constructor
  · rw [rows_eq, List.map_map]
    have := h4.map Create.name
    rw [List.map_map] at this
    exact this
  · intro c x hx
    have hc : c ∈ creates o := h4.mem_iff.1 (List.mem_map.2 ⟨_, hx, rfl⟩)
    refine ⟨rowOf c, by rw [rows_eq]; exact List.mem_map_of_mem hc, ⟨rfl, rfl, rfl⟩, fun v hv => ?_, fun hn => ?_⟩
    · obtain ⟨k, e, g1, g2, g3, g4⟩ := (h5 c x hx).1 v hv
      refine ⟨k, e, g1, tells_row (hsane e ?_) g2, g3, fun ht => g4 ((type_iff ho hc).1 ht)⟩
      exact hp.subset (List.mem_append_left _ (List.mem_of_getElem? g1))
    · obtain ⟨g1, g2⟩ := (h5 c x hx).2 hn
      exact ⟨(type_iff ho hc).2 g1, g2⟩

theorem running_of_split {w : Nat} {a1 a2 : List Ev} (h : ∀ out, .returned w out ∉ a2) : running w (a1 ++ .called w :: a2) = true := by
  have : ∀ l : List Ev, (∀ out, .returned w out ∉ l) → l.foldl (fun b e => match e with
      | .called u => if u = w then true else b
      | .returned u _ => if u = w then false else b
      | _ => b) true = true := by
    intro l
    induction l with
    | nil => intro _; rfl
    | cons e l ih =>
      intro hl
      rw [List.foldl_cons]
      have ih' := ih fun out ho => hl out (by simp [ho])
      cases e with
      | returned u out =>
        have : u ≠ w := by rintro rfl; exact hl out (by simp)
        simpa [this] using ih'
      | _ => simpa using ih'
  unfold running
  rw [List.foldl_append, List.foldl_cons]
  simp only [if_true]
  exact this a2 h

/-- If nobody else reads meanwhile, all metrics have their points, those of the memory show one moment in the reading, and
the others what the runtime said in it. -/
theorem alone {o : Verif.Runmetrics.Options} (ho : o.enableMemory = true → o.useDerivedCumulative = true) {st : St} {mvs : List Move}
    (hr : Conc.run o (Conc.init o) mvs = some st) (hsane : ∀ e ∈ st.log, SaneEv e)
    {p a b : List Ev} {t : Nat} {out : List (Create × Option Val)} (hp : (p ++ [.returned t out]) <+: st.log)
    (hab : p = a ++ .called t :: b) (hb : .called t ∉ b) (ha : ∀ w, w ≠ t → running w a = false)
    (hw : ∀ w, w ≠ t → .called w ∉ b) :
    (out.map fun x => x.1.name).Perm ((rows o).map (·.name)) ∧ ∃ m, (o.enableMemory = true → .sampled t m ∈ b) ∧
      ∀ c x, (c, x) ∈ out → ∃ r ∈ rows o, IsRow r c ∧ ∃ v, x = some v ∧
        ((∀ g k, Means v (r.shown ⟨m, g, k⟩)) ∨ ∃ u f n, .counted u f n ∈ b ∧ Tells (.counted u f n) r v) := by
  obtain ⟨h1, h2⟩ := figures_partial ho hr hsane hp hab hb
  obtain ⟨a', b', d1, d2, d3, d4, d5, d6, d7, d8⟩ := done ho hr p t out hp
  have hq : a' = a ∧ b' = b := by
    rw [d1] at hab
    have hb' : .called t ∉ b' := fun h => by have := d2 _ h; simp [quiet] at this
    rcases List.append_eq_append_iff.1 hab with ⟨x, g1, g2⟩ | ⟨x, g1, g2⟩
    · cases x with
      | nil => exact ⟨by simpa using g1.symm, by simpa using g2⟩
      | cons y x => simp only [List.cons_append, List.cons.injEq] at g2; exact absurd (by rw [g2.2]; simp) hb'
    · cases x with
      | nil => exact ⟨by simpa using g1, by simpa using g2.symm⟩
      | cons y x => simp only [List.cons_append, List.cons.injEq] at g2; exact absurd (by rw [g2.2]; simp) hb
  obtain ⟨rfl, rfl⟩ := hq
  -- nobody else runs at any moment of the reading
  have hno : ∀ w q, w ≠ t → (a' ++ [.called t]) <+: q → q <+: p → running w q = false := by
    rintro w q hne ⟨q1, rfl⟩ ⟨q2, hq⟩
    have hq1 : b' = q1 ++ q2 := by
      rw [d1] at hq
      simp only [List.append_assoc, List.cons_append, List.nil_append] at hq
      simpa using (List.append_cancel_left hq).symm
    have hcall : ∀ e ∈ q1, e ≠ .called w := by
      rintro e he rfl
      exact hw w hne (by rw [hq1]; simp [he])
    cases hx : running w (a' ++ [Ev.called t] ++ q1) with
    | false => rfl
    | true =>
      exfalso
      obtain ⟨x, y, e1, e2⟩ := running_split hx
      have h0 := ha w hne
      rw [List.append_assoc] at e1
      rcases List.append_eq_append_iff.1 e1 with ⟨z, g1, g2⟩ | ⟨z, g1, g2⟩
      · cases z with
        | nil => simp at g2; exact hne g2.1.symm
        | cons z0 z =>
          simp only [List.cons_append, List.nil_append, List.cons.injEq] at g2
          exact hcall (.called w) (by rw [g2.2]; simp) rfl
      · cases z with
        | nil => simp at g2; exact hne g2.1
        | cons z0 z =>
          simp only [List.cons_append, List.cons.injEq] at g2
          obtain ⟨rfl, g2⟩ := g2
          have : running w a' = true := by
            rw [g1]
            refine running_of_split fun out ho => ?_
            have := e2 (.returned w out) (by rw [g2]; simp [ho])
            simp [quiet] at this
          rw [h0] at this; cases this
  refine ⟨h1, ?_⟩
  have hmm : ∃ m, (o.enableMemory = true → .sampled t m ∈ b') ∧ ∀ u m', .sampled u m' ∈ b' → m' = m := by
    have hby : ∀ u m', .sampled u m' ∈ b' → u = t := by
      intro u m' hm'
      by_contra hne
      obtain ⟨y1, y2, e⟩ := List.append_of_mem hm'
      have := d6 (a' ++ .called t :: y1) u m' y2 (by rw [d1, e]; simp)
      rw [hno u _ hne ⟨y1, by simp⟩ ⟨.sampled u m' :: y2, by rw [d1, e]; simp⟩] at this
      cases this
    by_cases hm : o.enableMemory = true
    · obtain ⟨m, g1, g2⟩ := d3 (by simp [hasMem, hm, ho hm])
      exact ⟨m, fun _ => g1, fun u m' hm' => g2 m' (by have := hby u m' hm'; rw [← this]; exact hm')⟩
    · refine ⟨MemStats.zero, fun h => absurd h hm, fun u m' hm' => ?_⟩
      have := d8 u m' (by rw [d1]; simp [hm'])
      simp [hasMem, hm] at this
  obtain ⟨m, hm1, hm2⟩ := hmm
  refine ⟨m, hm1, fun c x hx => ?_⟩
  obtain ⟨r, r1, r2, r3, r4⟩ := h2 c x hx
  refine ⟨r, r1, r2, ?_⟩
  cases x with
  | none =>
    obtain ⟨_, w, q, g1, g2, g3, g4⟩ := r4 rfl
    rw [hno w q g1 g2 g3] at g4; cases g4
  | some v =>
    refine ⟨v, rfl, ?_⟩
    obtain ⟨k, e, g1, g2, g3, _⟩ := r3 v rfl
    have hk : a'.length < k := by
      rcases g3 with g3 | ⟨w, a1, a2, g4, g5, g6⟩
      · exact g3
      · have : running w a' = true := by rw [g4]; exact running_of_split g5
        by_cases hne : w = t
        · rw [hne, d7] at this; cases this
        · rw [ha w hne] at this; cases this
    have he : e ∈ b' := by
      rw [d1, List.getElem?_append_right (by omega), show k - a'.length = (k - a'.length - 1) + 1 by omega,
        List.getElem?_cons_succ] at g1
      exact List.mem_of_getElem? g1
    cases e with
    | called u => exact g2.elim
    | returned u o => exact g2.elim
    | sampled u m' => rw [hm2 u m' he] at g2; exact .inl g2
    | counted u f n => exact .inr ⟨u, f, n, he, g2⟩

/-- The cumulatives do not go back: if a reading is called after another has returned, its cumulatives are not less, if what
the runtime counts never is. -/
theorem cumulative_never_back {o : Verif.Runmetrics.Options} (ho : o.enableMemory = true → o.useDerivedCumulative = true) {st : St}
    {mvs : List Move} (hr : Conc.run o (Conc.init o) mvs = some st) (hsane : ∀ e ∈ st.log, SaneEv e)
    {r : Row} (hrr : r ∈ rows o) (hrt : r.type = .cumulativeInt64)
    (hmono : ∀ (j k : Nat) u m u' m', j ≤ k → st.log[j]? = some (.sampled u m) → st.log[k]? = some (.sampled u' m') →
      ∀ n n', r.shown ⟨m, 0, 0⟩ = .count n → r.shown ⟨m', 0, 0⟩ = .count n' → n ≤ n')
    {p1 p2 a b : List Ev} {t1 t2 : Nat} {out1 out2 : List (Create × Option Val)}
    (h1 : (p1 ++ [.returned t1 out1]) <+: a) (h2 : (p2 ++ [.returned t2 out2]) <+: st.log)
    (hab : p2 = a ++ .called t2 :: b) (hb : .called t2 ∉ b) {c1 c2 : Create} {v1 v2 : Val}
    (hc1 : (c1, some v1) ∈ out1) (hc2 : (c2, some v2) ∈ out2) (hn1 : c1.name = r.name) (hn2 : c2.name = r.name) :
    ∃ n1 n2, Means v1 (.count n1) ∧ Means v2 (.count n2) ∧ n1 ≤ n2 := by
  have hp1 : (p1 ++ [.returned t1 out1]) <+: st.log := by
    refine h1.trans (List.IsPrefix.trans ?_ h2)
    rw [hab]; exact ⟨.called t2 :: b ++ [.returned t2 out2], by simp⟩
  obtain ⟨a1, b1, d1, _, _, d4, d5, _⟩ := done ho hr p1 t1 out1 hp1
  obtain ⟨a2, b2, f1, f2, _, f4, f5, _⟩ := done ho hr p2 t2 out2 h2
  have hq : a2 = a := by
    rw [f1] at hab
    have hb' : .called t2 ∉ b2 := fun h => by have := f2 _ h; simp [quiet] at this
    rcases List.append_eq_append_iff.1 hab with ⟨x, g1, g2⟩ | ⟨x, g1, g2⟩
    · cases x with
      | nil => simpa using g1.symm
      | cons y x => simp only [List.cons_append, List.cons.injEq] at g2; exact absurd (by rw [g2.2]; simp) hb'
    · cases x with
      | nil => simpa using g1
      | cons y x => simp only [List.cons_append, List.cons.injEq] at g2; exact absurd (by rw [g2.2]; simp) hb
  subst hq
  have hm1 : c1 ∈ creates o := d4.mem_iff.1 (List.mem_map.2 ⟨_, hc1, rfl⟩)
  have hm2 : c2 ∈ creates o := f4.mem_iff.1 (List.mem_map.2 ⟨_, hc2, rfl⟩)
  rw [rows_eq] at hrr
  obtain ⟨c, hc, rfl⟩ := List.mem_map.1 hrr
  have hinj : ∀ d ∈ creates o, d.name = c.name → d = c := fun d hd e =>
    List.inj_on_of_nodup_map (creates_names o) hd hc e
  have e1 := hinj c1 hm1 hn1
  have e2 := hinj c2 hm2 hn2
  subst e1
  subst e2
  have hd := (type_iff ho hm1).1 hrt
  obtain ⟨k1, x1, g1, g2, _, _⟩ := (d5 _ _ hc1).1 v1 rfl
  obtain ⟨k2, x2, g3, g4, _, g5⟩ := (f5 _ _ hc2).1 v2 rfl
  have hs : ∀ x v, TellsV x c2.field v → ∃ u m, x = .sampled u m := by
    intro x v hx
    cases x with
    | called u => exact hx.elim
    | returned u o => exact hx.elim
    | sampled u m => exact ⟨u, m, rfl⟩
    | counted u f n =>
      obtain ⟨q1, q2, _⟩ := hx
      rw [← q1] at hd
      rcases q2 with rfl | rfl <;> cases hd
  have hcount : ∀ s : Sample, ∃ n, shownOf c2.field s = .count n := by
    intro s
    cases hf : c2.field <;> first | exact ⟨_, rfl⟩ | (rw [hf] at hd; cases hd)
  obtain ⟨u1, m1, rfl⟩ := hs _ _ g2
  obtain ⟨u2, m2, rfl⟩ := hs _ _ g4
  obtain ⟨n1, q1⟩ := hcount ⟨m1, 0, 0⟩
  obtain ⟨n2, q2⟩ := hcount ⟨m2, 0, 0⟩
  have l1 : st.log[k1]? = some (.sampled u1 m1) := by
    obtain ⟨z, hz⟩ := hp1
    rw [← hz, List.append_assoc]; exact getElem?_mono g1 _
  have l2 : st.log[k2]? = some (.sampled u2 m2) := by
    obtain ⟨z, hz⟩ := h2
    rw [← hz, List.append_assoc]; exact getElem?_mono g3 _
  have hle : k1 ≤ k2 := by
    have h3 := (List.getElem?_eq_some_iff.1 g1).1
    have h4 := g5 hd
    have h5 := h1.length_le
    simp at h5
    omega
  have t1 := tells_row (c := c2) (hsane _ (List.mem_of_getElem? l1)) g2 0 0
  have t2 := tells_row (c := c2) (hsane _ (List.mem_of_getElem? l2)) g4 0 0
  change Means v1 (shownOf c2.field ⟨m1, 0, 0⟩) at t1
  change Means v2 (shownOf c2.field ⟨m2, 0, 0⟩) at t2
  rw [q1] at t1
  rw [q2] at t2
  exact ⟨n1, n2, t1, t2, hmono k1 k2 _ _ _ _ hle l1 l2 n1 n2 q1 q2⟩

/-! ## What does not hold, and that the hypotheses can be met -/

/-- A moment at which the runtime says `n` of everything. -/
def all (n : Nat) : Sample :=
  let v : BitVec 64 := BitVec.ofNat 64 n
  let w : BitVec 32 := BitVec.ofNat 32 n
  ⟨⟨v, v, v, v, v, v, v, v, v, v, v, v, v, v, v, v, v, v, v, v, v, v, v, w, w, .fin (1/4)⟩, v, v⟩

def opts : Verif.Runmetrics.Options := ⟨false, true, [], true⟩

/-- `n` steps of `t` at the moment `all s`. -/
def steps (n t s : Nat) : List Move := List.replicate n ⟨t, all s, creates opts⟩

/-- The readings returned, with three of the metrics. -/
def seen (mvs : List Move) : Option (List (Nat × List (Bytes × Option Val))) :=
  (Conc.run opts (Conc.init opts) mvs).map fun st => st.log.filterMap fun
    | .returned t out => some (t, (out.map fun x => (x.1.name, x.2)).filter fun x =>
        [str "process/memory_alloc", str "process/total_memory_alloc", str "process/sys_memory_alloc"].contains x.1)
    | _ => none

/-- Alone, a reading is of one moment. -/
example : seen (steps 108 0 1 ++ steps 108 1 2) = some
    [(0, [(str "process/memory_alloc", some (.int 1)), (str "process/total_memory_alloc", some (.int 1)),
        (str "process/sys_memory_alloc", some (.int 1))]),
      (1, [(str "process/memory_alloc", some (.int 2)), (str "process/total_memory_alloc", some (.int 2)),
        (str "process/sys_memory_alloc", some (.int 2))])] := by decide +kernel

/-- Two readings at the same time: the figures of the first are of two moments. -/
theorem torn : seen (steps 4 0 1 ++ steps 2 1 2 ++ steps 104 0 3) = some
    [(0, [(str "process/memory_alloc", some (.int 1)), (str "process/total_memory_alloc", some (.int 2)),
        (str "process/sys_memory_alloc", some (.int 2))])] := by decide +kernel

/-- Two readings by the goroutine 1, one after the other, while a reading by the goroutine 0 is running: the second shows less
than the first and what was before it was called. -/
theorem gauge_goes_back : seen (steps 3 0 1 ++ steps 108 1 2 ++ steps 54 1 3 ++ steps 1 0 4 ++ steps 54 1 5) = some
    [(1, [(str "process/memory_alloc", some (.int 2)), (str "process/total_memory_alloc", some (.int 2)),
        (str "process/sys_memory_alloc", some (.int 2))]),
      (1, [(str "process/memory_alloc", some (.int 1)), (str "process/total_memory_alloc", some (.int 3)),
        (str "process/sys_memory_alloc", some (.int 3))])] := by decide +kernel

/-- A cumulative has no point in a reading, because another reading is replacing its entry. -/
theorem cumulative_missing : seen (steps 108 0 1 ++ steps 54 1 2 ++ steps 5 0 3 ++ steps 53 1 4) = some
    [(0, [(str "process/memory_alloc", some (.int 1)), (str "process/total_memory_alloc", some (.int 1)),
        (str "process/sys_memory_alloc", some (.int 1))]),
      (1, [(str "process/memory_alloc", some (.int 3)), (str "process/total_memory_alloc", none),
        (str "process/sys_memory_alloc", some (.int 2))])] := by decide +kernel

def saneB (m : MemStats) : Bool :=
  [m.alloc, m.totalAlloc, m.sys, m.lookups, m.mallocs, m.frees, m.heapAlloc, m.heapSys, m.heapIdle, m.heapInuse, m.heapReleased,
    m.heapObjects, m.stackInuse, m.stackSys, m.mSpanInuse, m.mSpanSys, m.mCacheInuse, m.mCacheSys, m.gcSys, m.otherSys, m.nextGC,
    m.lastGC, m.pauseTotalNs].all (fun v => decide (v.toNat < 2 ^ 63)) && !F64.lt m.gcCPUFraction (.fin 0)

theorem sane_of {m : MemStats} (h : saneB m = true) : Sane ⟨m, 0, 0⟩ := by
  simp only [saneB, Bool.and_eq_true, List.all_eq_true, decide_eq_true_eq, Bool.not_eq_true'] at h
  refine ⟨fun v hv => ?_, h.2⟩
  by_cases hz : v = 0
  · subst hz; decide
  · refine h.1 v ?_
    simp only [List.mem_cons, List.not_mem_nil, or_false] at hv ⊢
    tauto

def shapeB : Option St → Bool
  | some ⟨_, _, _, [.called 0, .sampled 0 m1, .called 1, .sampled 1 m2, .returned 0 _]⟩ => saneB m1 && saneB m2
  | _ => false

/-- The hypotheses of `figures_partial` can be met, by the schedule of `torn`. -/
example : ∃ st p a b out, Conc.run opts (Conc.init opts) (steps 4 0 1 ++ steps 2 1 2 ++ steps 104 0 3) = some st ∧
    (∀ e ∈ st.log, SaneEv e) ∧ (p ++ [.returned 0 out]) <+: st.log ∧ p = a ++ .called 0 :: b ∧ .called 0 ∉ b ∧
    running 1 p = true := by
  have h : shapeB (Conc.run opts (Conc.init opts) (steps 4 0 1 ++ steps 2 1 2 ++ steps 104 0 3)) = true := by decide +kernel
  generalize Conc.run opts (Conc.init opts) (steps 4 0 1 ++ steps 2 1 2 ++ steps 104 0 3) = x at h
  unfold shapeB at h
  split at h
  · rename_i mem cur pc m1 m2 out
    simp only [Bool.and_eq_true] at h
    refine ⟨_, [.called 0, .sampled 0 m1, .called 1, .sampled 1 m2], [], [.sampled 0 m1, .called 1, .sampled 1 m2], out, rfl, ?_,
      List.prefix_refl _, rfl, by simp, rfl⟩
    intro e he
    simp only [List.mem_cons, List.not_mem_nil, or_false] at he
    rcases he with rfl | rfl | rfl | rfl | rfl <;> first | trivial | exact sane_of h.1 | exact sane_of h.2
  · cases h

def aloneB : Option St → Bool
  | some ⟨_, _, _, [.called 0, .sampled 0 m1, .returned 0 out, .called 1, .sampled 1 m2, .returned 1 out']⟩ =>
    saneB m1 && saneB m2 && decide (m1.totalAlloc.toNat ≤ m2.totalAlloc.toNat) &&
      (out.any fun x => x.1.name == str "process/total_memory_alloc" && x.2.isSome) &&
      out'.any fun x => x.1.name == str "process/total_memory_alloc" && x.2.isSome
  | _ => false

/-- Those of `alone` and `cumulative_never_back`, by two readings one after the other. -/
example : ∃ st p p1 a b out out1, Conc.run opts (Conc.init opts) (steps 108 0 1 ++ steps 108 1 2) = some st ∧
    (∀ e ∈ st.log, SaneEv e) ∧ (p ++ [.returned 1 out]) <+: st.log ∧ p = a ++ .called 1 :: b ∧ .called 1 ∉ b ∧
    (∀ w, w ≠ 1 → running w a = false) ∧ (∀ w, w ≠ 1 → .called w ∉ b) ∧ (p1 ++ [.returned 0 out1]) <+: a ∧
    ∃ r ∈ rows opts, r.type = .cumulativeInt64 ∧
    (∀ (j k : Nat) u m u' m', j ≤ k → st.log[j]? = some (.sampled u m) → st.log[k]? = some (.sampled u' m') →
      ∀ n n', r.shown ⟨m, 0, 0⟩ = .count n → r.shown ⟨m', 0, 0⟩ = .count n' → n ≤ n') ∧
    ∃ c1 c2 v1 v2, (c1, some v1) ∈ out1 ∧ (c2, some v2) ∈ out ∧ c1.name = r.name ∧ c2.name = r.name := by
  have h : aloneB (Conc.run opts (Conc.init opts) (steps 108 0 1 ++ steps 108 1 2)) = true := by decide +kernel
  generalize Conc.run opts (Conc.init opts) (steps 108 0 1 ++ steps 108 1 2) = x at h
  unfold aloneB at h
  split at h
  · rename_i mem cur pc m1 out1 m2 out
    simp only [Bool.and_eq_true, decide_eq_true_eq, List.any_eq_true, beq_iff_eq, Option.isSome_iff_exists] at h
    obtain ⟨⟨⟨⟨h1, h2⟩, h3⟩, ⟨c1, x1⟩, h4, h5, v1, h6⟩, ⟨c2, x2⟩, h7, h8, v2, h9⟩ := h
    simp only at h5 h6 h8 h9
    subst h6
    subst h9
    refine ⟨_, [.called 0, .sampled 0 m1, .returned 0 out1, .called 1, .sampled 1 m2], [.called 0, .sampled 0 m1],
      [.called 0, .sampled 0 m1, .returned 0 out1], [.sampled 1 m2], out, out1, rfl, ?_,
      List.prefix_refl _, rfl, by simp, ?_, by simp, List.prefix_refl _,
      ⟨str "process/total_memory_alloc", str "By", .cumulativeInt64, fun s => .count s.mem.totalAlloc.toNat⟩, by simp [rows, opts, memRows], rfl,
      ?_, c1, c2, v1, v2, h4, h7, h5, h8⟩
    · intro e he
      simp only [List.mem_cons, List.not_mem_nil, or_false] at he
      rcases he with rfl | rfl | rfl | rfl | rfl | rfl <;> first | trivial | exact sane_of h1 | exact sane_of h2
    · intro w hw
      by_cases hw0 : w = 0
      · subst hw0; rfl
      · simp [running, Ne.symm hw0]
    · intro j k u m u' m' hjk hj hk n n' hn hn'
      simp only [Shown.count.injEq] at hn hn'
      subst hn
      subst hn'
      match j, k with
      | 0, _ => simp at hj
      | 2, _ => simp at hj
      | 3, _ => simp at hj
      | 5, _ => simp at hj
      | j + 6, _ => simp at hj
      | _, 0 => simp at hk
      | _, 2 => simp at hk
      | _, 3 => simp at hk
      | _, 5 => simp at hk
      | _, k + 6 => simp at hk
      | 1, 1 => simp at hj hk; rw [← hj.2, ← hk.2]
      | 1, 4 => simp at hj hk; rw [← hj.2, ← hk.2]; exact h3
      | 4, 1 => omega
      | 4, 4 => simp at hj hk; rw [← hj.2, ← hk.2]
  · cases h

end Verif.Props.RunConc
