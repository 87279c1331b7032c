import Verif.View.Export
import Verif.Props.ReadConc

/-!
# C101: what metric exporters are given of the views
-/

namespace Verif.Props.ViewExport
open Verif Verif.Stats Verif.View Verif.View.Export Verif.Metric
open Verif.Props.ReadConc (sents handled begun)

/-! ## Specification -/

/-- What happened in meter `r`. -/
def inMeter (r : Nat) (l : List Ev) : List ReadConc.Ev := l.filterMap fun x => match x with
  | .meter q y => if q = r then some y else none
  | _ => none

/-- Whether meter `r` is a producer: it was added and not removed since. -/
def isProducer (r : Nat) (l : List Ev) : Bool := ((l.filterMap fun x => match x with
  | .added q => if q = r then some true else none
  | .removed q => if q = r then some false else none
  | _ => none).getLast?).getD false

/-- A reading of a meter: its time, the number of commands the meter had handled, and the metrics with the names of the views. -/
structure Reading where
  meter : Nat
  now : Int
  n : Nat
  metrics : List (Bytes × MetricOut)

/-- The metrics of a meter whose worker has handled the commands `cs`: one for each view that is registered and for which anything was
recorded, describing all that was; but those of the views in `U` may be missing. -/
structure Shows (cs : List Cmd) (U : Bytes → Prop) (now : Int) (R : List (Bytes × MetricOut)) : Prop where
  once : (R.map Prod.fst).Nodup
  right : ∀ x m, (x, m) ∈ R → ∃ v, Worker.specRun Spec.empty cs x = some v ∧ v.recs ≠ [] ∧ ViewMetric.MetricOf v now m
  all : ∀ x v, Worker.specRun Spec.empty cs x = some v → v.recs ≠ [] → (∃ m, (x, m) ∈ R) ∨ U x

/-- A call of `Unregister` with the name was not among the first `n` commands but begun. -/
def Leaving (evs : List ReadConc.Ev) (n : Nat) (x : Bytes) : Prop :=
  ∃ i now ns, n ≤ i ∧ i < begun evs ∧ (sents evs)[i]? = some (.unregister now ns) ∧ x ∈ ns

/-- The `ReadAndExport` that goroutine `g` called after the events `pb`, exporting `data` after the events `p`: with `reads` the readings,
they are of the meters that were producers at one moment since, each once; `data` is their metrics; each shows what its meter had
handled at one moment since. -/
structure ExportIs (p pb : List Ev) (g : Nat) (data : List MetricOut) (reads : List Reading) : Prop where
  call : ∃ pl pm, p = pb ++ .began g :: (pl ++ .listed g (reads.map Reading.meter) :: pm) ∧ .began g ∉ pl ∧ .began g ∉ pm ∧
    (reads.map Reading.meter).Nodup ∧ ∀ r, r ∈ reads.map Reading.meter ↔ isProducer r (pb ++ .began g :: pl) = true
  data_eq : data = reads.flatMap fun x => x.metrics.map Prod.snd
  each : ∀ x ∈ reads, handled (inMeter x.meter pb) ≤ x.n ∧ x.n ≤ handled (inMeter x.meter p) ∧
    Shows ((sents (inMeter x.meter p)).take x.n) (Leaving (inMeter x.meter p) x.n) x.now x.metrics

/-! ## Steps of a meter -/

theorem begin_evs {st st' : ReadConc.St} {c : Cmd} (h : ReadConc.begin st c = some st') :
    st'.rpc = st.rpc ∧ ∃ new, st'.evs = st.evs ++ new ∧ ∀ e ∈ new, e = .began ∨ e = .done := by
  have fin : ∀ s : ReadConc.St, s.rpc = st.rpc → s.evs = st.evs → s.finish.rpc = st.rpc ∧
      ∃ new, s.finish.evs = st.evs ++ new ∧ ∀ e ∈ new, e = .began ∨ e = .done := by
    intro s h1 h2
    exact ⟨h1, [.done], by simp [ReadConc.St.finish, h2], by simp⟩
  have stay : ∀ s : ReadConc.St, s.rpc = st.rpc → s.evs = st.evs → s.rpc = st.rpc ∧
      ∃ new, s.evs = st.evs ++ new ∧ ∀ e ∈ new, e = .began ∨ e = .done := fun s h1 h2 => ⟨h1, [], by simp [h2], by simp⟩
  unfold ReadConc.begin at h
  repeat' split at h
  all_goals first
    | (cases h; done)
    | (cases h; exact fin _ rfl rfl)
    | (cases h; exact stay _ rfl rfl)

theorem loop_evs {st st' : ReadConc.St} (h : ReadConc.stepLoop st = some st') :
    st'.rpc = st.rpc ∧ ∃ new, st'.evs = st.evs ++ new ∧ ∀ e ∈ new, e = .began ∨ e = .done := by
  have fin : ∀ s : ReadConc.St, s.rpc = st.rpc → s.evs = st.evs → s.finish.rpc = st.rpc ∧
      ∃ new, s.finish.evs = st.evs ++ new ∧ ∀ e ∈ new, e = .began ∨ e = .done := by
    intro s h1 h2
    exact ⟨h1, [.done], by simp [ReadConc.St.finish, h2], by simp⟩
  have stay : ∀ s : ReadConc.St, s.rpc = st.rpc → s.evs = st.evs → s.rpc = st.rpc ∧
      ∃ new, s.evs = st.evs ++ new ∧ ∀ e ∈ new, e = .began ∨ e = .done := fun s h1 h2 => ⟨h1, [], by simp [h2], by simp⟩
  unfold ReadConc.stepLoop at h
  split at h
  · split at h
    · cases h
    · obtain ⟨h1, new, h2, h3⟩ := begin_evs h
      refine ⟨h1, .began :: new, by rw [h2]; simp, ?_⟩
      intro e he
      rcases List.mem_cons.1 he with rfl | he
      · exact .inl rfl
      · exact h3 e he
  all_goals repeat' split at h
  all_goals first
    | (cases h; done)
    | (cases h; exact fin _ rfl rfl)
    | (cases h; exact stay _ rfl rfl)

/-- What a step of a goroutine in `Read` does. -/
theorem read_step {st st' : ReadConc.St} {t : Nat} {now : Int} {c : Nat} (h : ReadConc.stepRead st t now c = some st') :
    (∀ u, u ≠ t → st'.rpc u = st.rpc u) ∧
    ((st.rpc t = .idle ∧ st'.evs = st.evs ++ [.called t] ∧ st'.rpc t ≠ .idle) ∨
     (∃ n acc, st.rpc t = .unlock n acc ∧ st'.evs = st.evs ++ [.returned t n acc]) ∨
     (st.rpc t ≠ .idle ∧ returning (st.rpc t) = none ∧ (st'.evs = st.evs ∨ st'.evs = st.evs ++ [.locked t]) ∧ st'.rpc t ≠ .idle)) := by
  have other : ∀ (f : Nat → ReadConc.RPC) (p : ReadConc.RPC) (u : Nat), u ≠ t → ReadConc.upd f t p u = f u :=
    fun f p u hu => by simp [ReadConc.upd, hu]
  have same : ∀ (f : Nat → ReadConc.RPC) (p : ReadConc.RPC), ReadConc.upd f t p t = p := fun f p => by simp [ReadConc.upd]
  unfold ReadConc.stepRead at h
  simp only at h
  split at h
  · cases h
    rename_i hp
    exact ⟨fun u hu => other _ _ u hu, .inl ⟨hp, rfl, by simp [same]⟩⟩
  · rename_i hp
    split at h
    · cases h
    · cases h
      exact ⟨fun u hu => other _ _ u hu, .inr (.inr ⟨by simp [hp], by simp [hp, returning], .inr rfl, by simp [same]⟩)⟩
  · rename_i hp
    cases h
    exact ⟨fun u hu => other _ _ u hu, .inr (.inr ⟨by simp [hp], by simp [hp, returning], .inl rfl, by simp [same]⟩)⟩
  · rename_i hp
    split at h
    · cases h
      exact ⟨fun u hu => other _ _ u hu, .inr (.inr ⟨by simp [hp], by simp [hp, returning], .inl rfl, by simp [same]⟩)⟩
    · split at h
      · cases h
      · split at h
        · cases h
        · split at h
          · cases h
            exact ⟨fun u hu => other _ _ u hu, .inr (.inr ⟨by simp [hp], by simp [hp, returning], .inl rfl, by simp [same]⟩)⟩
          · cases h
            exact ⟨fun u hu => other _ _ u hu, .inr (.inr ⟨by simp [hp], by simp [hp, returning], .inl rfl, by simp [same]⟩)⟩
  · rename_i hp
    split at h
    · cases h
    · split at h
      · cases h
        exact ⟨fun u hu => other _ _ u hu, .inr (.inr ⟨by simp [hp], by simp [hp, returning], .inl rfl, by simp [same]⟩)⟩
      · cases h
        exact ⟨fun u hu => other _ _ u hu, .inr (.inr ⟨by simp [hp], by simp [hp, returning], .inl rfl, by simp [same]⟩)⟩
      · cases h
  · rename_i n acc hp
    cases h
    exact ⟨fun u hu => other _ _ u hu, .inr (.inl ⟨n, acc, hp, rfl⟩)⟩

/-! ## Events -/

theorem inMeter_append (r : Nat) (a b : List Ev) : inMeter r (a ++ b) = inMeter r a ++ inMeter r b := by simp [inMeter]

theorem inMeter_map (r q : Nat) (l : List ReadConc.Ev) : inMeter r (l.map (Ev.meter q)) = if q = r then l else [] := by
  unfold inMeter
  induction l with
  | nil => simp
  | cons x l ih =>
    by_cases h : q = r
    · simp only [h, if_true] at ih ⊢
      simp [ih]
    · simp only [h, if_false] at ih ⊢
      simp [ih, h]

theorem mem_inMeter {r : Nat} {l : List Ev} {x : ReadConc.Ev} : x ∈ inMeter r l ↔ .meter r x ∈ l := by
  unfold inMeter
  rw [List.mem_filterMap]
  constructor
  · rintro ⟨e, he, h⟩
    cases e with
    | meter q y =>
      simp only at h
      split at h
      · cases h; rename_i hq; rw [← hq]; exact he
      · cases h
    | _ => cases h
  · intro h
    exact ⟨_, h, by simp⟩

theorem isProducer_snoc (r : Nat) (l : List Ev) (x : Ev) : isProducer r (l ++ [x]) = match x with
    | .added q => if q = r then true else isProducer r l
    | .removed q => if q = r then false else isProducer r l
    | _ => isProducer r l := by
  unfold isProducer
  cases x <;> simp only [List.filterMap_append, List.filterMap_cons, List.filterMap_nil, List.append_nil]
  all_goals
    rename_i q
    by_cases hq : q = r
    · simp [hq]
    · simp [hq]

theorem isProducer_plain (r : Nat) (l m : List Ev) (h : ∀ q, .added q ∉ m ∧ .removed q ∉ m) : isProducer r (l ++ m) = isProducer r l := by
  induction m generalizing l with
  | nil => simp
  | cons x m ih =>
    rw [show l ++ x :: m = (l ++ [x]) ++ m by simp, ih _ fun q => ⟨fun hq => (h q).1 (by simp [hq]), fun hq => (h q).2 (by simp [hq])⟩, isProducer_snoc]
    cases x with
    | added q => exact absurd (List.mem_cons_self) (h q).1
    | removed q => exact absurd (List.mem_cons_self) (h q).2
    | _ => rfl

theorem cut {α : Type} {l m p q : List α} {x : α} (h : l ++ m = p ++ x :: q) :
    (∃ q', l = p ++ x :: q') ∨ ∃ m1, p = l ++ m1 ∧ m = m1 ++ x :: q := by
  rcases List.append_eq_append_iff.1 h with ⟨a, h1, h2⟩ | ⟨a, h1, h2⟩
  · exact .inr ⟨a, h1, h2⟩
  · cases a with
    | nil => exact .inr ⟨[], by simpa using h1.symm, by simpa using h2.symm⟩
    | cons y a =>
      simp only [List.cons_append, List.cons.injEq] at h2
      exact .inl ⟨a, by rw [h1, h2.1]⟩

/-! ## Invariant -/

/-- A reading as it was made: meter, time, metrics. -/
abbrev Raw := Nat × Int × List (Bytes × MetricOut)

def flat (reads : List Raw) : List MetricOut := reads.flatMap fun x => x.2.2.map Prod.snd

/-- Goroutine `g` called `Read` of meter `r` and it returned. -/
def ReadIn (g : Nat) (pm : List Ev) (x : Raw) : Prop :=
  ∃ a b c, pm = a ++ .meter x.1 (.called g) :: (b ++ .meter x.1 (.returned g x.2.1 x.2.2) :: c) ∧ .meter x.1 (.called g) ∉ b

def Going (log : List Ev) (g : Nat) (rest : List Nat) (data : List MetricOut) (pb pm : List Ev) (reads : List Raw) : Prop :=
  ∃ pl, log = pb ++ .began g :: (pl ++ .listed g (reads.map Prod.fst ++ rest) :: pm) ∧ .began g ∉ pl ∧ .began g ∉ pm ∧
    (reads.map Prod.fst ++ rest).Nodup ∧ (∀ r, r ∈ reads.map Prod.fst ++ rest ↔ isProducer r (pb ++ .began g :: pl) = true) ∧
    data = flat reads ∧ ∀ x ∈ reads, ReadIn g pm x

def PcOK (log : List Ev) (meters : Nat → ReadConc.St) (g : Nat) : PC → Prop
  | .idle => True
  | .began => ∃ pb pl, log = pb ++ .began g :: pl ∧ .began g ∉ pl
  | .next rest data => ∃ pb pm reads, Going log g rest data pb pm reads
  | .inside r rest data => ∃ pb pm reads, Going log g (r :: rest) data pb pm reads ∧
      ∃ a b, pm = a ++ .meter r (.called g) :: b ∧ .meter r (.called g) ∉ b ∧ (meters r).rpc g ≠ .idle
  | .closing _ => True
  | .waiting _ => True

structure Inv (reg : Measures) (s : St) : Prop where
  logs : ∀ r, (s.meters r).evs = inMeter r s.log
  reach : ∀ r, ∃ l, ReadConc.run (ReadConc.init reg) l = some (s.meters r)
  man : ∃ m, s.man.producers = some m ∧ GoMap.WF m ∧ ∀ r, producer r ∈ GoMap.keys m ↔ isProducer r s.log = true
  added : ∀ r, .added r ∈ s.log ↔ s.life r = .looping ∨ s.life r = .exited
  once : ∀ r p q, s.log = p ++ .added r :: q → .added r ∉ p
  worked : ∀ r p q, s.log = p ++ .meter r .began :: q → .added r ∈ p
  pc : ∀ g, PcOK s.log s.meters g (s.pc g)
  exports : ∀ p q g data, s.log = p ++ .exported g data :: q → ∃ pb pm reads, Going p g [] data pb pm reads

theorem ReadIn.append {g : Nat} {pm m : List Ev} {x : Raw} (h : ReadIn g pm x) : ReadIn g (pm ++ m) x := by
  obtain ⟨a, b, c, rfl, h2⟩ := h
  exact ⟨a, b, c ++ m, by simp, h2⟩

theorem Going.append {log : List Ev} {g : Nat} {rest : List Nat} {data : List MetricOut} {pb pm : List Ev} {reads : List Raw}
    (h : Going log g rest data pb pm reads) {m : List Ev} (hm : .began g ∉ m) : Going (log ++ m) g rest data pb (pm ++ m) reads := by
  obtain ⟨pl, rfl, h2, h3, h4, h5, h6, h7⟩ := h
  exact ⟨pl, by simp, h2, by simp [h3, hm], h4, h5, h6, fun x hx => (h7 x hx).append⟩

/-- What other goroutines do leaves a goroutine where it is. -/
theorem PcOK.keep {log m : List Ev} {meters meters' : Nat → ReadConc.St} {g : Nat} {pc : PC} (h : PcOK log meters g pc) (h1 : .began g ∉ m)
    (h2 : ∀ r, .meter r (.called g) ∉ m) (h3 : ∀ r, (meters' r).rpc g = (meters r).rpc g) : PcOK (log ++ m) meters' g pc := by
  cases pc with
  | idle => trivial
  | closing r => trivial
  | waiting r => trivial
  | began =>
    obtain ⟨pb, pl, rfl, h4⟩ := h
    exact ⟨pb, pl ++ m, by simp, by simp [h4, h1]⟩
  | next rest data =>
    obtain ⟨pb, pm, reads, h4⟩ := h
    exact ⟨pb, pm ++ m, reads, h4.append h1⟩
  | inside r rest data =>
    obtain ⟨pb, pm, reads, h4, a, b, rfl, h5, h6⟩ := h
    exact ⟨pb, _, reads, h4.append h1, a, b ++ m, by simp, by simp [h5, h2 r], by rw [h3 r]; exact h6⟩

theorem inv_init (reg : Measures) : Inv reg (Export.init reg) := by
  refine ⟨fun r => rfl, fun r => ⟨[], rfl⟩, ⟨[], rfl, by simp [GoMap.WF, GoMap.keys], fun r => by simp [GoMap.keys, isProducer, Export.init]⟩, ?_, ?_, ?_,
    fun g => trivial, ?_⟩
  · intro r; simp [Export.init]
  · intro r p q h; simp [Export.init] at h
  · intro r p q h; simp [Export.init] at h
  · intro p q g data h; simp [Export.init] at h

/-- A step that is not one in a meter, with one event or none. -/
theorem Inv.plain {reg : Measures} {s s' : St} (h : Inv reg s) {m : List Ev} (hlog : s'.log = s.log ++ m) (hm : ∀ r x, .meter r x ∉ m)
    (hmeters : s'.meters = s.meters)
    (hman : ∃ k, s'.man.producers = some k ∧ GoMap.WF k ∧ ∀ r, producer r ∈ GoMap.keys k ↔ isProducer r s'.log = true)
    (hadded : ∀ r, .added r ∈ m ↔ (s'.life r = .looping ∨ s'.life r = .exited) ∧ ¬ (s.life r = .looping ∨ s.life r = .exited))
    (hlife : ∀ r, (s.life r = .looping ∨ s.life r = .exited) → (s'.life r = .looping ∨ s'.life r = .exited))
    (hlen : m.length ≤ 1)
    (hpc : ∀ g, PcOK s'.log s'.meters g (s'.pc g))
    (hexp : ∀ g data, .exported g data ∈ m → ∃ pb pm reads, Going s.log g [] data pb pm reads) : Inv reg s' := by
  have single : ∀ {p q : List Ev} {x : Ev}, s'.log = p ++ x :: q → (∃ q', s.log = p ++ x :: q') ∨ (p = s.log ∧ m = [x]) := by
    intro p q x e
    rw [hlog] at e
    rcases cut e with h1 | ⟨m1, h1, h2⟩
    · exact .inl h1
    · rw [h2] at hlen
      simp only [List.length_append, List.length_cons] at hlen
      have h3 : m1 = [] := List.eq_nil_of_length_eq_zero (by omega)
      have h4 : q = [] := List.eq_nil_of_length_eq_zero (by omega)
      subst h3; subst h4
      exact .inr ⟨by simpa using h1, by simpa using h2⟩
  refine ⟨?_, ?_, hman, ?_, ?_, ?_, hpc, ?_⟩
  · intro r
    rw [hmeters, hlog, inMeter_append, h.logs r]
    have : inMeter r m = [] := by
      rw [List.eq_nil_iff_forall_not_mem]
      intro x hx
      exact hm r x (mem_inMeter.1 hx)
    simp [this]
  · rw [hmeters]; exact h.reach
  · intro r
    rw [hlog, List.mem_append, h.added r, hadded r]
    constructor
    · rintro (h1 | h1)
      · exact hlife r h1
      · exact h1.1
    · intro h1
      by_cases h2 : s.life r = .looping ∨ s.life r = .exited
      · exact .inl h2
      · exact .inr ⟨h1, h2⟩
  · intro r p q e
    rcases single e with ⟨q', h1⟩ | ⟨rfl, h2⟩
    · exact h.once r p q' h1
    · rw [h.added r]
      exact ((hadded r).1 (by rw [h2]; simp)).2
  · intro r p q e
    rcases single e with ⟨q', h1⟩ | ⟨rfl, h2⟩
    · exact h.worked r p q' h1
    · exact absurd (by rw [h2]; simp) (hm r .began)
  · intro p q g data e
    rcases single e with ⟨q', h1⟩ | ⟨rfl, h2⟩
    · exact h.exports p q' g data h1
    · exact hexp g data (by rw [h2]; simp)

theorem run_snoc {st st1 st2 : ReadConc.St} {l : List ReadConc.Action} {a : ReadConc.Action} (h : ReadConc.run st l = some st1)
    (h2 : ReadConc.step st1 a = some st2) : ReadConc.run st (l ++ [a]) = some st2 := by
  induction l generalizing st with
  | nil => simp only [ReadConc.run, Option.some.injEq] at h; subst h; simp [ReadConc.run, h2]
  | cons b l ih =>
    simp only [ReadConc.run] at h
    cases hs : ReadConc.step st b with
    | none => simp [hs] at h
    | some st3 =>
      simp only [hs, Option.bind_some] at h
      simp only [List.cons_append, ReadConc.run, hs, Option.bind_some]
      exact ih h

/-- A step in a meter. -/
theorem Inv.inside {reg : Measures} {s s' : St} (h : Inv reg s) {r : Nat} {a : ReadConc.Action} {m : ReadConc.St} {new : List ReadConc.Ev}
    (hs : ReadConc.step (s.meters r) a = some m) (hnew : m.evs = (s.meters r).evs ++ new)
    (hwork : .began ∈ new → s.life r = .looping)
    (hlog : s'.log = s.log ++ new.map (Ev.meter r)) (hmeters : s'.meters = Export.upd s.meters r m) (hman : s'.man = s.man)
    (hlife : s'.life = s.life) (hpc : ∀ g, PcOK s'.log s'.meters g (s'.pc g)) : Inv reg s' := by
  have nomem : ∀ x : Ev, (∀ y, x ≠ .meter r y) → x ∉ new.map (Ev.meter r) := by
    intro x hx hm
    obtain ⟨y, _, hy⟩ := List.mem_map.1 hm
    exact hx y hy.symm
  refine ⟨?_, ?_, ?_, ?_, ?_, ?_, hpc, ?_⟩
  · intro q
    rw [hmeters, hlog, inMeter_append, inMeter_map, ← h.logs q]
    unfold Export.upd
    by_cases hq : q = r
    · subst hq; simp [hnew]
    · have : ¬ r = q := fun h => hq h.symm
      simp [hq, this]
  · intro q
    rw [hmeters]
    unfold Export.upd
    by_cases hq : q = r
    · subst hq
      obtain ⟨l, hl⟩ := h.reach q
      exact ⟨l ++ [a], by rw [if_pos rfl]; exact run_snoc hl hs⟩
    · rw [if_neg hq]; exact h.reach q
  · rw [hman, hlog]
    obtain ⟨k, k1, k2, k3⟩ := h.man
    refine ⟨k, k1, k2, fun q => ?_⟩
    rw [isProducer_plain q _ _ fun u => ⟨nomem _ (by simp), nomem _ (by simp)⟩]
    exact k3 q
  · intro q
    rw [hlog, hlife, List.mem_append, ← h.added q]
    exact ⟨fun h => h.elim id fun h => absurd h (nomem _ (by simp)), .inl⟩
  · intro q p t e
    rw [hlog] at e
    rcases cut e with ⟨q', h1⟩ | ⟨m1, h1, h2⟩
    · exact h.once q p q' h1
    · exact absurd (by rw [h2]; simp) (nomem (.added q) (by simp))
  · intro q p t e
    rw [hlog] at e
    rcases cut e with ⟨q', h1⟩ | ⟨m1, h1, h2⟩
    · exact h.worked q p q' h1
    · have hm : Ev.meter q .began ∈ new.map (Ev.meter r) := by rw [h2]; simp
      obtain ⟨y, hy, e⟩ := List.mem_map.1 hm
      cases e
      rw [h1, List.mem_append]
      exact .inl ((h.added r).2 (.inl (hwork hy)))
  · intro p t g data e
    rw [hlog] at e
    rcases cut e with ⟨q', h1⟩ | ⟨m1, h1, h2⟩
    · exact h.exports p q' g data h1
    · exact absurd (by rw [h2]; simp) (nomem (.exported g data) (by simp))

theorem upd_same {α : Type} (f : Nat → α) (t : Nat) (x : α) : Export.upd f t x t = x := by simp [Export.upd]
theorem upd_other {α : Type} (f : Nat → α) {t u : Nat} (x : α) (h : u ≠ t) : Export.upd f t x u = f u := by simp [Export.upd, h]

theorem rpc_upd {meters : Nat → ReadConc.St} {r : Nat} {m : ReadConc.St} {g : Nat} (h : m.rpc g = (meters r).rpc g) (q : Nat) :
    (Export.upd meters r m q).rpc g = (meters q).rpc g := by
  by_cases hq : q = r
  · rw [hq, upd_same, h]
  · rw [upd_other _ _ hq]

theorem drop_new {a b new : List ReadConc.Ev} (h : b = a ++ new) : b.drop a.length = new := by rw [h]; simp

theorem looping_of {l : Life} (h : l = .looping) : l = .looping ∨ l = .exited := .inl h

theorem inv_step {reg : Measures} {s s' : St} (h : Inv reg s) {mv : Move} (hs : Export.step s mv = some s') : Inv reg s' := by
  have keepAll : ∀ (m : List Ev) (s2 : St), s2.log = s.log ++ m → s2.meters = s.meters → s2.pc = s.pc → (∀ g, .began g ∉ m) →
      (∀ r x, .meter r x ∉ m) → ∀ g, PcOK s2.log s2.meters g (s2.pc g) := by
    intro m s2 h1 h2 h3 h4 h5 g
    rw [h1, h2, h3]
    exact (h.pc g).keep (h4 g) (fun r => h5 r _) fun r => rfl
  have keepBut : ∀ (g : Nat) (pc : PC) (m : List Ev) (s2 : St), s2.log = s.log ++ m → s2.meters = s.meters → s2.pc = Export.upd s.pc g pc →
      (∀ u, u ≠ g → .began u ∉ m) → (∀ r x, .meter r x ∉ m) → PcOK s2.log s2.meters g pc → ∀ u, PcOK s2.log s2.meters u (s2.pc u) := by
    intro g pc m s2 h1 h2 h3 h4 h5 h6 u
    by_cases hu : u = g
    · subst hu; rw [h3, upd_same]; exact h6
    · rw [h1, h2, h3, upd_other _ _ hu]
      exact (h.pc u).keep (h4 u hu) (fun r => h5 r _) fun r => rfl
  have sameMan : ∀ (m : List Ev) (s2 : St), s2.log = s.log ++ m → s2.man = s.man → (∀ q, .added q ∉ m ∧ .removed q ∉ m) →
      ∃ k, s2.man.producers = some k ∧ GoMap.WF k ∧ ∀ r, producer r ∈ GoMap.keys k ↔ isProducer r s2.log = true := by
    intro m s2 h1 h2 h3
    obtain ⟨k, k1, k2, k3⟩ := h.man
    rw [h1, h2]
    exact ⟨k, k1, k2, fun q => by rw [isProducer_plain q _ _ h3]; exact k3 q⟩
  have noAdd : ∀ {m : List Ev} (s2 : St), (∀ r, .added r ∉ m) → s2.life = s.life →
      ∀ r, .added r ∈ m ↔ (s2.life r = .looping ∨ s2.life r = .exited) ∧ ¬ (s.life r = .looping ∨ s.life r = .exited) := by
    intro m s2 h1 h2 r
    rw [h2]
    exact ⟨fun h => absurd h (h1 r), fun h => absurd h.1 h.2⟩
  cases mv with
  | send r u c =>
    simp only [Export.step] at hs
    split at hs
    · cases hs
    · simp only [Option.map_eq_some_iff] at hs
      obtain ⟨m, hm, rfl⟩ := hs
      have e : m.evs = (s.meters r).evs ++ [.sent u c] ∧ m.rpc = (s.meters r).rpc := by
        simp only [ReadConc.step, Option.some.injEq] at hm; subst hm; exact ⟨rfl, rfl⟩
      refine h.inside hm e.1 (by simp) (by simp [St.inMeter, drop_new e.1]) rfl rfl rfl ?_
      intro g
      simp only [St.inMeter, drop_new e.1]
      exact (h.pc g).keep (by simp) (by simp) (rpc_upd (by rw [e.2]))
  | work r =>
    simp only [Export.step] at hs
    split at hs
    · rename_i hl
      simp only [Option.map_eq_some_iff] at hs
      obtain ⟨m, hm, rfl⟩ := hs
      obtain ⟨e1, new, e2, e3⟩ := loop_evs (show ReadConc.stepLoop (s.meters r) = some m from hm)
      refine h.inside hm e2 (fun _ => hl) (by simp [St.inMeter, drop_new e2]) rfl rfl rfl ?_
      intro g
      simp only [St.inMeter, drop_new e2]
      refine (h.pc g).keep (by simp) ?_ (rpc_upd (by rw [e1]))
      intro q hq
      obtain ⟨y, hy, e⟩ := List.mem_map.1 hq
      cases e
      rcases e3 _ hy with e | e <;> cases e
    · cases hs
  | read r t now c =>
    simp only [Export.step] at hs
    split at hs
    · rename_i hpc
      simp only [Option.map_eq_some_iff] at hs
      obtain ⟨m, hm, rfl⟩ := hs
      obtain ⟨e1, e2⟩ := read_step (show ReadConc.stepRead (s.meters r) t now c = some m from hm)
      have : ∃ new, m.evs = (s.meters r).evs ++ new ∧ .began ∉ new ∧ ∀ u, u ≠ t → .called u ∉ new := by
        rcases e2 with ⟨_, e, _⟩ | ⟨n, acc, _, e⟩ | ⟨_, _, e | e, _⟩
        · exact ⟨_, e, by simp, by simp⟩
        · exact ⟨_, e, by simp, by simp⟩
        · exact ⟨[], by simpa using e, by simp, by simp⟩
        · exact ⟨_, e, by simp, by simp⟩
      obtain ⟨new, e3, e4, e5⟩ := this
      refine h.inside hm e3 (fun hb => absurd hb e4) (by simp [St.inMeter, drop_new e3]) rfl rfl rfl ?_
      intro g
      by_cases hg : g = t
      · subst hg
        show PcOK _ _ g (s.pc g)
        rw [hpc]; trivial
      · simp only [St.inMeter, drop_new e3]
        refine (h.pc g).keep (by simp) ?_ (rpc_upd (e1 g hg))
        intro q hq
        obtain ⟨y, hy, e⟩ := List.mem_map.1 hq
        cases e
        exact e5 g hg hy
    · cases hs
  | start r =>
    simp only [Export.step] at hs
    split at hs
    · rename_i hl
      cases hs
      have key : ∀ q, (Export.upd s.life r Life.spawned q = .looping ∨ Export.upd s.life r Life.spawned q = .exited) ↔ (s.life q = .looping ∨ s.life q = .exited) := by
        intro q
        by_cases hq : q = r
        · subst hq; rw [upd_same, hl]; simp
        · rw [upd_other _ _ hq]
      refine h.plain (m := []) (by simp) (by simp) rfl (sameMan [] _ (by simp) rfl (by simp)) ?_ (fun q => (key q).2) (by simp)
        (keepAll [] _ (by simp) rfl rfl (by simp) (by simp)) (by simp)
      intro q
      simp only [key q]
      exact ⟨fun h => by simp at h, fun h => absurd h.1 h.2⟩
    · cases hs
  | add r =>
    simp only [Export.step] at hs
    split at hs
    · rename_i hl
      obtain ⟨k, k1, k2, k3⟩ := h.man
      simp only [Manager.addProducer, k1, producer, if_true, toOption, Option.map_some, Option.some.injEq] at hs
      subst hs
      refine h.plain (m := [.added r]) rfl (by simp) rfl ?_ ?_ ?_ (by simp) (keepAll [.added r] _ rfl rfl rfl (by simp) (by simp)) (by simp)
      · refine ⟨_, rfl, GoMap.WF_set k2 _ _, fun q => ?_⟩
        simp only [St.emit]
        rw [GoMap.keys_set_mem, isProducer_snoc, k3 q]
        by_cases hq : r = q
        · simp [hq, producer]
        · have : ¬ q = r := fun h => hq h.symm
          simp [hq, this, producer]
      · intro q
        by_cases hq : q = r
        · subst hq; simp [upd_same, hl]
        · simp only [List.mem_singleton, Ev.added.injEq, hq, upd_other _ _ hq, false_iff]
          exact fun h => h.2 h.1
      · intro q hq2
        by_cases hq : q = r
        · subst hq; simp [upd_same]
        · simp only [upd_other _ _ hq]; exact hq2
    · cases hs
  | exit r =>
    simp only [Export.step] at hs
    split at hs
    · rename_i hl
      split at hs
      · cases hs
        have key : ∀ q, (Export.upd s.life r Life.exited q = .looping ∨ Export.upd s.life r Life.exited q = .exited) ↔ (s.life q = .looping ∨ s.life q = .exited) := by
          intro q
          by_cases hq : q = r
          · subst hq; rw [upd_same, hl.1]; simp
          · rw [upd_other _ _ hq]
        refine h.plain (m := []) (by simp) (by simp) rfl (sameMan [] _ (by simp) rfl (by simp)) ?_ (fun q => (key q).2) (by simp)
          (keepAll [] _ (by simp) rfl rfl (by simp) (by simp)) (by simp)
        intro q
        simp only [key q]
        exact ⟨fun h => by simp at h, fun h => absurd h.1 h.2⟩
      · cases hs
    · cases hs
  | stop g r =>
    simp only [Export.step] at hs
    split at hs
    · obtain ⟨k, k1, k2, k3⟩ := h.man
      simp only [Manager.deleteProducer, k1, producer, if_true, toOption, Option.map_some, Option.some.injEq] at hs
      subst hs
      refine h.plain (m := [.removed r]) rfl (by simp) rfl ?_ ?_ (fun q hq => hq) (by simp)
        (keepBut g (.closing r) [.removed r] _ rfl rfl rfl (by simp) (by simp) trivial) (by simp)
      · refine ⟨_, rfl, GoMap.WF_del k2 _, fun q => ?_⟩
        simp only [St.emit, St.at]
        rw [GoMap.keys_del_mem, isProducer_snoc, k3 q]
        by_cases hq : r = q
        · simp [hq, producer]
        · have : ¬ q = r := fun h => hq h.symm
          simp [hq, this, producer]
      · exact noAdd _ (by simp) rfl
    · cases hs
  | close g =>
    simp only [Export.step] at hs
    split at hs
    · rename_i r _
      cases hs
      exact h.plain (m := []) (by simp [St.at]) (by simp) rfl (sameMan [] _ (by simp [St.at]) rfl (by simp)) (noAdd _ (by simp) rfl) (fun q hq => hq) (by simp)
        (keepBut g (.waiting r) [] _ (by simp [St.at]) rfl rfl (by simp) (by simp) trivial) (by simp)
    · cases hs
  | stopped g =>
    simp only [Export.step] at hs
    split at hs
    · rename_i r _
      split at hs
      · cases hs
        exact h.plain (m := [.stopped r]) rfl (by simp) rfl (sameMan [.stopped r] _ rfl rfl (by simp)) (noAdd _ (by simp) rfl) (fun q hq => hq) (by simp)
          (keepBut g .idle [.stopped r] _ rfl rfl rfl (by simp) (by simp) trivial) (by simp)
      · cases hs
    · cases hs
  | export_ g =>
    simp only [Export.step] at hs
    split at hs
    · cases hs
      refine h.plain (m := [.began g]) rfl (by simp) rfl (sameMan [.began g] _ rfl rfl (by simp)) (noAdd _ (by simp) rfl) (fun q hq => hq) (by simp)
        (keepBut g .began [.began g] _ rfl rfl rfl (fun u hu => by simp [hu]) (by simp) ⟨s.log, [], rfl, by simp⟩) (by simp)
    · cases hs
  | list g order =>
    simp only [Export.step] at hs
    split at hs
    · rename_i hpc
      split at hs
      · rename_i hperm
        cases hs
        obtain ⟨k, k1, k2, k3⟩ := h.man
        rw [k1, Option.getD_some, List.isPerm_iff] at hperm
        have hkeys : (order.map producer).Perm (GoMap.keys k) := by
          have := hperm.map Prod.fst
          simpa [GoMap.keys, List.map_map, Function.comp_def] using this
        have hrs : (s.man.getAll (order.map fun r => (producer r, ()))).map Producer.id = order := by
          simp [Manager.getAll, producer, Function.comp_def]
        rw [hrs]
        have hinj : Function.Injective producer := fun a b hab => by simpa [producer] using hab
        refine h.plain (m := [.listed g order]) rfl (by simp) rfl (sameMan [.listed g order] _ rfl rfl (by simp)) (noAdd _ (by simp) rfl)
          (fun q hq => hq) (by simp) (keepBut g (.next order []) [.listed g order] _ rfl rfl rfl (by simp) (by simp) ?_) (by simp)
        have hp := h.pc g
        rw [hpc] at hp
        obtain ⟨pb, pl, hlog, hb⟩ := hp
        refine ⟨pb, [], [], pl, ?_, hb, by simp, ?_, ?_, rfl, by simp⟩
        · simp [St.emit, St.at, hlog]
        · have hn : (order.map producer).Nodup := hkeys.nodup_iff.2 k2
          simpa using hn.of_map
        · intro r
          rw [← hlog, ← k3 r, ← hkeys.mem_iff]
          simp only [List.map_nil, List.nil_append]
          exact (List.mem_map_of_injective hinj).symm
      · cases hs
    · cases hs
  | enter g =>
    simp only [Export.step] at hs
    split at hs
    · rename_i r rest data hpc
      split at hs
      · rename_i hidle
        simp only [Option.map_eq_some_iff] at hs
        obtain ⟨m, hm, rfl⟩ := hs
        obtain ⟨e1, e2⟩ := read_step (show ReadConc.stepRead (s.meters r) g 0 0 = some m from hm)
        rcases e2 with ⟨_, e, e3⟩ | ⟨n, acc, e, _⟩ | ⟨e, _⟩
        · refine h.inside hm e (by simp) (by simp [St.inMeter, St.at, drop_new e]) rfl rfl rfl ?_
          intro u
          by_cases hu : u = g
          · subst hu
            simp only [St.at, upd_same, St.inMeter, drop_new e]
            have hp := h.pc u
            rw [hpc] at hp
            obtain ⟨pb, pm, reads, hg⟩ := hp
            exact ⟨pb, _, reads, hg.append (by simp), pm, [], by simp, by simp, by rw [upd_same]; exact e3⟩
          · simp only [St.at, upd_other _ _ hu, St.inMeter, drop_new e]
            refine (h.pc u).keep (by simp) ?_ (rpc_upd (e1 u hu))
            intro q hq
            simp at hq
            exact hu hq.2
        · rw [hidle] at e; cases e
        · exact absurd hidle e
      · cases hs
    · cases hs
  | within g now c =>
    simp only [Export.step] at hs
    split at hs
    · rename_i r rest data hpc
      simp only [Option.map_eq_some_iff] at hs
      obtain ⟨m, hm, rfl⟩ := hs
      have hp := h.pc g
      rw [hpc] at hp
      obtain ⟨pb, pm, reads, hg, a, b, hab, hb, hne⟩ := hp
      obtain ⟨e1, e2⟩ := read_step (show ReadConc.stepRead (s.meters r) g now c = some m from hm)
      have others : ∀ (new : List ReadConc.Ev) (pc : PC), m.evs = (s.meters r).evs ++ new → (∀ u, .called u ∉ new) →
          PcOK (s.log ++ new.map (Ev.meter r)) (Export.upd s.meters r m) g pc →
          ∀ u, PcOK (((s.inMeter r m).at g pc).log) (((s.inMeter r m).at g pc).meters) u (((s.inMeter r m).at g pc).pc u) := by
        intro new pc e3 e4 e5 u
        by_cases hu : u = g
        · subst hu
          simp only [St.at, upd_same, St.inMeter, drop_new e3]
          exact e5
        · simp only [St.at, upd_other _ _ hu, St.inMeter, drop_new e3]
          refine (h.pc u).keep (by simp) ?_ (rpc_upd (e1 u hu))
          intro q hq
          obtain ⟨y, hy, e⟩ := List.mem_map.1 hq
          cases e
          exact e4 u hy
      rcases e2 with ⟨e, _⟩ | ⟨n, acc, e, e3⟩ | ⟨_, e, e3, e4⟩
      · exact absurd e hne
      · simp only [e, returning]
        refine h.inside hm e3 (by simp) (by simp [St.inMeter, St.at, drop_new e3]) rfl rfl rfl (others _ _ e3 (by simp) ?_)
        obtain ⟨pl, hlog, g2, g3, g4, g5, g6, g7⟩ := hg
        refine ⟨pb, pm ++ [.meter r (.returned g n acc)], reads ++ [(r, n, acc)], pl, ?_, g2, by simp [g3], ?_, ?_, ?_, ?_⟩
        · simp [hlog]
        · simpa using g4
        · simpa using g5
        · simp [flat, g6]
        · intro x hx
          rcases List.mem_append.1 hx with hx | hx
          · exact (g7 x hx).append
          · rw [List.mem_singleton.1 hx]
            exact ⟨a, b, [], by simp [hab], hb⟩
      · simp only [e]
        have : ∃ new, m.evs = (s.meters r).evs ++ new ∧ .began ∉ new ∧ ∀ u, .called u ∉ new := by
          rcases e3 with e3 | e3
          · exact ⟨[], by simpa using e3, by simp, by simp⟩
          · exact ⟨_, e3, by simp, by simp⟩
        obtain ⟨new, e5, e6, e7⟩ := this
        refine h.inside hm e5 (fun hb => absurd hb e6) (by simp [St.inMeter, St.at, drop_new e5]) rfl rfl rfl (others new _ e5 e7 ?_)
        refine ⟨pb, pm ++ new.map (Ev.meter r), reads, hg.append (by simp), a, b ++ new.map (Ev.meter r), by simp [hab], ?_, by rw [upd_same]; exact e4⟩
        intro hmem
        rcases List.mem_append.1 hmem with hmem | hmem
        · exact hb hmem
        · obtain ⟨y, hy, e⟩ := List.mem_map.1 hmem
          cases e
          exact e7 g hy
    · cases hs
  | finish g =>
    simp only [Export.step] at hs
    split at hs
    · rename_i data hpc
      cases hs
      refine h.plain (m := [.exported g data]) rfl (by simp) rfl (sameMan [.exported g data] _ rfl rfl (by simp)) (noAdd _ (by simp) rfl)
        (fun q hq => hq) (by simp) (keepBut g .idle [.exported g data] _ rfl rfl rfl (by simp) (by simp) trivial) ?_
      intro g' data' hm
      simp only [List.mem_singleton, Ev.exported.injEq] at hm
      obtain ⟨rfl, rfl⟩ := hm
      have hp := h.pc g'
      rw [hpc] at hp
      exact hp
    · cases hs

theorem inv_run {reg : Measures} {mvs : List Move} {s s' : St} (h : Inv reg s) (hr : Export.run s mvs = some s') : Inv reg s' := by
  induction mvs generalizing s with
  | nil => simp only [Export.run, Option.some.injEq] at hr; subst hr; exact h
  | cons mv mvs ih =>
    simp only [Export.run] at hr
    cases hs : Export.step s mv with
    | none => simp [hs] at hr
    | some s1 => simp only [hs, Option.bind_some] at hr; exact ih (inv_step h hs) hr

/-! ## How far a meter is -/

theorem run_snoc_inv {st st' : ReadConc.St} {l : List ReadConc.Action} {a : ReadConc.Action} (h : ReadConc.run st (l ++ [a]) = some st') :
    ∃ st1, ReadConc.run st l = some st1 ∧ ReadConc.step st1 a = some st' := by
  induction l generalizing st with
  | nil =>
    simp only [List.nil_append, ReadConc.run] at h
    cases hs : ReadConc.step st a with
    | none => simp [hs] at h
    | some st1 => simp only [hs, Option.bind_some, Option.some.injEq] at h; subst h; exact ⟨st, rfl, hs⟩
  | cons b l ih =>
    simp only [List.cons_append, ReadConc.run] at h
    cases hs : ReadConc.step st b with
    | none => simp [hs] at h
    | some st1 =>
      simp only [hs, Option.bind_some] at h
      obtain ⟨st2, h1, h2⟩ := ih h
      exact ⟨st2, by simp [ReadConc.run, hs, h1], h2⟩

theorem handled_append (a b : List ReadConc.Ev) : handled (a ++ b) = handled a + handled b := by simp [handled]
theorem begun_append (a b : List ReadConc.Ev) : begun (a ++ b) = begun a + begun b := by simp [begun]
theorem sents_append (a b : List ReadConc.Ev) : sents (a ++ b) = sents a ++ sents b := by simp [sents]

/-- At any moment a meter has not handled more commands than it was sent. -/
theorem handled_le {reg : Measures} {l : List ReadConc.Action} : ∀ {st : ReadConc.St}, ReadConc.run (ReadConc.init reg) l = some st →
    ∀ p, p <+: st.evs → handled p ≤ (sents p).length := by
  refine List.reverseRecOn (motive := fun l => ∀ {st : ReadConc.St}, ReadConc.run (ReadConc.init reg) l = some st →
    ∀ p, p <+: st.evs → handled p ≤ (sents p).length) l ?_ ?_
  · intro st h p hp
    simp only [ReadConc.run, Option.some.injEq] at h; subst h
    simp only [ReadConc.init, List.prefix_nil] at hp
    subst hp; simp [handled]
  · intro l a ih st h p hp
    obtain ⟨st1, h1, h2⟩ := run_snoc_inv h
    have hi := ReadConc.inv_run _ (ReadConc.inv_init reg) h
    have total : handled st.evs ≤ (sents st.evs).length := by
      obtain ⟨wn, regn, _, c1, c2⟩ := hi.core.cur
      have := hi.core.le
      by_cases hl : st.loop = .idle
      · have := (c1 hl).1; omega
      · have := (c2 hl).1; omega
    have key : ∃ new, st.evs = st1.evs ++ new ∧ ((∃ x, new = [x]) ∨ sents new = []) := by
      cases a with
      | send u c =>
        simp only [ReadConc.step, Option.some.injEq] at h2; subst h2
        exact ⟨[_], rfl, .inl ⟨_, rfl⟩⟩
      | work =>
        obtain ⟨_, new, e, e3⟩ := loop_evs (show ReadConc.stepLoop st1 = some st from h2)
        refine ⟨new, e, .inr ?_⟩
        rw [List.eq_nil_iff_forall_not_mem]
        intro x hx
        obtain ⟨y, hy, hxy⟩ := List.mem_filterMap.1 hx
        rcases e3 y hy with rfl | rfl <;> cases hxy
      | read t now c =>
        obtain ⟨_, e2⟩ := read_step (show ReadConc.stepRead st1 t now c = some st from h2)
        rcases e2 with ⟨_, e, _⟩ | ⟨n, acc, _, e⟩ | ⟨_, _, e | e, _⟩
        · exact ⟨_, e, .inl ⟨_, rfl⟩⟩
        · exact ⟨_, e, .inl ⟨_, rfl⟩⟩
        · exact ⟨[], by simpa using e, .inr rfl⟩
        · exact ⟨_, e, .inl ⟨_, rfl⟩⟩
    obtain ⟨new, e, hnew⟩ := key
    by_cases hlen : p.length ≤ st1.evs.length
    · exact ih h1 p (List.prefix_of_prefix_length_le hp ⟨new, e.symm⟩ hlen)
    · obtain ⟨t, ht⟩ := hp
      obtain ⟨w, hw⟩ : st1.evs <+: p := List.prefix_of_prefix_length_le ⟨new, e.symm⟩ ⟨t, ht⟩ (by omega)
      rw [← hw, e, List.append_assoc] at ht
      have ht := List.append_cancel_left ht
      rcases hnew with ⟨x, rfl⟩ | hnew
      · have : w ≠ [] := by rintro rfl; rw [← hw] at hlen; simp at hlen
        cases w with
        | nil => exact absurd rfl this
        | cons y w =>
          simp only [List.cons_append, List.cons.injEq, List.append_eq_nil_iff] at ht
          rw [← hw, ht.1, ht.2.1, ← e]
          exact total
      · have e1 : sents p = sents st.evs := by
          rw [← ht, sents_append, List.append_eq_nil_iff] at hnew
          rw [e, ← hw, ← ht, sents_append, sents_append, sents_append, hnew.1, hnew.2]
          simp
        have e2 : handled p ≤ handled st.evs := by
          rw [e, ← hw, ← ht, handled_append, handled_append, handled_append]
          omega
        rw [e1]; omega

theorem last_unique {α : Type} {a b c d : List α} {x : α} (h : a ++ x :: b = c ++ x :: d) (hb : x ∉ b) (hd : x ∉ d) : a = c ∧ b = d := by
  rcases List.append_eq_append_iff.1 h with ⟨e, h1, h2⟩ | ⟨e, h1, h2⟩
  · cases e with
    | nil => simp only [List.nil_append, List.cons.injEq, true_and] at h2; exact ⟨by simpa using h1.symm, h2⟩
    | cons y e =>
      simp only [List.cons_append, List.cons.injEq] at h2
      exact absurd (by rw [h2.2]; simp) hb
  · cases e with
    | nil => simp only [List.nil_append, List.cons.injEq, true_and] at h2; exact ⟨by simpa using h1, h2.symm⟩
    | cons y e =>
      simp only [List.cons_append, List.cons.injEq] at h2
      exact absurd (by rw [h2.2]; simp) hd

theorem prefix_handled {a b : List ReadConc.Ev} (h : a <+: b) : handled a ≤ handled b := by
  obtain ⟨t, rfl⟩ := h; rw [handled_append]; omega

theorem prefix_begun {a b : List ReadConc.Ev} (h : a <+: b) : begun a ≤ begun b := by
  obtain ⟨t, rfl⟩ := h; rw [begun_append]; omega

theorem prefix_sents {a b : List ReadConc.Ev} (h : a <+: b) : sents a <+: sents b := by
  obtain ⟨t, rfl⟩ := h; rw [sents_append]; exact ⟨_, rfl⟩

theorem prefix_inMeter {a b : List Ev} (r : Nat) (h : a <+: b) : inMeter r a <+: inMeter r b := by
  obtain ⟨t, rfl⟩ := h; rw [inMeter_append]; exact ⟨_, rfl⟩

theorem take_prefix {α : Type} {a b : List α} (h : a <+: b) {n : Nat} (hn : n ≤ a.length) : b.take n = a.take n := by
  obtain ⟨t, rfl⟩ := h
  exact List.take_append_of_le_length hn

/-- One reading, from the history of the meter. -/
theorem reading_is {reg : Measures} {s : St} (h : Inv reg s) {r : Nat} (hgood : ∀ c ∈ sents (inMeter r s.log), Spec.GoodCmd reg c)
    {pb p q a b c : List Ev} {g : Nat} {now : Int} {R : List (Bytes × MetricOut)} (hlog : s.log = p ++ q)
    (hp : p = pb ++ (a ++ .meter r (.called g) :: (b ++ .meter r (.returned g now R) :: c))) (hb : .meter r (.called g) ∉ b) :
    ∃ n, handled (inMeter r pb) ≤ n ∧ n ≤ handled (inMeter r p) ∧ Shows ((sents (inMeter r p)).take n) (Leaving (inMeter r p) n) now R := by
  obtain ⟨l, hl⟩ := h.reach r
  have he : (s.meters r).evs = (inMeter r (pb ++ a) ++ .called g :: inMeter r b) ++ .returned g now R :: inMeter r (c ++ q) := by
    rw [h.logs r, hlog, hp]
    simp only [inMeter, List.filterMap_append, List.filterMap_cons, if_true, List.append_assoc, List.cons_append]
  have hpre : (inMeter r (pb ++ a) ++ .called g :: inMeter r b) <+: inMeter r p := by
    rw [hp]
    simp only [inMeter, List.filterMap_append, List.filterMap_cons, if_true, List.append_assoc, List.cons_append]
    exact ⟨.returned g now R :: inMeter r c, by simp [inMeter]⟩
  obtain ⟨p0, p1, p2, e1, e2, e3, o1, o2, o3⟩ := ReadConc.read_describes hl (by rw [h.logs r]; exact hgood) he
  have u := last_unique (a := inMeter r (pb ++ a)) (c := p0) (b := inMeter r b) (d := p1 ++ .locked g :: p2) (x := ReadConc.Ev.called g) (by rw [e1]; simp)
    (fun hm => hb (mem_inMeter.1 hm)) (by
      intro hm
      simp only [List.mem_append, List.mem_cons] at hm
      rcases hm with hm | hm | hm
      · exact e2 _ hm rfl
      · cases hm
      · exact e3 _ hm rfl)
  have hpre' : (p0 ++ .called g :: p1) <+: inMeter r p := by
    refine List.IsPrefix.trans ?_ hpre
    rw [e1]
    exact ⟨.locked g :: p2, by simp⟩
  have hle : handled (p0 ++ .called g :: p1) ≤ (sents (p0 ++ .called g :: p1)).length := by
    refine handled_le hl _ ?_
    rw [h.logs r, hlog, inMeter_append]
    exact hpre'.trans ⟨_, rfl⟩
  refine ⟨handled (p0 ++ .called g :: p1), ?_, prefix_handled hpre', ?_⟩
  · refine prefix_handled ?_
    rw [← u.1, inMeter_append]
    exact ⟨inMeter r a ++ .called g :: p1, by simp⟩
  · rw [take_prefix (prefix_sents hpre') hle]
    refine ⟨o1, o2, fun x v hx hv => (o3 x v hx hv).imp id ?_⟩
    rintro ⟨i, t, ns, i1, i2, i3, i4⟩
    refine ⟨i, t, ns, i1, Nat.lt_of_lt_of_le i2 (prefix_begun hpre), ?_, i4⟩
    obtain ⟨w, hw⟩ := prefix_sents hpre
    rw [← hw, List.getElem?_append_left (List.getElem?_eq_some_iff.1 i3).1]
    exact i3

/-- **C101.** Every call of `ExportMetrics` is given the metrics of one reading of each meter that was a producer at one moment since
`ReadAndExport` was called, and of no other. Each reading shows what the meter had handled at one moment since `ReadAndExport` was called:
everything recorded and handled before is there, each recording completely or not at all. -/
theorem export_is {reg : Measures} {mvs : List Move} {s : St} (h : Export.run (Export.init reg) mvs = some s)
    (hgood : ∀ r, ∀ c ∈ sents (inMeter r s.log), Spec.GoodCmd reg c) {p q : List Ev} {g : Nat} {data : List MetricOut}
    (he : s.log = p ++ .exported g data :: q) : ∃ pb reads, ExportIs p pb g data reads := by
  have hi := inv_run (inv_init reg) h
  obtain ⟨pb, pm, raw, pl, h1, h2, h3, h4, h5, h6, h7⟩ := hi.exports p q g data he
  simp only [List.append_nil] at h1 h4 h5
  have each : ∀ x ∈ raw, ∃ n, handled (inMeter x.1 pb) ≤ n ∧ n ≤ handled (inMeter x.1 p) ∧
      Shows ((sents (inMeter x.1 p)).take n) (Leaving (inMeter x.1 p) n) x.2.1 x.2.2 := by
    intro x hx
    obtain ⟨a, b, c, e1, e2⟩ := h7 x hx
    exact reading_is hi (hgood x.1) (a := .began g :: (pl ++ .listed g (raw.map Prod.fst) :: a)) (b := b) (c := c) he (by rw [h1, e1]; simp) e2
  have build : ∀ l : List Raw, (∀ x ∈ l, x ∈ raw) → ∃ reads : List Reading, reads.map Reading.meter = l.map Prod.fst ∧
      (reads.flatMap fun x => x.metrics.map Prod.snd) = flat l ∧ ∀ x ∈ reads, handled (inMeter x.meter pb) ≤ x.n ∧ x.n ≤ handled (inMeter x.meter p) ∧
        Shows ((sents (inMeter x.meter p)).take x.n) (Leaving (inMeter x.meter p) x.n) x.now x.metrics := by
    intro l
    induction l with
    | nil => intro _; exact ⟨[], rfl, rfl, by simp⟩
    | cons x l ih =>
      intro hl
      obtain ⟨reads, r1, r2, r3⟩ := ih fun y hy => hl y (by simp [hy])
      obtain ⟨n, n1⟩ := each x (hl x (by simp))
      refine ⟨⟨x.1, x.2.1, n, x.2.2⟩ :: reads, by simp [r1], ?_, ?_⟩
      · simp only [flat, List.flatMap_cons] at r2 ⊢
        rw [r2]
      · intro y hy
        rcases List.mem_cons.1 hy with rfl | hy
        · exact n1
        · exact r3 y hy
  obtain ⟨reads, r1, r2, r3⟩ := build raw fun x hx => hx
  refine ⟨pb, reads, ⟨pl, pm, by rw [r1]; exact h1, h2, h3, by rw [r1]; exact h4, by rw [r1]; exact h5⟩, by rw [r2]; exact h6, r3⟩

/-! ## Later exports -/

theorem registerAll_keeps (σ : Spec.SState) (vs : List ViewDef) {x : Bytes} {v : Spec.SView} (h : σ x = some v) :
    (Spec.registerAll σ vs).1 x = some v := by
  induction vs generalizing σ with
  | nil => exact h
  | cons w vs ih =>
    rw [Spec.registerAll]
    split
    · split
      · exact ih σ h
      · exact ih σ h
    · rename_i hn _ _
      refine ih _ ?_
      unfold Spec.update
      rw [if_neg (by rintro rfl; rw [hn] at h; cases h)]
      exact h
    · exact ih σ h

/-- The same view, with more recordings. -/
def Grown (v v' : Spec.SView) : Prop := v'.view = v.view ∧ v'.agg = v.agg ∧ v'.measure = v.measure ∧ v.recs <+: v'.recs

theorem Grown.refl (v : Spec.SView) : Grown v v := ⟨rfl, rfl, rfl, List.prefix_refl _⟩
theorem Grown.trans {a b c : Spec.SView} (h : Grown a b) (h' : Grown b c) : Grown a c :=
  ⟨h'.1.trans h.1, h'.2.1.trans h.2.1, h'.2.2.1.trans h.2.2.1, h.2.2.2.trans h'.2.2.2⟩

theorem record_grows (σ : Spec.SState) (tm : Option Tag.TMap) (att : Attachments) (t : Int) (ms : List (Option Measurement)) {x : Bytes}
    {v : Spec.SView} (h : σ x = some v) : ∃ v', Spec.record σ tm att t ms x = some v' ∧ Grown v v' := by
  induction ms generalizing σ v with
  | nil => exact ⟨v, h, .refl v⟩
  | cons m ms ih =>
    cases m with
    | none => exact ih σ h
    | some m =>
      have : ∃ v1, Spec.addRec σ m.m.name (tm, ⟨m.v, att, t⟩) x = some v1 ∧ Grown v v1 := by
        unfold Spec.addRec
        rw [h]
        simp only [Option.map_some]
        split
        · exact ⟨_, rfl, rfl, rfl, rfl, ⟨_, rfl⟩⟩
        · exact ⟨_, rfl, .refl v⟩
      obtain ⟨v1, h1, h2⟩ := this
      obtain ⟨v2, h3, h4⟩ := ih _ h1
      exact ⟨v2, h3, h2.trans h4⟩

theorem unregister_keeps (σ : Spec.SState) (ns : List Bytes) {x : Bytes} (hx : x ∉ ns) : Spec.unregister σ ns x = σ x := by
  induction ns generalizing σ with
  | nil => rfl
  | cons n ns ih =>
    rw [Spec.unregister, ih _ fun h => hx (by simp [h])]
    unfold Spec.update
    rw [if_neg (by rintro rfl; exact hx (by simp))]

theorem grows (σ : Spec.SState) (cs : List Cmd) {x : Bytes} {v : Spec.SView} (h : σ x = some v)
    (hu : ∀ now ns, .unregister now ns ∈ cs → x ∉ ns) : ∃ v', Worker.specRun σ cs x = some v' ∧ Grown v v' := by
  induction cs generalizing σ v with
  | nil => exact ⟨v, h, .refl v⟩
  | cons c cs ih =>
    have : ∃ v1, Spec.step σ c x = some v1 ∧ Grown v v1 := by
      unfold Spec.step
      split
      · rename_i vs
        cases hc : canonicalizeAll vs with
        | error e => exact ⟨v, h, .refl v⟩
        | ok vs => exact ⟨v, registerAll_keeps σ _ h, .refl v⟩
      · rename_i now ns
        exact ⟨v, by rw [unregister_keeps σ ns (hu now ns (by simp))]; exact h, .refl v⟩
      · exact record_grows σ _ _ _ _ h
      · exact ⟨v, h, .refl v⟩
    obtain ⟨v1, h1, h2⟩ := this
    obtain ⟨v2, h3, h4⟩ := ih _ h1 fun now ns hm => hu now ns (by simp [hm])
    exact ⟨v2, h3, h2.trans h4⟩

theorem specRun_append (σ : Spec.SState) (a b : List Cmd) : Worker.specRun σ (a ++ b) = Worker.specRun (Worker.specRun σ a) b := by
  induction a generalizing σ with
  | nil => rfl
  | cons c a ih => exact ih _

/-- C101. Exports do not go back: when `ReadAndExport` is called, in whatever goroutine, after an export was made, then what that export had
of a view is in the new export with the same recordings and more, unless the view was unregistered. -/
theorem never_back {reg : Measures} {mvs : List Move} {s : St} (h : Export.run (Export.init reg) mvs = some s)
    {p1 pb1 p2 pb2 : List Ev} {g1 g2 : Nat} {data1 data2 : List MetricOut} {reads1 reads2 : List Reading}
    (hp : p2 <+: s.log) (e1 : ExportIs p1 pb1 g1 data1 reads1) (e2 : ExportIs p2 pb2 g2 data2 reads2) (hlater : p1 <+: pb2)
    {x1 x2 : Reading} (h1 : x1 ∈ reads1) (h2 : x2 ∈ reads2) (hm : x1.meter = x2.meter) {name : Bytes} {m1 : MetricOut}
    (hmem : (name, m1) ∈ x1.metrics)
    (hu : ∀ now ns, .unregister now ns ∈ (sents (inMeter x1.meter p2)).drop x1.n → name ∉ ns) :
    ∃ m2 v1 v2, (name, m2) ∈ x2.metrics ∧ ViewMetric.MetricOf v1 x1.now m1 ∧ ViewMetric.MetricOf v2 x2.now m2 ∧ Grown v1 v2 := by
  have hi := inv_run (inv_init reg) h
  obtain ⟨l, hl⟩ := hi.reach x1.meter
  obtain ⟨a1, a2, a3⟩ := e1.each x1 h1
  obtain ⟨b1, b2, b3⟩ := e2.each x2 h2
  rw [← hm] at b1 b2 b3
  have hpb : pb2 <+: p2 := by
    obtain ⟨pl, pm, e, _⟩ := e2.call
    exact ⟨_, e.symm⟩
  have hp12 : p1 <+: p2 := hlater.trans hpb
  have hn : x1.n ≤ x2.n := Nat.le_trans a2 (Nat.le_trans (prefix_handled (prefix_inMeter _ hlater)) b1)
  have hlen : x1.n ≤ (sents (inMeter x1.meter p1)).length :=
    Nat.le_trans a2 (handled_le hl _ (by rw [hi.logs]; exact prefix_inMeter _ (hp12.trans hp)))
  obtain ⟨v1, s1, s2, s3⟩ := a3.right name m1 hmem
  rw [← take_prefix (prefix_sents (prefix_inMeter _ hp12)) hlen] at s1
  have split : (sents (inMeter x1.meter p2)).take x2.n =
      (sents (inMeter x1.meter p2)).take x1.n ++ ((sents (inMeter x1.meter p2)).take x2.n).drop x1.n := by
    conv => lhs; rw [← List.take_append_drop x1.n ((sents (inMeter x1.meter p2)).take x2.n)]
    rw [List.take_take, Nat.min_eq_left hn]
  obtain ⟨v2, t1, t2⟩ := grows _ (((sents (inMeter x1.meter p2)).take x2.n).drop x1.n) s1 (by
    intro now ns hmem
    refine hu now ns ?_
    rw [List.drop_take] at hmem
    exact List.mem_of_mem_take hmem)
  rw [← specRun_append, ← split] at t1
  have hne : v2.recs ≠ [] := by
    intro h0
    obtain ⟨w, hw⟩ := t2.2.2.2
    rw [h0, List.append_eq_nil_iff] at hw
    exact s2 hw.1
  rcases b3.all name v2 t1 hne with ⟨m2, hm2⟩ | ⟨i, now, ns, i1, _, i3, i4⟩
  · obtain ⟨v2', u1, _, u3⟩ := b3.right name m2 hm2
    rw [t1] at u1
    cases u1
    exact ⟨m2, v1, v2, hm2, s3, u3, t2⟩
  · exfalso
    refine hu now ns ?_ i4
    rw [List.mem_iff_getElem?]
    refine ⟨i - x1.n, ?_⟩
    rw [List.getElem?_drop, show x1.n + (i - x1.n) = i by omega]
    exact i3

/-! ## Stopped meters -/

theorem removed_stays (r : Nat) (p q : List Ev) (h : .added r ∉ q) : isProducer r (p ++ .removed r :: q) = false := by
  refine List.reverseRecOn q (motive := fun q => .added r ∉ q → isProducer r (p ++ .removed r :: q) = false) ?_ ?_ h
  · intro _
    rw [isProducer_snoc]
    simp
  · intro q x ih hq
    rw [show p ++ Ev.removed r :: (q ++ [x]) = (p ++ .removed r :: q) ++ [x] by simp, isProducer_snoc]
    have := ih fun hm => hq (by simp [hm])
    cases x with
    | added u =>
      have : u ≠ r := by rintro rfl; exact hq (by simp)
      simp only [this, if_false]; assumption
    | removed u => 
      by_cases hu : u = r
      · simp [hu]
      · simp only [hu, if_false]; exact this
    | _ => exact this

/-- C101. After `Stop` of a meter that has taken a command before, no export has anything of the meter. -/
theorem stopped_not_exported_partial {reg : Measures} {mvs : List Move} {s : St} (h : Export.run (Export.init reg) mvs = some s)
    {r g : Nat} {p pb a b : List Ev} {data : List MetricOut} {reads : List Reading} (hp : p <+: s.log) (he : ExportIs p pb g data reads)
    (hpb : pb = a ++ .removed r :: b) (ha : .meter r .began ∈ a) : ∀ x ∈ reads, x.meter ≠ r := by
  have hi := inv_run (inv_init reg) h
  obtain ⟨pl, pm, e1, _, _, _, e5⟩ := he.call
  obtain ⟨t, ht⟩ := hp
  obtain ⟨a1, a2, ea⟩ := List.append_of_mem ha
  have h1 : .added r ∈ a := by
    have := hi.worked r a1 (a2 ++ .removed r :: (b ++ .began g :: (pl ++ .listed g (reads.map Reading.meter) :: pm) ++ t)) (by
      rw [← ht, e1, hpb, ea]; simp)
    rw [ea]; simp [this]
  have h2 : .added r ∉ b ++ .began g :: pl := by
    intro hm
    obtain ⟨c1, c2, ec⟩ := List.append_of_mem hm
    have := hi.once r (a ++ .removed r :: c1) (c2 ++ .listed g (reads.map Reading.meter) :: pm ++ t) (by
      rw [← ht, e1, hpb]
      have : a ++ Ev.removed r :: b ++ Ev.began g :: (pl ++ Ev.listed g (reads.map Reading.meter) :: pm) ++ t =
          a ++ Ev.removed r :: ((b ++ .began g :: pl) ++ (Ev.listed g (reads.map Reading.meter) :: pm ++ t)) := by simp
      rw [this, ec]; simp)
    exact this (by simp [h1])
  intro x hx hxr
  have := (e5 r).1 (List.mem_map.2 ⟨x, hx, hxr⟩)
  rw [hpb, show a ++ Ev.removed r :: b ++ Ev.began g :: pl = a ++ .removed r :: (b ++ .began g :: pl) by simp, removed_stays r _ _ h2] at this
  cases this

/-! ## Concrete executions -/

/-- Events without most of the data: what was exported as the counts of the metrics. -/
inductive Shape where
  | added (r : Nat)
  | removed (r : Nat)
  | stopped (r : Nat)
  | began (g : Nat)
  | listed (g : Nat) (rs : List Nat)
  | exported (g : Nat) (counts : List (List Int))
  deriving DecidableEq

def count : PointValue → Int
  | .int64 n => n.getD (-1)
  | _ => -1

def shape : Ev → Option Shape
  | .meter _ _ => none
  | .added r => some (.added r)
  | .removed r => some (.removed r)
  | .stopped r => some (.stopped r)
  | .began g => some (.began g)
  | .listed g rs => some (.listed g rs)
  | .exported g data => some (.exported g (data.map fun m => m.series.map fun x => count x.point))

def works (n : Nat) : List Move := List.replicate n (.work 0)

/-- Goroutine `g` reads and exports; meanwhile `ms`. -/
def exporting (g : Nat) (order : List Nat) (n : Nat) (ms : List Move) : List Move :=
  [.export_ g, .list g order] ++ ms ++ (if n = 0 then [] else .enter g :: List.replicate n (.within g 100 0)) ++ [.finish g]

/-- Two exports with a recording handled in between and one while the second runs, then the meter is stopped and a third export is made. -/
def demo : List Move :=
  [.start 0, .add 0, .send 0 0 (.register 0 [ReadConc.view0])] ++ works 5 ++ [.send 0 0 (.record 1 ReadConc.req0)] ++ works 6 ++
    exporting 1 [0] 6 [] ++ [.send 0 0 (.record 2 ReadConc.req0)] ++ works 6 ++
    exporting 2 [0] 6 ([.send 0 0 (.record 3 ReadConc.req0)] ++ works 6) ++ [.stop 3 0, .close 3, .exit 0, .stopped 3] ++ exporting 1 [] 0 []

theorem demo_runs : ((Export.run (Export.init Recording.regUnsub) demo).map fun s => s.log.filterMap shape) =
    some [.added 0, .began 1, .listed 1 [0], .exported 1 [[1]], .began 2, .listed 2 [0], .exported 2 [[3]], .removed 0, .stopped 0,
      .began 1, .listed 1 [], .exported 1 []] := by
  decide +kernel

/-- C101 does not hold for a meter that is stopped before its goroutine has begun: the goroutine makes the meter a producer after `Stop` has
removed it, and it stays one after `Stop` has returned. -/
def early : List Move := [.start 0, .stop 1 0, .close 1, .add 0, .exit 0, .stopped 1] ++ exporting 2 [0] 4 []

theorem stopped_stays_producer : ((Export.run (Export.init []) early).map fun s => (s.log.filterMap shape, isProducer 0 s.log)) =
    some ([.removed 0, .added 0, .stopped 0, .began 2, .listed 2 [0], .exported 2 []], true) := by
  decide +kernel


/-- Only the commands of the execution, in meter 0. -/
def demoCmd : Ev → Bool
  | .meter q (.sent _ (.register _ vs)) => q == 0 && vs.all fun v => decide (v.measure = some Recording.latency) && decide (v.agg = some Recording.countAgg)
  | .meter q (.sent _ (.record _ r)) => q == 0 && r.tags.isNone
  | .meter _ (.sent _ _) => false
  | _ => true

theorem demo_cmds : ((Export.run (Export.init Recording.regUnsub) demo).map fun s => s.log.all demoCmd) = some true := by decide +kernel

theorem demo_good {s : St} (h : Export.run (Export.init Recording.regUnsub) demo = some s) :
    ∀ r, ∀ c ∈ sents (inMeter r s.log), Spec.GoodCmd Recording.regUnsub c := by
  intro r c hc
  have hall := demo_cmds
  rw [h, Option.map_some, Option.some.injEq, List.all_eq_true] at hall
  obtain ⟨e, he, hs⟩ := List.mem_filterMap.1 hc
  have := hall _ (mem_inMeter.1 he)
  cases e with
  | sent u c' =>
    simp only [Option.some.injEq] at hs
    subst hs
    cases c' with
    | register now vs =>
      simp only [demoCmd, Bool.and_eq_true, List.all_eq_true, decide_eq_true_eq] at this
      intro v hv
      obtain ⟨h1, h2⟩ := this.2 v hv
      refine ⟨?_, ?_⟩
      · intro m hm; rw [h1, Option.some.injEq] at hm; subst hm
        exact ⟨by decide, _, rfl⟩
      · intro a ha; rw [h2, Option.some.injEq] at ha; subst ha
        exact ⟨rfl, by decide⟩
    | record now req =>
      simp only [demoCmd, Bool.and_eq_true, Option.isNone_iff_eq_none] at this
      intro tm htm
      rw [this.2] at htm; cases htm
    | _ => trivial
  | _ => cases hs

/-- The hypotheses of the theorems hold for it. -/
example : ∃ s p q data, Export.run (Export.init Recording.regUnsub) demo = some s ∧ s.log = p ++ .exported 2 data :: q ∧
    ∃ pb reads, ExportIs p pb 2 data reads := by
  cases h : Export.run (Export.init Recording.regUnsub) demo with
  | none => have := demo_runs; rw [h] at this; cases this
  | some s =>
    have hd := demo_runs
    rw [h, Option.map_some, Option.some.injEq] at hd
    have : Shape.exported 2 [[3]] ∈ s.log.filterMap shape := by rw [hd]; decide
    obtain ⟨e, he, hs⟩ := List.mem_filterMap.1 this
    cases e <;> simp only [shape, Option.some.injEq, reduceCtorEq, Shape.exported.injEq] at hs
    obtain ⟨rfl, _⟩ := hs
    obtain ⟨p, q, hl⟩ := List.append_of_mem he
    exact ⟨s, p, q, _, rfl, hl, export_is h (demo_good h) hl⟩

end Verif.Props.ViewExport
