import Verif.Runmetrics.Lemmas
import Mathlib.Data.List.Forall2

/-!
# C52: what the runtime metrics show
-/

namespace Verif.Props.Runmetrics
open Verif Verif.Metric Verif.Runmetrics

/-! ## Specification -/

/-- What a point should show. -/
inductive Shown where
  | count (n : Nat)
  | fraction (x : F64)

/-- The point shows it. -/
def Means : Val → Shown → Prop
  | .int v, .count n => v.toInt = n
  | .float v, .fraction x => v = x
  | _, _ => False

/-- A metric, by the documentation: its name, unit and type, and what of the runtime it shows. -/
structure Row where
  name : Bytes
  unit : Bytes
  type : MType
  shown : Sample → Shown

/-- The memory metrics with derived cumulatives. -/
def memRows : List Row := [
  ⟨str "process/memory_alloc", str "By", .gaugeInt64, fun s => .count s.mem.alloc.toNat⟩,
  ⟨str "process/total_memory_alloc", str "By", .cumulativeInt64, fun s => .count s.mem.totalAlloc.toNat⟩,
  ⟨str "process/sys_memory_alloc", str "By", .gaugeInt64, fun s => .count s.mem.sys.toNat⟩,
  ⟨str "process/memory_lookups", str "1", .cumulativeInt64, fun s => .count s.mem.lookups.toNat⟩,
  ⟨str "process/memory_malloc", str "1", .cumulativeInt64, fun s => .count s.mem.mallocs.toNat⟩,
  ⟨str "process/memory_frees", str "1", .cumulativeInt64, fun s => .count s.mem.frees.toNat⟩,
  ⟨str "process/heap_alloc", str "By", .gaugeInt64, fun s => .count s.mem.heapAlloc.toNat⟩,
  ⟨str "process/sys_heap", str "By", .gaugeInt64, fun s => .count s.mem.heapSys.toNat⟩,
  ⟨str "process/heap_idle", str "By", .gaugeInt64, fun s => .count s.mem.heapIdle.toNat⟩,
  ⟨str "process/heap_inuse", str "By", .gaugeInt64, fun s => .count s.mem.heapInuse.toNat⟩,
  ⟨str "process/heap_objects", str "1", .gaugeInt64, fun s => .count s.mem.heapObjects.toNat⟩,
  ⟨str "process/heap_release", str "By", .cumulativeInt64, fun s => .count s.mem.heapReleased.toNat⟩,
  ⟨str "process/stack_inuse", str "By", .gaugeInt64, fun s => .count s.mem.stackInuse.toNat⟩,
  ⟨str "process/sys_stack", str "By", .gaugeInt64, fun s => .count s.mem.stackSys.toNat⟩,
  ⟨str "process/stack_mspan_inuse", str "By", .gaugeInt64, fun s => .count s.mem.mSpanInuse.toNat⟩,
  ⟨str "process/sys_stack_mspan", str "By", .gaugeInt64, fun s => .count s.mem.mSpanSys.toNat⟩,
  ⟨str "process/stack_mcache_inuse", str "By", .gaugeInt64, fun s => .count s.mem.mCacheInuse.toNat⟩,
  ⟨str "process/sys_stack_mcache", str "By", .gaugeInt64, fun s => .count s.mem.mCacheSys.toNat⟩,
  ⟨str "process/gc_sys", str "By", .gaugeInt64, fun s => .count s.mem.gcSys.toNat⟩,
  ⟨str "process/other_sys", str "By", .gaugeInt64, fun s => .count s.mem.otherSys.toNat⟩,
  ⟨str "process/num_gc", str "1", .cumulativeInt64, fun s => .count s.mem.numGC.toNat⟩,
  ⟨str "process/num_forced_gc", str "1", .cumulativeInt64, fun s => .count s.mem.numForcedGC.toNat⟩,
  ⟨str "process/next_gc_heap_size", str "By", .gaugeInt64, fun s => .count s.mem.nextGC.toNat⟩,
  ⟨str "process/last_gc_finished_timestamp", str "ms", .gaugeInt64, fun s => .count (s.mem.lastGC.toNat / 1000000)⟩,
  ⟨str "process/pause_total", str "ms", .cumulativeInt64, fun s => .count (s.mem.pauseTotalNs.toNat / 1000000)⟩,
  ⟨str "process/gc_cpu_fraction", str "1", .gaugeFloat64, fun s => .fraction s.mem.gcCPUFraction⟩]

/-- The CPU metrics. -/
def cpuRows : List Row := [
  ⟨str "process/cpu_goroutines", str "1", .gaugeInt64, fun s => .count s.goroutines.toNat⟩,
  ⟨str "process/cpu_cgo_calls", str "1", .gaugeInt64, fun s => .count s.cgoCalls.toNat⟩]

/-- The memory metrics without derived cumulatives: the same, as gauges. -/
def deprecatedRows : List Row :=
  memRows.map fun r => { r with type := if r.type = .cumulativeInt64 then .gaugeInt64 else r.type }

/-- The metrics there should be. -/
def rows (o : Verif.Runmetrics.Options) : List Row :=
  (if o.enableMemory then if o.useDerivedCumulative then memRows else deprecatedRows else []) ++
    if o.enableCPU then cpuRows else []

/-- A metric with its points, without times. -/
abbrev Read := Descriptor × List (List LabelValue × Option Val)

/-- The metric has the name, with the prefix, the unit and the type of the row. -/
def Named (pre : Bytes) (r : Row) (m : Read) : Prop :=
  m.1.name = pre ++ r.name ∧ m.1.unit = r.unit ∧ m.1.type = r.type ∧ m.1.labelKeys = []

/-- The metric is that of the row: one point, without labels, that shows the sample `s`. -/
def Shows (pre : Bytes) (s : Sample) (r : Row) (m : Read) : Prop :=
  Named pre r m ∧ ∃ v, m.2 = [([], some v)] ∧ Means v (r.shown s)

/-- The counts of a sample are below 2^63, and the fraction is not negative. -/
def Sane (s : Sample) : Prop :=
  (∀ v ∈ [s.mem.alloc, s.mem.totalAlloc, s.mem.sys, s.mem.lookups, s.mem.mallocs, s.mem.frees, s.mem.heapAlloc,
    s.mem.heapSys, s.mem.heapIdle, s.mem.heapInuse, s.mem.heapReleased, s.mem.heapObjects, s.mem.stackInuse,
    s.mem.stackSys, s.mem.mSpanInuse, s.mem.mSpanSys, s.mem.mCacheInuse, s.mem.mCacheSys, s.mem.gcSys,
    s.mem.otherSys, s.mem.nextGC, s.mem.lastGC, s.mem.pauseTotalNs, s.goroutines, s.cgoCalls], v.toNat < 2 ^ 63) ∧
  F64.lt s.mem.gcCPUFraction (.fin 0) = false

/-- `Range` may take the metrics and the entries in any order. -/
def AnyOrder (p : P) (orders : Nat → List (Bytes × Nat)) (order : List (Bytes × Nat)) : Prop :=
  (∀ i bm, p.reg.heap[i]? = some bm → (orders i).Perm bm.vals) ∧ order.Perm p.reg.baseMetrics

/-! ## Proofs -/

def createsOf (o : Verif.Runmetrics.Options) : List Create :=
  (if o.enableMemory then if o.useDerivedCumulative then memCreates else deprecatedCreates else []) ++
    if o.enableCPU then cpuCreates else []

/-- A producer that was enabled with the options, and perhaps read. -/
def Live (o : Verif.Runmetrics.Options) (clock : Nat → Int) (cur : Cur) (p : P) : Prop :=
  Good o.pre clock (createsOf o) cur p ∧ p.hasMem = (o.enableMemory && o.useDerivedCumulative) ∧ p.hasCPU = o.enableCPU

def typeOKB (c : Create) : Bool := c.type = .gaugeInt64 || c.type = .gaugeFloat64 || c.type = .derivedCumulativeInt64

theorem typeOK_of {c : Create} (h : typeOKB c = true) : TypeOK c := by
  simpa [typeOKB, TypeOK, or_assoc] using h

theorem creates_typeOK (o : Verif.Runmetrics.Options) : ∀ c ∈ createsOf o, TypeOK c := by
  intro c hc
  apply typeOK_of
  have : ∀ cpu mem d, ∀ c ∈ createsOf ⟨cpu, mem, [], d⟩, typeOKB c = true := by decide +kernel
  exact this _ _ _ c hc

theorem creates_names (o : Verif.Runmetrics.Options) : ((createsOf o).map (·.name)).Nodup := by
  have : ∀ cpu mem d, ((createsOf ⟨cpu, mem, [], d⟩).map (·.name)).Nodup := by decide +kernel
  exact this _ _ _

theorem creates_fields (o : Verif.Runmetrics.Options) : ((createsOf o).map (·.field)).Nodup := by
  have : ∀ cpu mem d, ((createsOf ⟨cpu, mem, [], d⟩).map (·.field)).Nodup := by decide +kernel
  exact this _ _ _

theorem new_live (o : Verif.Runmetrics.Options) (clock : Nat → Int) :
    ∃ p, newProducer o clock = .ok p ∧ Live o clock (initials (fun _ => none) (createsOf o)) p := by
  have hn := creates_names o
  have hf := creates_fields o
  have ht := creates_typeOK o
  obtain ⟨cpu, mem, pre, d⟩ := o
  have h0 := good_empty pre clock fun _ => none
  have step : ∀ ms : List Create, (∀ c ∈ ms ++ (if cpu then cpuCreates else []), TypeOK c) →
      ((ms ++ (if cpu then cpuCreates else [])).map (·.name)).Nodup →
      ((ms ++ (if cpu then cpuCreates else [])).map (·.field)).Nodup → ∀ b : Bool,
      ∃ p1, createAll clock ⟨pre, Reg.empty, [], [], MemStats.zero, false, false⟩ ms = .ok p1 ∧
      ∃ p2, (if cpu then (createAll clock { p1 with hasMem := b } cpuCreates).bind fun p => Res.ok { p with hasCPU := true }
          else .ok { p1 with hasMem := b }) = .ok p2 ∧
        Good pre clock (ms ++ if cpu then cpuCreates else []) (initials (fun _ => none) (ms ++ if cpu then cpuCreates else [])) p2 ∧
        p2.hasMem = b ∧ p2.hasCPU = cpu := by
    intro ms ht hn hf b
    obtain ⟨p1, h1, h2, _, h4, h5⟩ := good_createAll ms h0 (fun c hc => ht c (by simp [hc]))
      (by rw [List.map_append] at hn; simpa using (List.nodup_append.1 hn).1)
      (by rw [List.map_append] at hf; simpa using (List.nodup_append.1 hf).1)
    refine ⟨p1, h1, ?_⟩
    have h2' : Good pre clock ms (initials (fun _ => none) ms) { p1 with hasMem := b } :=
      ⟨h2.hpre, h2.names, h2.len, h2.at_, h2.inj, h2.lt⟩
    cases cpu
    · exact ⟨_, rfl, by simpa using h2', rfl, h5⟩
    · obtain ⟨p2, g1, g2, _, g4, g5⟩ := good_createAll cpuCreates h2' (fun c hc => ht c (by simp [hc])) hn hf
      refine ⟨{ p2 with hasCPU := true }, by rw [if_pos rfl, g1]; rfl, ?_, g4, rfl⟩
      have : initials (fun _ => none) (ms ++ cpuCreates) = initials (initials (fun _ => none) ms) cpuCreates := by
        simp [initials]
      simp only [if_true]
      rw [this]
      exact ⟨g2.hpre, g2.names, g2.len, g2.at_, g2.inj, g2.lt⟩
  unfold newProducer
  cases mem
  · obtain ⟨p1, h1, p2, h2, h3, h4, h5⟩ := step [] ht hn hf false
    cases h1
    exact ⟨p2, h2, h3, h4, h5⟩
  · cases d
    · obtain ⟨p1, h1, p2, h2, h3, h4, h5⟩ := step deprecatedCreates ht hn hf false
      have e : p1.hasMem = false := by
        obtain ⟨q, k1, _, _, k4, _⟩ := good_createAll deprecatedCreates h0 (fun c hc => ht c (by
            show c ∈ deprecatedCreates ++ _
            simp [hc]))
          (by
            have : ((deprecatedCreates ++ if cpu then cpuCreates else []).map (·.name)).Nodup := hn
            rw [List.map_append] at this; simpa using (List.nodup_append.1 this).1)
          (by
            have : ((deprecatedCreates ++ if cpu then cpuCreates else []).map (·.field)).Nodup := hf
            rw [List.map_append] at this; simpa using (List.nodup_append.1 this).1)
        rw [h1] at k1; cases k1
        exact k4
      have e' : ({ p1 with hasMem := false } : P) = p1 := by rw [← e]
      rw [e'] at h2
      refine ⟨p2, ?_, h3, h4, h5⟩
      simp only [if_true, Bool.false_eq_true, if_false]
      rw [h1]
      exact h2
    · obtain ⟨p1, h1, p2, h2, h3, h4, h5⟩ := step memCreates ht hn hf true
      refine ⟨p2, ?_, h3, h4, h5⟩
      simp only [if_true]
      rw [h1]
      exact h2

def isUpsert : Action → Bool
  | .upsert .. => true
  | _ => false

def fitsB (cs : List Create) (a : Action) : Bool :=
  cs.any fun c => decide (c.field = a.field) && (isUpsert a == decide (c.type = .derivedCumulativeInt64))

theorem fits_of {cs : List Create} {a : Action} (h : fitsB cs a = true) : Fits cs a := by
  obtain ⟨c, hc, h⟩ := List.any_eq_true.1 h
  simp only [Bool.and_eq_true, decide_eq_true_eq, beq_iff_eq] at h
  refine ⟨c, hc, h.1, ?_⟩
  rw [← decide_eq_true_iff (p := c.type = _), ← h.2]
  cases a <;> simp [isUpsert]

theorem fits_mono {cs ds : List Create} {a : Action} (h : Fits cs a) (hs : ∀ c ∈ cs, c ∈ ds) : Fits ds a := by
  obtain ⟨c, h1, h2⟩ := h
  exact ⟨c, hs c h1, h2⟩

theorem mem_fits (m : MemStats) : ∀ a ∈ memActions m, Fits memCreates a := by
  have : (memActions m).all (fitsB memCreates) = true := by rfl
  intro a ha
  exact fits_of (List.all_eq_true.1 this a ha)

theorem cpu_fits (s : Sample) : ∀ a ∈ cpuActions s, Fits cpuCreates a := by
  have : (cpuActions s).all (fitsB cpuCreates) = true := by rfl
  intro a ha
  exact fits_of (List.all_eq_true.1 this a ha)

/-- The statements of a read. -/
def actionsOf (o : Verif.Runmetrics.Options) (s : Sample) : List Action :=
  (if o.enableMemory && o.useDerivedCumulative then memActions s.mem else []) ++ if o.enableCPU then cpuActions s else []

theorem sample_live {o : Verif.Runmetrics.Options} {clock : Nat → Int} {cur : Cur} {p : P} (h : Live o clock cur p) (s : Sample) :
    ∃ p', sample p s = .ok p' ∧ Live o clock (after cur (actionsOf o s)) p' ∧
      (o.enableMemory = true → o.useDerivedCumulative = true → p'.mem = s.mem) := by
  obtain ⟨hg, hm, hc⟩ := h
  have hf := creates_fields o
  have stage1 : ∃ p1, (if p.hasMem then actAll { p with mem := s.mem } (memActions s.mem) else .ok p) = .ok p1 ∧
      Good o.pre clock (createsOf o) (after cur (if o.enableMemory && o.useDerivedCumulative then memActions s.mem else [])) p1 ∧
      p1.hasMem = p.hasMem ∧ p1.hasCPU = p.hasCPU ∧ (p.hasMem = true → p1.mem = s.mem) := by
    rw [← hm]
    cases hb : p.hasMem
    · exact ⟨p, rfl, hg, hb, rfl, fun h => by cases h⟩
    · have hg' : Good o.pre clock (createsOf o) cur { p with mem := s.mem } :=
        ⟨hg.hpre, hg.names, hg.len, hg.at_, hg.inj, hg.lt⟩
      rw [hb] at hm
      obtain ⟨p1, g1, g2, g3, g4, g5⟩ := good_actAll (memActions s.mem) hg' hf (fun a ha => fits_mono (mem_fits _ a ha) (by
        intro c hx
        obtain ⟨cpu, mem, pre, d⟩ := o
        simp only at hm
        cases mem
        · cases hm
        · cases d
          · cases hm
          · simp only [createsOf, if_true]; exact List.mem_append_left _ hx))
      exact ⟨p1, by rw [if_pos rfl, ← hb]; exact g1, g2, g4.trans hb, g5, fun _ => g3⟩
  obtain ⟨p1, h1, h2, h3, h4, h5⟩ := stage1
  have stage2 : ∃ p2, (if p1.hasCPU then actAll p1 (cpuActions s) else .ok p1) = .ok p2 ∧
      Good o.pre clock (createsOf o) (after cur (actionsOf o s)) p2 ∧
      p2.hasMem = p1.hasMem ∧ p2.hasCPU = p1.hasCPU ∧ p2.mem = p1.mem := by
    have ea : after cur (actionsOf o s) = after (after cur (if o.enableMemory && o.useDerivedCumulative then memActions s.mem else []))
        (if o.enableCPU then cpuActions s else []) := by simp [after, actionsOf]
    rw [ea, ← hc, ← h4]
    cases hb : p1.hasCPU
    · exact ⟨p1, rfl, h2, rfl, hb, rfl⟩
    · obtain ⟨p2, g1, g2, g3, g4, g5⟩ := good_actAll (cpuActions s) h2 hf (fun a ha => fits_mono (cpu_fits _ a ha) (by
        intro c hx
        have : o.enableCPU = true := by rw [← hc, ← h4, hb]
        simp only [createsOf, this, if_true]
        exact List.mem_append_right _ hx))
      exact ⟨p2, g1, g2, g4, g5.trans hb, g3⟩
  obtain ⟨p2, g1, g2, g3, g4, g5⟩ := stage2
  refine ⟨p2, ?_, ⟨g2, ?_, ?_⟩, ?_⟩
  · unfold sample
    rw [h1]
    exact g1
  · rw [g3, h3, hm]
  · rw [g4, h4, hc]
  · intro e1 e2
    rw [g5]
    exact h5 (by rw [hm, e1, e2]; rfl)

theorem samples_append (p : P) (a b : List Sample) : samples p (a ++ b) = (samples p a).bind fun p => samples p b := by
  induction a generalizing p with
  | nil => rfl
  | cons s a ih =>
    simp only [List.cons_append, samples]
    cases sample p s with
    | ok p => exact ih p
    | err => rfl
    | panic => rfl

theorem samples_live {o : Verif.Runmetrics.Options} {clock : Nat → Int} {p : P} (h : Live o clock (initials (fun _ => none) (createsOf o)) p)
    (ss : List Sample) : ∃ p', samples p ss = .ok p' ∧
      Live o clock (after (initials (fun _ => none) (createsOf o)) (ss.flatMap (actionsOf o))) p' ∧
      (∀ ss' s, ss = ss' ++ [s] → o.enableMemory = true → o.useDerivedCumulative = true → p'.mem = s.mem) := by
  induction ss using List.reverseRecOn with
  | nil => exact ⟨p, rfl, h, fun ss' s e => by simp at e⟩
  | append_singleton ss s ih =>
    obtain ⟨p1, h1, h2, _⟩ := ih
    obtain ⟨p2, g1, g2, g3⟩ := sample_live h2 s
    refine ⟨p2, ?_, ?_, ?_⟩
    · rw [samples_append, h1]
      simp only [Res.bind, samples, g1]
    · have : after (initials (fun _ => none) (createsOf o)) ((ss ++ [s]).flatMap (actionsOf o)) =
          after (after (initials (fun _ => none) (createsOf o)) (ss.flatMap (actionsOf o))) (actionsOf o s) := by simp [after]
      rw [this]
      exact g2
    · intro ss' s' e e1 e2
      obtain ⟨_, e3⟩ := List.append_inj' e rfl
      cases e3
      exact g3 e1 e2

theorem clamp_small {v : BitVec 64} (h : v.toNat < 2 ^ 63) : (intKind.clamp v).toInt = v.toNat := by
  have : v.toInt = v.toNat := by rw [BitVec.toInt_eq_toNat_cond, if_pos (by omega)]
  simp only [intKind]
  rw [if_neg (by omega), this]

theorem toInt_small {v : BitVec 64} (h : v.toNat < 2 ^ 63) : v.toInt = v.toNat := by
  rw [BitVec.toInt_eq_toNat_cond, if_pos (by omega)]

theorem millis_toNat {v : BitVec 64} (h : v.toNat < 2 ^ 63) : (millis v).toNat = v.toNat / 1000000 := by
  have hm : v.msb = false := by
    rw [BitVec.msb_eq_decide]; simp; omega
  have h2 : millis v = v.udiv 1000000#64 := by
    unfold millis BitVec.sdiv
    rw [hm]; rfl
  rw [h2]; rfl

theorem millis_small {v : BitVec 64} (h : v.toNat < 2 ^ 63) : (millis v).toNat < 2 ^ 63 := by
  rw [millis_toNat h]; omega

theorem width_toNat (v : BitVec 32) : (v.setWidth 64).toNat = v.toNat := by
  have := v.isLt
  rw [BitVec.toNat_setWidth, Nat.mod_eq_of_lt (by omega)]

theorem width_small (v : BitVec 32) : (v.setWidth 64).toNat < 2 ^ 63 := by
  have := v.isLt
  rw [width_toNat]; omega

/-- `Enable` does not fail, and no read panics. -/
theorem always_enabled (o : Verif.Runmetrics.Options) (clock : Nat → Int) :
    ∃ p, newProducer o clock = .ok p ∧ ∀ ss, ∃ p', samples p ss = .ok p' := by
  obtain ⟨p, h1, h2⟩ := new_live o clock
  refine ⟨p, h1, fun ss => ?_⟩
  obtain ⟨p', g1, _⟩ := samples_live h2 ss
  exact ⟨p', g1⟩

theorem means_gauge {v : BitVec 64} (h : v.toNat < 2 ^ 63) (m : MemStats) : Means (Cell.read m (.int v)) (.count v.toNat) :=
  clamp_small h

theorem means_derived {v : BitVec 64} (h : v.toNat < 2 ^ 63) (f : MemStats → BitVec 64) (m : MemStats) (e : f m = v) :
    Means (Cell.read m (.derived f)) (.count v.toNat) := by
  subst e
  exact toInt_small h

theorem means_millis_gauge {v : BitVec 64} (h : v.toNat < 2 ^ 63) (m : MemStats) :
    Means (Cell.read m (.int (millis v))) (.count (v.toNat / 1000000)) := by
  rw [← millis_toNat h]
  exact clamp_small (millis_small h)

theorem means_fraction {x : F64} (h : F64.lt x (.fin 0) = false) (m : MemStats) :
    Means (Cell.read m (.float x)) (.fraction x) := by
  simp [Means, Cell.read, floatKind, h]

theorem means_derived32 (v : BitVec 32) (f : MemStats → BitVec 32) (m : MemStats) (e : f m = v) :
    Means (Cell.read m (.derived fun m => (f m).setWidth 64)) (.count v.toNat) := by
  subst e
  rw [← width_toNat]
  exact toInt_small (width_small _)

theorem means_millis_derived {v : BitVec 64} (h : v.toNat < 2 ^ 63) (f : MemStats → BitVec 64) (m : MemStats) (e : f m = v) :
    Means (Cell.read m (.derived fun m => millis (f m))) (.count (v.toNat / 1000000)) := by
  subst e
  rw [← millis_toNat h]
  exact toInt_small (millis_small h)

/-- What the field of a memory metric stands for. -/
def shownOf : Field → Sample → Shown
  | .memAlloc, s => .count s.mem.alloc.toNat
  | .memTotal, s => .count s.mem.totalAlloc.toNat
  | .memSys, s => .count s.mem.sys.toNat
  | .memLookups, s => .count s.mem.lookups.toNat
  | .memMalloc, s => .count s.mem.mallocs.toNat
  | .memFrees, s => .count s.mem.frees.toNat
  | .heapAlloc, s => .count s.mem.heapAlloc.toNat
  | .heapSys, s => .count s.mem.heapSys.toNat
  | .heapIdle, s => .count s.mem.heapIdle.toNat
  | .heapInuse, s => .count s.mem.heapInuse.toNat
  | .heapObjects, s => .count s.mem.heapObjects.toNat
  | .heapReleased, s => .count s.mem.heapReleased.toNat
  | .stackInuse, s => .count s.mem.stackInuse.toNat
  | .stackSys, s => .count s.mem.stackSys.toNat
  | .stackMSpanInuse, s => .count s.mem.mSpanInuse.toNat
  | .stackMSpanSys, s => .count s.mem.mSpanSys.toNat
  | .stackMCacheInuse, s => .count s.mem.mCacheInuse.toNat
  | .stackMCacheSys, s => .count s.mem.mCacheSys.toNat
  | .otherSys, s => .count s.mem.otherSys.toNat
  | .gcSys, s => .count s.mem.gcSys.toNat
  | .numGC, s => .count s.mem.numGC.toNat
  | .numForcedGC, s => .count s.mem.numForcedGC.toNat
  | .nextGC, s => .count s.mem.nextGC.toNat
  | .lastGC, s => .count (s.mem.lastGC.toNat / 1000000)
  | .pauseTotalNs, s => .count (s.mem.pauseTotalNs.toNat / 1000000)
  | .gcCPUFraction, s => .fraction s.mem.gcCPUFraction
  | .numGoroutines, s => .count s.goroutines.toNat
  | .numCgoCalls, s => .count s.cgoCalls.toNat

def rowOf (c : Create) : Row := ⟨c.name, c.unit, bmTypeToMetricType c.type, shownOf c.field⟩

theorem memRows_eq : memRows = memCreates.map rowOf := rfl
theorem cpuRows_eq : cpuRows = cpuCreates.map rowOf := rfl
theorem deprecatedRows_eq : deprecatedRows = deprecatedCreates.map rowOf := rfl

theorem shows_rowOf {pre : Bytes} {s : Sample} {c : Create} {x : Option Cell} {m : MemStats}
    (h : ∃ cell, x = some cell ∧ Means (cell.read m) (shownOf c.field s)) :
    Shows pre s (rowOf c) (c.descriptor pre, (x.map fun x => (([] : List LabelValue), some (x.read m))).toList) := by
  obtain ⟨cell, rfl, h⟩ := h
  exact ⟨⟨rfl, rfl, rfl, rfl⟩, _, rfl, h⟩

theorem after_append (cur : Cur) (a b : List Action) : after cur (a ++ b) = after (after cur a) b := by simp [after]

theorem after_cpu (cur : Cur) (s : Sample) (f : Field) (h1 : f ≠ .numGoroutines) (h2 : f ≠ .numCgoCalls) :
    after cur (cpuActions s) f = cur f := by
  simp [after, cpuActions, Cur.upd, Action.field, h1, h2]

theorem isCPU_mem : ∀ c ∈ memCreates, c.field ≠ .numGoroutines ∧ c.field ≠ .numCgoCalls := by decide +kernel
theorem isCPU_dep : ∀ c ∈ deprecatedCreates, c.field ≠ .numGoroutines ∧ c.field ≠ .numCgoCalls := by decide +kernel

theorem mem_cell {s : Sample} (hs : Sane s) (cur : Cur) (f : Field) (h1 : f ≠ .numGoroutines) (h2 : f ≠ .numCgoCalls) :
    ∃ cell, after cur (memActions s.mem) f = some cell ∧ Means (cell.read s.mem) (shownOf f s) := by
  have hm := hs.1
  cases f with
  | memTotal => exact ⟨_, rfl, means_derived (hm _ (by simp)) (·.totalAlloc) _ rfl⟩
  | memLookups => exact ⟨_, rfl, means_derived (hm _ (by simp)) (·.lookups) _ rfl⟩
  | memMalloc => exact ⟨_, rfl, means_derived (hm _ (by simp)) (·.mallocs) _ rfl⟩
  | memFrees => exact ⟨_, rfl, means_derived (hm _ (by simp)) (·.frees) _ rfl⟩
  | heapReleased => exact ⟨_, rfl, means_derived (hm _ (by simp)) (·.heapReleased) _ rfl⟩
  | numGC => exact ⟨_, rfl, means_derived32 _ (·.numGC) _ rfl⟩
  | numForcedGC => exact ⟨_, rfl, means_derived32 _ (·.numForcedGC) _ rfl⟩
  | lastGC => exact ⟨_, rfl, means_millis_gauge (hm s.mem.lastGC (by simp)) _⟩
  | pauseTotalNs => exact ⟨_, rfl, means_millis_derived (hm _ (by simp)) (·.pauseTotalNs) _ rfl⟩
  | gcCPUFraction => exact ⟨_, rfl, means_fraction hs.2 _⟩
  | numGoroutines => exact absurd rfl h1
  | numCgoCalls => exact absurd rfl h2
  | memAlloc => exact ⟨_, rfl, means_gauge (hm s.mem.alloc (by simp)) _⟩
  | memSys => exact ⟨_, rfl, means_gauge (hm s.mem.sys (by simp)) _⟩
  | heapAlloc => exact ⟨_, rfl, means_gauge (hm s.mem.heapAlloc (by simp)) _⟩
  | heapSys => exact ⟨_, rfl, means_gauge (hm s.mem.heapSys (by simp)) _⟩
  | heapIdle => exact ⟨_, rfl, means_gauge (hm s.mem.heapIdle (by simp)) _⟩
  | heapInuse => exact ⟨_, rfl, means_gauge (hm s.mem.heapInuse (by simp)) _⟩
  | heapObjects => exact ⟨_, rfl, means_gauge (hm s.mem.heapObjects (by simp)) _⟩
  | stackInuse => exact ⟨_, rfl, means_gauge (hm s.mem.stackInuse (by simp)) _⟩
  | stackSys => exact ⟨_, rfl, means_gauge (hm s.mem.stackSys (by simp)) _⟩
  | stackMSpanInuse => exact ⟨_, rfl, means_gauge (hm s.mem.mSpanInuse (by simp)) _⟩
  | stackMSpanSys => exact ⟨_, rfl, means_gauge (hm s.mem.mSpanSys (by simp)) _⟩
  | stackMCacheInuse => exact ⟨_, rfl, means_gauge (hm s.mem.mCacheInuse (by simp)) _⟩
  | stackMCacheSys => exact ⟨_, rfl, means_gauge (hm s.mem.mCacheSys (by simp)) _⟩
  | otherSys => exact ⟨_, rfl, means_gauge (hm s.mem.otherSys (by simp)) _⟩
  | gcSys => exact ⟨_, rfl, means_gauge (hm s.mem.gcSys (by simp)) _⟩
  | nextGC => exact ⟨_, rfl, means_gauge (hm s.mem.nextGC (by simp)) _⟩

theorem cpu_cell {s : Sample} (hs : Sane s) (cur : Cur) (m : MemStats) : ∀ c ∈ cpuCreates,
    ∃ cell, after cur (cpuActions s) c.field = some cell ∧ Means (cell.read m) (shownOf c.field s) := by
  have : ∀ c ∈ cpuCreates, c.field = .numGoroutines ∨ c.field = .numCgoCalls := by decide +kernel
  intro c hc
  rcases this c hc with h | h
  · rw [h]; exact ⟨_, rfl, means_gauge (hs.1 s.goroutines (by simp)) _⟩
  · rw [h]; exact ⟨_, rfl, means_gauge (hs.1 s.cgoCalls (by simp)) _⟩

theorem forall₂_rows {R : Row → Read → Prop} (cs : List Create) (g : Create → Read) (h : ∀ c ∈ cs, R (rowOf c) (g c)) :
    List.Forall₂ R (cs.map rowOf) (cs.map g) := by
  induction cs with
  | nil => exact .nil
  | cons c cs ih => exact .cons (h c (by simp)) (ih fun c hc => h c (by simp [hc]))

/-- **C52**, with derived cumulatives (or without memory metrics): after any reads, the next read gives each
metric there should be once, and its point shows the sample taken at that read. -/
theorem runtime_shown_partial (o : Verif.Runmetrics.Options) (ho : o.enableMemory = true → o.useDerivedCumulative = true)
    {clock : Nat → Int} {p : P} (hp : newProducer o clock = .ok p) (before : List Sample) {s : Sample} (hs : Sane s)
    {p' : P} (hp' : samples p (before ++ [s]) = .ok p') (now : Nat → Int) {orders : Nat → List (Bytes × Nat)}
    {order : List (Bytes × Nat)} (hor : AnyOrder p' orders order) :
    ∃ ms l, readReg p' now orders order = .ok ms ∧ (ms.map fun m => (m.descriptor, points m)).Perm l ∧
      List.Forall₂ (Shows o.pre s) (rows o) l := by
  obtain ⟨p0, h1, h2⟩ := new_live o clock
  rw [hp] at h1; cases h1
  obtain ⟨p1, g1, g2, g3⟩ := samples_live h2 (before ++ [s])
  rw [hp'] at g1; cases g1
  obtain ⟨ms, k1, k2⟩ := read_good g2.1 now orders hor.1 order hor.2
  refine ⟨ms, _, k1, k2, ?_⟩
  have hr : rows o = (createsOf o).map rowOf := by
    obtain ⟨cpu, mem, pre, d⟩ := o
    cases cpu <;> cases mem <;> cases d <;>
      simp [rows, createsOf, memRows_eq, cpuRows_eq, deprecatedRows_eq]
  rw [hr]
  apply forall₂_rows
  intro c hc
  apply shows_rowOf
  rw [List.flatMap_append, after_append]
  simp only [List.flatMap_cons, List.flatMap_nil, List.append_nil]
  generalize after (initials (fun _ => none) (createsOf o)) (before.flatMap (actionsOf o)) = cur
  have hmem := g3 before s rfl
  obtain ⟨cpu, mem, pre, d⟩ := o
  simp only at ho hmem
  unfold actionsOf
  rw [after_append]
  simp only [createsOf, List.mem_append] at hc
  rcases hc with hc | hc
  · cases mem
    · simp at hc
    · have hd := ho rfl
      subst hd
      simp only [if_true] at hc
      obtain ⟨n1, n2⟩ := isCPU_mem c hc
      have hc' : after (after cur (if (true && true) = true then memActions s.mem else [])) (if cpu = true then cpuActions s else []) c.field =
          after cur (memActions s.mem) c.field := by
        cases cpu
        · rfl
        · exact after_cpu _ _ _ n1 n2
      simp only
      rw [hc', hmem rfl rfl]
      exact mem_cell hs cur c.field n1 n2
  · cases cpu
    · simp at hc
    · exact cpu_cell hs _ _ c hc

/-- Without derived cumulatives, the code does not do it: every memory metric shows zero at every read,
whatever the samples. (`(*deprecatedMemStats).read` is never called.) The CPU metrics are as they should be. -/
theorem deprecated_shows_zero (cpu : Bool) (pre : Bytes) {clock : Nat → Int} {p : P}
    (hp : newProducer ⟨cpu, true, pre, false⟩ clock = .ok p) (before : List Sample) {s : Sample} (hs : Sane s)
    {p' : P} (hp' : samples p (before ++ [s]) = .ok p') (now : Nat → Int) {orders : Nat → List (Bytes × Nat)}
    {order : List (Bytes × Nat)} (hor : AnyOrder p' orders order) :
    ∃ ms l l', readReg p' now orders order = .ok ms ∧ (ms.map fun m => (m.descriptor, points m)).Perm (l ++ l') ∧
      List.Forall₂ (fun r (m : Read) => Named pre r m ∧ (m.2 = [([], some (.int 0))] ∨ m.2 = [([], some (.float (.fin 0)))]))
        deprecatedRows l ∧
      List.Forall₂ (Shows pre s) (if cpu then cpuRows else []) l' := by
  obtain ⟨p0, h1, h2⟩ := new_live ⟨cpu, true, pre, false⟩ clock
  rw [hp] at h1; cases h1
  obtain ⟨p1, g1, g2, g3⟩ := samples_live h2 (before ++ [s])
  rw [hp'] at g1; cases g1
  obtain ⟨ms, k1, k2⟩ := read_good g2.1 now orders hor.1 order hor.2
  have hc : createsOf ⟨cpu, true, pre, false⟩ = deprecatedCreates ++ if cpu then cpuCreates else [] := rfl
  rw [hc, List.map_append, ← hc] at k2
  refine ⟨ms, _, _, k1, k2, ?_, ?_⟩
  · rw [deprecatedRows_eq]
    apply forall₂_rows
    intro c hcm
    refine ⟨⟨rfl, rfl, rfl, rfl⟩, ?_⟩
    obtain ⟨n1, n2⟩ := isCPU_dep c hcm
    have hkeep : ∀ (ss : List Sample) (cur : Cur),
        after cur (ss.flatMap (actionsOf ⟨cpu, true, pre, false⟩)) c.field = cur c.field := by
      intro ss
      induction ss with
      | nil => intro cur; rfl
      | cons x ss ih =>
        intro cur
        rw [List.flatMap_cons, after_append, ih]
        cases cpu
        · rfl
        · exact after_cpu _ _ _ n1 n2
    have hinit : initials (fun _ => none) (createsOf ⟨cpu, true, pre, false⟩) c.field = some (.int 0) ∨
        initials (fun _ => none) (createsOf ⟨cpu, true, pre, false⟩) c.field = some (.float (.fin 0)) := by
      revert n1 n2
      cases c.field <;> cases cpu <;> intro n1 n2 <;>
        first | exact Or.inl rfl | exact Or.inr rfl | exact absurd rfl n1 | exact absurd rfl n2
    simp only [hkeep]
    rcases hinit with h | h <;> rw [h]
    · exact Or.inl rfl
    · right
      have : Cell.read p'.mem (.float (.fin 0)) = .float (.fin 0) := by simp [Cell.read, floatKind]
      simp [this]
  · cases cpu
    · exact .nil
    · simp only [if_true]
      rw [cpuRows_eq]
      apply forall₂_rows
      intro c hcm
      apply shows_rowOf
      rw [List.flatMap_append, after_append]
      simp only [List.flatMap_cons, List.flatMap_nil, List.append_nil]
      exact cpu_cell hs _ _ c hcm

/-! ## `Enable` and `Disable` -/

/-- The producer that should be registered. -/
def current (ops : List GOp) : Option Producer :=
  ops.foldl (fun c op => match op with
    | .enable p => some p
    | .disable => none
    | _ => c) none

/-- Whether somebody else's producer should be registered. -/
def foreign (q : Producer) (ops : List GOp) : Bool :=
  ops.foldl (fun b op => match op with
    | .add (some p) => if p = q then true else b
    | .delete (some p) => if p = q then false else b
    | _ => b) false

/-- The producers that `Enable` makes are pointers that nobody else has, and are not nil. Nobody makes calls
with a nil `*producer`. -/
structure Apart (ops : List GOp) : Prop where
  own : ∀ p, GOp.enable p ∈ ops → p.hashable = true ∧ p ≠ nilProducer ∧
    GOp.add (some p) ∉ ops ∧ GOp.delete (some p) ∉ ops
  other : ∀ p, GOp.add (some p) ∈ ops ∨ GOp.delete (some p) ∈ ops → p.hashable = true ∧ p ≠ nilProducer

theorem Global.run_append (g : Global) (a b : List GOp) : g.run (a ++ b) = (g.run a).bind fun g => g.run b := by
  induction a generalizing g with
  | nil => rfl
  | cons op a ih =>
    simp only [List.cons_append, Global.run]
    cases g.step op with
    | ok g => exact ih g
    | err => rfl
    | panic => rfl

theorem current_mem {ops : List GOp} {p : Producer} (h : current ops = some p) : GOp.enable p ∈ ops := by
  induction ops using List.reverseRecOn with
  | nil => cases h
  | append_singleton ops op ih =>
    unfold current at h ih
    rw [List.foldl_append] at h
    cases op with
    | enable q => simp at h; subst h; simp
    | disable => simp at h
    | add q => exact List.mem_append_left _ (ih h)
    | delete q => exact List.mem_append_left _ (ih h)

theorem foreign_mem {ops : List GOp} {p : Producer} (h : foreign p ops = true) : GOp.add (some p) ∈ ops := by
  induction ops using List.reverseRecOn with
  | nil => cases h
  | append_singleton ops op ih =>
    unfold foreign at h ih
    rw [List.foldl_append] at h
    cases op with
    | enable q => exact List.mem_append_left _ (ih h)
    | disable => exact List.mem_append_left _ (ih h)
    | add q =>
      cases q with
      | none => exact List.mem_append_left _ (ih h)
      | some q =>
        by_cases hq : q = p
        · subst hq; simp
        · simp only [List.foldl_cons, List.foldl_nil, if_neg hq] at h
          exact List.mem_append_left _ (ih h)
    | delete q =>
      cases q with
      | none => exact List.mem_append_left _ (ih h)
      | some q =>
        by_cases hq : q = p
        · simp [hq] at h
        · simp only [List.foldl_cons, List.foldl_nil, if_neg hq] at h
          exact List.mem_append_left _ (ih h)

/-- The registered producers are, at any time, those others have added and not deleted, and that of the last
`Enable` if no `Disable` followed: one producer of runtime metrics at most, whatever the calls. -/
theorem one_producer (ops : List GOp) (ha : Apart ops) :
    ∃ g m, Global.init.run ops = .ok g ∧ g.manager = ⟨some m⟩ ∧
      ∀ order : GoMap Producer Unit, order.Perm m → (Manager.getAll g.manager order).Nodup ∧
        ∀ q, q ∈ Manager.getAll g.manager order ↔ foreign q ops = true ∨ current ops = some q := by
  have inv : ∃ g m, Global.init.run ops = .ok g ∧ g.manager = ⟨some m⟩ ∧ GoMap.WF m ∧
      g.enabled = (current ops).getD nilProducer ∧
      ∀ q, q ∈ GoMap.keys m ↔ foreign q ops = true ∨ current ops = some q := by
    induction ops using List.reverseRecOn with
    | nil => exact ⟨_, [], rfl, rfl, GoMap.WF_nil, rfl, by simp [foreign, current]⟩
    | append_singleton ops op ih =>
      have ha' : Apart ops := ⟨fun p hp => by
          have := ha.own p (by simp [hp])
          exact ⟨this.1, this.2.1, fun h => this.2.2.1 (by simp [h]), fun h => this.2.2.2 (by simp [h])⟩,
        fun p hp => ha.other p (hp.imp (fun h => by simp [h]) fun h => by simp [h])⟩
      obtain ⟨⟨mgr, en⟩, m, h1, h2, h3, h4, h5⟩ := ih ha'
      simp only at h2 h4
      subst h2
      have hen : en.hashable = true := by
        rw [h4]
        cases hc : current ops with
        | none => rfl
        | some p => exact (ha'.own p (current_mem hc)).1
      have hnf : ∀ q, foreign q ops = true → q ≠ en := by
        rintro q hq rfl
        have hm := foreign_mem hq
        cases hc : current ops with
        | none => rw [hc] at h4; exact (ha'.other q (Or.inl hm)).2 h4
        | some p =>
          rw [hc] at h4
          simp only [Option.getD_some] at h4
          subst h4
          exact (ha'.own q (current_mem hc)).2.2.1 hm
      have hcn : ∀ q, current ops = some q → q = en := by
        intro q hq
        rw [hq] at h4
        exact h4.symm
      have hrun : Global.init.run (ops ++ [op]) = (Global.step ⟨⟨some m⟩, en⟩ op).bind fun g => .ok g := by
        rw [Global.run_append, h1]
        rfl
      cases op with
      | enable p =>
        have hp := ha.own p (by simp)
        refine ⟨⟨⟨some (GoMap.set (GoMap.del m en) p ())⟩, p⟩, _, ?_, rfl, GoMap.WF_set (GoMap.WF_del h3 _) _ _, ?_, ?_⟩
        · rw [hrun]
          simp [Global.step, Manager.deleteProducer, Manager.addProducer, hen, hp.1, Res.bind]
        · simp [current]
        · intro q
          have e1 : current (ops ++ [.enable p]) = some p := by simp [current]
          have e2 : foreign q (ops ++ [.enable p]) = foreign q ops := by simp [foreign]
          rw [e1, e2, GoMap.keys_set_mem, GoMap.keys_del_mem, h5 q]
          constructor
          · rintro (h | ⟨h, h'⟩)
            · exact Or.inr (congrArg some h.symm)
            · rcases h' with h' | h'
              · exact Or.inl h'
              · exact absurd (hcn q h') h
          · rintro (h | h)
            · exact Or.inr ⟨hnf q h, Or.inl h⟩
            · exact Or.inl (Option.some.inj h).symm
      | disable =>
        refine ⟨⟨⟨some (GoMap.del m en)⟩, nilProducer⟩, _, ?_, rfl, GoMap.WF_del h3 _, ?_, ?_⟩
        · rw [hrun]
          simp [Global.step, Manager.deleteProducer, hen, Res.bind]
        · simp [current]
        · intro q
          have e1 : current (ops ++ [.disable]) = none := by simp [current]
          have e2 : foreign q (ops ++ [.disable]) = foreign q ops := by simp [foreign]
          rw [e1, e2, GoMap.keys_del_mem, h5 q]
          constructor
          · rintro ⟨h, h' | h'⟩
            · exact Or.inl h'
            · exact absurd (hcn q h') h
          · rintro (h | h)
            · exact ⟨hnf q h, Or.inl h⟩
            · cases h
      | add p =>
        have e1 : current (ops ++ [.add p]) = current ops := by simp [current]
        cases p with
        | none =>
          refine ⟨⟨⟨some m⟩, en⟩, m, by rw [hrun]; rfl, rfl, h3, by rw [e1]; exact h4, ?_⟩
          intro q
          rw [e1, h5 q]
          simp [foreign]
        | some p =>
          have hp := ha.other p (by simp)
          refine ⟨⟨⟨some (GoMap.set m p ())⟩, en⟩, _, ?_, rfl, GoMap.WF_set h3 _ _, by rw [e1]; exact h4, ?_⟩
          · rw [hrun]
            simp [Global.step, Manager.addProducer, hp.1, Res.bind]
          · intro q
            have e2 : foreign q (ops ++ [.add (some p)]) = if p = q then true else foreign q ops := by simp [foreign]
            rw [e1, e2, GoMap.keys_set_mem, h5 q]
            by_cases hq : p = q
            · simp [hq]
            · simp [hq, Ne.symm hq]
      | delete p =>
        have e1 : current (ops ++ [.delete p]) = current ops := by simp [current]
        cases p with
        | none =>
          refine ⟨⟨⟨some m⟩, en⟩, m, by rw [hrun]; rfl, rfl, h3, by rw [e1]; exact h4, ?_⟩
          intro q
          rw [e1, h5 q]
          simp [foreign]
        | some p =>
          have hp := ha.other p (by simp)
          refine ⟨⟨⟨some (GoMap.del m p)⟩, en⟩, _, ?_, rfl, GoMap.WF_del h3 _, by rw [e1]; exact h4, ?_⟩
          · rw [hrun]
            simp [Global.step, Manager.deleteProducer, hp.1, Res.bind]
          · intro q
            have e2 : foreign q (ops ++ [.delete (some p)]) = if p = q then false else foreign q ops := by simp [foreign]
            rw [e1, e2, GoMap.keys_del_mem, h5 q]
            by_cases hq : p = q
            · subst hq
              simp only [ne_eq, not_true, false_and, if_true, Bool.false_eq_true, false_or, false_iff]
              intro hc
              exact (ha.own p (by simp [current_mem hc])).2.2.2 (by simp)
            · simp [hq, Ne.symm hq]
  obtain ⟨g, m, h1, h2, h3, _, h5⟩ := inv
  refine ⟨g, m, h1, h2, fun order hor => ⟨GoMap.WF_perm hor.symm h3, fun q => ?_⟩⟩
  exact ((hor.map Prod.fst).mem_iff (a := q)).trans (h5 q)

/-! ## The hypotheses can be met -/

def demoMem : MemStats :=
  ⟨1, 2, 3, 4, 5, 6, 7, 8, 9, 10, 11, 12, 13, 14, 15, 16, 17, 18, 19, 20, 21, 22000000, 23999999, 24, 25, .fin (1/4)⟩

def demoSample : Sample := ⟨demoMem, 100, 200⟩

example : Sane demoSample := ⟨by simp [demoSample, demoMem], by simp [demoSample, demoMem, F64.lt]⟩

/-- The names and points of a read after another, in the order of creation. -/
def demoRead (derived : Bool) : Option (List (Bytes × List (Option Val))) :=
  match newProducer ⟨true, true, str "my/", derived⟩ (fun _ => 0) with
  | .ok p => match samples p [⟨MemStats.zero, 1, 2⟩, demoSample] with
    | .ok p => match readReg p (fun _ => 5) (fun i => ((p.reg.heap[i]?).map (·.vals)).getD []) p.reg.baseMetrics with
      | .ok ms => some (ms.map fun m => (m.descriptor.name, m.timeSeries.map (·.point)))
      | _ => none
    | _ => none
  | _ => none

example : (demoRead true).map (fun l => l.filter fun x => [str "my/process/heap_release", str "my/process/pause_total",
      str "my/process/gc_cpu_fraction", str "my/process/cpu_cgo_calls"].contains x.1) =
    some [(str "my/process/heap_release", [some (.int 11)]), (str "my/process/pause_total", [some (.int 23)]),
      (str "my/process/gc_cpu_fraction", [some (.float (.fin (1/4)))]), (str "my/process/cpu_cgo_calls", [some (.int 200)])] := by
  decide +kernel

example : (demoRead true).map List.length = some 28 := by decide +kernel

example : (demoRead false).map (fun l => l.filter fun x => [str "my/process/heap_release", str "my/process/cpu_cgo_calls"].contains x.1) =
    some [(str "my/process/heap_release", [some (.int 0)]), (str "my/process/cpu_cgo_calls", [some (.int 200)])] := by
  decide +kernel

example : Apart [.enable ⟨1, true⟩, .add (some ⟨2, true⟩), .enable ⟨3, true⟩, .disable, .delete (some ⟨2, true⟩)] := by
  constructor
  · intro p hp
    simp at hp
    rcases hp with rfl | rfl <;> simp [nilProducer]
  · intro p hp
    simp at hp
    subst hp; simp [nilProducer]

end Verif.Props.Runmetrics
