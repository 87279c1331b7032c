import Verif.Metric.Registry
import Verif.Metric.Reader
import Verif.Metric.Entry

/-!
# Runtime metrics (plugin/runmetrics/producer.go)

A producer has a registry of its own, entries in it, and the last sample of the memory statistics. Reads of
one producer are one after the other here; `Runmetrics/Conc` has reads at the same time.
-/

namespace Verif.Runmetrics
open Verif Verif.Metric

/-- The fields of `runtime.MemStats` that are used. -/
structure MemStats where
  alloc : BitVec 64
  totalAlloc : BitVec 64
  sys : BitVec 64
  lookups : BitVec 64
  mallocs : BitVec 64
  frees : BitVec 64
  heapAlloc : BitVec 64
  heapSys : BitVec 64
  heapIdle : BitVec 64
  heapInuse : BitVec 64
  heapReleased : BitVec 64
  heapObjects : BitVec 64
  stackInuse : BitVec 64
  stackSys : BitVec 64
  mSpanInuse : BitVec 64
  mSpanSys : BitVec 64
  mCacheInuse : BitVec 64
  mCacheSys : BitVec 64
  gcSys : BitVec 64
  otherSys : BitVec 64
  nextGC : BitVec 64
  lastGC : BitVec 64
  pauseTotalNs : BitVec 64
  numGC : BitVec 32
  numForcedGC : BitVec 32
  gcCPUFraction : F64

/-- The zero value. -/
def MemStats.zero : MemStats :=
  ⟨0, 0, 0, 0, 0, 0, 0, 0, 0, 0, 0, 0, 0, 0, 0, 0, 0, 0, 0, 0, 0, 0, 0, 0, 0, .fin 0⟩

/-- What the runtime says when a producer is read: `runtime.ReadMemStats`, `runtime.NumGoroutine` and
`runtime.NumCgoCall`. -/
structure Sample where
  mem : MemStats
  goroutines : BitVec 64
  cgoCalls : BitVec 64

/-- `RunMetricOptions`, plugin/runmetrics/producer.go:28-33. -/
structure Options where
  enableCPU : Bool
  enableMemory : Bool
  pre : Bytes
  useDerivedCumulative : Bool

/-- The fields of `deprecatedMemStats`, `memStats` and `cpuStats`, plugin/runmetrics/producer.go:35-104. -/
inductive Field where
  | memAlloc | memTotal | memSys | memLookups | memMalloc | memFrees
  | heapAlloc | heapSys | heapIdle | heapInuse | heapObjects | heapReleased
  | stackInuse | stackSys | stackMSpanInuse | stackMSpanSys | stackMCacheInuse | stackMCacheSys
  | otherSys | gcSys | numGC | numForcedGC | nextGC | lastGC | pauseTotalNs | gcCPUFraction
  | numGoroutines | numCgoCalls
  deriving DecidableEq, Repr

/-- What a field points to: an entry, or a derived cumulative, as a handle of the registry. -/
inductive Slot where
  | entry (e : Nat)
  | derived (h : Nat)

/-- An entry of the registry. `derived f` is a function that reads the sample when it is called. -/
inductive Cell where
  | int (v : BitVec 64)
  | float (v : F64)
  | derived (f : MemStats → BitVec 64)

/-- The value of a point. -/
inductive Val where
  | int (v : BitVec 64)
  | float (v : F64)
  deriving DecidableEq

/-- What an entry reads as when the sample is `m`: `read` of metric/gauge.go:39-45, 91-97 and
metric/cumulative.go:135-139. -/
def Cell.read (m : MemStats) : Cell → Val
  | .int v => .int (intKind.clamp v)
  | .float v => .float (floatKind.clamp v)
  | .derived f => .int (f m)

/-- `producer`, plugin/runmetrics/producer.go:17-25. `cells` are the entries of the registry; `slots` has the
fields of the three structs that are set; a struct that is nil is one whose flag is false. `mem` is
`memStats.memStats`. (That of `deprecatedMemStats` is not used.) -/
structure P where
  pre : Bytes
  reg : Reg
  cells : GoMap Nat Cell
  slots : GoMap Field Slot
  mem : MemStats
  hasMem : Bool
  hasCPU : Bool

/-- metric/metricdata/unit.go:24-26. -/
def unitDimensionless : Bytes := str "1"
def unitBytes : Bytes := str "By"
def unitMilliseconds : Bytes := str "ms"

/-- A call of `createInt64GaugeEntry`, `createFloat64GaugeEntry` or `createInt64DerivedCumulative`, and the
field it is for. -/
structure Create where
  field : Field
  type : BMType
  name : Bytes
  description : Bytes
  unit : Bytes
  deriving DecidableEq

/-- The options given to the registry, plugin/runmetrics/producer.go:586-587, 607-608, 628-629. -/
def Create.options (c : Create) : Metric.Options := createMetricOption [.description c.description, .unit c.unit]

/-- `createFloat64GaugeEntry`, `createInt64GaugeEntry` and `createInt64DerivedCumulative`,
plugin/runmetrics/producer.go:579-635, with the assignment to the field. A new entry of a gauge is zero. `now`
is the time. -/
def create (p : P) (c : Create) (now : Int) : Res P :=
  let name := if p.pre.length > 0 then p.pre ++ c.name else c.name
  match p.reg.add c.type name c.options [] now with
  | (_, none) => .err
  | (reg, some h) =>
    match c.type with
    | .derivedCumulativeInt64 => .ok { p with reg := reg, slots := GoMap.set p.slots c.field (.derived h) }
    | ty => match reg.getEntry h [] with
      | (reg, .ok e) => .ok { p with
          reg := reg
          cells := GoMap.set p.cells e (match ty with
            | .gaugeFloat64 => .float (.fin 0)
            | _ => .int 0)
          slots := GoMap.set p.slots c.field (.entry e) }
      | (_, .err) => .err
      | (_, .panic) => .panic

/-- Calls of the create functions, up to the first error. `clock i` is the time of the call on the metric
that is the `i`th of the registry. -/
def createAll (clock : Nat → Int) (p : P) : List Create → Res P
  | [] => .ok p
  | c :: cs => (create p c (clock p.reg.heap.length)).bind fun p => createAll clock p cs

/-- `newDeprecatedMemStats`, plugin/runmetrics/producer.go:179-318. -/
def deprecatedCreates : List Create := [
  ⟨.memAlloc, .gaugeInt64, str "process/memory_alloc",
    str "Number of bytes currently allocated in use", unitBytes⟩,
  ⟨.memTotal, .gaugeInt64, str "process/total_memory_alloc",
    str "Number of allocations in total", unitBytes⟩,
  ⟨.memSys, .gaugeInt64, str "process/sys_memory_alloc",
    str "Number of bytes given to the process to use in total", unitBytes⟩,
  ⟨.memLookups, .gaugeInt64, str "process/memory_lookups",
    str "Cumulative number of pointer lookups performed by the runtime", unitDimensionless⟩,
  ⟨.memMalloc, .gaugeInt64, str "process/memory_malloc",
    str "Cumulative count of heap objects allocated", unitDimensionless⟩,
  ⟨.memFrees, .gaugeInt64, str "process/memory_frees",
    str "Cumulative count of heap objects freed", unitDimensionless⟩,
  ⟨.heapAlloc, .gaugeInt64, str "process/heap_alloc",
    str "Process heap allocation", unitBytes⟩,
  ⟨.heapSys, .gaugeInt64, str "process/sys_heap",
    str "Bytes of heap memory obtained from the OS", unitBytes⟩,
  ⟨.heapIdle, .gaugeInt64, str "process/heap_idle",
    str "Bytes in idle (unused) spans", unitBytes⟩,
  ⟨.heapInuse, .gaugeInt64, str "process/heap_inuse",
    str "Bytes in in-use spans", unitBytes⟩,
  ⟨.heapObjects, .gaugeInt64, str "process/heap_objects",
    str "The number of objects allocated on the heap", unitDimensionless⟩,
  ⟨.heapReleased, .gaugeInt64, str "process/heap_release",
    str "The cumulative number of objects released from the heap", unitBytes⟩,
  ⟨.stackInuse, .gaugeInt64, str "process/stack_inuse",
    str "Bytes in stack spans", unitBytes⟩,
  ⟨.stackSys, .gaugeInt64, str "process/sys_stack",
    str "The memory used by stack spans and OS thread stacks", unitBytes⟩,
  ⟨.stackMSpanInuse, .gaugeInt64, str "process/stack_mspan_inuse",
    str "Bytes of allocated mspan structures", unitBytes⟩,
  ⟨.stackMSpanSys, .gaugeInt64, str "process/sys_stack_mspan",
    str "Bytes of memory obtained from the OS for mspan structures", unitBytes⟩,
  ⟨.stackMCacheInuse, .gaugeInt64, str "process/stack_mcache_inuse",
    str "Bytes of allocated mcache structures", unitBytes⟩,
  ⟨.stackMCacheSys, .gaugeInt64, str "process/sys_stack_mcache",
    str "Bytes of memory obtained from the OS for mcache structures", unitBytes⟩,
  ⟨.gcSys, .gaugeInt64, str "process/gc_sys",
    str "Bytes of memory in garbage collection metadatas", unitBytes⟩,
  ⟨.otherSys, .gaugeInt64, str "process/other_sys",
    str "Bytes of memory in miscellaneous off-heap runtime allocations", unitBytes⟩,
  ⟨.numGC, .gaugeInt64, str "process/num_gc",
    str "Cumulative count of completed GC cycles", unitDimensionless⟩,
  ⟨.numForcedGC, .gaugeInt64, str "process/num_forced_gc",
    str "Cumulative count of GC cycles forced by the application", unitDimensionless⟩,
  ⟨.nextGC, .gaugeInt64, str "process/next_gc_heap_size",
    str "Target heap size of the next GC cycle in bytes", unitBytes⟩,
  ⟨.lastGC, .gaugeInt64, str "process/last_gc_finished_timestamp",
    str "Time the last garbage collection finished, as milliseconds since 1970 (the UNIX epoch)", unitMilliseconds⟩,
  ⟨.pauseTotalNs, .gaugeInt64, str "process/pause_total",
    str "Cumulative milliseconds spent in GC stop-the-world pauses", unitMilliseconds⟩,
  ⟨.gcCPUFraction, .gaugeFloat64, str "process/gc_cpu_fraction",
    str "Fraction of this program's available CPU time used by the GC since the program started", unitDimensionless⟩]

/-- `newMemStats`, plugin/runmetrics/producer.go:354-493. -/
def memCreates : List Create := [
  ⟨.memAlloc, .gaugeInt64, str "process/memory_alloc",
    str "Number of bytes currently allocated in use", unitBytes⟩,
  ⟨.memTotal, .derivedCumulativeInt64, str "process/total_memory_alloc",
    str "Number of allocations in total", unitBytes⟩,
  ⟨.memSys, .gaugeInt64, str "process/sys_memory_alloc",
    str "Number of bytes given to the process to use in total", unitBytes⟩,
  ⟨.memLookups, .derivedCumulativeInt64, str "process/memory_lookups",
    str "Cumulative number of pointer lookups performed by the runtime", unitDimensionless⟩,
  ⟨.memMalloc, .derivedCumulativeInt64, str "process/memory_malloc",
    str "Cumulative count of heap objects allocated", unitDimensionless⟩,
  ⟨.memFrees, .derivedCumulativeInt64, str "process/memory_frees",
    str "Cumulative count of heap objects freed", unitDimensionless⟩,
  ⟨.heapAlloc, .gaugeInt64, str "process/heap_alloc",
    str "Process heap allocation", unitBytes⟩,
  ⟨.heapSys, .gaugeInt64, str "process/sys_heap",
    str "Bytes of heap memory obtained from the OS", unitBytes⟩,
  ⟨.heapIdle, .gaugeInt64, str "process/heap_idle",
    str "Bytes in idle (unused) spans", unitBytes⟩,
  ⟨.heapInuse, .gaugeInt64, str "process/heap_inuse",
    str "Bytes in in-use spans", unitBytes⟩,
  ⟨.heapObjects, .gaugeInt64, str "process/heap_objects",
    str "The number of objects allocated on the heap", unitDimensionless⟩,
  ⟨.heapReleased, .derivedCumulativeInt64, str "process/heap_release",
    str "The cumulative number of objects released from the heap", unitBytes⟩,
  ⟨.stackInuse, .gaugeInt64, str "process/stack_inuse",
    str "Bytes in stack spans", unitBytes⟩,
  ⟨.stackSys, .gaugeInt64, str "process/sys_stack",
    str "The memory used by stack spans and OS thread stacks", unitBytes⟩,
  ⟨.stackMSpanInuse, .gaugeInt64, str "process/stack_mspan_inuse",
    str "Bytes of allocated mspan structures", unitBytes⟩,
  ⟨.stackMSpanSys, .gaugeInt64, str "process/sys_stack_mspan",
    str "Bytes of memory obtained from the OS for mspan structures", unitBytes⟩,
  ⟨.stackMCacheInuse, .gaugeInt64, str "process/stack_mcache_inuse",
    str "Bytes of allocated mcache structures", unitBytes⟩,
  ⟨.stackMCacheSys, .gaugeInt64, str "process/sys_stack_mcache",
    str "Bytes of memory obtained from the OS for mcache structures", unitBytes⟩,
  ⟨.gcSys, .gaugeInt64, str "process/gc_sys",
    str "Bytes of memory in garbage collection metadatas", unitBytes⟩,
  ⟨.otherSys, .gaugeInt64, str "process/other_sys",
    str "Bytes of memory in miscellaneous off-heap runtime allocations", unitBytes⟩,
  ⟨.numGC, .derivedCumulativeInt64, str "process/num_gc",
    str "Cumulative count of completed GC cycles", unitDimensionless⟩,
  ⟨.numForcedGC, .derivedCumulativeInt64, str "process/num_forced_gc",
    str "Cumulative count of GC cycles forced by the application", unitDimensionless⟩,
  ⟨.nextGC, .gaugeInt64, str "process/next_gc_heap_size",
    str "Target heap size of the next GC cycle in bytes", unitBytes⟩,
  ⟨.lastGC, .gaugeInt64, str "process/last_gc_finished_timestamp",
    str "Time the last garbage collection finished, as milliseconds since 1970 (the UNIX epoch)", unitMilliseconds⟩,
  ⟨.pauseTotalNs, .derivedCumulativeInt64, str "process/pause_total",
    str "Cumulative milliseconds spent in GC stop-the-world pauses", unitMilliseconds⟩,
  ⟨.gcCPUFraction, .gaugeFloat64, str "process/gc_cpu_fraction",
    str "Fraction of this program's available CPU time used by the GC since the program started", unitDimensionless⟩]

/-- `newCPUStats`, plugin/runmetrics/producer.go:557-572. -/
def cpuCreates : List Create := [
  ⟨.numGoroutines, .gaugeInt64, str "process/cpu_goroutines",
    str "Number of goroutines that currently exist", unitDimensionless⟩,
  ⟨.numCgoCalls, .gaugeInt64, str "process/cpu_cgo_calls",
    str "Number of cgo calls made by the current process", unitDimensionless⟩]

/-- A statement of a `read` method: `Set` on an entry, or `UpsertEntry` with a function. -/
inductive Action where
  | set (f : Field) (v : BitVec 64)
  | setFloat (f : Field) (v : F64)
  | upsert (f : Field) (fn : MemStats → BitVec 64)

/-- What a statement does. A field that was not set is a nil pointer. The error of `UpsertEntry` is
ignored. -/
def act (p : P) : Action → Res P
  | .set f v => match GoMap.get p.slots f with
    | some (.entry e) => .ok { p with cells := GoMap.set p.cells e (.int v) }
    | _ => .panic
  | .setFloat f v => match GoMap.get p.slots f with
    | some (.entry e) => .ok { p with cells := GoMap.set p.cells e (.float v) }
    | _ => .panic
  | .upsert f fn => match GoMap.get p.slots f with
    | some (.derived h) => match p.reg.upsertEntry h [] with
      | (reg, .ok e) => .ok { p with reg := reg, cells := GoMap.set p.cells e (.derived fn) }
      | (reg, .err) => .ok { p with reg := reg }
      | (_, .panic) => .panic
    | _ => .panic

def actAll (p : P) : List Action → Res P
  | [] => .ok p
  | a :: as => (act p a).bind fun p => actAll p as

/-- `int64(x) / int64(time.Millisecond)`. -/
def millis (x : BitVec 64) : BitVec 64 := BitVec.sdiv x 1000000

/-- `(*deprecatedMemStats).read`, plugin/runmetrics/producer.go:320-352, after line 321. `NumGC` and
`NumForcedGC` are 32 bits wide. It is never called: see `read`. -/
def deprecatedActions (m : MemStats) : List Action := [
  .set .memAlloc m.alloc,
  .set .memTotal m.totalAlloc,
  .set .memSys m.sys,
  .set .memLookups m.lookups,
  .set .memMalloc m.mallocs,
  .set .memFrees m.frees,
  .set .heapAlloc m.heapAlloc,
  .set .heapSys m.heapSys,
  .set .heapIdle m.heapIdle,
  .set .heapInuse m.heapInuse,
  .set .heapReleased m.heapReleased,
  .set .heapObjects m.heapObjects,
  .set .stackInuse m.stackInuse,
  .set .stackSys m.stackSys,
  .set .stackMSpanInuse m.mSpanInuse,
  .set .stackMSpanSys m.mSpanSys,
  .set .stackMCacheInuse m.mCacheInuse,
  .set .stackMCacheSys m.mCacheSys,
  .set .gcSys m.gcSys,
  .set .otherSys m.otherSys,
  .set .numGC (m.numGC.setWidth 64),
  .set .numForcedGC (m.numForcedGC.setWidth 64),
  .set .nextGC m.nextGC,
  .set .lastGC (millis m.lastGC),
  .set .pauseTotalNs (millis m.pauseTotalNs),
  .setFloat .gcCPUFraction m.gcCPUFraction]

/-- `(*memStats).read`, plugin/runmetrics/producer.go:495-555, after line 496. -/
def memActions (m : MemStats) : List Action := [
  .set .memAlloc m.alloc,
  .upsert .memTotal (·.totalAlloc),
  .set .memSys m.sys,
  .upsert .memLookups (·.lookups),
  .upsert .memMalloc (·.mallocs),
  .upsert .memFrees (·.frees),
  .set .heapAlloc m.heapAlloc,
  .set .heapSys m.heapSys,
  .set .heapIdle m.heapIdle,
  .set .heapInuse m.heapInuse,
  .upsert .heapReleased (·.heapReleased),
  .set .heapObjects m.heapObjects,
  .set .stackInuse m.stackInuse,
  .set .stackSys m.stackSys,
  .set .stackMSpanInuse m.mSpanInuse,
  .set .stackMSpanSys m.mSpanSys,
  .set .stackMCacheInuse m.mCacheInuse,
  .set .stackMCacheSys m.mCacheSys,
  .set .gcSys m.gcSys,
  .set .otherSys m.otherSys,
  .upsert .numGC fun m => m.numGC.setWidth 64,
  .upsert .numForcedGC fun m => m.numForcedGC.setWidth 64,
  .set .nextGC m.nextGC,
  .set .lastGC (millis m.lastGC),
  .upsert .pauseTotalNs fun m => millis m.pauseTotalNs,
  .setFloat .gcCPUFraction m.gcCPUFraction]

/-- `(*cpuStats).read`, plugin/runmetrics/producer.go:574-577. -/
def cpuActions (s : Sample) : List Action := [.set .numGoroutines s.goroutines, .set .numCgoCalls s.cgoCalls]

/-- `Enable`, plugin/runmetrics/producer.go:121-146: the new producer, or an error. -/
def newProducer (o : Options) (clock : Nat → Int) : Res P :=
  let p : P := ⟨o.pre, Reg.empty, [], [], MemStats.zero, false, false⟩
  let mem := if o.enableMemory then
      if o.useDerivedCumulative then (createAll clock p memCreates).bind fun p => .ok { p with hasMem := true }
      else createAll clock p deprecatedCreates
    else .ok p
  mem.bind fun p =>
    if o.enableCPU then (createAll clock p cpuCreates).bind fun p => .ok { p with hasCPU := true } else .ok p

/-- `Read`, plugin/runmetrics/producer.go:167-175, up to the reading of the registry. -/
def sample (p : P) (s : Sample) : Res P :=
  (if p.hasMem then actAll { p with mem := s.mem } (memActions s.mem) else .ok p).bind fun p =>
    if p.hasCPU then actAll p (cpuActions s) else .ok p

/-- `p.reg.Read()`, plugin/runmetrics/producer.go:176. An entry that is not there does not occur. -/
def readReg (p : P) (now : Nat → Int) (orders : Nat → List (Bytes × Nat)) (order : List (Bytes × Nat)) :
    Res (List (Metric' (Option Val))) :=
  p.reg.read (fun e => (GoMap.get p.cells e).map (Cell.read p.mem)) now orders order

/-- Reads one after the other: the producer after them. -/
def samples (p : P) : List Sample → Res P
  | [] => .ok p
  | s :: ss => (sample p s).bind fun p => samples p ss

/-! ## `Enable` and `Disable` on the global manager -/

/-- The value of type `Producer` that a nil `*producer` makes: it is not a nil interface, so `AddProducer` and
`DeleteProducer` do not take it for one. -/
def nilProducer : Producer := ⟨0, true⟩

/-- The global manager and `enabledProducer`. -/
structure Global where
  manager : Manager
  enabled : Producer

/-- At first nothing is enabled. -/
def Global.init : Global := ⟨Manager.global, nilProducer⟩

/-- A call, with the mutex held: `Enable` that made the producer `p` (plugin/runmetrics/producer.go:148-153),
`Disable` (158-164), or somebody else's call on the manager. -/
inductive GOp where
  | enable (p : Producer)
  | disable
  | add (p : Option Producer)
  | delete (p : Option Producer)

def Global.step (g : Global) : GOp → Res Global
  | .enable p => (g.manager.deleteProducer (some g.enabled)).bind fun m =>
      (m.addProducer (some p)).bind fun m => .ok ⟨m, p⟩
  | .disable => (g.manager.deleteProducer (some g.enabled)).bind fun m => .ok ⟨m, nilProducer⟩
  | .add p => (g.manager.addProducer p).bind fun m => .ok ⟨m, g.enabled⟩
  | .delete p => (g.manager.deleteProducer p).bind fun m => .ok ⟨m, g.enabled⟩

def Global.run (g : Global) : List GOp → Res Global
  | [] => .ok g
  | op :: ops => (g.step op).bind fun g => g.run ops

end Verif.Runmetrics
