import Verif.Runmetrics.Lemmas

/-!
# Runtime metrics read by many goroutines (plugin/runmetrics/producer.go, metric/common.go)

`Read` of a producer has no lock, and every metric reader of the process reads the one that is enabled: two exporters
are enough for readings at the same time. They share the sample of the memory statistics and the entries.

The steps are `runtime.ReadMemStats` (which stops the world, so that it is one step), the loading of a field of the
sample, the store into an entry, `Delete` and `Store` on the map of a metric, and, for each metric, the `Range` that
sees its entry and the reading of the value. The set of metrics does not change after `Enable`. The state of the
registry is given by what is in the entry of each field (`Cur`): `Good` and `read_good` of `Runmetrics/Lemmas` say that
for `Producer`.
-/

namespace Verif.Runmetrics.Conc
open Verif Verif.Metric Verif.Runmetrics

/-- What happens, in the goroutine `t`. -/
inductive Ev where
  /-- `Read` is called. -/
  | called (t : Nat)
  /-- `runtime.ReadMemStats` gives `m`. -/
  | sampled (t : Nat) (m : MemStats)
  /-- `runtime.NumGoroutine` or `runtime.NumCgoCall` gives `n`. -/
  | counted (t : Nat) (f : Field) (n : BitVec 64)
  /-- `Read` returns: for each metric its point, if it has one. -/
  | returned (t : Nat) (out : List (Create × Option Val))

/-- Where a goroutine is. -/
inductive PC where
  | idle
  /-- Before line 496. -/
  | sample
  /-- Before the `i`th statement of lines 498-554, 575-576. -/
  | stmt (i : Nat)
  /-- In the `i`th statement, the value is loaded and not yet stored. -/
  | set (f : Field) (c : Cell) (i : Nat)
  /-- In the `i`th statement, the old entry is deleted and the new one not yet stored. -/
  | put (f : Field) (c : Cell) (i : Nat)
  /-- In the `Range` of `p.reg.Read()`, with the metrics still to be read. -/
  | read (rest : List Create) (out : List (Create × Option Val))
  /-- The `Range` over the entries of a metric has found its entry. -/
  | value (c : Create) (x : Cell) (rest : List Create) (out : List (Create × Option Val))

/-- The sample and the entries, where the goroutines are, and what has happened. -/
structure St where
  mem : MemStats
  cur : Cur
  pc : Nat → PC
  log : List Ev

/-- The metrics of a producer: `Enable`, plugin/runmetrics/producer.go:125-146. -/
def creates (o : Options) : List Create :=
  (if o.enableMemory then if o.useDerivedCumulative then memCreates else deprecatedCreates else []) ++
    if o.enableCPU then cpuCreates else []

/-- `p.memStats != nil`, plugin/runmetrics/producer.go:126-131. -/
def hasMem (o : Options) : Bool := o.enableMemory && o.useDerivedCumulative

/-- The statements of `(*memStats).read` and `(*cpuStats).read` that `Read` executes
(plugin/runmetrics/producer.go:168-174), as they are when the sample is `m` and the runtime says `now`. -/
def actions (o : Options) (m : MemStats) (now : Sample) : List Action :=
  (if hasMem o then memActions m else []) ++ if o.enableCPU then cpuActions now else []

/-- The producer that `Enable` has made. -/
def init (o : Options) : St := ⟨MemStats.zero, initials (fun _ => none) (creates o), fun _ => .idle, []⟩

/-- `runtime.NumGoroutine` and `runtime.NumCgoCall` are calls in the statements of `(*cpuStats).read`. -/
def counts (t : Nat) : Action → List Ev
  | .set .numGoroutines n => [.counted t .numGoroutines n]
  | .set .numCgoCalls n => [.counted t .numCgoCalls n]
  | _ => []

def St.go (st : St) (t : Nat) (pc : PC) (evs : List Ev) : St :=
  { st with pc := fun u => if u = t then pc else st.pc u, log := st.log ++ evs }

/-- A step of the goroutine `t`. What the runtime says at the moment is `now`, the `Range` over the metrics is in the
order `order`. -/
structure Move where
  t : Nat
  now : Sample
  order : List Create

def step (o : Options) (st : St) (mv : Move) : Option St :=
  let t := mv.t
  match st.pc t with
  | .idle => some (st.go t (if hasMem o then .sample else .stmt 0) [.called t])                 -- producer.go:167-168
  | .sample => some ({ st with mem := mv.now.mem }.go t (.stmt 0) [.sampled t mv.now.mem])      -- producer.go:496
  | .stmt i => match (actions o st.mem mv.now)[i]? with
    | some (.upsert f fn) =>                                                                    -- common.go:141
      some ({ st with cur := st.cur.upd f none }.go t (.put f (.derived fn) i) [])
    | some a => some (st.go t (.set a.field a.cell i) (counts t a))
    | none =>                                                                                   -- registry.go:276-278
      if mv.order.isPerm (creates o) then some (st.go t (.read mv.order []) []) else none
  | .set f c i => some ({ st with cur := st.cur.upd f (some c) }.go t (.stmt (i + 1)) [])       -- gauge.go:63-65, 115-117
  | .put f c i => some ({ st with cur := st.cur.upd f (some c) }.go t (.stmt (i + 1)) [])       -- common.go:142
  | .read [] out => some (st.go t .idle [.returned t out])                                      -- producer.go:176
  | .read (c :: rest) out => match st.cur c.field with                                          -- common.go:79
    | none => some (st.go t (.read rest (out ++ [(c, none)])) [])
    | some x => some (st.go t (.value c x rest out) [])
  | .value c x rest out =>                                                                      -- common.go:87
    match x with
    | .derived f => some (st.go t (.read rest (out ++ [(c, some (.int (f st.mem)))])) [])       -- cumulative.go:138
    | _ => some (st.go t (.read rest (out ++ [(c, (st.cur c.field).map (Cell.read st.mem))])) []) -- gauge.go:39-45, 91-97

/-- A schedule. -/
def run (o : Options) (st : St) : List Move → Option St
  | [] => some st
  | mv :: mvs => (step o st mv).bind fun st => run o st mvs

end Verif.Runmetrics.Conc
