import Verif.Metric.RegConc
import Verif.Metric.Reader

/-!
# Registries, the producer manager and `ReadAndExport` in many goroutines
(metric/metricexport/reader.go:188-200, metric/metricproducer/manager.go, metric/registry.go)

Any number of registries (`Metric/RegConc`), each used by any goroutines; the global manager; and goroutines that
export: those of interval readers, on a tick (reader.go:148) or in `Flush` (reader.go:185), and those of users who call
`ReadAndExport`. The methods of the manager are one step each, since they hold its lock throughout (`Metric/Reader`). The
producers are registries; the span of `ReadAndExport` (reader.go:191-192) is not modelled.
-/

namespace Verif.Metric.Pipeline
open Verif Verif.Metric

/-- What happens, in order: what happens in registry `r`, and what goroutine `g` does here. -/
inductive Ev (V : Type) where
  | reg (r : Nat) (x : RegConc.Ev V)
  /-- `AddProducer` takes effect. -/
  | added (r : Nat)
  /-- `DeleteProducer` takes effect. -/
  | removed (r : Nat)
  /-- `ReadAndExport` is called. -/
  | began (g : Nat)
  /-- `GetAll` returns. -/
  | listed (g : Nat) (rs : List Nat)
  /-- `ExportMetrics` is called, with the metrics and the registries they are from. -/
  | exported (g : Nat) (data : List (Nat × RegConc.Report V))

/-- Where a goroutine is in `ReadAndExport`. -/
inductive PC (V : Type) where
  | idle
  /-- at reader.go:193 -/
  | began
  /-- at reader.go:195, with the producers left and the data so far -/
  | next (rest : List Nat) (data : List (Nat × RegConc.Report V))
  /-- in `producer.Read()`, reader.go:196 -/
  | inside (r : Nat) (rest : List Nat) (data : List (Nat × RegConc.Report V))

structure St (V : Type) where
  log : List (Ev V)
  man : Manager
  regs : Nat → RegConc.St V
  pc : Nat → PC V

variable {V : Type}

def init : St V := ⟨[], Manager.global, fun _ => RegConc.init, fun _ => .idle⟩

/-- A registry as a producer: a pointer. -/
def producer (r : Nat) : Producer := ⟨r, true⟩

/-- What a goroutine does next. -/
inductive Move (V : Type) where
  /-- a step in a registry, outside `ReadAndExport` -/
  | use (r : Nat) (mv : RegConc.Move V)
  | add (r : Nat)
  | remove (r : Nat)
  /-- calls `ReadAndExport` -/
  | export_
  /-- calls `GetAll`, which finds the producers in this order -/
  | list (order : List Nat)
  /-- calls `Read` of the next producer -/
  | enter
  /-- a step in it -/
  | within (mv : RegConc.Move V)
  /-- leaves the loop and calls `ExportMetrics` -/
  | finish

/-- What a step in registry `r` changes here. -/
def St.inReg (s : St V) (r : Nat) (s' : RegConc.St V) : St V :=
  { s with
    log := s.log ++ (s'.log.drop (s.regs r).log.length).map (Ev.reg r)
    regs := fun q => if q = r then s' else s.regs q }

def St.at (s : St V) (g : Nat) (pc : PC V) : St V := { s with pc := fun h => if h = g then pc else s.pc h }
def St.emit (s : St V) (x : Ev V) : St V := { s with log := s.log ++ [x] }

def Res.toOption {α : Type} : Res α → Option α
  | .ok a => some a
  | _ => none

/-- What `Read` has just returned to goroutine `g`, if it has. -/
def returned (s : RegConc.St V) (g : Nat) : Option (List (RegConc.Report V)) :=
  match s.pc g, s.log.getLast? with
  | .idle, some (.readDone _ ms) => some ms
  | _, _ => none

/-- A step of goroutine `g`. -/
def step (zero : V) (s : St V) (g : Nat) (mv : Move V) : Option (St V) :=
  match s.pc g, mv with
  | .idle, .use r mv => (RegConc.step zero (s.regs r) g mv).map fun s' => s.inReg r s'
  | .idle, .add r => (Res.toOption (s.man.addProducer (some (producer r)))).map fun m =>      -- manager.go:44-51
      { s.emit (.added r) with man := m }
  | .idle, .remove r => (Res.toOption (s.man.deleteProducer (some (producer r)))).map fun m =>  -- manager.go:54-61
      { s.emit (.removed r) with man := m }
  | .idle, .export_ => some ((s.emit (.began g)).at g .began)                                 -- reader.go:190
  | .began, .list order =>                                                                    -- reader.go:193
    let l := order.map fun r => (producer r, ())
    if l.isPerm (s.man.producers.getD []) then
      let rs := (s.man.getAll l).map Producer.id
      some ((s.emit (.listed g rs)).at g (.next rs []))
    else none
  | .next (r :: rest) data, .enter =>                                                         -- reader.go:195-196
    (RegConc.step zero (s.regs r) g .read).map fun s' => (s.inReg r s').at g (.inside r rest data)
  | .inside r rest data, .within mv =>                                                        -- registry.go:276-284
    (RegConc.step zero (s.regs r) g mv).map fun s' => (s.inReg r s').at g
      (match returned s' g with
        | some ms => .next rest (data ++ ms.map fun m => (r, m))                              -- reader.go:196
        | none => .inside r rest data)
  | .next [] data, .finish => some ((s.emit (.exported g data)).at g .idle)                   -- reader.go:199
  | _, _ => none

def run (zero : V) (s : St V) : List (Nat × Move V) → Option (St V)
  | [] => some s
  | (g, mv) :: rest => (step zero s g mv).bind fun s' => run zero s' rest

end Verif.Metric.Pipeline
