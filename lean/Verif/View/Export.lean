import Verif.View.ReadConc
import Verif.Metric.Reader

/-!
# Meters, the producer manager and `ReadAndExport` in many goroutines
(stats/view/worker.go:283-315, 389-410, metric/metricproducer/manager.go, metric/metricexport/reader.go:188-200)

Any number of meters (`View/ReadConc`), the global manager, and goroutines that export, as interval readers do. A meter is
started at most once; `Start` starts a goroutine that makes the meter a producer before it handles commands. The methods of the
manager are one step each, since they hold its lock throughout (`Metric/Reader`).

Simplified: measures are a table of each meter (in the code, one for all meters; only their subscribed flag changes, which
`Read` does not look at). Resources (`SetResource`) are in `View/Resource`. The producers are meters; registries are in
`Metric/Pipeline`. The span of `ReadAndExport` (reader.go:191-192) is not modelled.
-/

namespace Verif.View.Export
open Verif Verif.Stats Verif.View Verif.Metric

/-- What happens, in order. -/
inductive Ev where
  /-- something happens in meter `r` -/
  | meter (r : Nat) (x : ReadConc.Ev)
  /-- `AddProducer` of meter `r` takes effect. -/
  | added (r : Nat)
  /-- `DeleteProducer` of meter `r` takes effect. -/
  | removed (r : Nat)
  /-- A call of `Stop` returns. -/
  | stopped (r : Nat)
  /-- `ReadAndExport` is called. -/
  | began (g : Nat)
  /-- `GetAll` returns. -/
  | listed (g : Nat) (rs : List Nat)
  /-- `ExportMetrics` is called. -/
  | exported (g : Nat) (data : List MetricOut)

/-- The goroutine of a meter. -/
inductive Life where
  /-- `Start` has not been called. -/
  | fresh
  /-- at worker.go:288 -/
  | spawned
  /-- in the loop, worker.go:291-303 -/
  | looping
  /-- returned, with `c` and `done` closed -/
  | exited
  deriving DecidableEq

/-- Where a goroutine is in `ReadAndExport` or in `Stop`. -/
inductive PC where
  | idle
  /-- at reader.go:193 -/
  | began
  /-- at reader.go:195, with the producers left and the data so far -/
  | next (rest : List Nat) (data : List MetricOut)
  /-- in `producer.Read()`, reader.go:196 -/
  | inside (r : Nat) (rest : List Nat) (data : List MetricOut)
  /-- at worker.go:309 -/
  | closing (r : Nat)
  /-- at worker.go:314 -/
  | waiting (r : Nat)

structure St where
  log : List Ev
  man : Manager
  meters : Nat → ReadConc.St
  life : Nat → Life
  quit : Nat → Bool
  pc : Nat → PC

def init (reg : Measures) : St :=
  ⟨[], Manager.global, fun _ => ReadConc.init reg, fun _ => .fresh, fun _ => false, fun _ => .idle⟩

/-- A meter as a producer: a pointer. -/
def producer (r : Nat) : Producer := ⟨r, true⟩

def upd {α : Type} (f : Nat → α) (t : Nat) (x : α) : Nat → α := fun u => if u = t then x else f u

/-- What a step in meter `r` changes here. -/
def St.inMeter (s : St) (r : Nat) (m : ReadConc.St) : St :=
  { s with
    log := s.log ++ (m.evs.drop (s.meters r).evs.length).map (Ev.meter r)
    meters := upd s.meters r m }

def St.at (s : St) (g : Nat) (pc : PC) : St := { s with pc := upd s.pc g pc }
def St.emit (s : St) (x : Ev) : St := { s with log := s.log ++ [x] }

def toOption {α : Type} : Res α → Option α
  | .ok a => some a
  | _ => none

/-- What happens next. -/
inductive Move where
  /-- goroutine `u` puts a command of meter `r` on the channel -/
  | send (r u : Nat) (c : Cmd)
  /-- the goroutine of meter `r` handles commands -/
  | work (r : Nat)
  /-- goroutine `t` calls `Read` of meter `r`, outside `ReadAndExport`, or goes on with it -/
  | read (r t : Nat) (now : Int) (c : Nat)
  /-- `Start` -/
  | start (r : Nat)
  /-- the goroutine of meter `r` makes it a producer -/
  | add (r : Nat)
  /-- the goroutine of meter `r` finds `quit` closed and returns -/
  | exit (r : Nat)
  /-- goroutine `g` calls `Stop` -/
  | stop (g r : Nat)
  /-- goroutine `g` closes `quit` if it is not closed -/
  | close (g : Nat)
  /-- goroutine `g` finds `done` closed and returns from `Stop` -/
  | stopped (g : Nat)
  /-- goroutine `g` calls `ReadAndExport` -/
  | export_ (g : Nat)
  /-- goroutine `g` calls `GetAll`, which finds the producers in this order -/
  | list (g : Nat) (order : List Nat)
  /-- goroutine `g` calls `Read` of the next producer -/
  | enter (g : Nat)
  /-- a step in it -/
  | within (g : Nat) (now : Int) (c : Nat)
  /-- goroutine `g` leaves the loop and calls `ExportMetrics` -/
  | finish (g : Nat)

/-- What `Read` is about to return. -/
def returning : ReadConc.RPC → Option (List MetricOut)
  | .unlock _ acc => some (acc.map Prod.snd)
  | _ => none

/-- A step; `none` if it cannot be made or if it panics. -/
def step (s : St) : Move → Option St
  | .send r u c => if s.life r = .exited then none                                            -- the channel is closed
    else (ReadConc.step (s.meters r) (.send u c)).map fun m => s.inMeter r m
  | .work r => if s.life r = .looping then                                                    -- worker.go:293-296
      (ReadConc.step (s.meters r) .work).map fun m => s.inMeter r m
    else none
  | .read r t now c => match s.pc t with
    | .idle => (ReadConc.step (s.meters r) (.read t now c)).map fun m => s.inMeter r m
    | _ => none
  | .start r => if s.life r = .fresh then some { s with life := upd s.life r .spawned } else none  -- worker.go:284
  | .add r => if s.life r = .spawned then                                                     -- worker.go:288-289
      (toOption (s.man.addProducer (some (producer r)))).map fun m =>
        { s.emit (.added r) with man := m, life := upd s.life r .looping }
    else none
  | .exit r => if s.life r = .looping ∧ s.quit r = true then                                  -- worker.go:297-301
      match (s.meters r).loop with
      | .idle => some { s with life := upd s.life r .exited }
      | _ => none
    else none
  | .stop g r => match s.pc g with
    | .idle => (toOption (s.man.deleteProducer (some (producer r)))).map fun m =>             -- worker.go:307-308
        { (s.emit (.removed r)).at g (.closing r) with man := m }
    | _ => none
  | .close g => match s.pc g with
    | .closing r => some { s.at g (.waiting r) with quit := upd s.quit r true }               -- worker.go:309-313
    | _ => none
  | .stopped g => match s.pc g with
    | .waiting r => if s.life r = .exited then some ((s.emit (.stopped r)).at g .idle) else none  -- worker.go:314
    | _ => none
  | .export_ g => match s.pc g with
    | .idle => some ((s.emit (.began g)).at g .began)                                         -- reader.go:190
    | _ => none
  | .list g order => match s.pc g with
    | .began =>                                                                               -- reader.go:193
      let l := order.map fun r => (producer r, ())
      if l.isPerm (s.man.producers.getD []) then
        let rs := (s.man.getAll l).map Producer.id
        some ((s.emit (.listed g rs)).at g (.next rs []))
      else none
    | _ => none
  | .enter g => match s.pc g with
    | .next (r :: rest) data => match (s.meters r).rpc g with                                 -- reader.go:195-196
      | .idle => (ReadConc.step (s.meters r) (.read g 0 0)).map fun m => (s.inMeter r m).at g (.inside r rest data)
      | _ => none
    | _ => none
  | .within g now c => match s.pc g with
    | .inside r rest data =>                                                                  -- worker.go:398-410
      (ReadConc.step (s.meters r) (.read g now c)).map fun m => (s.inMeter r m).at g
        (match returning ((s.meters r).rpc g) with
          | some ms => .next rest (data ++ ms)                                                -- reader.go:196
          | none => .inside r rest data)
    | _ => none
  | .finish g => match s.pc g with
    | .next [] data => some ((s.emit (.exported g data)).at g .idle)                          -- reader.go:199
    | _ => none

def run (s : St) : List Move → Option St
  | [] => some s
  | mv :: rest => (step s mv).bind fun s' => run s' rest

end Verif.View.Export
