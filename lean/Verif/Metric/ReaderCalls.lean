import Verif.Basic

/-!
# Exporters that call the interval reader that calls them (metric/metricexport/reader.go)

The interval reader of `Metric/Reader`, where `ExportMetrics` may call `Start`, `Stop` and `Flush` of the same reader.

Simplified: of the goroutine of the reader there is one, which is what `Start` makes; a second one would set `second`. The channels
`quit` and `done` are those of this goroutine; `quit` says whether the field is not nil. What is read and exported is not modelled
(`Metric/Reader`, `Metric/Pipeline`), nor are times (`Metric/ReaderTime`). The goroutine evaluates the `select` (line 146) when it comes
to it. An exporter that starts goroutines is one that does not call, beside more clients.
-/

namespace Verif.Metric.ReaderCalls

/-- A call; `start` has the `ReportingInterval` of the time of the call. -/
inductive Op where
  | start (interval : Int)
  | stop
  | flush
  deriving DecidableEq, Repr

/-- Goroutines: those of the program, and that of the reader. -/
inductive Tid where
  | client (t : Nat)
  | loop
  deriving DecidableEq, Repr

/-- Where a goroutine is in the code of a caller. All but `idle` have the mutex locked. -/
inductive PC where
  | idle
  | locked (op : Op)
  /-- at line 168 -/
  | stopSend
  /-- at line 169 -/
  | stopWait
  /-- at line 170 -/
  | stopClose
  /-- in line 185: the exporter's frame is above -/
  | flushing
  deriving DecidableEq, Repr

/-- A function that calls: the program of a goroutine, or `ExportMetrics`; the calls it has still to make. -/
structure Frame where
  todo : List Op
  pc : PC
  deriving DecidableEq, Repr

/-- Where the goroutine of `startInternal` (lines 144-155) is, if there is one. -/
inductive LPC where
  | none
  /-- in the `select`, line 146 -/
  | sel
  /-- in line 148 -/
  | exporting
  /-- at line 150 -/
  | quitting
  /-- at line 151 -/
  | sendDone
  deriving DecidableEq, Repr

/-- What is seen from outside. -/
inductive Ev where
  | exportBegin
  | exportEnd
  | flushBegin
  | flushEnd
  | returned (t : Tid) (op : Op) (failed : Bool)
  deriving DecidableEq, Repr

/-- `IntervalReader`, metric/metricexport/reader.go:62-73, with all goroutines. -/
structure St where
  mu : Option Tid
  quit : Bool
  loop : LPC
  pending : Bool
  stack : Tid → List Frame
  exports : Nat
  second : Bool
  log : List Ev

/-- A new reader, `NewIntervalReader`, metric/metricexport/reader.go:100-113, and the programs of the goroutines. -/
def new (progs : Nat → List Op) : St :=
  ⟨none, false, .none, false, fun | .client t => [⟨progs t, .idle⟩] | .loop => [], 0, false, []⟩

/-- The stack of a goroutine is replaced. -/
def St.put (s : St) (t : Tid) (fs : List Frame) : St := { s with stack := fun u => if u = t then fs else s.stack u }

/-- The end of a call: `defer ir.mu.Unlock()` (lines 124, 164, 178). -/
def St.ret (s : St) (t : Tid) (td : List Op) (r : List Frame) (op : Op) (failed : Bool) : St :=
  { s.put t (⟨td, .idle⟩ :: r) with mu := none, log := s.log ++ [.returned t op failed] }

/-- The interval is set and too low, lines 126-129. -/
def tooLow (interval : Int) : Bool := decide (interval ≠ 0) && decide (interval < 1000000000)

/-- A step of a goroutine in the code of a caller; `body n` are the calls that the exporter makes when it is called for the
`n`-th time. -/
def call (body : Nat → List Op) (s : St) (t : Tid) : Option St :=
  match s.stack t with
  | [] => none
  -- `ExportMetrics` returns, to line 185 or 148
  | ⟨[], .idle⟩ :: ⟨td, .flushing⟩ :: r => some { s.ret t td r .flush false with log := s.log ++ [.flushEnd, .returned t .flush false] }
  | [⟨[], .idle⟩] => if t = .loop then some { s.put t [] with loop := .sel, log := s.log ++ [.exportEnd] } else none
  -- lines 123, 163, 177
  | ⟨op :: td, .idle⟩ :: r => if s.mu = none then some { s.put t (⟨td, .locked op⟩ :: r) with mu := some t } else none
  -- `Start`, lines 125-141
  | ⟨td, .locked (.start i)⟩ :: r =>
    if tooLow i || s.quit then some (s.ret t td r (.start i) true)
    else some { s.ret t td r (.start i) false with quit := true, loop := .sel, pending := false, second := s.second || decide (s.loop ≠ .none) }
  -- `Stop`, lines 165-167
  | ⟨td, .locked .stop⟩ :: r => if s.quit then some (s.put t (⟨td, .stopSend⟩ :: r)) else some (s.ret t td r .stop false)
  -- `Flush`, lines 180-185
  | ⟨td, .locked .flush⟩ :: r =>
    if s.quit then some (s.ret t td r .flush false)
    else some { s.put t (⟨body s.exports, .idle⟩ :: ⟨td, .flushing⟩ :: r) with exports := s.exports + 1, log := s.log ++ [.flushBegin] }
  -- lines 170-172
  | ⟨td, .stopClose⟩ :: r => some { s.ret t td r .stop false with quit := false }
  | _ => none

/-- A step of: a goroutine in the code of a caller; the goroutine of the reader in `startInternal`; a caller of `Stop` and it, on `quit`
or on `done`; the ticker. -/
inductive Act where
  | call (t : Tid)
  | loop
  | sendQuit (t : Tid)
  | recvDone (t : Tid)
  | tick
  deriving DecidableEq, Repr

/-- One step; `none` if the goroutine cannot take it. -/
def step (body : Nat → List Op) (s : St) : Act → Option St
  | .call t => call body s t
  | .loop => match s.loop with
    -- lines 147-148
    | .sel => if s.pending then some { s.put .loop [⟨body s.exports, .idle⟩] with
        pending := false, loop := .exporting, exports := s.exports + 1, log := s.log ++ [.exportBegin] } else none
    -- line 150
    | .quitting => some { s with loop := .sendDone, pending := false }
    | _ => none
  -- lines 168 and 149
  | .sendQuit t => match s.stack t, s.loop with
    | ⟨td, .stopSend⟩ :: r, .sel => some { s.put t (⟨td, .stopWait⟩ :: r) with loop := .quitting }
    | _, _ => none
  -- lines 169 and 151
  | .recvDone t => match s.stack t, s.loop with
    | ⟨td, .stopWait⟩ :: r, .sendDone => some { s.put t (⟨td, .stopClose⟩ :: r) with loop := .none }
    | _, _ => none
  | .tick => if s.loop = .sel ∨ s.loop = .exporting then some { s with pending := true } else none

/-- An execution; a step that cannot be taken is left out. -/
def run (body : Nat → List Op) (s : St) : List Act → St
  | [] => s
  | a :: as => run body ((step body s a).getD s) as

end Verif.Metric.ReaderCalls
