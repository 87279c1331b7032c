import Verif.Basic

/-!
# When a meter reports (stats/view/worker.go, worker_commands.go)

The loop of a meter with its ticker, in time. Goroutines call `SetReportingPeriod`, and send other commands, whose
effects are left out (`Verif.View.Worker` has them); handling a command and making a report take any time. One loop
runs (`Start` was called once) and `Stop` is not called (`Verif.View.Conc` has it). Times are in nanoseconds.
-/

namespace Verif.View.Period
open Verif

/-- A `time.Ticker`: its period, the time of the next tick, and the tick its channel of capacity one can hold. -/
structure Ticker where
  period : Int
  next : Int
  pending : Bool
  deriving DecidableEq, Repr

/-- `time.NewTicker(d)`, for a positive `d`. -/
def newTicker (now d : Int) : Ticker := ⟨d, now + d, false⟩

/-- The ticker's timer goes off, at `next` or later: the tick is dropped if there is one in the channel, and the next one
is at the next multiple of the period that is not over (package `time`, which "will adjust the time interval or drop ticks
to make up for slow receivers"; runtime/time.go). -/
def Ticker.fire (tk : Ticker) (now : Int) : Option Ticker :=
  if now < tk.next then none
  else some ⟨tk.period, tk.next + tk.period * (1 + (now - tk.next) / tk.period), true⟩

/-- `defaultReportingDuration`, stats/view/worker.go:118. -/
def defaultReportingDuration : Int := 10 * 1000000000

/-- A command in the channel: a `setReportingPeriodReq` of a goroutine, stats/view/worker_commands.go:173-176, or
another one. -/
inductive Cmd where
  | set (who : Nat) (d : Int)
  | other
  deriving DecidableEq, Repr

/-- Where the loop is, stats/view/worker.go:291-303. -/
inductive Loop where
  | select
  | handling (c : Cmd)
  /-- at `cmd.c <- true`, stats/view/worker_commands.go:185 -/
  | reply (who : Nat)
  | reporting
  deriving DecidableEq, Repr

/-- Where a goroutine is in `SetReportingPeriod`, stats/view/worker.go:247-256. -/
inductive Client where
  | idle
  /-- at `w.c <- req` -/
  | sending (d : Int)
  /-- at `<-req.c` -/
  | waiting
  deriving DecidableEq, Repr

/-- What can be seen: calls of `SetReportingPeriod`, their returns, and the beginning of reports. -/
inductive Ev where
  | called (who : Nat) (d : Int)
  | returned (who : Nat)
  | report
  deriving DecidableEq, Repr

structure St where
  now : Int
  ticker : Ticker              -- w.timer
  cap : Nat                    -- of w.c
  chan : List Cmd              -- w.c
  loop : Loop
  cl : Nat → Client
  log : List (Int × Ev)

/-- `NewMeter` and `Start` at time `t0`, stats/view/worker.go:261-274, 284-290. -/
def init (t0 : Int) (cap : Nat) : St :=
  ⟨t0, newTicker t0 defaultReportingDuration, cap, [], .select, fun _ => .idle, []⟩

/-- What happens next: time passes; the ticker's timer goes off; a goroutine calls `SetReportingPeriod`, or goes on in it;
a goroutine sends another command; the loop receives a command, or a tick; it finishes what it is doing. -/
inductive Move where
  | advance (δ : Nat)
  | fire
  | call (who : Nat) (d : Int)
  | send (who : Nat)
  | command
  | takeCommand
  | takeTick
  | finish
  deriving DecidableEq, Repr

def St.setClient (s : St) (i : Nat) (c : Client) : St := { s with cl := fun j => if j = i then c else s.cl j }

/-- The ticker that `setReportingPeriodReq.handleCommand` makes, stats/view/worker_commands.go:178-184. -/
def resetTicker (now d : Int) : Ticker :=
  if d ≤ 0 then newTicker now defaultReportingDuration else newTicker now d

/-- The loop finishes what it is doing: it handles a command (stats/view/worker_commands.go:178-186), gives the goroutine
that waits its reply, or ends the report (stats/view/worker.go:296). -/
def finish (s : St) : Option St :=
  match s.loop with
  | .select => none
  | .handling .other => some { s with loop := .select }
  | .handling (.set who d) => some { s with ticker := resetTicker s.now d, loop := .reply who }
  | .reply who =>
    if s.cl who = .waiting then
      some { s.setClient who .idle with loop := .select, log := s.log ++ [(s.now, .returned who)] }
    else none
  | .reporting => some { s with loop := .select }

/-- One move; `none` if it cannot be made. -/
def step (s : St) : Move → Option St
  | .advance δ => some { s with now := s.now + δ }
  | .fire => (s.ticker.fire s.now).map fun tk => { s with ticker := tk }
  | .call who d =>
    if s.cl who = .idle then some { s.setClient who (.sending d) with log := s.log ++ [(s.now, .called who d)] } else none
  | .send who => match s.cl who with
    | .sending d => if s.chan.length < s.cap then some { s.setClient who .waiting with chan := s.chan ++ [.set who d] } else none
    | _ => none
  | .command => if s.chan.length < s.cap then some { s with chan := s.chan ++ [.other] } else none
  | .takeCommand => match s.loop, s.chan with
    | .select, c :: cs => some { s with loop := .handling c, chan := cs }
    | _, _ => none
  | .takeTick =>
    if s.loop = .select ∧ s.ticker.pending = true then
      some { s with loop := .reporting, ticker := { s.ticker with pending := false }, log := s.log ++ [(s.now, .report)] }
    else none
  | .finish => finish s

def run (s : St) : List Move → Option St
  | [] => some s
  | m :: ms => (step s m).bind fun s => run s ms

end Verif.View.Period
