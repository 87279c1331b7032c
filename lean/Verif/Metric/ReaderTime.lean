import Verif.Metric.Reader

/-!
# The interval reader in time (metric/metricexport/reader.go)

The state machine of `Metric/Reader` with a clock: every step of it happens at a time, a ticker ticks when its time has come,
and any time passes between steps. Times are in nanoseconds.
-/

namespace Verif.Metric.ReaderTime
open Verif Verif.Metric Verif.Metric.Reader

/-- What is seen and when. For `started`, `interval` is the `ReportingInterval` that the call of `Start` found. -/
structure Stamp where
  time : Int
  ev : Ev
  interval : Int
  deriving DecidableEq, Repr

/-- The reader, the time, the time of the next tick of each ticker, and what was seen. -/
structure St where
  s : Reader.St
  now : Int
  next : Nat → Int
  log : List Stamp

def new (progs : Nat → List Op) (t0 : Int) : St := ⟨Reader.new progs, t0, fun _ => 0, []⟩

/-- Time passes, or a step of the reader. -/
inductive Move where
  | advance (δ : Nat)
  | act (a : Act)

/-- The interval of the call of `Start` that makes the step. -/
def interval (s : Reader.St) : Act → Int
  | .client t => match (s.cl t).pc with
    | .locked (.start i) => i
    | _ => 0
  | _ => 0

/-- The times of the next ticks after a step. A ticker that `Start` makes (`time.NewTicker`, reader.go:136) ticks one period
later. One that ticks does so again at the next multiple of its period that is not over (package `time`, which "will
adjust the time interval or drop ticks to make up for slow receivers"; runtime/time.go). -/
def nexts (x : St) (a : Act) (s' : Reader.St) : Nat → Int := fun k =>
  match x.s.tickers[k]?, s'.tickers[k]? with
  | none, some tk => x.now + tk.period
  | some tk, _ => match a with
    | .tick j => if j = k then x.next k + tk.period * (1 + (x.now - x.next k) / tk.period) else x.next k
    | _ => x.next k
  | none, none => x.next k

/-- A ticker's timer goes off when its time has come, or later. -/
def due (x : St) : Act → Bool
  | .tick k => decide (x.next k ≤ x.now)
  | _ => true

def step (x : St) : Move → Option St
  | .advance δ => some { x with now := x.now + δ }
  | .act a => if due x a then (Reader.step x.s a).map fun s' =>
      ⟨s', x.now, nexts x a s', x.log ++ (s'.log.drop x.s.log.length).map fun e => ⟨x.now, e, interval x.s a⟩⟩
    else none

def run (x : St) : List Move → Option St
  | [] => some x
  | m :: ms => (step x m).bind fun x' => run x' ms

end Verif.Metric.ReaderTime
