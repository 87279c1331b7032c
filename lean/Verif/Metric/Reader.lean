import Verif.Basic

/-!
# Producers and the interval reader (metric/metricproducer/manager.go, metric/metricexport/reader.go)
-/

namespace Verif.Metric
open Verif

/-! ## The producer manager -/

/-- A `Producer`: an interface value that is not nil. Two are equal if the `id`s are; a value of a type
that cannot be compared cannot be the key of a map. -/
structure Producer where
  id : Nat
  hashable : Bool
  deriving DecidableEq, Repr

/-- `Manager`, metric/metricproducer/manager.go:25-28: `none` is the nil map of a `Manager` that was not
made by `GlobalManager`. Every method runs with the mutex locked from beginning to end (48-49, 58-59,
69-70), so calls are one step. -/
structure Manager where
  producers : Option (GoMap Producer Unit)

/-- The manager of `GlobalManager`, metric/metricproducer/manager.go:35-41. `sync.Once` makes it once. -/
def Manager.global : Manager := ⟨some []⟩

/-- `AddProducer`, metric/metricproducer/manager.go:44-51: `none` is a nil producer. -/
def Manager.addProducer (pm : Manager) : Option Producer → Res Manager
  | none => .ok pm
  | some p => match pm.producers with
    | none => .panic
    | some m => if p.hashable then .ok ⟨some (GoMap.set m p ())⟩ else .panic

/-- `DeleteProducer`, metric/metricproducer/manager.go:54-61. `delete` on a nil map does nothing, but panics
if the key cannot be hashed. -/
def Manager.deleteProducer (pm : Manager) : Option Producer → Res Manager
  | none => .ok pm
  | some p => if p.hashable then .ok ⟨pm.producers.map fun m => GoMap.del m p⟩ else .panic

/-- `GetAll`, metric/metricproducer/manager.go:68-78: the producers in the order the loop takes them, which
the theorems let be any order. -/
def Manager.getAll (_pm : Manager) (order : GoMap Producer Unit) : List Producer := order.map Prod.fst

/-- `ReadAndExport`, metric/metricexport/reader.go:190-200: the data given to the exporter. `producers` is
what `GetAll` returned and `read p` what `p.Read()` returns. The span (191-192) is not modelled. -/
def readAndExport {M : Type} (producers : List Producer) (read : Producer → List M) : List M :=
  producers.foldl (fun data p => data ++ read p) []

/-! ## The interval reader

A state machine: goroutines that call `Start`, `Stop` and `Flush` (clients), the goroutines `Start` starts,
and time. The channels `quit` and `done` have no buffer: a send and a receive are one step of two
goroutines. -/

namespace Reader

/-- A call. `start` carries the `ReportingInterval` at the time of the call, in nanoseconds. The receiver is
not nil. -/
inductive Op where
  | start (interval : Int)
  | stop
  | flush
  deriving DecidableEq

/-- Where a client is. Everything but `idle` is with the mutex locked. -/
inductive CPC where
  | idle
  | locked (op : Op)
  /-- at line 168 -/
  | stopSend (quit : Nat)
  /-- at line 169 -/
  | stopWait (done : Nat)
  /-- at line 170 -/
  | stopClose
  /-- in line 185 -/
  | flushing
  deriving DecidableEq

/-- A client: the calls it has still to make, where it is, and whether its calls failed. -/
structure Client where
  prog : List Op
  pc : CPC
  results : List Bool

/-- Where a goroutine of `startInternal` (lines 144-155) is. -/
inductive GPC where
  /-- at line 145 -/
  | head
  /-- in the `select`, which has evaluated `ir.quit` and `ir.timer` -/
  | sel (quit : Option Nat) (timer : Nat)
  /-- in line 148 -/
  | exporting
  /-- at line 150 -/
  | quitting
  /-- at line 151 -/
  | sendDone (done : Nat)
  | exited
  deriving DecidableEq

/-- A `time.Ticker`, with its period in nanoseconds and the one tick its channel can hold. -/
structure Ticker where
  period : Int
  active : Bool
  pending : Bool
  deriving DecidableEq

/-- What is seen from outside. -/
inductive Ev where
  | started
  | stopped
  | tick
  | exportBegin
  | exportEnd
  | flushBegin
  | flushEnd
  deriving DecidableEq, Repr

/-- `IntervalReader`, metric/metricexport/reader.go:62-73, with all goroutines. `closed` are the closed
channels, `chans` is the number of channels ever made, and `crashed` says that a goroutine panicked
(close of a closed or nil channel, send on a closed channel). -/
structure St where
  mu : Option Nat
  quit : Option Nat
  done : Nat
  timer : Nat
  tickers : List Ticker
  gs : List GPC
  cl : Nat → Client
  log : List Ev
  closed : List Nat
  chans : Nat
  crashed : Bool

/-- A new reader, `NewIntervalReader`, metric/metricexport/reader.go:100-113. -/
def new (progs : Nat → List Op) : St :=
  ⟨none, none, 0, 0, [], [], fun t => ⟨progs t, .idle, []⟩, [], [], 0, false⟩

/-- A step of: a client; a goroutine of the reader; both on `quit`; both on `done`; a ticker. -/
inductive Act where
  | client (t : Nat)
  | reader (i : Nat)
  | quitSync (t i : Nat)
  | doneSync (t i : Nat)
  | tick (k : Nat)

def St.setPC (s : St) (t : Nat) (pc : CPC) : St :=
  { s with cl := fun u => if u = t then { s.cl t with pc := pc } else s.cl u }

/-- The call of `t` returns and the mutex is unlocked. -/
def St.ret (s : St) (t : Nat) (failed : Bool) : St :=
  { s with mu := none,
           cl := fun u => if u = t then ⟨(s.cl t).prog.tail, .idle, (s.cl t).results ++ [failed]⟩ else s.cl u }

def second : Int := 1000000000

/-- The period of the ticker, metric/metricexport/reader.go:39,127-133. -/
def reportingInterval (interval : Int) : Int := if interval ≠ 0 then interval else 60 * second

/-- `Start`, metric/metricexport/reader.go:125-141, with the mutex locked. -/
def doStart (s : St) (t : Nat) (interval : Int) : St :=
  if interval ≠ 0 ∧ interval < second then s.ret t true
  else match s.quit with
    | some _ => s.ret t true
    | none =>
      { s.ret t false with
          timer := s.tickers.length
          tickers := s.tickers ++ [⟨reportingInterval interval, true, false⟩]
          quit := some s.chans
          done := s.chans + 1
          chans := s.chans + 2
          gs := s.gs ++ [.head]
          log := s.log ++ [.started] }

/-- A step of client `t`; `none` if it cannot make one. -/
def clientStep (s : St) (t : Nat) : Option St :=
  match (s.cl t).pc with
  | .idle =>
    match (s.cl t).prog with
    | [] => none
    | op :: _ => match s.mu with
      | none => some { s.setPC t (.locked op) with mu := some t }
      | some _ => none
  | .locked (.start interval) => some (doStart s t interval)
  | .locked .stop =>
    -- lines 165-168
    match s.quit with
    | none => some { s.ret t false with log := s.log ++ [.stopped] }
    | some q => some (s.setPC t (.stopSend q))
  | .locked .flush =>
    -- lines 181-185
    match s.quit with
    | some _ => some (s.ret t false)
    | none => some { s.setPC t .flushing with log := s.log ++ [.flushBegin] }
  | .stopSend q => if q ∈ s.closed then some { s with crashed := true } else none
  | .stopWait d => if d ∈ s.closed then some (s.setPC t .stopClose) else none
  | .stopClose =>
    -- lines 170-172
    match s.quit with
    | none => some { s with crashed := true }
    | some q =>
      if q ∈ s.closed ∨ s.done ∈ s.closed ∨ q = s.done then some { s with crashed := true }
      else some { s.ret t false with closed := q :: s.done :: s.closed, quit := none, log := s.log ++ [.stopped] }
  | .flushing => some { s.ret t false with log := s.log ++ [.flushEnd] }

/-- A step of goroutine `i` of the reader. -/
def readerStep (s : St) (i : Nat) : Option St :=
  match s.gs[i]? with
  | none => none
  | some .head => some { s with gs := s.gs.set i (.sel s.quit s.timer) }
  | some (.sel q k) =>
    -- a pending tick, or a closed channel (the choice is made here in favour of the tick: a closed `quit`
    -- is never seen, as is proved)
    match s.tickers[k]? with
    | some ⟨d, a, true⟩ => some { s with tickers := s.tickers.set k ⟨d, a, false⟩
                                         gs := s.gs.set i .exporting
                                         log := s.log ++ [.exportBegin] }
    | _ => match q with
      | some q => if q ∈ s.closed then some { s with gs := s.gs.set i .quitting } else none
      | none => none
  | some .exporting => some { s with gs := s.gs.set i .head, log := s.log ++ [.exportEnd] }
  | some .quitting =>
    match s.tickers[s.timer]? with
    | some ⟨d, _, p⟩ => some { s with tickers := s.tickers.set s.timer ⟨d, false, p⟩, gs := s.gs.set i (.sendDone s.done) }
    | none => some { s with crashed := true }
  | some (.sendDone d) => if d ∈ s.closed then some { s with crashed := true } else none
  | some .exited => none

/-- A step. -/
def step (s : St) : Act → Option St
  | .client t => clientStep s t
  | .reader i => readerStep s i
  | .quitSync t i =>
    -- lines 149 and 168
    match (s.cl t).pc, s.gs[i]? with
    | .stopSend q, some (.sel (some q') _) =>
      if q = q' then some { s.setPC t (.stopWait s.done) with gs := s.gs.set i .quitting } else none
    | _, _ => none
  | .doneSync t i =>
    -- lines 151 and 169
    match (s.cl t).pc, s.gs[i]? with
    | .stopWait d, some (.sendDone d') =>
      if d = d' then some { s.setPC t .stopClose with gs := s.gs.set i .exited } else none
    | _, _ => none
  | .tick k =>
    match s.tickers[k]? with
    | some ⟨d, true, _⟩ => some { s with tickers := s.tickers.set k ⟨d, true, true⟩, log := s.log ++ [.tick] }
    | _ => none

/-- Steps in some order; those that cannot be made are passed over. -/
def run (s : St) (acts : List Act) : St := acts.foldl (fun s a => (step s a).getD s) s

end Reader
end Verif.Metric
