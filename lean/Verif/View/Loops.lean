import Verif.Basic

/-!
# A meter that is started and stopped any number of times (stats/view/worker.go:283-315)

`Start` makes a goroutine each time it is called, and nothing stops a program from calling it again, before or after `Stop`. Every such
goroutine runs the same loop on the same channels. `Verif.View.Conc` has one loop and all the commands; here are any number of loops, and
of the commands only recordings, as numbers.

A step is one channel operation, one closing of a channel, one handling of a command, or one call on the manager of the producers.
Simplified: a tick can come at any time and changes nothing here. Handlers of commands other than recordings read the maps of the meter
without its mutex (worker_commands.go:43-50), which with two loops is a data race; this is not modelled.
-/

namespace Verif.View.Loops
open Verif

/-- The calls on a meter, worker.go:283, 306, 214. -/
inductive Call where
  | start
  | stop
  | record (n : Nat)
  deriving DecidableEq, Repr

/-- Where a goroutine of the program is: worker.go:221 (sending), 308 (stopDel), 309-310 (stopSel), 312 (stopClose), 314 (stopWait). -/
inductive Ph where
  | idle
  | sending (n : Nat)
  | stopDel
  | stopSel
  | stopClose
  | stopWait
  deriving DecidableEq, Repr

/-- A goroutine of the program, which calls worker.go:283, 306 and 214. -/
structure Th where
  todo : List Call
  ph : Ph
  deriving DecidableEq, Repr

/-- Where a loop is: worker.go:289 (starting), 292 (select), 294 (got), 299 (closeC), 300 (closeDone), 301 (exited). -/
inductive LP where
  | starting
  | select
  | got (n : Nat)
  | closeC
  | closeDone
  | exited
  deriving DecidableEq, Repr

/-- Why the process ended: a send to `w.c` closed (worker.go:221), `w.quit` closed twice (312), a nil command from `w.c` closed (293-294),
`w.c` closed twice (299), `w.done` closed twice (300). -/
inductive Cause where
  | sendClosed
  | closeQuit
  | nilCmd
  | closeC
  | closeDone
  deriving DecidableEq, Repr

/-- The meter, worker.go:44-58 and 266-278, its loops and the goroutines of the program; `producer`: the meter is among the producers of
the global manager; `sent` and `log`: the recordings sent and handled. -/
structure St where
  threads : List Th
  cap : Nat
  chan : List Nat
  loops : List LP
  quitClosed : Bool
  cClosed : Bool
  doneClosed : Bool
  producer : Bool
  crash : Option Cause
  sent : List Nat
  log : List Nat
  deriving DecidableEq, Repr

/-- `NewMeter`, worker.go:266-278. -/
def init (cap : Nat) (progs : List (List Call)) : St :=
  ⟨progs.map (⟨·, .idle⟩), cap, [], [], false, false, false, false, none, [], []⟩

/-- What a loop does at its select, worker.go:292-302; elsewhere it has no choice. -/
inductive Ch where
  | recv
  | tick
  | quit
  | go
  deriving DecidableEq, Repr

/-- Who makes the next step: a goroutine of the program, or a loop (worker.go:284). -/
inductive Act where
  | thread (t : Nat)
  | loop (j : Nat) (c : Ch)
  deriving DecidableEq, Repr

/-- A goroutine goes on; worker.go:283-315 as in `threadStep`. -/
def St.put (s : St) (t : Nat) (th : Th) : St := { s with threads := s.threads.set t th }
/-- A loop goes on; worker.go:287-304 as in `loopStep`. -/
def St.putLoop (s : St) (j : Nat) (l : LP) : St := { s with loops := s.loops.set j l }

/-- A goroutine of the program: `Start` (worker.go:283-285), `Stop` (306-315), a recording (214-222). -/
def threadStep (s : St) (t : Nat) : Option St := match s.threads[t]? with
  | none => none
  | some ⟨todo, ph⟩ => match ph with
    | .idle => match todo with
      | [] => none
      | .start :: todo => some { s.put t ⟨todo, .idle⟩ with loops := s.loops ++ [.starting] }
      | .stop :: todo => some (s.put t ⟨todo, .stopDel⟩)
      | .record n :: todo => some (s.put t ⟨todo, .sending n⟩)
    | .sending n =>
      if s.cClosed then some { s with crash := some .sendClosed }
      else if s.chan.length < s.cap then some { s.put t ⟨todo, .idle⟩ with chan := s.chan ++ [n], sent := s.sent ++ [n] }
      else none
    | .stopDel => some { s.put t ⟨todo, .stopSel⟩ with producer := false }
    | .stopSel => some (s.put t ⟨todo, if s.quitClosed then .stopWait else .stopClose⟩)
    | .stopClose =>
      if s.quitClosed then some { s with crash := some .closeQuit }
      else some { s.put t ⟨todo, .stopWait⟩ with quitClosed := true }
    | .stopWait => if s.doneClosed then some (s.put t ⟨todo, .idle⟩) else none

/-- A loop, worker.go:287-304. A receive from a closed channel gives what is left in it, and then nil. -/
def loopStep (s : St) (j : Nat) (c : Ch) : Option St := match s.loops[j]?, c with
  | some .starting, .go => some { s.putLoop j .select with producer := true }
  | some .select, .recv => match s.chan with
    | n :: q => some { s.putLoop j (.got n) with chan := q }
    | [] => if s.cClosed then some { s with crash := some .nilCmd } else none
  | some .select, .tick => some s
  | some .select, .quit => if s.quitClosed then some (s.putLoop j .closeC) else none
  | some (.got n), .go => some { s.putLoop j .select with log := s.log ++ [n] }
  | some .closeC, .go =>
    if s.cClosed then some { s with crash := some .closeC } else some { s.putLoop j .closeDone with cClosed := true }
  | some .closeDone, .go =>
    if s.doneClosed then some { s with crash := some .closeDone } else some { s.putLoop j .exited with doneClosed := true }
  | _, _ => none

/-- One step of the process; worker.go as in the two above. -/
def step (s : St) (a : Act) : Option St :=
  if s.crash.isSome then none
  else match a with
    | .thread t => threadStep s t
    | .loop j c => loopStep s j c

/-- A schedule; worker.go as in `step`. -/
def exec (s : St) : List Act → Option St
  | [] => some s
  | a :: as => (step s a).bind fun s => exec s as

end Verif.View.Loops
