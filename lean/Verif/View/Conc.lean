import Verif.View.Worker
import Verif.Stats.Measure

/-!
# Goroutines, the command channel and the worker loop (stats/view/worker.go)

Any number of goroutines run programs of API calls against one meter. A step of the system is one
step of a goroutine, the worker loop handling one command, a tick, the launch of the loop, or the
loop leaving. A schedule is a list of steps; nothing is assumed about it.

Atomicity. A channel operation, closing a channel and a command's handler are each one step. The
handler runs on the worker's goroutine, which alone touches the state it changes. A handler that
replies does so on an unbuffered channel on which the caller is already waiting, so handling and
replying are one step. The loads of the subscription flags by `Record` are one step: a flag only goes
from false to true, so loads that all return false could all have been made at the first of them, and
a load that returns true decides alone.

`Start` is called at most once (`launch`): a second loop on one meter is not modelled. `Read` only
reads and is not a step.
-/

namespace Verif.View.Conc
open Verif Verif.Tag Verif.Stats Verif.View

/-- Calls on a meter (stats/view/worker.go: Find 128-136, Register 146-153, Unregister 167-178,
RetrieveData 188-197, recordMeasurement 214-222, SetReportingPeriod 247-256, Stop 306-315,
RegisterExporter and UnregisterExporter 412-423), a recording being made through package stats. -/
inductive Call where
  | register (vs : List ViewDef)
  | unregister (ns : List Bytes)
  | retrieve (n : Bytes)
  | find (n : Bytes)
  | setPeriod (d : Int)
  | record (r : RecordReq)
  | addExporter (e : Nat)
  | delExporter (e : Nat)
  | stop

/-- The command a call sends over the channel; `now` is what the clock says. -/
def Call.cmd (now : Int) : Call → Option Cmd
  | .register vs => some (.register now vs)
  | .unregister ns => some (.unregister now ns)
  | .retrieve n => some (.retrieve n)
  | .find n => some (.find n)
  | .setPeriod d => some (.setPeriod d)
  | .record r => some (.record now r)
  | _ => none

/-- Does the sender wait for a reply: all but `Record` do. -/
def isSync : Cmd → Bool
  | .record _ _ => false
  | _ => true

/-- Where a goroutine is inside a call. -/
inductive Phase where
  | idle
  | sending (c : Cmd)     -- at `w.c <- req`
  | waiting (c : Cmd)     -- at `<-req.c`
  | stopSelect            -- at the select of Stop, worker.go:309
  | stopClose             -- at `close(w.quit)`, worker.go:312
  | stopWait              -- at `<-w.done`, worker.go:314

structure Thread where
  todo : List Call
  phase : Phase

/-- The worker loop `start`, worker.go:287-304. -/
inductive Loop where
  | notStarted | running | exited
  deriving DecidableEq, Repr

/-- What happens, in order: ghost state used only to state properties. -/
inductive Ev where
  | called (i : Nat) (c : Call)
  | skipped (i : Nat) (r : RecordReq)           -- Record returned without sending
  | sent (i : Nat) (c : Cmd)
  | handled (i : Nat) (c : Cmd) (r : Reply)     -- and the reply received by the sender, if it waits
  | stopped (i : Nat)                           -- Stop returned

structure State where
  threads : List Thread
  cap : Nat                    -- capacity of w.c, worker.go:272
  chan : List (Nat × Cmd)      -- contents of w.c with the sender
  w : Worker
  reg : Measures
  loop : Loop
  quitClosed : Bool
  chanClosed : Bool
  doneClosed : Bool
  crashed : Bool               -- a goroutine panicked
  trace : List Ev

/-- `NewMeter`, worker.go:266-278, and goroutines about to run their programs. -/
def init (cap : Nat) (reg : Measures) (progs : List (List Call)) : State :=
  ⟨progs.map (fun p => ⟨p, .idle⟩), cap, [], newWorker, reg, .notStarted, false, false, false, false, []⟩

def State.setThread (s : State) (i : Nat) (th : Thread) (evs : List Ev) : State :=
  { s with threads := s.threads.set i th, trace := s.trace ++ evs }

/-- A goroutine that is about to make a call. -/
def stepCall (s : State) (i : Nat) (now : Int) (c : Call) (rest : List Call) : State :=
  match c with
  | .record r => match anySubscribed s.reg r.ms with     -- stats/record.go:145-154
    | .ok true => s.setThread i ⟨rest, .sending (.record now r)⟩ [.called i c]
    | .ok false => s.setThread i ⟨rest, .idle⟩ [.called i c, .skipped i r]
    | _ => { s with crashed := true }
  | .addExporter e => match handle s.w s.reg (.addExporter e) with
    | .ok (w, reg, _) => { s.setThread i ⟨rest, .idle⟩ [.called i c] with w := w, reg := reg }
    | _ => { s with crashed := true }
  | .delExporter e => match handle s.w s.reg (.delExporter e) with
    | .ok (w, reg, _) => { s.setThread i ⟨rest, .idle⟩ [.called i c] with w := w, reg := reg }
    | _ => { s with crashed := true }
  | .stop => s.setThread i ⟨rest, .stopSelect⟩ [.called i c]
  | .register vs => s.setThread i ⟨rest, .sending (.register now vs)⟩ [.called i c]
  | .unregister ns => s.setThread i ⟨rest, .sending (.unregister now ns)⟩ [.called i c]
  | .retrieve n => s.setThread i ⟨rest, .sending (.retrieve n)⟩ [.called i c]
  | .find n => s.setThread i ⟨rest, .sending (.find n)⟩ [.called i c]
  | .setPeriod d => s.setThread i ⟨rest, .sending (.setPeriod d)⟩ [.called i c]

/-- One step of goroutine `i`; `none` when it is blocked or has finished. -/
def stepThread (s : State) (i : Nat) (now : Int) : Option State :=
  match s.threads[i]? with
  | none => none
  | some ⟨todo, .idle⟩ => match todo with
    | [] => none
    | c :: rest => some (stepCall s i now c rest)
  | some ⟨todo, .sending c⟩ =>
    if s.chanClosed then some { s with crashed := true }       -- send on closed channel
    else if s.chan.length < s.cap then
      some { s.setThread i ⟨todo, if isSync c then .waiting c else .idle⟩ [.sent i c] with
        chan := s.chan ++ [(i, c)] }
    else none
  | some ⟨_, .waiting _⟩ => none
  | some ⟨todo, .stopSelect⟩ =>
    some (s.setThread i ⟨todo, if s.quitClosed then .stopWait else .stopClose⟩ [])
  | some ⟨todo, .stopClose⟩ =>
    if s.quitClosed then some { s with crashed := true }       -- close of closed channel
    else some { s.setThread i ⟨todo, .stopWait⟩ [] with quitClosed := true }
  | some ⟨todo, .stopWait⟩ =>
    if s.doneClosed then some (s.setThread i ⟨todo, .idle⟩ [.stopped i]) else none

/-- The waiting sender of a command gets its reply. -/
def reply (ths : List Thread) (i : Nat) (c : Cmd) : List Thread :=
  if isSync c then ths.modify i (fun th => { th with phase := .idle }) else ths

/-- The loop takes a command off the channel and handles it, worker.go:293-294. -/
def stepHandle (s : State) : Option State :=
  if s.loop = .running then match s.chan with
    | [] => none
    | (i, c) :: rest => match handle s.w s.reg c with
      | .ok (w, reg, r, _) => some { s with threads := reply s.threads i c, chan := rest, w := w, reg := reg, trace := s.trace ++ [.handled i c r] }
      | _ => some { s with crashed := true }
  else none

/-- The loop handles a tick, worker.go:295-296. -/
def stepTick (s : State) (now : Int) : Option State :=
  if s.loop = .running then match handle s.w s.reg (.tick now) with
    | .ok (w, reg, _, _) => some { s with w := w, reg := reg }
    | _ => some { s with crashed := true }
  else none

/-- The loop sees `quit` closed and leaves, worker.go:297-301. -/
def stepQuit (s : State) : Option State :=
  if s.loop = .running ∧ s.quitClosed then
    some { s with loop := .exited, chanClosed := true, doneClosed := true }
  else none

/-- `Start`, worker.go:283-285. -/
def stepLaunch (s : State) : Option State :=
  if s.loop = .notStarted then some { s with loop := .running } else none

inductive Action where
  | thread (i : Nat) (now : Int)
  | handle
  | tick (now : Int)
  | quit
  | launch

/-- One step of the system; a crashed program makes none. -/
def step (s : State) (a : Action) : Option State :=
  if s.crashed then none
  else match a with
    | .thread i now => stepThread s i now
    | .handle => stepHandle s
    | .tick now => stepTick s now
    | .quit => stepQuit s
    | .launch => stepLaunch s

/-- A schedule. -/
def exec (s : State) : List Action → Option State
  | [] => some s
  | a :: as => (step s a).bind fun s => exec s as

end Verif.View.Conc
