import Verif.View.Metric

/-!
# `Read` while the worker handles commands (stats/view/worker.go, worker_commands.go)

The worker's goroutine takes commands off the channel and handles them; any number of other goroutines
call `Read`, as metric readers do through the producer manager. One step is one access to what they
share: taking or releasing `w.mu`, a load or store of a view's `subscribed` flag, replacing or
reading the rows of a view, adding a sample to one view, a change of the worker's maps made while
`w.mu` is held by the worker.

Not modelled here: the callers that wait for a reply (`Verif.View.Conc`) and exporters
(`Verif.View.ReportConc`); a command is answered when its handling is done. A panic ends the program: there is no
next step. The map of rows that a view has is read in one step: only the worker changes its contents, and
only while it holds `w.mu`.
-/

namespace Verif.View.ReadConc
open Verif Verif.Tag Verif.Stats Verif.View

/-- Where the worker's goroutine is. -/
inductive Loop where
  | idle                                                        -- at the select, worker.go:291-303
  | regTry (now : Int) (vs : List ViewDef)                      -- at tryRegisterView, worker_commands.go:67
  | regMeasure (now : Int) (a : Nat) (m : Measure) (vs : List ViewDef)  -- worker_commands.go:72
  | regSub (now : Int) (a : Nat) (vs : List ViewDef)            -- at vi.subscribe(), worker_commands.go:73
  | unNext (now : Int) (ns : List Bytes)                        -- at the loop's head, worker_commands.go:91-98
  | unSub (now : Int) (a : Nat) (ns : List Bytes)               -- at vi.unsubscribe(), line 100
  | unClear (now : Int) (a : Nat) (ns : List Bytes)             -- at vi.clearRows(), line 104
  | unDel (now : Int) (a : Nat) (ns : List Bytes)               -- at unregisterView, line 106
  | recLock (t : Int) (r : RecordReq)                           -- at w.mu.Lock(), line 158
  | recLoop (t : Int) (r : RecordReq) (ms : List (Option Measurement))  -- line 160
  | recAdd (t : Int) (r : RecordReq) (s : Sample F64) (as : List Nat) (ms : List (Option Measurement))  -- lines 165-167
  | retrieve (n : Bytes)                                        -- at w.mu.Lock(), line 124
  | tick (now : Int)                                            -- at w.mu.Lock() of reportUsage, worker.go:381

/-- Where a goroutine that calls `Read` is. The metrics are kept with the name of their view. -/
inductive RPC where
  | idle
  | want                                                        -- at w.mu.Lock(), worker.go:399
  | start                                                       -- worker.go:401-403
  | loop (now : Int) (rem : List (Bytes × Nat)) (acc : List (Bytes × MetricOut))  -- worker.go:403
  | loaded (now : Int) (x : Bytes) (a : Nat) (rem : List (Bytes × Nat)) (acc : List (Bytes × MetricOut))
      -- v.isSubscribed() was true: at viewToMetric, worker.go:393
  | unlock (now : Int) (acc : List (Bytes × MetricOut))         -- worker.go:409

inductive Owner where
  | worker
  | reader (t : Nat)
  deriving DecidableEq

/-- What happens, in order: ghost state used to state properties. -/
inductive Ev where
  | sent (u : Nat) (c : Cmd)                -- goroutine u puts the command on the channel
  | began                                   -- the worker takes the next command off the channel
  | done                                    -- it is done with it, and has answered
  | called (t : Nat)                        -- goroutine t calls Read
  | locked (t : Nat)                        -- its Read has the lock
  | returned (t : Nat) (now : Int) (r : List (Bytes × MetricOut))

structure St where
  w : Worker
  reg : Measures
  chan : List Cmd
  loop : Loop
  mu : Option Owner
  rpc : Nat → RPC
  evs : List Ev

def init (reg : Measures) : St := ⟨newWorker, reg, [], .idle, none, fun _ => .idle, []⟩

def upd {α : Type} (f : Nat → α) (t : Nat) (x : α) : Nat → α := fun u => if u = t then x else f u

/-- The command is handled. -/
def St.finish (st : St) : St := { st with loop := .idle, evs := st.evs ++ [.done] }

/-- The worker takes a command, worker.go:293-294: its first step that others do not notice. -/
def begin (st : St) (c : Cmd) : Option St :=
  match c with
  | .register now vs => match canonicalizeAll vs with
    | .error _ => some st.finish
    | .ok vs => some { st with loop := .regTry now vs }
  | .unregister now ns => some { st with loop := .unNext now ns }
  | .retrieve n => some { st with loop := .retrieve n }
  | .record t r => some { st with loop := .recLock t r }
  | .find n => match st.w.find n with
    | .ok _ => some st.finish
    | _ => none
  | .setPeriod _ => some st.finish
  | .tick now => some { st with loop := .tick now }
  | .addExporter e => match handle st.w st.reg (.addExporter e) with   -- under exportersMu, which Read does not take
    | .ok (w, _, _, _) => some { st with w := w }.finish
    | _ => none
  | .delExporter e => match handle st.w st.reg (.delExporter e) with
    | .ok (w, _, _, _) => some { st with w := w }.finish
    | _ => none

/-- A step of the worker's goroutine. `tryRegisterView`, `unregisterView`, `retrieveData` and `reportUsage` each
take `w.mu`, work and release it; nothing else can happen in between that concerns them, and they are one
step. Recording takes the lock, adds to one view after another, and releases it. -/
def stepLoop (st : St) : Option St :=
  match st.loop with
  | .idle => match st.chan with
    | [] => none
    | c :: rest => begin { st with chan := rest, evs := st.evs ++ [.began] } c
  | .regTry now vs => match vs with
    | [] => some st.finish
    | v :: vs => match st.mu with
      | some _ => none
      | none => match st.w.tryRegisterView v now with
        | .ok (w, none) => some { st with w := w, loop := .regTry now vs }
        | .ok (w, some a) => match v.measure with
          | none => none
          | some m => some { st with w := w, loop := .regMeasure now a m vs }
        | _ => none
  | .regMeasure now a m vs => match subscribe st.reg m.name with
    | .ok reg => some { st with reg := reg, loop := .regSub now a vs }
    | _ => none
  | .regSub now a vs => some { st with w := st.w.setSubscribed a true, loop := .regTry now vs }
  | .unNext now ns => match ns with
    | [] => some st.finish
    | n :: ns => match GoMap.get st.w.views n with
      | none => some { st with loop := .unNext now ns }
      | some a => match st.w.reportView a now with
        | .ok _ => some { st with loop := .unSub now a ns }
        | _ => none
  | .unSub now a ns => some { st with w := st.w.setSubscribed a false, loop := .unClear now a ns }
  | .unClear now a ns => some { st with w := st.w.clearRows a, loop := .unDel now a ns }
  | .unDel now a ns => match st.mu with
    | some _ => none
    | none => some { st with w := st.w.unregisterView a, loop := .unNext now ns }
  | .recLock t r => match st.mu with
    | some _ => none
    | none => some { st with mu := some .worker, loop := .recLoop t r r.ms }
  | .recLoop t r ms => match ms with
    | [] => some { st with mu := none }.finish
    | none :: ms => some { st with loop := .recLoop t r ms }
    | some m :: ms =>
      let (w, ref) := st.w.getMeasureRef m.m.name
      some { st with w := w, loop := .recAdd t r ⟨m.v, r.attachments, t⟩ ref ms }
  | .recAdd t r s as ms => match as with
    | [] => some { st with loop := .recLoop t r ms }
    | a :: as => match st.w.vis[a]? with
      | none => none
      | some vi => match vi.addSample r.tags s with
        | .ok vi => some { st with w := { st.w with vis := (st.w.vis.set a vi) }, loop := .recAdd t r s as ms }
        | _ => none
  | .retrieve n => match st.mu with
    | some _ => none
    | none => match st.w.retrieveData n with
      | .ok _ => some st.finish
      | _ => none
  | .tick now => match st.mu with
    | some _ => none
    | none => match st.w.reportUsage now with
      | .ok _ => some st.finish
      | _ => none

/-- A step of goroutine `t` in `Read`, worker.go:398-410; `now` is what the clock says, and `c` chooses the next
view of the range loop. -/
def stepRead (st : St) (t : Nat) (now : Int) (c : Nat) : Option St :=
  let go := fun (st : St) (p : RPC) => some { st with rpc := upd st.rpc t p }
  match st.rpc t with
  | .idle => go { st with evs := st.evs ++ [.called t] } .want
  | .want => match st.mu with
    | some _ => none
    | none => go { st with mu := some (.reader t), evs := st.evs ++ [.locked t] } .start
  | .start => go st (.loop now st.w.views [])
  | .loop now rem acc => match rem with
    | [] => go st (.unlock now acc)
    | _ => match rem[c]? with
      | none => none
      | some (x, a) => match st.w.vis[a]? with
        | none => none
        | some vi => if !vi.subscribed then go st (.loop now (rem.eraseIdx c) acc)
          else go st (.loaded now x a (rem.eraseIdx c) acc)
  | .loaded now x a rem acc => match st.w.vis[a]? with
    | none => none
    | some vi => match viewToMetric vi now with
      | .ok none => go st (.loop now rem acc)
      | .ok (some m) => go st (.loop now rem (acc ++ [(x, m)]))
      | _ => none
  | .unlock now acc => go { st with mu := none, evs := st.evs ++ [.returned t now acc] } .idle

/-- A step: a goroutine sends a command, the worker steps, or a reader steps. -/
inductive Action where
  | send (u : Nat) (c : Cmd)
  | work
  | read (t : Nat) (now : Int) (c : Nat)

def step (st : St) : Action → Option St
  | .send u c => some { st with chan := st.chan ++ [c], evs := st.evs ++ [.sent u c] }
  | .work => stepLoop st
  | .read t now c => stepRead st t now c

/-- A schedule. -/
def run (st : St) : List Action → Option St
  | [] => some st
  | a :: l => (step st a).bind fun st => run st l

end Verif.View.ReadConc
