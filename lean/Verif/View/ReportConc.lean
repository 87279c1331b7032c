import Verif.Basic

/-!
# Reports, exporters and the two locks of a meter (stats/view/worker.go)

`Verif.View.Worker` says what a report hands out. This file is about when: goroutines register and
unregister exporters while reports are made, and `ExportView` may itself call the meter. The state is
what synchronises them: `w.mu`, `w.exportersMu`, the command channel and the set of exporters. What
is collected is left out; how many views a tick or an `Unregister` reports is chosen by the schedule.
Any number of loops may run on one meter (`Start` called more than once). `Stop` is not a call here.
-/

namespace Verif.View.ReportConc
open Verif

/-- `RegisterExporter(e)` and `UnregisterExporter(e)`, stats/view/worker.go:412-424. -/
inductive Op where
  | add (e : Nat)
  | del (e : Nat)
  deriving DecidableEq, Repr

/-- Commands whose sender waits for a reply: `Unregister` of `n` registered views
(worker_commands.go:90-109), commands whose handler takes `w.mu` (`Register`, `RetrieveData`:
worker_commands.go:58-80, 123-146 and worker.go:330), and the others (`Find`,
`SetReportingPeriod`). -/
inductive Kind where
  | unregister (n : Nat)
  | locked
  | plain
  deriving DecidableEq, Repr

/-- Calls on the meter. `read` is `Read`, worker.go:396-410. -/
inductive Call where
  | exporter (op : Op)
  | command (k : Kind)
  | record
  | read
  deriving DecidableEq, Repr

/-- Where a goroutine is inside a call. -/
inductive Cur where
  | idle
  | wantE (op : Op)            -- at `w.exportersMu.Lock()`, worker.go:413, 420
  | inE (op : Op)              -- holding it
  | out (op : Op)              -- released, about to return
  | sending (k : Option Kind)  -- at `w.c <- req`; `none` is a recording
  | awaiting                   -- at `<-req.c`
  | wantMu                     -- at `w.mu.Lock()` of `Read`, worker.go:397
  | inMu                       -- holding it
  deriving DecidableEq, Repr

/-- Why a view is reported: on a tick (holding `w.mu`), or for an `Unregister` of this goroutine. -/
inductive Src where
  | tick
  | unregister (who : Nat)
  deriving DecidableEq, Repr

/-- Where a worker loop is, worker.go:287-304; `n` is the number of further views to report. -/
inductive Loop where
  | select
  | lockMu (n : Nat)                                -- `w.mu.Lock()` of reportUsage, worker.go:381
  | unlockMu                                        -- its deferred unlock
  | handler (who : Option Nat)                      -- a handler at `w.mu.Lock()`; `none`: a recording
  | lockE (src : Src) (n : Nat)                     -- `w.exportersMu.Lock()` of reportView, :373
  | range (src : Src) (n : Nat) (es : List Nat)     -- ranging over the exporters, :375
  | call (src : Src) (n : Nat) (es : List Nat) (e : Nat)   -- inside `e.ExportView(viewData)`, :376
  | remove (who : Nat) (n : Nat)                    -- `w.mu.Lock()` of unregisterView, :353
  deriving DecidableEq, Repr

/-- A goroutine: a client running calls, or a worker loop. Inside `ExportView` the calls are those of
the exporter. -/
structure G where
  todo : List Call
  cur : Cur
  loop : Option Loop
  deriving DecidableEq, Repr

/-- What can be observed, in order. -/
inductive Ev where
  | called (i : Nat) (op : Op)
  | returned (i : Nat) (op : Op)
  | reportBegin (i : Nat)
  | reportEnd (i : Nat)
  | exportBegin (i e : Nat)
  | exportEnd (i e : Nat)
  deriving DecidableEq, Repr

structure State where
  gs : List G
  mu : Option Nat              -- the goroutine holding w.mu
  emu : Option Nat             -- the goroutine holding w.exportersMu
  exps : List Nat              -- w.exporters
  cap : Nat
  chan : List (Nat × Option Kind)
  trace : List Ev

/-- Goroutines about to run their calls, and worker loops at their select. -/
def init (cap : Nat) (progs : List (List Call)) (loops : Nat) : State :=
  ⟨progs.map (fun p => ⟨p, .idle, none⟩) ++ List.replicate loops ⟨[], .idle, some .select⟩,
    none, none, [], cap, [], []⟩

def State.upd (s : State) (i : Nat) (g : G) (evs : List Ev) : State :=
  { s with gs := s.gs.set i g, trace := s.trace ++ evs }

/-- The reply reaches the goroutine waiting for it. -/
def State.reply (s : State) (j : Nat) : State :=
  { s with gs := s.gs.modify j (fun g => if g.cur = .awaiting then { g with cur := .idle } else g) }

/-- The map of exporters after the call. -/
def Op.apply (exps : List Nat) : Op → List Nat
  | .add e => if e ∈ exps then exps else exps ++ [e]
  | .del e => exps.filter (· ≠ e)

/-- One step of a goroutine inside a call, or starting its next one. Changing the map
and the deferred unlock are one step: the map is only touched by holders of the lock. -/
def stepCall (s : State) (i : Nat) (g : G) : Option State :=
  match g.cur with
  | .idle => match g.todo with
    | [] => none
    | .exporter op :: r => some (s.upd i { g with todo := r, cur := .wantE op } [.called i op])
    | .command k :: r => some (s.upd i { g with todo := r, cur := .sending (some k) } [])
    | .record :: r => some (s.upd i { g with todo := r, cur := .sending none } [])
    | .read :: r => some (s.upd i { g with todo := r, cur := .wantMu } [])
  | .wantE op =>
    if s.emu = none then some { s.upd i { g with cur := .inE op } [] with emu := some i } else none
  | .inE op =>
    some { s.upd i { g with cur := .out op } [] with emu := none, exps := op.apply s.exps }
  | .out op => some (s.upd i { g with cur := .idle } [.returned i op])
  | .sending k =>
    if s.chan.length < s.cap then
      some { s.upd i { g with cur := if k.isSome then .awaiting else .idle } [] with
        chan := s.chan ++ [(i, k)] }
    else none
  | .awaiting => none
  | .wantMu =>
    if s.mu = none then some { s.upd i { g with cur := .inMu } [] with mu := some i } else none
  | .inMu => some { s.upd i { g with cur := .idle } [] with mu := none }

/-- What the schedule decides besides the goroutine: at the select a tick with so many views, or a
command; the order of a range over the exporters; the calls an `ExportView` makes. -/
structure Action where
  g : Nat
  tick : Option Nat
  order : List Nat
  calls : List Call

/-- After the report of one view. -/
def afterReport : Src → Nat → Loop
  | .tick, 0 => .unlockMu
  | .tick, n + 1 => .lockE .tick n
  | .unregister who, n => .remove who n

/-- One step of a worker loop, worker.go:287-304, 352-386, worker_commands.go. -/
def stepLoop (s : State) (i : Nat) (g : G) (a : Action) : Loop → Option State
  | .select => match a.tick with
    | some n => some (s.upd i { g with loop := some (.lockMu n) } [])
    | none => match s.chan with
      | [] => none
      | (_, none) :: rest =>
        some { s.upd i { g with loop := some (.handler none) } [] with chan := rest }
      | (j, some .locked) :: rest =>
        some { s.upd i { g with loop := some (.handler (some j)) } [] with chan := rest }
      | (j, some .plain) :: rest => some { s.reply j with chan := rest }
      | (j, some (.unregister 0)) :: rest => some { s.reply j with chan := rest }
      | (j, some (.unregister (n + 1))) :: rest =>
        some { s.upd i { g with loop := some (.lockE (.unregister j) n) } [] with chan := rest }
  | .lockMu n =>
    if s.mu = none then
      some { s.upd i { g with loop := some (match n with
        | 0 => .unlockMu
        | n + 1 => .lockE .tick n) } [] with mu := some i }
    else none
  | .unlockMu => some { s.upd i { g with loop := some .select } [] with mu := none }
  | .handler who =>
    if s.mu = none then
      match who with
      | none => some (s.upd i { g with loop := some .select } [])
      | some j => some ((s.upd i { g with loop := some .select } []).reply j)
    else none
  | .lockE src n =>
    if s.emu = none ∧ a.order.Perm s.exps then
      some { s.upd i { g with loop := some (.range src n a.order) } [.reportBegin i] with emu := some i }
    else none
  | .range src n [] =>
    some { s.upd i { g with loop := some (afterReport src n) } [.reportEnd i] with emu := none }
  | .range src n (e :: es) =>
    some (s.upd i ⟨a.calls, .idle, some (.call src n es e)⟩ [.exportBegin i e])
  | .call src n es e =>
    if g.cur = .idle ∧ g.todo = [] then
      some (s.upd i { g with loop := some (.range src n es) } [.exportEnd i e])
    else stepCall s i g
  | .remove who n =>
    if s.mu = none then
      match n with
      | 0 => some ((s.upd i { g with loop := some .select } []).reply who)
      | n + 1 => some (s.upd i { g with loop := some (.lockE (.unregister who) n) } [])
    else none

/-- One step of the system. -/
def step (s : State) (a : Action) : Option State :=
  match s.gs[a.g]? with
  | none => none
  | some g => match g.loop with
    | none => stepCall s a.g g
    | some l => stepLoop s a.g g a l

/-- A schedule. -/
def exec (s : State) : List Action → Option State
  | [] => some s
  | a :: as => (step s a).bind fun s => exec s as

end Verif.View.ReportConc
