import Verif.Basic

/-!
# Concurrent `End`, `RegisterExporter` and `UnregisterExporter`
(trace/trace.go:276-303, trace/export.go:38-71, with `sync.Once` and `sync.Mutex` as documented)

Any number of goroutines run programs of these calls. One step is one access to shared memory: an
atomic load or store, taking or releasing a lock, one `ExportSpan` call. A step of a blocked goroutine
does not exist. `sync.Once.Do` is the code of package sync: load `done`; if it is 0 lock, look again,
run the function, store 1, unlock. Exporters that panic or call back into the API are
in `Verif.Conc.ExportCalls`. What the spans contain is not modelled here (see `Verif.Trace.Span`).
-/

namespace Verif.Trace.EndConc
open Verif

abbrev Exporter := Nat

inductive Call where
  | endSpan (i : Nat)
  | register (e : Exporter)
  | unregister (e : Exporter)
  deriving DecidableEq

/-- Where a goroutine is. -/
inductive PC where
  | idle
  | fast (i : Nat)                                        -- at the load of `done` in Once.Do
  | lock (i : Nat)                                        -- at Once's m.Lock()
  | check (i : Nat)                                       -- at the second look at `done`
  | load (i : Nat)                                        -- trace.go:288
  | data (i : Nat) (exp : List Exporter) (must : Bool)    -- trace.go:291-295
  | exporting (i : Nat) (rem : List Exporter)             -- trace.go:297-299
  | setDone (i : Nat)
  | unlock (i : Nat)
  | regLock (add : Bool) (e : Exporter)                   -- export.go:46, 61
  | regLoad (add : Bool) (e : Exporter)                   -- export.go:48-53, 63-68
  | regStore (add : Bool) (e : Exporter) (new : List Exporter)  -- export.go:55, 70
  | regUnlock (add : Bool) (e : Exporter)                 -- export.go:56, 71
  deriving DecidableEq

/-- What happens, in order: ghost state used to state properties. -/
inductive Ev where
  | called (t : Nat) (c : Call)       -- goroutine t calls the function
  | added (t : Nat) (e : Exporter)    -- the new map with `e` is stored, by goroutine t
  | removed (t : Nat) (e : Exporter)
  | loaded (i : Nat)                  -- the function given to Once.Do starts: it loads the exporters
  | finished (i : Nat)                -- spanStore.finished
  | exported (e : Exporter) (i : Nat) -- e.ExportSpan(sd)
  | returned (t i : Nat)              -- End of span i returns in goroutine t
  | regReturned (t : Nat) (add : Bool) (e : Exporter)  -- RegisterExporter or UnregisterExporter returns
  deriving DecidableEq

/-- Spans: which are recording, sampled, in a span store. -/
structure Spans where
  recording : Nat → Bool
  sampled : Nat → Bool
  hasStore : Nat → Bool

structure St where
  exporters : List Exporter           -- the current map; it is never modified, only replaced
  mu : Option Nat                     -- who holds exporterMu
  done : Nat → Bool
  once : Nat → Option Nat             -- who holds the lock of a span's Once
  pc : Nat → PC
  todo : Nat → List Call
  evs : List Ev

def upd {α : Type} (f : Nat → α) (t : Nat) (x : α) : Nat → α := fun u => if u = t then x else f u

/-- The new map of RegisterExporter and UnregisterExporter. -/
def newMap (add : Bool) (e : Exporter) (old : List Exporter) : List Exporter :=
  if add then (if e ∈ old then old else old ++ [e]) else old.filter (fun x => decide (x ≠ e))

/-- A step of goroutine `t`; `c` chooses the next exporter of the range loop. -/
def step (sp : Spans) (st : St) (t c : Nat) : Option St :=
  let go := fun (st : St) (p : PC) => some { st with pc := upd st.pc t p }
  match st.pc t with
  | .idle => match st.todo t with
    | [] => none
    | call :: rest =>
      let st := { st with todo := upd st.todo t rest, evs := st.evs ++ [.called t call] }
      match call with
      | .endSpan i => if !sp.recording i then go { st with evs := st.evs ++ [.returned t i] } .idle else go st (.fast i)
      | .register e => go st (.regLock true e)
      | .unregister e => go st (.regLock false e)
  | .fast i => if st.done i then go { st with evs := st.evs ++ [.returned t i] } .idle else go st (.lock i)
  | .lock i => match st.once i with
    | some _ => none
    | none => go { st with once := upd st.once i (some t) } (.check i)
  | .check i => if st.done i then go st (.unlock i) else go st (.load i)
  | .load i =>
    let st := { st with evs := st.evs ++ [.loaded i] }
    let exp := st.exporters
    let must := sp.sampled i && decide (exp.length > 0)
    if sp.hasStore i || must then go st (.data i exp must) else go st (.setDone i)
  | .data i exp must =>
    go (if sp.hasStore i then { st with evs := st.evs ++ [.finished i] } else st)
      (.exporting i (if must then exp else []))
  | .exporting i rem => match rem with
    | [] => go st (.setDone i)
    | _ => match rem[c]? with
      | none => none
      | some e => go { st with evs := st.evs ++ [.exported e i] } (.exporting i (rem.eraseIdx c))
  | .setDone i => go { st with done := upd st.done i true } (.unlock i)
  | .unlock i => go { st with once := upd st.once i none, evs := st.evs ++ [.returned t i] } .idle
  | .regLock a e => match st.mu with
    | some _ => none
    | none => go { st with mu := some t } (.regLoad a e)
  | .regLoad a e => go st (.regStore a e (newMap a e st.exporters))
  | .regStore a e new =>
    go { st with exporters := new, evs := st.evs ++ [if a then .added t e else .removed t e] } (.regUnlock a e)
  | .regUnlock a e => go { st with mu := none, evs := st.evs ++ [.regReturned t a e] } .idle

/-- A schedule: who runs next, and the choices. -/
def run (sp : Spans) (st : St) : List (Nat × Nat) → Option St
  | [] => some st
  | (t, c) :: l => (step sp st t c).bind fun st => run sp st l

def init (programs : Nat → List Call) : St :=
  ⟨[], none, fun _ => false, fun _ => none, fun _ => .idle, programs, []⟩

end Verif.Trace.EndConc
