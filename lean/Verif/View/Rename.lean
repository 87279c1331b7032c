import Verif.Basic

/-!
# View objects that the program changes after it registered them (stats/view)

A meter keeps the pointer to the `View` it was given (view.go:126-132) and reads the name, the measure and the aggregation through it
whenever it needs them; `Find` hands the pointer out. Its tables, however, are keyed by the name and the measure of the time of
registering. Here a program may write to the fields of its views at any time.

Simplified: names, measures, aggregations and samples are numbers (equal aggregations are those that `reflect.DeepEqual` takes for equal);
no tags, so a view has one row with all its samples; views have their defaults set and are valid; a call registers or unregisters one
view. `Verif.View.Worker` has all of this for views that are not changed.
-/

namespace Verif.View.Rename
open Verif

/-- A `View`, view.go:35-48. -/
structure Obj where
  name : Nat
  measure : Nat
  agg : Nat
  deriving DecidableEq, Repr

/-- `viewInternal`, view.go:119-124, and the samples of its collector; `view` is the pointer. -/
structure VI where
  view : Nat
  subscribed : Bool
  rows : List Nat
  deriving DecidableEq, Repr

/-- The views of the program and `worker`, worker.go:44-47: the views by name, and the views of each measure. -/
structure St where
  objs : List Obj
  vis : List VI
  views : GoMap Nat Nat
  refs : GoMap Nat (List Nat)
  deriving DecidableEq, Repr

/-- `NewMeter`, worker.go:266-278. -/
def init : St := ⟨[], [], [], []⟩

/-- The calls, and writing to a view (which is the program's own, view.go:35-48). -/
inductive Op where
  | make (o : Obj)
  | write (p : Nat) (o : Obj)
  | register (p : Nat)
  | unregister (p : Nat)
  | record (m n : Nat)
  deriving DecidableEq, Repr

/-- The views of a measure, worker.go:317-327. -/
def St.refsOf (st : St) (m : Nat) : List Nat := (GoMap.get st.refs m).getD []

/-- `same`, view.go:60-69: the pointers, or what is behind them. -/
def same (st : St) (p q : Nat) : Bool := p = q || match st.objs[p]?, st.objs[q]? with
  | some a, some b => a.agg = b.agg && a.measure = b.measure
  | _, _ => false

/-- `Register` with one view: worker_commands.go:65-74 and `tryRegisterView`, worker.go:329-350; false for an error. -/
def register (st : St) (p : Nat) : St × Bool := match st.objs[p]? with
  | none => (st, false)
  | some o => match GoMap.get st.views o.name with
    | some a => match st.vis[a]? with
      | none => (st, false)
      | some x => if same st x.view p then ({ st with vis := st.vis.modify a fun v => { v with subscribed := true } }, true) else (st, false)
    | none => ({ st with vis := st.vis ++ [⟨p, true, []⟩], views := GoMap.set st.views o.name st.vis.length, refs := GoMap.set st.refs o.measure (st.refsOf o.measure ++ [st.vis.length]) }, true)

/-- `unregisterView`, worker.go:352-360: name and measure are read through the pointer. -/
def drop (st : St) (a : Nat) : St := match (st.vis[a]?).bind fun x => st.objs[x.view]? with
  | none => st
  | some o => { st with views := GoMap.del st.views o.name, refs := match GoMap.get st.refs o.measure with
      | none => st.refs
      | some l => GoMap.set st.refs o.measure (l.filter (· ≠ a)) }

/-- `Unregister` with one view, worker.go:167-178 (the name is that of the call) and worker_commands.go:90-109. -/
def unregister (st : St) (p : Nat) : St := match st.objs[p]? with
  | none => st
  | some o => match GoMap.get st.views o.name with
    | none => st
    | some a => drop { st with vis := st.vis.modify a fun v => { v with subscribed := false, rows := [] } } a

/-- `addSample`, view.go:156-162. -/
def VI.add (v : VI) (n : Nat) : VI := if v.subscribed then { v with rows := v.rows ++ [n] } else v

/-- A recording of one measurement, worker_commands.go:157-170. -/
def record (st : St) (m n : Nat) : St := { st with vis := (st.refsOf m).foldl (fun vis a => vis.modify a (·.add n)) st.vis }

/-- One call; the answer is that of `Register`. worker.go and worker_commands.go as above. -/
def step (st : St) : Op → St × Bool
  | .make o => ({ st with objs := st.objs ++ [o] }, true)
  | .write p o => ({ st with objs := st.objs.set p o }, true)
  | .register p => register st p
  | .unregister p => (unregister st p, true)
  | .record m n => (record st m n, true)

/-- A history, with the answers; worker.go and worker_commands.go as in `step`. -/
def run (st : St) : List Op → St × List Bool
  | [] => (st, [])
  | op :: ops => let (st, b) := step st op; let (st, bs) := run st ops; (st, b :: bs)

/-- What exporters of views are given, `reportUsage` and `reportView`, worker.go:362-386: the name is read through the pointer by them. -/
def report (st : St) : List (Nat × List Nat) := st.views.filterMap fun (_, a) => match st.vis[a]? with
  | none => none
  | some x => if x.subscribed then (st.objs[x.view]?).map fun o => (o.name, x.rows) else none

end Verif.View.Rename
