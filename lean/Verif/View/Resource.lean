import Verif.View.ReadConc

/-!
# The resource of a meter (stats/view/worker.go:53, 275-281, 388-395; stats/view/view_to_metric.go:130-147)

`View/ReadConc` with the field `r` of the worker, the pointer that `SetResource` stores and `Read` puts into every metric.
`SetResource` takes no lock and may be called by any goroutine at any time; `Read` loads the field again for every view, after
it has found the view subscribed and before it reads its rows. Loads and stores of the pointer are single steps (by the Go memory
model a store beside a load is a race; the pointer is one word). What the resource pointed to says is up to those who
hold the pointer: it is not copied.
-/

namespace Verif.View.Resource
open Verif Verif.View

/-- A `*resource.Resource`: `none` is nil. -/
abbrev Ptr := Option Nat

/-- What happens, in order. -/
inductive Ev where
  /-- what `View/ReadConc` sees, but for the return of `Read` -/
  | meter (x : ReadConc.Ev)
  /-- `SetResource` -/
  | set (r : Ptr)
  /-- `Read` returns to goroutine `t`: the metrics with their views' names, and the `Resource` of each -/
  | returned (t : Nat) (now : Int) (ms : List (Bytes × MetricOut)) (rs : List Ptr)

/-- The meter; `w.r`; the argument `w.r` of `viewToMetric`, once a reader has evaluated it; the resources of the metrics it has
made so far. -/
structure St where
  s : ReadConc.St
  r : Ptr
  arg : Nat → Option Ptr
  rs : Nat → List Ptr
  log : List Ev

/-- `NewMeter`, worker.go:261-273: no resource. -/
def init (reg : Stats.Measures) : St := ⟨ReadConc.init reg, none, fun _ => none, fun _ => [], []⟩

inductive Move where
  | act (a : ReadConc.Action)
  /-- goroutine `t`, in `Read`, evaluates `w.r`, worker.go:393 -/
  | load (t : Nat)
  /-- `SetResource(r)`, worker.go:279-281 -/
  | set (r : Ptr)

/-- A reader that is about to call `viewToMetric`. -/
def atCall : ReadConc.RPC → Bool
  | .loaded .. => true
  | _ => false

/-- The metrics a reader has made. -/
def made : ReadConc.RPC → List (Bytes × MetricOut)
  | .loop _ _ acc => acc
  | .loaded _ _ _ _ acc => acc
  | .unlock _ acc => acc
  | _ => []

/-- What the log has for an event of `View/ReadConc`. -/
def event (rs : Nat → List Ptr) : ReadConc.Ev → Ev
  | .returned t now ms => .returned t now ms (rs t)
  | x => .meter x

/-- A step of reader `t` that has evaluated its argument calls `viewToMetric`, which puts it into the metric if it makes one
(view_to_metric.go:131-146). -/
def put (x : St) (s' : ReadConc.St) (t : Nat) (r : Ptr) : St :=
  { x with s := s', arg := ReadConc.upd x.arg t none,
           rs := if (made (s'.rpc t)).length = (made (x.s.rpc t)).length then x.rs else ReadConc.upd x.rs t (x.rs t ++ [r]) }

def step (x : St) : Move → Option St
  | .set r => some { x with r := r, log := x.log ++ [.set r] }
  | .load t => if atCall (x.s.rpc t) && (x.arg t).isNone then some { x with arg := ReadConc.upd x.arg t (some x.r) } else none
  | .act a => match a with
    | .read t _ _ => (ReadConc.step x.s a).bind fun s' =>
      if atCall (x.s.rpc t) then (x.arg t).map fun r => put x s' t r
      else some { x with s := s',
                         rs := if made (s'.rpc t) = [] then ReadConc.upd x.rs t [] else x.rs,
                         log := x.log ++ (s'.evs.drop x.s.evs.length).map (event x.rs) }
    | _ => (ReadConc.step x.s a).map fun s' =>
      { x with s := s', log := x.log ++ (s'.evs.drop x.s.evs.length).map (event x.rs) }

def run (x : St) : List Move → Option St
  | [] => some x
  | m :: ms => (step x m).bind fun x' => run x' ms

end Verif.View.Resource
