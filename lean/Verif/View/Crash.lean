import Verif.View.WorkerSpec

/-!
# A meter and whatever is passed to it

`Register` takes pointers to views, any of which may be nil; a measure may be of a type that the program defines; an aggregation
may be a literal, without the function that makes its data. A panic in the goroutine of the meter ends the process.

Simplified: commands are handled one after the other, as the meter's goroutine does (`View/Conc` has the channel); the measures of
package stats are those made before the first command; a nil pointer of type `*Int64Measure` in a view,
or a pointer to a zero `Int64Measure`, is not modelled.
-/

namespace Verif.View.Crash
open Verif Verif.Stats Verif.View

/-- What the meter is asked to do: `Register` with pointers, or any other command. -/
inductive Call where
  | register (now : Int) (views : List (Option ViewDef))
  | unregister (now : Int) (names : List Bytes)
  | retrieve (name : Bytes)
  | record (t : Int) (r : RecordReq)
  | find (name : Bytes)
  | tick (now : Int)

/-- First loop of `registerViewReq.handleCommand`, stats/view/worker_commands.go:59-64, on pointers: `canonicalize` of nil panics
(stats/view/view.go:79). -/
def canonicalizePtrs : List (Option ViewDef) → Res (Except CanonErr (List ViewDef))
  | [] => .ok (.ok [])
  | none :: _ => .panic
  | some v :: vs => match canonicalize v with
    | (_, some e) => .ok (.error e)
    | (v, none) => (canonicalizePtrs vs).bind fun r => match r with
      | .error e => .ok (.error e)
      | .ok vs => .ok (.ok (v :: vs))

/-- `registerViewReq.handleCommand`, stats/view/worker_commands.go:58-80, on pointers. -/
def register (w : Worker) (reg : Measures) (now : Int) (views : List (Option ViewDef)) : Res (Worker × Measures) :=
  (canonicalizePtrs views).bind fun r => match r with
    | .error _ => .ok (w, reg)
    | .ok vs => (w.registerAll reg now vs).bind fun (w, reg, _) => .ok (w, reg)

/-- The handling of a command, stats/view/worker.go:293-303 and stats/view/worker_commands.go; replies and exports are left
out (`View.handle` has them). -/
def handle (w : Worker) (reg : Measures) : Call → Res (Worker × Measures)
  | .register now vs => register w reg now vs
  | .unregister now ns => (w.unregister now ns).bind fun (w, _) => .ok (w, reg)
  | .retrieve n => (w.retrieveData n).bind fun _ => .ok (w, reg)
  | .record t r => (w.record r t).bind fun w => .ok (w, reg)
  | .find n => (w.find n).bind fun _ => .ok (w, reg)
  | .tick now => (w.reportUsage now).bind fun _ => .ok (w, reg)

/-- The commands one after the other. -/
def run (w : Worker) (reg : Measures) : List Call → Res (Worker × Measures)
  | [] => .ok (w, reg)
  | c :: cs => (handle w reg c).bind fun (w, reg) => run w reg cs

end Verif.View.Crash
