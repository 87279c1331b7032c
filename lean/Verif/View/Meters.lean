import Verif.View.Program

/-!
# Several meters in one process

`view.NewMeter` (stats/view/worker.go:258-272) makes a worker of its own, "to separate out Measurement recordings and View
aggregations within a single process". The workers share the measures of package `stats`, with their `subs` flags
(stats/measure.go:51-74), and the tag maps the program hands them; nothing else. As in `View/Program`, commands are handled
when they are sent and the measures have been created before; every meter has been started. A `*View` that is registered
with two meters is canonicalized twice, which changes nothing the second time (C20), so views are values here.
-/

namespace Verif.View.Meters
open Verif Verif.Tag Verif.Stats Verif.View
open Verif.View.Program (Order encodeCtx)

/-- `none` is the default meter, of the functions of package `view`; the others are from `NewMeter`. -/
abbrev Meter := Option Nat

inductive Call where
  /-- `ctx, _ = tag.New(ctxs[i], mutators...)` -/
  | newTags (iter : Order) (i : Nat) (mutators : List Mutator)
  /-- the tags of `ctxs[j]` are encoded, decoded and put on `ctxs[i]`, as in `Program.Call.forward` -/
  | forward (iter : Order) (i j : Nat)
  /-- `meter.Register(views...)` -/
  | register (k : Meter) (now : Int) (views : List ViewDef)
  /-- `meter.Unregister` of the views of these names -/
  | unregister (k : Meter) (now : Int) (names : List Bytes)
  /-- `stats.RecordWithOptions(ctxs[i], options...)` at time `t`; `WithRecorder(meter)` is an option -/
  | record (iter : Order) (i : Nat) (t : Int) (options : List Option')
  /-- the producer of the meter is read, stats/view/worker.go:398-410 -/
  | read (k : Meter) (now : Int)

/-- The tag maps; the contexts; the worker of each meter; the measures; what was read from each meter; the errors the
recordings returned. -/
structure State where
  heap : Heap
  ctxs : List (Ctx Unit)
  ws : Meter → Worker
  reg : Measures
  out : Meter → List (List MetricOut)
  errs : List (Option Err)

def init (reg : Measures) : State := ⟨[], [⟨(), none⟩], fun _ => newWorker, reg, fun _ => [], []⟩

/-- A function changed at one point. -/
def put {α : Type} (f : Meter → α) (k : Meter) (a : α) : Meter → α := fun j => if j = k then a else f j

/-- What `RecordWithOptions` sends, stats/record.go:136-139 and 159: to the recorder of the options if there is one,
`(*worker).Record` (worker.go:208-226), else to the default worker. -/
def sendRecord (ws : Meter → Worker) (t : Int) : Option (Option Nat × RecordReq) → Res (Meter → Worker)
  | none => .ok ws
  | some (k, r) => ((ws k).record r t).bind fun w => .ok (put ws k w)

/-- One call: `Register`, `Unregister` (worker.go:140-178), `RecordWithOptions` (stats/record.go:131-161) and `Read`
(worker.go:398-410) of a meter. `.err`: there is no such context, or the encoded tags have 2^63 bytes. -/
def step (s : State) : Call → Res State
  | .newTags iter i mus => match s.ctxs[i]? with
    | none => .err
    | some c => .ok { s with heap := (new iter s.heap c mus).1, ctxs := s.ctxs ++ [(new iter s.heap c mus).2.1] }
  | .forward iter i j => match s.ctxs[i]?, s.ctxs[j]? with
    | some c, some d => (encodeCtx iter s.heap d).bind fun bytes =>
        if bytes.length < 2 ^ 63 then (decode bytes).bind fun m =>
          .ok { s with heap := s.heap ++ [m], ctxs := s.ctxs ++ [{ c with tags := some s.heap.length }] }
        else .err
    | _, _ => .err
  | .register k now vs => (handle (s.ws k) s.reg (.register now vs)).bind fun (w, reg, _) =>
      .ok { s with ws := put s.ws k w, reg := reg }
  | .unregister k now ns => (handle (s.ws k) s.reg (.unregister now ns)).bind fun (w, reg, _) =>
      .ok { s with ws := put s.ws k w, reg := reg }
  | .record iter i t ros => match s.ctxs[i]? with
    | none => .err
    | some c => (recordWithOptions iter s.reg s.heap c ros).bind fun (h, res) =>
        (sendRecord s.ws t res.sent).bind fun ws => .ok { s with heap := h, ws := ws, errs := s.errs ++ [res.err] }
  | .read k now => ((s.ws k).read now).bind fun ms => .ok { s with out := put s.out k (s.out k ++ [ms]) }

def run (s : State) : List Call → Res State
  | [] => .ok s
  | c :: cs => (step s c).bind fun s => run s cs

end Verif.View.Meters
