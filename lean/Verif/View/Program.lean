import Verif.View.Metric
import Verif.Tag.Codec
import Verif.Stats.Measure

/-!
# Programs that tag, record and export

One goroutine that makes contexts with tags, hands tags on in encoded form as the plugins do, registers views,
records, and lets an exporter read the metrics. The packages `tag`, `stats` and `stats/view` are those of
`Tag/Map`, `Tag/Codec`, `Stats/Measure`, `View/Worker` and `View/Metric`; here they are put together. Commands to the
worker are handled when they are sent (`View/Conc` has the channel). The measures have been created before.
-/

namespace Verif.View.Program
open Verif Verif.Tag Verif.Stats Verif.View

/-- The order in which a `range` over a tag map gives its entries. -/
abbrev Order := TMap → List (Key × Content)

inductive Call where
  /-- `ctx, _ = tag.New(ctxs[i], mutators...)` -/
  | newTags (iter : Order) (i : Nat) (mutators : List Mutator)
  /-- `m, _ := tag.Decode(tag.Encode(tag.FromContext(ctxs[j]))); ctx := tag.NewContext(ctxs[i], m)`: the tags of a
  client's context arrive at a server, as in plugin/ocgrpc/client_stats_handler.go:42-45 and
  plugin/ocgrpc/server_stats_handler.go:46-59 -/
  | forward (iter : Order) (i j : Nat)
  /-- `view.Register(views...)` -/
  | register (now : Int) (views : List ViewDef)
  /-- `view.Unregister` of the views of these names -/
  | unregister (now : Int) (names : List Bytes)
  /-- `stats.RecordWithOptions(ctxs[i], options...)` at time `t` -/
  | record (iter : Order) (i : Nat) (t : Int) (options : List Option')
  /-- the producer of the views is read, stats/view/worker.go:398-410 -/
  | read (now : Int)

/-- The tag maps; the contexts the program has made; the worker; the measures; what was read. -/
structure State where
  heap : Heap
  ctxs : List (Ctx Unit)
  w : Worker
  reg : Measures
  out : List (List MetricOut)

/-- One context without tags; no views. -/
def init (reg : Measures) : State := ⟨[], [⟨(), none⟩], newWorker, reg, []⟩

/-- `Encode` of the context's map, tag/map_codec.go:164-167 and `encode`. -/
def encodeCtx (iter : Order) (h : Heap) (c : Ctx Unit) : Res Bytes :=
  match c.tags with
  | none => .ok []
  | some a => match h[a]? with
    | none => .err
    | some m => encode (iter m)

/-- What `RecordWithOptions` sends, stats/record.go:152-160: to the default worker unless a recorder was given, which is
another worker. -/
def sendRecord (w : Worker) (t : Int) : Option (Option Nat × RecordReq) → Res Worker
  | none => .ok w
  | some (none, r) => w.record r t
  | some (some _, _) => .ok w

/-- `.err`: there is no such context, or the encoded tags have 2^63 bytes, which no slice has. -/
def step (s : State) : Call → Res State
  | .newTags iter i mus => match s.ctxs[i]? with
    | none => .err
    | some c => .ok { s with heap := (new iter s.heap c mus).1, ctxs := s.ctxs ++ [(new iter s.heap c mus).2.1] }
  | .forward iter i j => match s.ctxs[i]?, s.ctxs[j]? with
    | some c, some d => (encodeCtx iter s.heap d).bind fun bytes =>
        if bytes.length < 2 ^ 63 then (decode bytes).bind fun m =>
          .ok { s with heap := s.heap ++ [m], ctxs := s.ctxs ++ [{ c with tags := some s.heap.length }] }
        else .err
    | _, _ => .err
  | .register now vs => (handle s.w s.reg (.register now vs)).bind fun (w, reg, _) => .ok { s with w := w, reg := reg }
  | .unregister now ns => (handle s.w s.reg (.unregister now ns)).bind fun (w, reg, _) => .ok { s with w := w, reg := reg }
  | .record iter i t ros => match s.ctxs[i]? with
    | none => .err
    | some c => (recordWithOptions iter s.reg s.heap c ros).bind fun (h, res) =>
        (sendRecord s.w t res.sent).bind fun w => .ok { s with heap := h, w := w }
  | .read now => (s.w.read now).bind fun ms => .ok { s with out := s.out ++ [ms] }

def run (s : State) : List Call → Res State
  | [] => .ok s
  | c :: cs => (step s c).bind fun s => run s cs

end Verif.View.Program
