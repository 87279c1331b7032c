import Verif.Basic
import Verif.Float
import Verif.Tag.Map

/-!
# Measures and recording (package `stats`)
-/

namespace Verif.Stats
open Verif Verif.Tag

/-- `measureDescriptor`, stats/measure.go:51-61. `subs` is the atomic flag. -/
structure Desc where
  subs : Bool
  name : Bytes
  description : Bytes
  unit : Bytes
  deriving DecidableEq, Repr

/-- The package variable `measures`, stats/measure.go:71-74. A `*measureDescriptor` is the name it
is stored under: entries are never replaced or removed. -/
abbrev Measures := GoMap Bytes Desc

/-- `registerMeasureHandle`, stats/measure.go:76-90, under the package lock. Returns the descriptor
a handle points to. -/
def registerMeasureHandle (ms : Measures) (name desc unit : Bytes) : Measures × Desc :=
  match GoMap.get ms name with
  | some stored => (ms, stored)
  | none =>
    let m : Desc := ⟨false, name, desc, unit⟩
    (GoMap.set ms name m, m)

/-- The dynamic type of a `stats.Measure` value: `*Int64Measure`, `*Float64Measure`, or a type the
user wrote. -/
inductive MKind where
  | int64 | float64 | other
  deriving DecidableEq, Repr

/-- A `stats.Measure`: its dynamic type and what its methods return. For the two types of the
package these are the fields of the descriptor, stats/measure_int64.go:44-56,
stats/measure_float64.go:42-54. -/
structure Measure where
  kind : MKind
  name : Bytes
  description : Bytes
  unit : Bytes
  deriving DecidableEq, Repr

/-- `Int64` and `Float64`, stats/measure_int64.go:35-38, stats/measure_float64.go:36-39. -/
def newMeasure (ms : Measures) (kind : MKind) (name desc unit : Bytes) : Measures × Measure :=
  let (ms, d) := registerMeasureHandle ms name desc unit
  (ms, ⟨kind, d.name, d.description, d.unit⟩)

/-- `internal.SubscriptionReporter`, stats/record.go:25-31: `measures[measure].subscribe()`; a
measure that is not in the map gives a nil descriptor and the atomic store panics. -/
def subscribe (ms : Measures) (name : Bytes) : Res Measures :=
  match GoMap.get ms name with
  | some d => .ok (GoMap.set ms name { d with subs := true })
  | none => .panic

/-- A `Measurement`, stats/measure.go:95-99. `none` is the zero `Measurement{}`; otherwise the value
and the measure it was made from, whose descriptor is in the package map. -/
structure Measurement where
  v : F64
  m : Measure
  deriving DecidableEq, Repr

/-- `(*Int64Measure).M`, stats/measure_int64.go:24-30: the conversion to `float64` rounds. -/
def int64M (m : Measure) (v : Int) : Measurement := ⟨F64.rnd v, m⟩

/-- `m.desc.subscribed()`, stats/measure.go:67-69: the zero measurement has a nil descriptor and the
atomic load panics. -/
def subscribed (ms : Measures) : Option Measurement → Res Bool
  | none => .panic
  | some m => match GoMap.get ms m.m.name with
    | some d => .ok d.subs
    | none => .panic

/-- The loop of stats/record.go:106-112 and 145-151: is any measurement's measure subscribed. It
stops at the first one that is. -/
def anySubscribed (ms : Measures) : List (Option Measurement) → Res Bool
  | [] => .ok false
  | m :: l => (subscribed ms m).bind fun b => if b then .ok true else anySubscribed ms l

/-- The command `Record` hands to the recorder, stats/record.go:115,
stats/view/worker.go:218-226. -/
structure RecordReq where
  tags : Option TMap
  ms : List (Option Measurement)
  attachments : GoMap Bytes Bytes
  deriving DecidableEq, Repr

/-- `Record`, stats/record.go:93-117, once package view has been initialised (it is whenever a view
can be registered). `tags` is `tag.FromContext(ctx)`. The result is the command sent, if any. -/
def record (reg : Measures) (tags : Option TMap) (ms : List (Option Measurement)) :
    Res (Option RecordReq) :=
  if ms.length = 0 then .ok none
  else (anySubscribed reg ms).bind fun b =>
    if !b then .ok none else .ok (some ⟨tags, ms, []⟩)

/-- The options of `RecordWithOptions`, stats/record.go:49-78. A custom recorder only changes where
the command goes. -/
inductive Option' where
  | attachments (a : GoMap Bytes Bytes)
  | tags (mutators : List Mutator)
  | measurements (ms : List (Option Measurement))
  | recorder (id : Nat)

/-- `recordOptions`, stats/record.go:42-47. -/
structure RecordOptions where
  attachments : GoMap Bytes Bytes := []
  mutators : List Mutator := []
  measurements : List (Option Measurement) := []
  recorder : Option Nat := none

/-- One option applied, stats/record.go:50-75. -/
def applyOption (o : RecordOptions) : Option' → RecordOptions
  | .attachments a => { o with attachments := a }
  | .tags ms => { o with mutators := ms }
  | .measurements ms => { o with measurements := ms }
  | .recorder r => { o with recorder := some r }

/-- `createRecordOption`, stats/record.go:80-86. -/
def createRecordOption (ros : List Option') : RecordOptions := ros.foldl applyOption {}

/-- Outcome of `RecordWithOptions`: the error it returns and the command it sent, with the id of the
custom recorder it went to. -/
structure RecordResult where
  err : Option Err
  sent : Option (Option Nat × RecordReq)

/-- `RecordWithOptions`, stats/record.go:131-161. The context holds a pointer into the heap of tag
maps; `iter` is the order in which `tag.New` iterates over the incoming map. -/
def recordWithOptions {α : Type} (iter : TMap → List (Key × Content)) (reg : Measures)
    (h : Heap) (ctx : Ctx α) (ros : List Option') : Res (Heap × RecordResult) :=
  let o := createRecordOption ros
  if o.measurements.length = 0 then .ok (h, ⟨none, none⟩)
  else (anySubscribed reg o.measurements).bind fun b =>
    if !b then .ok (h, ⟨none, none⟩)
    else if o.mutators.length > 0 then
      match new iter h ctx o.mutators with
      | (h, _, some e) => .ok (h, ⟨some e, none⟩)
      | (h, ctx, none) =>
        .ok (h, ⟨none, some (o.recorder, ⟨ctx.tags.bind (fun a => h[a]?), o.measurements, o.attachments⟩)⟩)
    else .ok (h, ⟨none, some (o.recorder, ⟨ctx.tags.bind (fun a => h[a]?), o.measurements, o.attachments⟩)⟩)

end Verif.Stats
