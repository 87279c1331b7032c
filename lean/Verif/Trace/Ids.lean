import Verif.Basic

/-!
# The default ID generator (trace/trace.go:537-595)

A `uint64` is a natural number below `2 ^ 64`.
-/

namespace Verif.Trace
open Verif

def two64 : Nat := 2 ^ 64

/-- `binary.LittleEndian.PutUint64`: the `n` low bytes, least significant first. -/
def leBytes : Nat → Nat → Bytes
  | 0, _ => []
  | n + 1, x => UInt8.ofNat (x % 256) :: leBytes n (x / 256)

/-- `defaultIDGenerator` after `init`, trace/trace.go:537-553. -/
structure IDGen where
  nextSpanID : Nat
  spanIDInc : Nat
  traceIDAdd : Nat × Nat

/-- `init`, trace/trace.go:557-570: every field is random, the increment is made odd (`|= 1`). -/
def IDGen.init (next inc add0 add1 : Nat) : IDGen :=
  ⟨next % two64, inc % two64 / 2 * 2 + 1, (add0 % two64, add1 % two64)⟩

/-- One iteration of the loop of `NewSpanID`, trace/trace.go:575-577: `atomic.AddUint64`. -/
def IDGen.addSpanID (g : IDGen) : IDGen × Nat :=
  let id := (g.nextSpanID + g.spanIDInc) % two64
  ({ g with nextSpanID := id }, id)

/-- Callers of `NewSpanID` under a schedule: element `t` of the schedule is thread `t` executing one
iteration of the loop of its current call (starting one if it has none). A call returns when its
iteration got a non-zero value, and loops otherwise. The result is the log of returned IDs with the
threads that got them, in order; trace/trace.go:573-581. -/
def runSpanIDs (g : IDGen) : List Nat → IDGen × List (Nat × Nat)
  | [] => (g, [])
  | t :: ts =>
    let (g', id) := g.addSpanID
    let (g'', log) := runSpanIDs g' ts
    (g'', if id = 0 then log else (t, id) :: log)

/-- `sid`, trace/trace.go:578-580. -/
def spanIDBytes (id : Nat) : Bytes := leBytes 8 id

/-- `NewTraceID`, trace/trace.go:585-595, `r0` and `r1` being the next two outputs of `traceIDRand`. -/
def IDGen.newTraceID (g : IDGen) (r0 r1 : Nat) : Bytes :=
  leBytes 8 ((r0 + g.traceIDAdd.1) % two64) ++ leBytes 8 ((r1 + g.traceIDAdd.2) % two64)

end Verif.Trace
