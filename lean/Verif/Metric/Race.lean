import Verif.Metric.Registry

/-!
# Concurrent `GetEntry` and `UpsertEntry` calls on one metric (metric/common.go:122-144)

Goroutines make one call each on the same handle. Their steps are: the `append` of line 123 (136), the
encoding of the label values it gave (127, 140), and each of the operations on the `sync.Map`
(128, 131, 141, 142), which are atomic. `append` writes behind the constant label values if the array they
are in has room, so that calls share memory; it is one step here and reading the slice is another, though
each is several writes and reads in the code. The capacity of that array is a parameter: Go's `append` of
metric/registry.go:258 makes it 1, 2, 4, 4, 8, 8, 8, 8 for 1 to 8 constant labels, and 0 for none.
-/

namespace Verif.Metric.Race
open Verif Verif.Metric

/-- A call on the handle. -/
inductive Call where
  | getEntry (labelVals : List LabelValue)
  | upsertEntry (labelVals : List LabelValue)
  deriving DecidableEq

/-- The label values of a call. -/
def Call.labelVals : Call → List LabelValue
  | .getEntry vs => vs
  | .upsertEntry vs => vs

/-- What `append` returns: a slice of an array of its own, or the array of the constant label values with
this many more elements. -/
inductive Slice where
  | own (vs : List LabelValue)
  | shared (n : Nat)

/-- Where a goroutine is. -/
inductive PC where
  | start
  /-- behind line 123 (136) -/
  | appended (s : Slice)
  /-- behind line 127 (140) -/
  | encoded (key : Bytes)
  /-- `GetEntry` behind line 128, having found nothing -/
  | missed (key : Bytes)
  /-- `UpsertEntry` behind line 141 -/
  | deleted (key : Bytes)
  | done (res : Res Nat)

/-- The metric, and the goroutines. `spare` is what is in the array behind the constant label values. -/
structure St where
  vals : GoMap Bytes Nat
  spare : List LabelValue
  entries : Nat
  pc : Nat → PC

/-- What does not change: the constant label values, the capacity of their array, and the number of keys. -/
structure Meta where
  const : List LabelValue
  cap : Nat
  keys : Nat

def St.set (s : St) (t : Nat) (pc : PC) : St := { s with pc := fun t' => if t' = t then pc else s.pc t' }

/-- The elements of a slice now. -/
def St.elems (m : Meta) (s : St) : Slice → List LabelValue
  | .own vs => vs
  | .shared n => m.const ++ s.spare.take n

/-- A step of goroutine `t`, which makes call `c`. -/
def step (m : Meta) (c : Call) (t : Nat) (s : St) : St :=
  match s.pc t with
  | .start =>
    if m.const.length + c.labelVals.length ≤ m.cap then
      { s.set t (.appended (.shared c.labelVals.length)) with
          spare := c.labelVals ++ s.spare.drop c.labelVals.length }
    else s.set t (.appended (.own (m.const ++ c.labelVals)))
  | .appended sl =>
    let labelVals := s.elems m sl
    if labelVals.length ≠ m.keys then s.set t (.done .err)
    else match encodeLabelVals labelVals with
      | .ok key => s.set t (.encoded key)
      | .err => s.set t (.done .err)
      | .panic => s.set t (.done .panic)
  | .encoded key =>
    match c with
    | .getEntry _ =>
      match GoMap.get s.vals key with
      | some e => s.set t (.done (.ok e))
      | none => s.set t (.missed key)
    | .upsertEntry _ => { s.set t (.deleted key) with vals := GoMap.del s.vals key }
  | .missed key =>
    match GoMap.get s.vals key with
    | some e => s.set t (.done (.ok e))
    | none => { s.set t (.done (.ok s.entries)) with vals := GoMap.set s.vals key s.entries, entries := s.entries + 1 }
  | .deleted key =>
    { s.set t (.done (.ok s.entries)) with vals := GoMap.set s.vals key s.entries, entries := s.entries + 1 }
  | .done _ => s

/-- A schedule: which goroutine makes the next step. -/
def run (m : Meta) (calls : Nat → Call) (s : St) (sched : List Nat) : St :=
  sched.foldl (fun s t => step m (calls t) t s) s

/-- A metric just added. -/
def start : St := ⟨[], [], 0, fun _ => .start⟩

end Verif.Metric.Race
