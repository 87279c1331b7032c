import Verif.RoundMono
import Verif.Basic

/-!
# Entries of gauges and cumulatives shared by goroutines (metric/gauge.go, metric/cumulative.go)

An entry is one 64-bit cell used with `sync/atomic`. A goroutine runs a program of calls on it. Each step
of the machine is one atomic operation on the cell, or a call or return.
-/

namespace Verif.Metric
open Verif

/-- What differs between the four entry types. -/
structure Kind (V : Type) where
  /-- the addition -/
  add : V → V → V
  /-- `val <= 0` in `Inc` -/
  nonPos : V → Bool
  /-- what `read` makes of the value of the cell -/
  clamp : V → V
  /-- whether additions are a compare-and-swap loop rather than an atomic add -/
  cas : Bool

/-- `Float64Entry` and `Float64CumulativeEntry`, metric/gauge.go:35-75, metric/cumulative.go:35-74. The
cell has the bits of the float; here it has the float, which identifies NaNs (and zeros) with each other,
so that in the model a compare-and-swap of different NaN bits succeeds where the program would retry:
both end as NaN. -/
def floatKind : Kind F64 where
  add := F64.add
  nonPos v := F64.lt v (.fin 0) || decide (v = .fin 0)
  clamp v := if F64.lt v (.fin 0) then .fin 0 else v
  cas := true

/-- `Int64GaugeEntry` and `Int64CumulativeEntry`, metric/gauge.go:87-122, metric/cumulative.go:86-120. -/
def intKind : Kind (BitVec 64) where
  add := (· + ·)
  nonPos v := decide (v.toInt ≤ 0)
  clamp v := if v.toInt < 0 then 0 else v
  cas := false

/-- A call on the entry. `read` is what `Registry.Read` does. -/
inductive Op (V : Type) where
  | set (v : V)
  | add (v : V)
  | inc (v : V)
  | read
  deriving DecidableEq

/-- Where a goroutine is. -/
inductive PC (V : Type) where
  /-- between calls -/
  | idle
  /-- in a call, about to do its (next) atomic operation -/
  | run
  /-- in the loop of `Add` or `Inc` with `v`, after loading `old`; `seen` (a ghost) is how many calls had
  taken effect then -/
  | loaded (v old : V) (seen : Nat)
  /-- about to return -/
  | done (r : Option V)

/-- A goroutine: the calls it has still to make (the current one first) and the results it has had. -/
structure Thread (V : Type) where
  prog : List (Op V)
  pc : PC V
  results : List (Option V)

/-- One atomic operation taking effect: by whom, which call, with which result. A ghost. -/
structure Lin (V : Type) where
  tid : Nat
  op : Op V
  res : Option V

structure St (V : Type) where
  mem : V
  th : Nat → Thread V
  log : List (Lin V)

variable {V : Type} [DecidableEq V]

def setTh (s : St V) (t : Nat) (x : Thread V) : St V := { s with th := fun i => if i = t then x else s.th i }

/-- The call of goroutine `t` takes effect. -/
def effect (s : St V) (t : Nat) (op : Op V) (m : V) (r : Option V) : St V :=
  setTh { s with mem := m, log := s.log ++ [⟨t, op, r⟩] } t { s.th t with pc := .done r }

/-- An addition of `v`: the load of the loop in `Add`, metric/gauge.go:71-72, and `Inc`,
metric/cumulative.go:70-71, or the atomic add of metric/gauge.go:121, metric/cumulative.go:119. -/
def startAdd (k : Kind V) (s : St V) (t : Nat) (op : Op V) (v : V) : St V :=
  if k.cas then setTh s t { s.th t with pc := .loaded v s.mem s.log.length }
  else effect s t op (k.add s.mem v) none

/-- A step of goroutine `t`; `none` if it has finished.
- `Set`, metric/gauge.go:63-65, 115-117: a store.
- `Add`, metric/gauge.go:68-75, 120-122; `Inc`, metric/cumulative.go:64-74, 115-120: after the test of
  `Inc`, an atomic add, or a loop of a load and a compare-and-swap. (Going round the loop, `Inc` does not
  repeat the test; here it does, with the same outcome.)
- `read`, metric/gauge.go:39-45, 91-97, metric/cumulative.go:39-45, 90-96: a load. -/
def step (k : Kind V) (t : Nat) (s : St V) : Option (St V) :=
  match (s.th t).pc, (s.th t).prog with
  | .idle, [] => none
  | .idle, _ :: _ => some (setTh s t { s.th t with pc := .run })
  | .run, .set v :: _ => some (effect s t (.set v) v none)
  | .run, .read :: _ => some (effect s t .read s.mem (some (k.clamp s.mem)))
  | .run, .add v :: _ => some (startAdd k s t (.add v) v)
  | .run, .inc v :: _ =>
    if k.nonPos v then some (effect s t (.inc v) s.mem none) else some (startAdd k s t (.inc v) v)
  | .loaded v old _, op :: _ =>
    if s.mem = old then some (effect s t op (k.add old v) none)
    else some (setTh s t { s.th t with pc := .run })
  | .done r, _ :: ops => some (setTh s t ⟨ops, .idle, (s.th t).results ++ [r]⟩)
  | _, [] => none

/-- A schedule: which goroutine is next. One that has finished does nothing. -/
def run (k : Kind V) (s : St V) (sched : List Nat) : St V := sched.foldl (fun s t => (step k t s).getD s) s

/-- A new entry: zero, goroutines about to start. -/
def start (zero : V) (progs : Nat → List (Op V)) : St V := ⟨zero, fun t => ⟨progs t, .idle, []⟩, []⟩

end Verif.Metric
