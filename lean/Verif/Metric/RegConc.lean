import Verif.Metric.Registry

/-!
# A registry used by many goroutines (metric/registry.go, metric/common.go)

The steps are the operations on the two `sync.Map`s and on the entries, each of which is atomic, in the order in which
they are executed, with the calls and returns. What is in memory is what the operations so far have made of it; a `Range`
of a `sync.Map` sees, by its documentation, for each key at most one mapping it had at some moment of the call, and
misses no key that has been there all the time.

An update of an entry (`Set`, `Add`, `Inc`) is one step here: `Metric/Entry` has its loop, and C40 that it takes effect
at one moment. The constant labels are in `Metric/Race`: the key of an entry is given here.
-/

namespace Verif.Metric.RegConc
open Verif Verif.Metric

/-- A metric as `Read` reports it: its name, the `*baseMetric` it was read from and a key, an entry and its value for each
of the time series. -/
structure Report (V : Type) where
  name : Bytes
  bm : Nat
  series : List (Bytes × Nat × V)

/-- What goroutine `t` does. -/
inductive Ev (V : Type) where
  /-- `Add…` is called. -/
  | addCalled (t : Nat) (name : Bytes) (ty : BMType)
  /-- It returns an error. -/
  | refused (t : Nat) (name : Bytes) (ty : BMType)
  /-- The new metric, number `bm`, is stored; `Add…` returns it. -/
  | stored (t : Nat) (name : Bytes) (bm : Nat) (ty : BMType)
  /-- An entry is stored in a metric. -/
  | put (t : Nat) (bm : Nat) (key : Bytes) (e : Nat)
  /-- A key is deleted from a metric. -/
  | deleted (t : Nat) (bm : Nat) (key : Bytes)
  /-- `GetEntry` returns an entry. -/
  | got (t : Nat) (bm : Nat) (key : Bytes) (e : Nat)
  /-- The value of an entry is changed. -/
  | update (t : Nat) (e : Nat) (f : V → V)
  /-- `Read` is called. -/
  | readCalled (t : Nat)
  /-- `Read` returns. -/
  | readDone (t : Nat) (ms : List (Report V))

/-- The registry's map (metric/registry.go:28-30), the types of the metrics, the maps of the metrics
(metric/common.go:33-40), the number of entries and their values. -/
structure Mem (V : Type) where
  names : GoMap Bytes Nat
  types : List BMType
  vals : Nat → GoMap Bytes Nat
  entries : Nat
  value : Nat → V

variable {V : Type}

/-- The effect of an operation. -/
def Mem.exec (zero : V) (m : Mem V) : Ev V → Mem V
  | .stored _ n p ty => { m with names := GoMap.set m.names n p, types := m.types ++ [ty] }
  | .put _ p k e =>
    { m with
      vals := fun q => if q = p then GoMap.set (m.vals q) k e else m.vals q
      entries := m.entries + 1
      value := fun i => if i = e then zero else m.value i }
  | .deleted _ p k => { m with vals := fun q => if q = p then GoMap.del (m.vals q) k else m.vals q }
  | .update _ e f => { m with value := fun i => if i = e then f (m.value i) else m.value i }
  | _ => m

/-- What the operations so far have made of the memory. -/
def mem (zero : V) (log : List (Ev V)) : Mem V := log.foldl (Mem.exec zero) ⟨[], [], fun _ => [], 0, fun _ => zero⟩

/-- Where a goroutine is. `since` is the moment when a `Range` began: the number of operations before it. -/
inductive PC (V : Type) where
  | idle
  /-- `initBaseMetric` behind registry.go:238-244 -/
  | adding (name : Bytes) (ty : BMType)
  /-- `Add…` before registry.go:238 -/
  | called (name : Bytes) (ty : BMType)
  /-- `entryForValues` behind common.go:128, having found nothing -/
  | missed (bm : Nat) (key : Bytes)
  /-- `entryForValues` with an entry to return -/
  | leaving (bm : Nat) (key : Bytes) (e : Nat)
  /-- `upsertEntry` behind common.go:141 -/
  | erased (bm : Nat) (key : Bytes)
  /-- `Read` in the `Range` of registry.go:278 -/
  | reading (since : Nat) (ms : List (Report V))
  /-- `baseMetric.read` in the `Range` of common.go:79 -/
  | inside (outer : Nat) (ms : List (Report V)) (name : Bytes) (bm : Nat) (since : Nat) (series : List (Bytes × Nat × V))
  /-- the same, before `entry.read`, common.go:87 -/
  | loading (outer : Nat) (ms : List (Report V)) (name : Bytes) (bm : Nat) (since : Nat) (series : List (Bytes × Nat × V))
    (key : Bytes) (e : Nat)

structure St (V : Type) where
  log : List (Ev V)
  pc : Nat → PC V

def init : St V := ⟨[], fun _ => .idle⟩

/-- What a goroutine does next: a call, the next step of the one in progress, or in a `Range` the visit of a key with the
mapping it had at a moment, or the end of it. -/
inductive Move (V : Type) where
  | add (name : Bytes) (ty : BMType)
  | getEntry (bm : Nat) (key : Bytes)
  | upsert (bm : Nat) (key : Bytes)
  | update (e : Nat) (f : V → V)
  | read
  | go
  | visit (key : Bytes) (moment : Nat)
  | stop

/-- `Range` may end: each key that was there when it began has been visited or has been missing at some moment. -/
def mayStop (look : List (Ev V) → GoMap Bytes Nat) (log : List (Ev V)) (since : Nat) (visited : List Bytes) : Bool :=
  ((look (log.take since)).map Prod.fst).all fun k => decide (k ∈ visited) ||
    (List.range (log.length + 1)).any fun j => decide (since ≤ j) && (GoMap.get (look (log.take j)) k).isNone

/-- `Range` may visit the key with what it was mapped to at the moment. -/
def mayVisit (look : List (Ev V) → GoMap Bytes Nat) (log : List (Ev V)) (since : Nat) (visited : List Bytes) (k : Bytes)
    (j : Nat) : Option Nat :=
  if k ∉ visited ∧ since ≤ j ∧ j ≤ log.length then GoMap.get (look (log.take j)) k else none

def St.at (s : St V) (t : Nat) (pc : PC V) : St V := ⟨s.log, fun u => if u = t then pc else s.pc u⟩
def St.emit (s : St V) (e : Ev V) (t : Nat) (pc : PC V) : St V := ⟨s.log ++ [e], fun u => if u = t then pc else s.pc u⟩

/-- A step of goroutine `t`. The methods `Add…` (metric/registry.go:87-228) allocate the metric and call
`initBaseMetric`, registry.go:237-273; `GetEntry` calls `entryForValues`, metric/common.go:122-133; `UpsertEntry` calls
`upsertEntry`, common.go:135-144; `Read`, registry.go:276-284, calls `baseMetric.read`, common.go:70-93. `GetEntry` and
`UpsertEntry` are called on metrics that `Add…` has returned, an entry is updated when there is one. -/
def step (zero : V) (s : St V) (t : Nat) (mv : Move V) : Option (St V) :=
  let m := mem zero s.log
  match s.pc t, mv with
  | .idle, .add n ty => some (s.emit (.addCalled t n ty) t (.called n ty))
  | .called n ty, .go => match GoMap.get m.names n with                             -- registry.go:238
    | some p =>
      if m.types[p]? = some ty then some (s.at t (.adding n ty))
      else some (s.emit (.refused t n ty) t .idle)                                  -- registry.go:239-244
    | none => some (s.at t (.adding n ty))
  | .adding n ty, .go => some (s.emit (.stored t n m.types.length ty) t .idle)       -- registry.go:271
  | .idle, .getEntry p k =>
    if p < m.types.length then match GoMap.get (m.vals p) k with                    -- common.go:128
      | some e => some (s.at t (.leaving p k e))                                    -- common.go:129
      | none => some (s.at t (.missed p k))
    else none
  | .missed p k, .go => match GoMap.get (m.vals p) k with                           -- common.go:131
    | some e => some (s.at t (.leaving p k e))
    | none => some (s.emit (.put t p k m.entries) t (.leaving p k m.entries))
  | .leaving p k e, .go => some (s.emit (.got t p k e) t .idle)                     -- common.go:132
  | .idle, .upsert p k =>
    if p < m.types.length then some (s.emit (.deleted t p k) t (.erased p k)) else none   -- common.go:141
  | .erased p k, .go => some (s.emit (.put t p k m.entries) t .idle)                -- common.go:142
  | .idle, .update e f => if e < m.entries then some (s.emit (.update t e f) t .idle) else none
  | .idle, .read => some (s.emit (.readCalled t) t (.reading (s.log.length + 1) []))      -- registry.go:277
  | .reading since ms, .visit n j =>                                                -- registry.go:278-279
    (mayVisit (fun l => (mem zero l).names) s.log since (ms.map Report.name) n j).map fun p =>
      s.at t (.inside since ms n p s.log.length [])
  | .reading since ms, .stop =>                                                     -- registry.go:283
    if mayStop (fun l => (mem zero l).names) s.log since (ms.map Report.name) then
      some (s.emit (.readDone t ms) t .idle) else none
  | .inside outer ms n p since ser, .visit k j =>                                   -- common.go:79-81
    (mayVisit (fun l => (mem zero l).vals p) s.log since (ser.map Prod.fst) k j).map fun e =>
      s.at t (.loading outer ms n p since ser k e)
  | .loading outer ms n p since ser k e, .go =>                                     -- common.go:82-89
    some (s.at t (.inside outer ms n p since (ser ++ [(k, e, m.value e)])))
  | .inside outer ms n p since ser, .stop =>                                        -- common.go:92, registry.go:280
    if mayStop (fun l => (mem zero l).vals p) s.log since (ser.map Prod.fst) then
      some (s.at t (.reading outer (ms ++ [⟨n, p, ser⟩]))) else none
  | _, _ => none

def run (zero : V) (s : St V) : List (Nat × Move V) → Option (St V)
  | [] => some s
  | (t, mv) :: rest => (step zero s t mv).bind fun s' => run zero s' rest

end Verif.Metric.RegConc
