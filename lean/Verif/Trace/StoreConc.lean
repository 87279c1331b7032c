import Verif.Trace.Span
import Verif.Zpages.Tracez

/-!
# Span stores used by many goroutines (trace/spanstore.go, with the parts of trace/trace.go that use them)

The local span store is on. Goroutines start, change and end spans and make reports, in any order. There are four kinds of
locks: `ssmu`, which guards the map of the stores; the mutex of a store; the mutex of a span; and `endOnce` of a span.

A step is a critical section that takes no other lock, or a lock or unlock around one that does: `ReportActiveSpans` holds
the mutex of the store while it takes those of the spans, `ReportSpansPerMethod` holds `ssmu` for reading while it takes
those of the stores, `spanStoreSetSize` holds it for writing while it resizes a store that has just been made by somebody
else, and `End` calls everything within `endOnce.Do`. A writer that waits for `ssmu` keeps new readers out, as in Go.

What is in memory is what the events so far have made of it. Exporters are left out (C27, C71).
-/

namespace Verif.Trace.StoreConc
open Verif Verif.Trace Verif.Zpages

/-- The calls. `start` is `StartSpan` or `StartSpanWithRemoteParent` with the data a new span gets
(trace/trace.go:249-263); `mutate` any method that changes the span under its mutex (trace/trace.go:340-509); `setSize` is
one turn of `ConfigureBucketSizes` (trace/spanstore.go:94-112) with the clamped sizes. -/
inductive Call where
  | start (name : Bytes) (r : Rec)
  | mutate (i : Nat) (f : Rec → Rec)
  | endSpan (i : Nat)
  | active (name : Bytes)
  | byError (name : Bytes) (code : Int)
  | byLatency (name : Bytes) (min max : Int)
  | perMethod
  | setSize (name : Bytes) (lat err : Nat)

/-- Results. In a report of active spans the span is beside its data. -/
inductive Result where
  | unit
  | span (i : Nat)
  | active (l : List (Nat × SpanData))
  | data (l : List SpanData)
  | summary (l : List (Bytes × Summary))

/-- What happens; `t` is the goroutine. A call is identified by its place in the log. -/
inductive Ev where
  | called (id t : Nat) (c : Call)
  | returned (id t : Nat) (r : Result)
  | created (t : Nat) (name : Bytes) (p lat err : Nat)
  | added (t i p : Nat) (r : Rec)
  | resized (t p lat err : Nat)
  | mutated (t i : Nat) (f : Rec → Rec)
  | made (t i : Nat) (order : List Bytes) (sd : SpanData)
  | finished (t i p : Nat) (sd : SpanData)

/-- `spanStores` (trace/spanstore.go:29-32), the stores (188-194), what the spans hold (trace/trace.go:40-68) and their
stores (trace/trace.go:61). -/
structure Mem where
  names : GoMap Bytes Nat
  stores : Nat → Store
  nstores : Nat
  recs : Nat → Option Rec
  home : Nat → Nat
  nspans : Nat

/-- `f` with `x` at `i`. -/
def upd {α : Type} (f : Nat → α) (i : Nat) (x : α) : Nat → α := fun j => if j = i then x else f j

/-- A result, or what was there. -/
def orElse {α : Type} (x : Res α) (d : α) : α := match x with
  | .ok a => a
  | _ => d

/-- The effect of an event: `newSpanStore` and `spanStores[name] = s` (trace/spanstore.go:236-237, 259-260), `add`
(275-280), `resize` (263-273), a method of a span, `makeSpanData` (which moves attributes in the LRU list), `finished`
(284-308). -/
def Mem.exec (m : Mem) : Ev → Mem
  | .created _ n p lat err => { m with
      names := GoMap.set m.names n p
      stores := upd m.stores p (Store.new lat err)
      nstores := m.nstores + 1 }
  | .added _ i p r => { m with
      stores := upd m.stores p { m.stores p with active := (m.stores p).active ++ [i] }
      recs := upd m.recs i (some r)
      home := upd m.home i p
      nspans := m.nspans + 1 }
  | .resized _ p lat err => { m with stores := upd m.stores p (orElse ((m.stores p).resize lat err) (m.stores p)) }
  | .mutated _ i f => { m with recs := upd m.recs i ((m.recs i).map f) }
  | .made _ i order _ => { m with recs := upd m.recs i ((m.recs i).map fun r => match r.makeSpanData order with
      | .ok (r, _) => r
      | _ => r) }
  | .finished _ i p sd => { m with stores := upd m.stores p (orElse ((m.stores p).finished i sd) (m.stores p)) }
  | _ => m

/-- Memory after the events. -/
def mem (log : List Ev) : Mem := log.foldl Mem.exec ⟨[], fun _ => Store.new 0 0, 0, fun _ => none, fun _ => 0, 0⟩

/-- `ReportSpansByError` on a store, trace/spanstore.go:70-89. -/
def errorsOf (s : Store) (code : Int) : List SpanData :=
  if code ≠ 0 then match GoMap.get s.errors code with
    | some b => scan b.buffer
    | none => []
  else s.errors.flatMap fun e => scan e.2.buffer

/-- `ReportSpansByLatency` on a store, trace/spanstore.go:157-180. -/
def latencyOf (s : Store) (min max : Int) : Res (List SpanData) := reportLatencyLoop min max s.latency.length 0 s.latency

/-- Where a goroutine is within its call. -/
inductive Loc where
  /-- before `ssmu.RLock`, trace/spanstore.go:214, 224, 245 -/
  | look
  /-- before `ssmu.Lock`, trace/spanstore.go:230, 252 -/
  | announce
  /-- waiting in `ssmu.Lock` for the readers to leave -/
  | pend
  /-- `spanStoreSetSize` before `resize` at trace/spanstore.go:256, with `ssmu` locked -/
  | locked (p : Nat)
  /-- `startSpanInternal` before `ss.add(s)`, trace/trace.go:269 -/
  | add (p : Nat)
  /-- a report or `spanStoreSetSize` before the mutex of the store, trace/spanstore.go:68, 154, 264 -/
  | use (p : Nat)
  /-- `ReportActiveSpans` before the mutex of the store, trace/spanstore.go:49 -/
  | lockActive (p : Nat)
  /-- in the loop of `ReportActiveSpans`, trace/spanstore.go:51-55 -/
  | inActive (p : Nat) (left : List Nat) (out : List (Nat × SpanData))
  /-- `ReportSpansPerMethod` before `ssmu.RLock`, trace/spanstore.go:117 -/
  | per
  /-- in the loop of `ReportSpansPerMethod`, trace/spanstore.go:119-140 -/
  | inPer (left : List Bytes) (out : List (Bytes × Summary))
  /-- a method of a span before its mutex -/
  | change
  /-- `End` before `endOnce.Do`, trace/trace.go:287 -/
  | once
  /-- `End` before `makeSpanData`, trace/trace.go:291 -/
  | make
  /-- `End` before `finished`, trace/trace.go:294 -/
  | fin (sd : SpanData)
  /-- `End` behind it, trace/trace.go:296-301 -/
  | rest
  /-- before the return -/
  | ret (r : Result)

/-- `sync.Once`. -/
inductive Once where
  | fresh
  | running (t : Nat)
  | done

structure St where
  log : List Ev
  pc : Nat → Option (Nat × Call × Loc)     -- the call and where it is
  readers : List Nat                       -- who has `ssmu` for reading
  pending : Option Nat                     -- who has it for writing, or waits for the readers to leave
  held : Nat → Option Nat                  -- who holds the mutex of a store over several steps
  once : Nat → Once                        -- `endOnce` of the spans
  crashed : Bool

def init : St := ⟨[], fun _ => none, [], none, fun _ => none, fun _ => .fresh, false⟩

/-- What is up to others: which element is next in a `range`, the order of the keys of a map, the clock. -/
structure Pick where
  n : Nat
  order : List Bytes
  now : Int

inductive Move where
  | call (c : Call)
  | go (k : Pick)

/-- Goroutine `t` goes on. -/
def St.at (s : St) (t id : Nat) (c : Call) (l : Loc) : St := { s with pc := upd s.pc t (some (id, c, l)) }
/-- Something happens, and goroutine `t` goes on. -/
def St.emit (s : St) (e : Ev) (t id : Nat) (c : Call) (l : Loc) : St :=
  { s with log := s.log ++ [e], pc := upd s.pc t (some (id, c, l)) }

/-- The name of the store that a call asks for. -/
def Call.name : Call → Option Bytes
  | .start n _ | .active n | .byError n _ | .byLatency n _ _ | .setSize n _ _ => some n
  | _ => none

/-- Spans that there are can be used. -/
def Call.can (m : Mem) : Call → Bool
  | .mutate i _ | .endSpan i => decide (i < m.nspans)
  | _ => true

/-- The first lock of a call. -/
def Call.enter : Call → Loc
  | .perMethod => .per
  | .mutate _ _ => .change
  | .endSpan _ => .once
  | _ => .look

/-- With a store that has been found, behind trace/spanstore.go:44, 63, 149, 227, 248. -/
def Call.found (p : Nat) : Call → Loc
  | .start _ _ => .add p
  | .active _ => .lockActive p
  | _ => .use p

/-- Without one, trace/spanstore.go:45-47, 64-66, 150-152, 230, 252. -/
def Call.missing : Call → Loc
  | .start _ _ | .setSize _ _ _ => .announce
  | .active _ => .ret (.active [])
  | _ => .ret (.data [])

/-- A step of goroutine `t`; `none` if it has to wait. -/
def step (s : St) (t : Nat) (mv : Move) : Option St :=
  let m := mem s.log
  if s.crashed then none else
  match s.pc t, mv with
  | none, .call c =>
    if c.can m then some (s.emit (.called s.log.length t c) t s.log.length c c.enter) else none
  | some (id, c, .look), .go _ =>                                              -- spanstore.go:214-216, 224-226, 245-247
    if s.pending ≠ none then none else match c.name with
      | none => none
      | some n => match GoMap.get m.names n with
        | some p => some (s.at t id c (c.found p))
        | none => some (s.at t id c c.missing)
  | some (id, c, .announce), .go _ =>
    if s.pending ≠ none then none else some { s.at t id c .pend with pending := some t }
  | some (id, .start n r, .pend), .go _ =>
    if s.readers ≠ [] then none else match GoMap.get m.names n with
      | some p => some { s.at t id (.start n r) (.add p) with pending := none }                  -- spanstore.go:232-235
      | none =>                                                                                  -- spanstore.go:236-238
        some { s.emit (.created t n m.nstores 10 10) t id (.start n r) (.add m.nstores) with pending := none }
  | some (id, .setSize n lat err, .pend), .go _ =>
    if s.readers ≠ [] then none else match GoMap.get m.names n with
      | some p => some (s.at t id (.setSize n lat err) (.locked p))                              -- spanstore.go:254-255
      | none =>                                                                                  -- spanstore.go:259-260
        some { s.emit (.created t n m.nstores lat err) t id (.setSize n lat err) (.ret .unit) with pending := none }
  | some (id, .setSize n lat err, .locked p), .go _ =>                                           -- spanstore.go:256-257
    if s.held p ≠ none then none else match (m.stores p).resize lat err with
      | .ok _ => some { s.emit (.resized t p lat err) t id (.setSize n lat err) (.ret .unit) with pending := none }
      | _ => some { s with crashed := true }
  | some (id, .start n r, .add p), .go _ =>                                                      -- spanstore.go:276-279
    if s.held p ≠ none then none
    else some (s.emit (.added t m.nspans p r) t id (.start n r) (.ret (.span m.nspans)))
  | some (id, .byError n code, .use p), .go _ =>                                                 -- spanstore.go:68-89
    if s.held p ≠ none then none else some (s.at t id (.byError n code) (.ret (.data (errorsOf (m.stores p) code))))
  | some (id, .byLatency n min max, .use p), .go _ =>                                            -- spanstore.go:154-180
    if s.held p ≠ none then none else match latencyOf (m.stores p) min max with
      | .ok out => some (s.at t id (.byLatency n min max) (.ret (.data out)))
      | _ => some { s with crashed := true }
  | some (id, .setSize n lat err, .use p), .go _ =>                                              -- spanstore.go:263-273
    if s.held p ≠ none then none else match (m.stores p).resize lat err with
      | .ok _ => some (s.emit (.resized t p lat err) t id (.setSize n lat err) (.ret .unit))
      | _ => some { s with crashed := true }
  | some (id, c, .lockActive p), .go _ =>                                                        -- spanstore.go:49
    if s.held p ≠ none then none
    else some { s.at t id c (.inActive p (m.stores p).active []) with held := upd s.held p (some t) }
  | some (id, c, .inActive p [] out), .go _ =>                                                   -- spanstore.go:50, 56
    some { s.at t id c (.ret (.active out)) with held := upd s.held p none }
  | some (id, c, .inActive p (x :: left) out), .go k => match (x :: left)[k.n]? with             -- spanstore.go:51-55
    | none => none
    | some i => match m.recs i with
      | none => some { s with crashed := true }
      | some r => match r.makeSpanData k.order with
        | .ok (_, sd) => some (s.emit (.made t i k.order sd) t id c (.inActive p ((x :: left).eraseIdx k.n) (out ++ [(i, sd)])))
        | .err => none
        | .panic => some { s with crashed := true }
  | some (id, c, .per), .go _ =>                                                                 -- spanstore.go:117
    if s.pending ≠ none then none
    else some { s.at t id c (.inPer (GoMap.keys m.names) []) with readers := t :: s.readers }
  | some (id, c, .inPer [] out), .go _ =>                                                        -- spanstore.go:118, 141
    some { s.at t id c (.ret (.summary out)) with readers := s.readers.erase t }
  | some (id, c, .inPer (x :: left) out), .go k => match (x :: left)[k.n]? with                  -- spanstore.go:119-140
    | none => none
    | some n => match GoMap.get m.names n with
      | none => some { s with crashed := true }
      | some p => if s.held p ≠ none then none else match summaryOf (m.stores p) with
        | .ok sum => some (s.at t id c (.inPer ((x :: left).eraseIdx k.n) (out ++ [(n, sum)])))
        | _ => some { s with crashed := true }
  | some (id, .mutate i f, .change), .go _ => some (s.emit (.mutated t i f) t id (.mutate i f) (.ret .unit))
  | some (id, .endSpan i, .once), .go _ => match s.once i with                                   -- trace.go:287
    | .fresh => some { s.at t id (.endSpan i) .make with once := upd s.once i (.running t) }
    | .running _ => none
    | .done => some (s.at t id (.endSpan i) (.ret .unit))
  | some (id, .endSpan i, .make), .go k => match m.recs i with                                   -- trace.go:291-292
    | none => some { s with crashed := true }
    | some r => match r.makeSpanData k.order with
      | .ok (_, sd) => some (s.emit (.made t i k.order sd) t id (.endSpan i)
          (.fin { sd with endTime := monotonicEndTime sd.startTime k.now }))
      | .err => none
      | .panic => some { s with crashed := true }
  | some (id, .endSpan i, .fin sd), .go _ =>                                                     -- trace.go:294
    if s.held (m.home i) ≠ none then none else match (m.stores (m.home i)).finished i sd with
      | .ok _ => some (s.emit (.finished t i (m.home i) sd) t id (.endSpan i) .rest)
      | _ => some { s with crashed := true }
  | some (id, .endSpan i, .rest), .go _ =>                                                     -- trace.go:296-302
    some { s.at t id (.endSpan i) (.ret .unit) with once := upd s.once i .done }
  | some (id, _, .ret r), .go _ => some { s with log := s.log ++ [.returned id t r], pc := upd s.pc t none }
  | _, _ => none

/-- Any schedule of any goroutines. -/
inductive Reach : St → Prop where
  | init : Reach init
  | step {s s' : St} (t : Nat) (mv : Move) : Reach s → step s t mv = some s' → Reach s'

end Verif.Trace.StoreConc
