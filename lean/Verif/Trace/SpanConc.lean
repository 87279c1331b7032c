import Verif.Trace.Span

/-!
# One span used by many goroutines
(trace/trace.go:276-303, 307-329, 340-509, trace/spanstore.go:43-57)

Any number of goroutines call the methods of one recording span, and `ReportActiveSpans` may look at it at
any time. A step is what other goroutines can observe: reading the clock, taking or releasing the span's
mutex, reading and writing the span's data under it, the steps of `sync.Once.Do` (load `done`; if it is 0 lock, look again,
run the function, store 1, unlock), loading the exporters, one `ExportSpan` call. `Annotate` and the message
events read the clock before they take the mutex. What a critical section writes is made of what it read in the
step before: two that are not kept apart by the mutex lose each other's updates. The clock is the monotonic one: it never goes back.

Other spans have their own mutex, `Once` and data: their methods are no steps of this machine. Registering
exporters replaces the exporters in one atomic store (`Verif.Trace.EndConc` splits these calls further); here
they may be replaced by any list at any time. `ReportActiveSpans` is only called on a span that is active;
here it may also be after the end. Exporters do not call back into `End` of the same span.
-/

namespace Verif.Trace.SpanConc
open Verif Verif.Trace

/-- The calls that change the span: `SetName`, `SetStatus`, `AddAttributes`, `Annotate` and `Annotatef`,
`AddMessageSendEvent` and `AddMessageReceiveEvent`, `AddLink`, trace/trace.go:340-509, and `addChild`,
trace/trace.go:401-408, which is what `StartSpan` of a child does to its parent. -/
inductive Mut where
  | setName (name : Bytes)
  | setStatus (s : Status)
  | addAttributes (l : List Attribute)
  | annotate (l : List Attribute) (msg : Bytes)
  | message (t : EventType) (id un co : Int)
  | addLink (l : Link)
  | addChild

/-- Which of them read the clock, trace/trace.go:423, 467, 488. -/
def Mut.timed : Mut → Bool
  | .annotate _ _ => true
  | .message _ _ _ _ => true
  | _ => false

/-- The critical section; `now` is what was read from the clock before. -/
def Mut.apply (now : Int) : Mut → Rec → Res Rec
  | .setName n => Rec.setName n
  | .setStatus s => Rec.setStatus s
  | .addAttributes l => Rec.addAttributes l
  | .annotate l msg => Rec.annotate now l msg
  | .message t id un co => Rec.addMessageEvent now t id un co
  | .addLink l => Rec.addLink l
  | .addChild => Rec.addChild

inductive Call where
  | mutate (m : Mut)
  | endSpan                           -- End
  | report                            -- ReportActiveSpans, as far as this span is concerned

/-- A call is identified by its goroutine and its number there. -/
abbrev Id := Nat × Nat

/-- Where a goroutine is. -/
inductive PC where
  | idle
  | clock (m : Mut)                                            -- at time.Now(), trace.go:423, 467, 488
  | lock (m : Mut) (now : Int)                                 -- at s.mu.Lock()
  | body (m : Mut) (now : Int)                                 -- under the mutex: reading
  | write (m : Mut) (now : Int) (r : Rec)                      -- and writing
  | unlock                                                     -- at s.mu.Unlock()
  | fast                                                       -- at the load of `done` in Once.Do
  | onceLock                                                   -- at Once's m.Lock()
  | check                                                      -- at the second look at `done`
  | load                                                       -- trace.go:288
  | snapLock (exp : List Exporter) (must : Bool)               -- trace.go:309
  | snap (exp : List Exporter) (must : Bool)                   -- trace.go:310-326
  | snapWrite (exp : List Exporter) (must : Bool) (r : Rec) (sd : SpanData)
  | snapUnlock (exp : List Exporter) (must : Bool) (sd : SpanData)  -- trace.go:327
  | endTime (exp : List Exporter) (must : Bool) (sd : SpanData)     -- trace.go:292
  | finish (exp : List Exporter) (must : Bool) (sd : SpanData)      -- trace.go:293-295
  | exporting (rem : List Exporter) (sd : SpanData)            -- trace.go:297-299
  | setDone
  | onceUnlock
  | repLock                                                    -- trace.go:309, called from spanstore.go:53
  | repBody                                                    -- trace.go:310-326
  | repWrite (r : Rec) (sd : SpanData)
  | repUnlock (sd : SpanData)                                  -- trace.go:327

/-- What happens: ghost state used to state properties. -/
inductive Ev where
  | called (id : Id) (c : Call)
  | applied (id : Id) (m : Mut) (now : Int)    -- the critical section of a mutator
  | snapshot (id : Id) (sd : SpanData)         -- makeSpanData of End
  | ended (id : Id) (sd : SpanData)            -- the end time is read
  | stored (sd : SpanData)                     -- spanStore.finished
  | exported (e : Exporter) (sd : SpanData)    -- e.ExportSpan(sd)
  | copied (id : Id) (sd : SpanData)           -- makeSpanData of ReportActiveSpans
  | reported (id : Id) (sd : SpanData)         -- what it returns
  | returned (id : Id)

structure St where
  data : Rec
  mu : Option Nat                     -- who holds the span's mutex
  done : Bool
  once : Option Nat                   -- who holds the lock of the span's Once
  exporters : List Exporter
  pc : Nat → PC
  todo : Nat → List Call
  made : Nat → Nat                    -- ghost: how many calls a goroutine has made
  now : Int
  crashed : Bool                      -- a panic
  log : List (Int × Ev)               -- ghost: with the time

def upd {α : Type} (f : Nat → α) (t : Nat) (x : α) : Nat → α := fun u => if u = t then x else f u

/-- Goroutine `t` goes to `p`. -/
def St.goto (st : St) (t : Nat) (p : PC) : St := { st with pc := upd st.pc t p }
/-- An event happens now. -/
def St.note (st : St) (ev : Ev) : St := { st with log := st.log ++ [(st.now, ev)] }
/-- The call goroutine `t` is in. -/
def St.cur (st : St) (t : Nat) : Id := (t, st.made t - 1)

/-- A step of goroutine `t`. `c` chooses the next exporter of the range loop, `order` the iteration order of the
attribute keys. `sampled` and `hasStore` say whether the span is sampled and in a span store. -/
def step (sampled hasStore : Bool) (st : St) (t c : Nat) (order : List Bytes) : Option St :=
  if st.crashed then none else
  match st.pc t with
  | .idle => match st.todo t with
    | [] => none
    | call :: rest =>
      let st := ({ st with todo := upd st.todo t rest, made := upd st.made t (st.made t + 1) }).note
        (.called (t, st.made t) call)
      match call with
      | .mutate m => some (st.goto t (if m.timed then .clock m else .lock m 0))
      | .endSpan => some (st.goto t .fast)
      | .report => some (st.goto t .repLock)
  | .clock m => some (st.goto t (.lock m st.now))
  | .lock m now => if st.mu = none then some ({ st with mu := some t }.goto t (.body m now)) else none
  | .body m now => match m.apply now st.data with
    | .ok r => some (st.goto t (.write m now r))
    | _ => some { st with crashed := true }
  | .write m now r => some (({ st with data := r }.note (.applied (st.cur t) m now)).goto t .unlock)
  | .unlock => some (({ st with mu := none }.note (.returned (st.cur t))).goto t .idle)
  | .fast => if st.done then some ((st.note (.returned (st.cur t))).goto t .idle) else some (st.goto t .onceLock)
  | .onceLock => if st.once = none then some ({ st with once := some t }.goto t .check) else none
  | .check => some (st.goto t (if st.done then .onceUnlock else .load))
  | .load =>
    let must := sampled && decide (st.exporters.length > 0)
    some (st.goto t (if hasStore || must then .snapLock st.exporters must else .setDone))
  | .snapLock exp must => if st.mu = none then some ({ st with mu := some t }.goto t (.snap exp must)) else none
  | .snap exp must => match st.data.makeSpanData order with
    | .ok (r, sd) => some (st.goto t (.snapWrite exp must r sd))
    | .panic => some { st with crashed := true }
    | .err => none
  | .snapWrite exp must r sd =>
    some (({ st with data := r }.note (.snapshot (st.cur t) sd)).goto t (.snapUnlock exp must sd))
  | .snapUnlock exp must sd => some ({ st with mu := none }.goto t (.endTime exp must sd))
  | .endTime exp must sd =>
    let sd := { sd with endTime := monotonicEndTime sd.startTime st.now }
    some ((st.note (.ended (st.cur t) sd)).goto t (.finish exp must sd))
  | .finish exp must sd =>
    some ((if hasStore then st.note (.stored sd) else st).goto t (.exporting (if must then exp else []) sd))
  | .exporting rem sd => match rem with
    | [] => some (st.goto t .setDone)
    | _ => match rem[c]? with
      | none => none
      | some e => some ((st.note (.exported e sd)).goto t (.exporting (rem.eraseIdx c) sd))
  | .setDone => some ({ st with done := true }.goto t .onceUnlock)
  | .onceUnlock => some (({ st with once := none }.note (.returned (st.cur t))).goto t .idle)
  | .repLock => if st.mu = none then some ({ st with mu := some t }.goto t .repBody) else none
  | .repBody => match st.data.makeSpanData order with
    | .ok (r, sd) => some (st.goto t (.repWrite r sd))
    | .panic => some { st with crashed := true }
    | .err => none
  | .repWrite r sd => some (({ st with data := r }.note (.copied (st.cur t) sd)).goto t (.repUnlock sd))
  | .repUnlock sd =>
    some ((({ st with mu := none }.note (.reported (st.cur t) sd)).note (.returned (st.cur t))).goto t .idle)

/-- What can happen next. -/
inductive Move where
  | step (t c : Nat) (order : List Bytes)
  | tick (d : Nat)                       -- time passes
  | exporters (l : List Exporter)        -- RegisterExporter, UnregisterExporter: export.go:55, 70

def move (sampled hasStore : Bool) (st : St) : Move → Option St
  | .step t c order => step sampled hasStore st t c order
  | .tick d => some { st with now := st.now + d }
  | .exporters l => some { st with exporters := l }

def run (sampled hasStore : Bool) (st : St) : List Move → Option St
  | [] => some st
  | m :: ms => (move sampled hasStore st m).bind fun st => run sampled hasStore st ms

/-- The span has just been started at time `now` (trace/trace.go:249-263): nothing was recorded. -/
def init (data : SpanData) (limits : Config) (now : Int) (exporters : List Exporter) (programs : Nat → List Call) : St where
  data := ⟨data, LruMap.new limits.maxAttributes, EvictedQueue.new limits.maxAnnotations,
    EvictedQueue.new limits.maxMessageEvents, EvictedQueue.new limits.maxLinks⟩
  mu := none
  done := false
  once := none
  exporters := exporters
  pc := fun _ => .idle
  todo := programs
  made := fun _ => 0
  now := now
  crashed := false
  log := []

end Verif.Trace.SpanConc
