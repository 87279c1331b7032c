import Verif.Trace.Span

/-!
# Spans and their data in memory (trace/trace.go, trace/evictedqueue.go)

`Trace/Span` has the events of a span and the data made of them as values. Here they are what Go has: arrays of interface
values that `append` fills in place while there is room, slices of them, maps that are pointers. A span is used by the
callers of its methods; the maps in the links are theirs, and they may write to them at any time.

Everything that holds a pointer is here. The LRU map is a value: nothing in it is handed out. The tracestate of a span
context is a pointer to what nobody changes and is left as it is.
-/

namespace Verif.Trace.Mem
open Verif Verif.Trace

/-- A pointer. -/
abbrev Addr := Nat

/-- The three queues of a span, trace/trace.go:54-60. -/
inductive Kind where
  | annotations | messageEvents | links
  deriving DecidableEq

/-- Whose a cell is: one made by the library for data it hands out or for an annotation; an array of a queue; the `k`-th map
of the caller. For the proofs only. -/
inductive Tag where
  | lib
  | queue (span : Nat) (kind : Kind)
  | caller (k : Nat)
  deriving DecidableEq

/-- `Annotation`, trace/basetypes.go:39-43, with a pointer to the map. -/
structure HAnnotation where
  time : Int
  message : Bytes
  attributes : Option Addr

/-- `Link`, trace/basetypes.go:94-100. -/
structure HLink where
  traceID : Bytes
  spanID : Bytes
  type : Int
  attributes : Option Addr

/-- The interface values in the queues, trace/evictedqueue.go:18. -/
inductive Item where
  | annotation (x : HAnnotation)
  | messageEvent (x : MessageEvent)
  | link (x : HLink)

/-- What a cell holds: the maps of trace/trace.go:384, 426 and of callers, the arrays of trace/evictedqueue.go:26, 37 and of
trace/trace.go:360, 368, 376. -/
inductive Body where
  | map (m : GoMap Bytes AttrVal)
  | items (xs : List (Option Item))           -- `[]interface{}`; the spare capacity holds nil
  | annotations (xs : List HAnnotation)
  | messageEvents (xs : List MessageEvent)
  | links (xs : List HLink)

/-- A cell; maps, and arrays behind slices, are pointers to cells. -/
structure Cell where
  tag : Tag
  body : Body

/-- Memory; only grows (what nobody can reach is not collected here). -/
abbrev Heap := List Cell

/-- `evictedQueue`, trace/evictedqueue.go:17-21: the slice `queue` is an array, an offset and a length; `none` is the array
of `make([]interface{}, 0)`, which has no room. -/
structure HQueue where
  arr : Option Addr
  off : Nat
  len : Nat
  capacity : Int
  droppedCount : Int

/-- `newEvictedQueue`, trace/evictedqueue.go:23-30. -/
def HQueue.new (capacity : Int) : HQueue := ⟨none, 0, 0, capacity, 0⟩

/-- The array of a queue, trace/evictedqueue.go:18. -/
def array (h : Heap) : Option Addr → List (Option Item)
  | none => []
  | some a => match h[a]? with
    | some ⟨_, .items xs⟩ => xs
    | _ => []

/-- The elements of the slice, trace/evictedqueue.go:18. -/
def HQueue.slots (h : Heap) (q : HQueue) : List (Option Item) := ((array h q.arr).drop q.off).take q.len

/-- `append(eq.queue, value)`, trace/evictedqueue.go:37: in place if the array has room, else in a new array, which has room for `spare` more. -/
def append (h : Heap) (tag : Tag) (q : HQueue) (v : Item) (spare : Nat) : Heap × HQueue :=
  let xs := array h q.arr
  match q.arr with
  | some a =>
    if q.off + q.len < xs.length then
      (h.set a ⟨tag, .items (xs.set (q.off + q.len) (some v))⟩, { q with len := q.len + 1 })
    else (h ++ [⟨tag, .items (q.slots h ++ [some v] ++ List.replicate spare none)⟩],
      { q with arr := some h.length, off := 0, len := q.len + 1 })
  | none => (h ++ [⟨tag, .items (q.slots h ++ [some v] ++ List.replicate spare none)⟩],
      { q with arr := some h.length, off := 0, len := q.len + 1 })

/-- `add`, trace/evictedqueue.go:32-38. `queue[1:]` moves the offset; on an empty slice it panics. -/
def HQueue.add (h : Heap) (tag : Tag) (q : HQueue) (v : Item) (spare : Nat) : Res (Heap × HQueue) :=
  if (q.len : Int) = q.capacity then
    if q.len = 0 then .panic
    else .ok (append h tag { q with off := q.off + 1, len := q.len - 1, droppedCount := q.droppedCount + 1 } v spare)
  else .ok (append h tag q v spare)

/-- A recording span, trace/trace.go:40-68; the map and the slices of `*data` are nil always. -/
structure HSpan where
  data : SpanData
  attrs : LruMap AttrVal
  annotations : HQueue
  messageEvents : HQueue
  links : HQueue

/-- A `SpanData`, trace/export.go:74-99: what it has but pointers in `base`, and pointers to a map and to arrays, which the slices are all of. -/
structure HData where
  base : SpanData
  attributes : Option Addr
  annotations : Option Addr
  messageEvents : Option Addr
  links : Option Addr

/-- `interfaceArrayToAnnotationArray`, trace/trace.go:375-381. The type assertion panics for another type. -/
def asAnnotations : List (Option Item) → Res (List HAnnotation)
  | [] => .ok []
  | some (.annotation x) :: l => (asAnnotations l).bind fun r => .ok (x :: r)
  | _ :: _ => .panic

/-- `interfaceArrayToMessageEventArray`, trace/trace.go:367-373. -/
def asMessageEvents : List (Option Item) → Res (List MessageEvent)
  | [] => .ok []
  | some (.messageEvent x) :: l => (asMessageEvents l).bind fun r => .ok (x :: r)
  | _ :: _ => .panic

/-- `interfaceArrayToLinksArray`, trace/trace.go:359-365. -/
def asLinks : List (Option Item) → Res (List HLink)
  | [] => .ok []
  | some (.link x) :: l => (asLinks l).bind fun r => .ok (x :: r)
  | _ :: _ => .panic

/-- `makeSpanData`, trace/trace.go:307-329, with `interfaceArrayTo…Array` and `lruAttributesToAttributeMap`, 359-393.
`order` is the iteration order of the attribute keys. -/
def makeSpanData (h : Heap) (s : HSpan) (order : List Bytes) : Res (Heap × HSpan × HData) :=
  if !(order.isPerm (GoMap.keys s.attrs.cacheKeys)) then .err
  else
    let d : HData := ⟨s.data, none, none, none, none⟩
    let (h, s, d) :=
      if s.attrs.len > 0 then
        let (m, a) := s.attrs.toAttributeMap order
        (h ++ [⟨.lib, .map a⟩], { s with attrs := m },
          { d with attributes := some h.length, base := { d.base with droppedAttributes := m.droppedCount } })
      else (h, s, d)
    (if s.annotations.len > 0 then (asAnnotations (s.annotations.slots h)).bind fun xs =>
        .ok (h ++ [⟨.lib, .annotations xs⟩], { d with
          annotations := some h.length, base := { d.base with droppedAnnotations := s.annotations.droppedCount } })
      else .ok (h, d)).bind fun (h, d) =>
    (if s.messageEvents.len > 0 then (asMessageEvents (s.messageEvents.slots h)).bind fun xs =>
        .ok (h ++ [⟨.lib, .messageEvents xs⟩], { d with
          messageEvents := some h.length, base := { d.base with droppedMessageEvents := s.messageEvents.droppedCount } })
      else .ok (h, d)).bind fun (h, d) =>
    (if s.links.len > 0 then (asLinks (s.links.slots h)).bind fun xs =>
        .ok (h ++ [⟨.lib, .links xs⟩], { d with
          links := some h.length, base := { d.base with droppedLinks := s.links.droppedCount } })
      else .ok (h, d)).bind fun (h, d) => .ok (h, s, d)

/-- The spans (trace/trace.go:40-68), the data made so far (by `End`, for exporters and span stores, and by `ReportActiveSpans`), and the caller's
maps. -/
structure State where
  heap : Heap
  spans : List HSpan
  made : List HData
  maps : List Addr

/-- A call on span `i` (the methods of trace/trace.go:340-509), or something the caller does with maps. The limits of a span are those of the configuration. A
number `spare` is how much more room than needed a new array of `append` has. -/
inductive Op where
  | start (sc : SpanContext) (now kind : Int) (name : Bytes) (remote hasParent : Bool) (parent : SpanContext)
      (maxAttributes maxAnnotations maxMessageEvents maxLinks : Int)
  | setName (i : Nat) (name : Bytes)
  | setStatus (i : Nat) (s : Status)
  | addChild (i : Nat)
  | addAttributes (i : Nat) (l : List Attribute)
  | annotate (i : Nat) (now : Int) (l : List Attribute) (msg : Bytes) (spare : Nat)
  | addMessageEvent (i : Nat) (now : Int) (t : EventType) (id un co : Int) (spare : Nat)
  | addLink (i : Nat) (traceID spanID : Bytes) (type : Int) (attributes : Option Nat) (spare : Nat)
  | makeSpanData (i : Nat) (order : List Bytes) (endTime : Int)
  /-- The caller makes a map, and fills it. -/
  | newMap (m : GoMap Bytes AttrVal)
  /-- The caller writes to a map later on. -/
  | write (k : Nat) (key : Bytes) (value : AttrVal)

/-- The attribute map of an annotation, trace/trace.go:424-430. -/
def annotationMap (h : Heap) (l : List Attribute) : Heap × Option Addr := match attrMap l with
  | some m => (h ++ [⟨.lib, .map m⟩], some h.length)
  | none => (h, none)

/-- A step. A program can only use spans and maps there are: `.err` for others. The data is given its end time before
anybody else has it, trace/trace.go:292. -/
def step (st : State) : Op → Res State
  | .start sc now kind name remote hasParent parent a n m l => .ok { st with                  -- trace.go:245-263
      spans := st.spans ++ [⟨newSpanData sc now kind name remote hasParent parent, LruMap.new a, .new n, .new m, .new l⟩] }
  | .setName i name => match st.spans[i]? with                                         -- trace.go:340-347
    | none => .err
    | some s => .ok { st with spans := st.spans.set i { s with data := { s.data with name := name } } }
  | .setStatus i x => match st.spans[i]? with                                          -- trace.go:350-357
    | none => .err
    | some s => .ok { st with spans := st.spans.set i { s with data := { s.data with status := x } } }
  | .addChild i => match st.spans[i]? with                                             -- trace.go:401-408
    | none => .err
    | some s => .ok { st with spans := st.spans.set i { s with data :=
        { s.data with childSpanCount := wrap64 (s.data.childSpanCount + 1) } } }
  | .addAttributes i l => match st.spans[i]? with                                      -- trace.go:395-399, 413-420
    | none => .err
    | some s => .ok { st with spans := st.spans.set i { s with attrs := l.foldl (fun m a => m.add a.key a.value) s.attrs } }
  | .annotate i now l msg spare => match st.spans[i]? with                             -- trace.go:422-455
    | none => .err
    | some s =>
      let (h, am) := annotationMap st.heap l
      (s.annotations.add h (.queue i .annotations) (.annotation ⟨now, msg, am⟩) spare).bind fun (h, q) =>
        .ok { st with heap := h, spans := st.spans.set i { s with annotations := q } }
  | .addMessageEvent i now t id un co spare => match st.spans[i]? with                 -- trace.go:463-499
    | none => .err
    | some s => (s.messageEvents.add st.heap (.queue i .messageEvents) (.messageEvent ⟨now, t, id, un, co⟩) spare).bind
        fun (h, q) => .ok { st with heap := h, spans := st.spans.set i { s with messageEvents := q } }
  | .addLink i tid sid ty k spare => match st.spans[i]?, k.map (fun k => st.maps[k]?) with    -- trace.go:502-509
    | none, _ => .err
    | _, some none => .err
    | some s, some (some a) => (s.links.add st.heap (.queue i .links) (.link ⟨tid, sid, ty, some a⟩) spare).bind
        fun (h, q) => .ok { st with heap := h, spans := st.spans.set i { s with links := q } }
    | some s, none => (s.links.add st.heap (.queue i .links) (.link ⟨tid, sid, ty, none⟩) spare).bind
        fun (h, q) => .ok { st with heap := h, spans := st.spans.set i { s with links := q } }
  | .makeSpanData i order endTime => match st.spans[i]? with
    | none => .err
    | some s => (Mem.makeSpanData st.heap s order).bind fun (h, s, d) =>
        .ok { st with
          heap := h
          spans := st.spans.set i s
          made := st.made ++ [{ d with base := { d.base with endTime := endTime } }] }
  | .newMap m => .ok { st with heap := st.heap ++ [⟨.caller st.maps.length, .map m⟩], maps := st.maps ++ [st.heap.length] }
  | .write k key v => match st.maps[k]? with
    | none => .err
    | some a => match st.heap[a]? with
      | some ⟨t, .map m⟩ => .ok { st with heap := st.heap.set a ⟨t, .map (GoMap.set m key v)⟩ }
      | _ => .err

/-- A program: the calls of trace/trace.go in the order in which they take the locks. -/
def run (st : State) : List Op → Res State
  | [] => .ok st
  | op :: ops => (step st op).bind fun st => run st ops

/-- Program start: no span, trace/trace.go:40-68. -/
def State.init : State := ⟨[], [], [], []⟩

/-! ## What one sees through the pointers -/

/-- A map (trace/basetypes.go:42, 99, trace/export.go:84); nil is `none`. Outside `none`: no such map. -/
def seeMap (h : Heap) : Option Addr → Option (Option (GoMap Bytes AttrVal))
  | none => some none
  | some a => match h[a]? with
    | some ⟨_, .map m⟩ => some (some m)
    | _ => none

/-- An annotation with its attributes, trace/basetypes.go:39-43. -/
def seeAnnotation (h : Heap) (x : HAnnotation) : Option Annotation := (seeMap h x.attributes).map fun m => ⟨x.time, x.message, m⟩

/-- A link with its attributes, trace/basetypes.go:94-100. -/
def seeLink (h : Heap) (x : HLink) : Option Link := (seeMap h x.attributes).map fun m => ⟨x.traceID, x.spanID, x.type, m⟩

/-- The slice `Annotations`, trace/export.go:85. -/
def seeAnnotations (h : Heap) : Option Addr → Option (List Annotation)
  | none => some []
  | some a => match h[a]? with
    | some ⟨_, .annotations xs⟩ => xs.mapM (seeAnnotation h)
    | _ => none

/-- The slice `MessageEvents`, trace/export.go:86. -/
def seeMessageEvents (h : Heap) : Option Addr → Option (List MessageEvent)
  | none => some []
  | some a => match h[a]? with
    | some ⟨_, .messageEvents xs⟩ => some xs
    | _ => none

/-- The slice `Links`, trace/export.go:88. -/
def seeLinks (h : Heap) : Option Addr → Option (List Link)
  | none => some []
  | some a => match h[a]? with
    | some ⟨_, .links xs⟩ => xs.mapM (seeLink h)
    | _ => none

/-- A `SpanData` (trace/export.go:74-99) as an exporter that follows all the pointers sees it. -/
def see (h : Heap) (d : HData) : Option SpanData :=
  match seeMap h d.attributes, seeAnnotations h d.annotations, seeMessageEvents h d.messageEvents, seeLinks h d.links with
  | some attributes, some annotations, some messageEvents, some links =>
    some { d.base with
      attributes := attributes.getD []
      annotations := annotations
      messageEvents := messageEvents
      links := links }
  | _, _, _, _ => none

end Verif.Trace.Mem
