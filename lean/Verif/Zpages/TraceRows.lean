import Verif.Zpages.Tracez
import Verif.Http.Status

/-!
# The rows of a span on the trace pages (zpages/tracez.go:180-332, 361-370)

Times are nanoseconds since the Unix epoch. All times of a span are taken to be in one time zone, and
`Before` and `Sub` are taken to compare what `Date` and `Format` show (no monotonic clock readings). The
calendar, `time.Format` and the `%q` and `%v` verbs are parameters (`Text`).
-/

namespace Verif.Zpages
open Verif Verif.Trace

/-- What packages `time` and `fmt` do, left open: `date` is `Time.Date`, `dateText` the text of the layout
`2006/01/02-`, `clockText` that of `15:04:05`, `quote` is `%q` on a string and `showVal` is `%q` or `%v` on
an attribute value (zpages/tracez.go:274-279). -/
structure Text where
  date : Int → Int × Int × Int
  dateText : Int × Int × Int → Bytes
  clockText : Int → Bytes
  quote : Bytes → Bytes
  showVal : AttrVal → Bytes

/-- Padding on the left to a width, for `%5d`, `%6d`, `%11d` (`c` a space) and, for numbers that are not
negative, `%06d` (`c` a zero). -/
def pad (w : Nat) (c : UInt8) (t : Bytes) : Bytes := List.replicate (w - t.length) c ++ t

/-- `t.Sub(u)`, which saturates (documentation of package time). -/
def sub (t u : Int) : Int := max (-2 ^ 63) (min (2 ^ 63 - 1) (t - u))

/-- `fmt.Sprintf(".%06d", t.Nanosecond()/1000)`, zpages/tracez.go:213, 218. -/
def microText (t : Int) : Bytes := 46 :: pad 6 48 (Http.itoa (t % 1000000000 / 1000))

/-- `wholeTime`, zpages/tracez.go:212-214. -/
def wholeTime (x : Text) (t : Int) : Bytes := x.dateText (x.date t) ++ x.clockText t ++ microText t

/-- `formatTime`, zpages/tracez.go:215-222. `last` is `lasty, lastm, lastd`; the new one is returned. -/
def formatTime (x : Text) (last : Int × Int × Int) (t : Int) : Bytes × (Int × Int × Int) :=
  if x.date t = last then (List.replicate 11 32 ++ x.clockText t ++ microText t, last)
  else (wholeTime x t, x.date t)

/-- The switch of `formatElapsed`, zpages/tracez.go:235-250, on microseconds. -/
def elapsedText (u : Int) : Bytes :=
  if u < -9999999999 then pad 11 32 (Http.itoa (u.tdiv 1000000)) ++ str "s"
  else if u < 0 then
    pad 5 32 (Http.itoa (u.tdiv 1000000)) ++ str "." ++ pad 6 48 (Http.itoa (-(u - u.tdiv 1000000 * 1000000)))
  else if u < 1000000 then str "     ." ++ pad 6 32 (Http.itoa u)
  else if u ≤ 99999999999 then
    pad 5 32 (Http.itoa (u.tdiv 1000000)) ++ str "." ++ pad 6 48 (Http.itoa (u - u.tdiv 1000000 * 1000000))
  else pad 11 32 (Http.itoa (u.tdiv 1000000)) ++ str "s"

/-- `formatElapsed`, zpages/tracez.go:225-251. `last` is `lastTime`; the caller keeps the new one, `t`. -/
def formatElapsed (last t : Int) : Bytes := elapsedText ((sub t last).tdiv 1000)

/-- `canonicalCodeString`, zpages/tracez.go:78-83. -/
def canonicalCodeString (code : Int) : Bytes :=
  if code < 0 ∨ canonicalCodes.length ≤ code.toNat then str "error code " ++ Http.itoa code
  else (canonicalCodes[code.toNat]?).getD []

/-- `strings.Join(s, ", ")`. -/
def join : List Bytes → Bytes
  | [] => []
  | [a] => a
  | a :: b :: l => a ++ str ", " ++ join (b :: l)

/-- `formatAttributes`, zpages/tracez.go:262-282. The map is iterated in the order of the list. -/
def formatAttributes (x : Text) (a : GoMap Bytes AttrVal) : Bytes :=
  if a.length = 0 then []
  else
    str "Attributes:{" ++
      join (((a.map Prod.fst).mergeSort (fun k l => decide (k ≤ l))).map fun k =>
        k ++ str "=" ++ x.showVal ((GoMap.get a k).getD [])) ++ str "}"

/-- An element of `events`, zpages/tracez.go:186, 295-300. -/
inductive Event where
  | annotation (a : Annotation)
  | message (m : MessageEvent)
  deriving DecidableEq

/-- The time that `events.Less` compares, zpages/tracez.go:189-204. -/
def Event.time : Event → Int
  | .annotation a => a.time
  | .message m => m.time

/-- `Fields[2]` of the row of an event, zpages/tracez.go:305-308, 317-322. -/
def eventText (x : Text) : Event → Bytes
  | .annotation a =>
      if (a.attributes.getD []).length ≠ 0 then a.message ++ str "  " ++ formatAttributes x (a.attributes.getD [])
      else a.message
  | .message m => match m.type with
      | .sent => str "sent message [" ++ Http.itoa m.uncompressed ++ str " bytes, " ++ Http.itoa m.compressed ++
          str " compressed bytes]"
      | .recv => str "received message [" ++ Http.itoa m.uncompressed ++ str " bytes, " ++ Http.itoa m.compressed ++
          str " compressed bytes]"
      | .unspecified => []

/-- `traceRow`, zpages/tracez.go:180-184. `span` holds the span context and the parent of the first row,
and is `none` for the rows that leave them zero. -/
structure TraceRow where
  whenText : Bytes
  elapsed : Bytes
  text : Bytes
  span : Option (SpanContext × Bytes)

/-- The loop over the events, zpages/tracez.go:302-325, from the last date and the last time. -/
def eventRows (x : Text) (date : Int × Int × Int) (last : Int) : List Event → List TraceRow
  | [] => []
  | e :: es =>
      ⟨(formatTime x date e.time).1, formatElapsed last e.time, eventText x e, none⟩ ::
        eventRows x (formatTime x date e.time).2 e.time es

/-- `firstRow`, zpages/tracez.go:253-260. -/
def firstRow (x : Text) (s : SpanData) : TraceRow :=
  ⟨wholeTime x s.startTime,
    if s.endTime = zeroTime then List.replicate 12 32 else formatElapsed s.startTime s.endTime, [],
    some (s.ctx, s.parentSpanID)⟩

/-- The row of the status, zpages/tracez.go:284-288. -/
def statusRows (x : Text) (s : SpanData) : List TraceRow :=
  if s.status ≠ ⟨0, []⟩ then
    [⟨[], [], str "Status{canonicalCode=" ++ canonicalCodeString s.status.code ++ str ", description=" ++
      x.quote s.status.message ++ str "}", none⟩]
  else []

/-- The row of the attributes, zpages/tracez.go:290-292. -/
def attributeRows (x : Text) (s : SpanData) : List TraceRow :=
  if s.attributes.length ≠ 0 then [⟨[], [], formatAttributes x s.attributes, none⟩] else []

/-- `es` before it is sorted, zpages/tracez.go:294-300. -/
def eventsOf (s : SpanData) : List Event := s.annotations.map .annotation ++ s.messageEvents.map .message

/-- `maxTraceMessageLength`, zpages/tracez.go:43. -/
def maxTraceMessageLength : Nat := 1024

/-- The last loop, zpages/tracez.go:326-330. -/
def cut (r : TraceRow) : TraceRow :=
  if r.text.length > maxTraceMessageLength then { r with text := r.text.take maxTraceMessageLength } else r

/-- `traceRows`, zpages/tracez.go:208-332. `sort.Sort` is not stable: `es` is the order it leaves, any order
of the events that is sorted by time. `.err` stands for an `es` that is no such order. -/
def traceRows (x : Text) (s : SpanData) (es : List Event) : Res (List TraceRow) :=
  if es.Perm (eventsOf s) ∧ es.Pairwise (fun a b => ¬ b.time < a.time) then
    .ok ((firstRow x s :: (statusRows x s ++ attributeRows x s ++
      eventRows x (x.date s.startTime) s.startTime es)).map cut)
  else .err

/-- The rows of `traceDataFromSpans`, zpages/tracez.go:361-370, with an order of the events for each
span. -/
def tracePage (x : Text) : List (SpanData × List Event) → Res (List TraceRow)
  | [] => .ok []
  | (s, es) :: l => (traceRows x s es).bind fun rows => (tracePage x l).bind fun rest => .ok (rows ++ rest)

end Verif.Zpages
