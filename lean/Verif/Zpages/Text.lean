import Verif.Utf8
import Verif.Zpages.Page

/-!
# The trace pages as text (zpages/tracez.go:125-172, 372-390)

The text is laid out by `text/tabwriter`, which is modelled from its documentation and source: cells are ended by tabs and lines,
tab-terminated cells in contiguous lines are a column.
-/

namespace Verif.Zpages.Text
open Verif Verif.Zpages Verif.Trace

/-! ## text/tabwriter -/

/-- `utf8.RuneCount`; `skip` bytes belong to the rune that was counted last. -/
def runesFrom : Nat → Bytes → Nat
  | _, [] => 0
  | 0, b :: s => runesFrom ((Utf8.decodeRune (b :: s)).2 - 1) s + 1
  | k + 1, _ :: s => runesFrom k s

/-- `utf8.RuneCount`. -/
def runes (b : Bytes) : Nat := runesFrom 0 b

/-- A cell of `text/tabwriter`: its text and its width in characters. -/
structure Cell where
  text : Bytes
  width : Int
  deriving DecidableEq, Repr

/-- The writer between two bytes: what it has written, the lines it holds back, the ended cells of the current line, the text of
the current cell, the part of it that is not yet in its width, the width, and whether an escape (`\xff`) is open. -/
structure Tw where
  out : Bytes
  lines : List (List Cell)
  cur : List Cell
  text : Bytes
  seg : Bytes
  width : Int
  esc : Bool
  deriving Repr

/-- The width of column `j` in every line: a line that has a tab-terminated cell there gets the greatest width of the lines it is
contiguous with, plus the padding, at least the minimum; `acc` is that of the lines above. The second component is that of the run
that begins with the list. -/
def columnWidths (min pad : Int) (j : Nat) (acc : Int) : List (List Cell) → List Int × Int
  | [] => ([], acc)
  | l :: ls =>
    match (l.dropLast)[j]? with
    | some c =>
      let (r, m) := columnWidths min pad j (max acc (c.width + pad)) ls
      (m :: r, m)
    | none => (0 :: (columnWidths min pad j min ls).1, acc)

/-- The text of line number `i`: every cell but the last is filled with spaces to the width of its column; `j` is the column of
the first cell. -/
def layLine (widthOf : Nat → Int) (j : Nat) : List Cell → Bytes
  | [] => []
  | [c] => c.text
  | c :: cs => c.text ++ List.replicate (widthOf j - c.width).toNat 32 ++ layLine widthOf (j + 1) cs

/-- The lines as `format` and `writeLines` write them, without the ends of the lines. -/
def layLines (min pad : Int) (lines : List (List Cell)) : List Bytes :=
  (List.range lines.length).map fun i =>
    layLine (fun j => ((columnWidths min pad j min lines).1[i]?).getD 0) 0 ((lines[i]?).getD [])

/-- Writing the lines that are held back. -/
def Tw.flushLines (min pad : Int) (w : Tw) : Tw :=
  { w with out := w.out ++ (layLines min pad w.lines).flatMap (· ++ [10]), lines := [] }

/-- The cell is ended. -/
def Tw.endCell (w : Tw) : Tw :=
  { w with cur := w.cur ++ [⟨w.text, w.width + runes w.seg⟩], text := [], seg := [], width := 0 }

/-- `endEscape`: the two escape bytes have no width. -/
def Tw.endEscape (w : Tw) : Tw := { w with width := w.width + runes w.seg - 2, seg := [], esc := false }

/-- `Write` of a byte. Flags are zero: the escape bytes stay in the text, `<` and `&` are not special. A line of one cell does not
take part in any column, and everything is written. -/
def Tw.put (min pad : Int) (w : Tw) (c : UInt8) : Tw :=
  if w.esc then
    let w := { w with text := w.text ++ [c], seg := w.seg ++ [c] }
    if c = 255 then w.endEscape else w
  else if c = 9 ∨ c = 11 then w.endCell
  else if c = 10 ∨ c = 12 then
    let w := w.endCell
    let n := w.cur.length
    let w := { w with lines := w.lines ++ [w.cur], cur := [] }
    if c = 12 ∨ n = 1 then w.flushLines min pad else w
  else if c = 255 then
    { w with width := w.width + runes w.seg, text := w.text ++ [c], seg := [c], esc := true }
  else { w with text := w.text ++ [c], seg := w.seg ++ [c] }

/-- `NewWriter`. -/
def Tw.new : Tw := ⟨[], [], [], [], [], 0, false⟩

/-- `Flush`: an open escape is closed, the line that is not ended is written without a newline. -/
def Tw.flush (min pad : Int) (w : Tw) : Bytes :=
  let w := if w.text = [] then w else (if w.esc then w.endEscape else w).endCell
  let all := layLines min pad (w.lines ++ [w.cur])
  w.out ++ all.dropLast.flatMap (· ++ [10]) ++ (all.getLast?).getD []

/-- `tabwriter.NewWriter(w, min, _, pad, ' ', 0)`, the bytes written to it, and `Flush`. The width of tabs is not used when cells
are filled with spaces. -/
def tabulate (min pad : Int) (b : Bytes) : Bytes := (b.foldl (Tw.put min pad) Tw.new).flush min pad

/-! ## The pages -/

/-- Texts between tabs. -/
def tabbed : List Bytes → Bytes
  | [] => []
  | [t] => t
  | t :: ts => t ++ 9 :: tabbed ts

/-- `put`, zpages/tracez.go:153-159. -/
def putFigure (n : Nat) : Bytes := if n = 0 then [46, 9] else Http.itoa n ++ [9]

/-- A row of the summary, zpages/tracez.go:161-169. -/
def summaryLine (r : Row) : Bytes :=
  r.name ++ [9] ++ putFigure r.active ++ r.latency.flatMap putFigure ++ putFigure r.errors ++ [10]

/-- `data.Header`, zpages/tracez.go:415-428. -/
def header (dur : Int → Bytes) (hdr : List Int) : List Bytes :=
  [str "Name", str "Active"] ++ hdr.map (columnName dur) ++ [str "Errors"]

/-- The first line of `WriteTextTracezSummary`, zpages/tracez.go:136. -/
def title : Bytes := str "Locally sampled spans summary\n\n"

/-- `WriteTextTracezSummary`, zpages/tracez.go:135-172. `stores` is an iteration order of the span stores. -/
def writeTextSummary (dur : Int → Bytes) (stores : GoMap Bytes Store) : Res Bytes :=
  (getSummaryPageData stores).bind fun (hdr, rows) =>
    if rows.length = 0 then .ok title
    else .ok (title ++ tabulate 8 1 (tabbed (header dur hdr) ++ [10] ++ rows.flatMap summaryLine))

/-- The last cell of a line, zpages/tracez.go:380-387: the text and the identifiers of the span. `none` is the zero span
context of the other rows. -/
def lastCell (r : TraceRow) : Bytes :=
  match r.span with
  | none => r.text
  | some (sc, parent) =>
    if sc = SpanContext.zero then r.text
    else
      let s := r.text ++ str "trace_id: " ++ Wire.hexEncode sc.traceID ++ str " span_id: " ++ Wire.hexEncode sc.spanID
      if parent ≠ List.replicate 8 0 then s ++ str " parent_span_id: " ++ Wire.hexEncode parent else s

/-- A line of `writeTextTraces`, zpages/tracez.go:375-388. -/
def traceLine (r : TraceRow) : Bytes := r.whenText ++ [9] ++ r.elapsed ++ [9] ++ lastCell r ++ [10]

/-- `writeTextTraces`, zpages/tracez.go:372-390. -/
def writeTextTraces (rows : List TraceRow) : Bytes :=
  tabulate 1 1 (str "When\tElapsed(s)\tType\n" ++ rows.flatMap traceLine)

/-- `WriteTextTracezSpans`, zpages/tracez.go:127-131, with the orders of `writeTracezPage`. -/
def writeTextSpans (x : Zpages.Text) (st : State) (orders : List (List Bytes)) (ess : List (List Event)) (name : Bytes)
    (spanType subtype : Int) : Res (State × Bytes) :=
  (traceSpans st orders name spanType subtype).bind fun (st', spans) =>
    if ess.length ≠ spans.length then .err
    else (tracePage x (spans.zip ess)).bind fun lines => .ok (st', writeTextTraces lines)

end Verif.Zpages.Text
