import Verif.Zpages.TraceRows
import Verif.Wire.Hex

/-!
# The trace page as a document, and the requests for it (zpages/tracez.go, zpages/templates.go, zpages/internal/templates)

The templates are written out with the white space that `{{-` and `-}}` leave (the files under
zpages/internal/templates; zpages/internal/resources.go holds them compressed). `html/template` is taken from its
documentation and source: values in text are escaped by `htmlReplacer`, values in a query by `processURLOnto`, and
`template.HTML` is left alone. `net/url` and `strconv.Atoi` are taken from their documentation.
-/

namespace Verif.Zpages
open Verif Verif.Trace

/-! ## html/template -/

/-- `htmlReplacementTable` of html/template, which `{{.}}` in text and in quoted attributes is escaped by. -/
def htmlEscape1 (c : UInt8) : Bytes :=
  if c = 0 then [0xEF, 0xBF, 0xBD]
  else if c = 34 then str "&#34;"
  else if c = 38 then str "&amp;"
  else if c = 39 then str "&#39;"
  else if c = 43 then str "&#43;"
  else if c = 60 then str "&lt;"
  else if c = 62 then str "&gt;"
  else [c]

/-- A value in text, as every `{{.}}` of zpages/internal/templates outside of `href` is. -/
def htmlEscape (s : Bytes) : Bytes := s.flatMap htmlEscape1

/-- Unreserved in RFC 3986, section 2.3. -/
def unreserved (c : UInt8) : Bool :=
  (97 ≤ c && c ≤ 122) || (65 ≤ c && c ≤ 90) || (48 ≤ c && c ≤ 57) || c = 45 || c = 46 || c = 95 || c = 126

/-- `processURLOnto` of html/template without normalization, which `{{.}}` after a `?` in an `href` is escaped by. -/
def urlEscape1 (c : UInt8) : Bytes :=
  if unreserved c then [c] else [37, Wire.hexDigit (c >>> 4), Wire.hexDigit (c &&& 15)]

/-- A value in a query, as the names and columns of zpages/internal/templates/summary.html:26-38 are. -/
def urlEscape (s : Bytes) : Bytes := s.flatMap urlEscape1

/-- What a template is made of: its own text, and values in text, in a query, and of type `template.HTML`. -/
inductive Seg where
  | lit (s : String)
  | text (b : Bytes)
  | query (b : Bytes)
  | html (b : Bytes)

/-- A piece as it is sent. A value in a query is in a quoted attribute too, and is escaped for both. -/
def Seg.render : Seg → Bytes
  | .lit s => str s
  | .text b => htmlEscape b
  | .query b => htmlEscape (urlEscape b)
  | .html b => b

/-- `Execute` of a template, zpages/tracez.go:97-127. -/
def render (l : List Seg) : Bytes := l.flatMap Seg.render

/-! ## The templates -/

/-- zpages/internal/templates/header.html. -/
def headerSegs (title : Bytes) : List Seg :=
  [.lit "<!DOCTYPE html>\n<html lang=\"en\"><head>\n    <meta charset=\"utf-8\">\n    <title>", .text title,
   .lit "</title>\n    <link rel=\"shortcut icon\" href=\"//www.opencensus.io/favicon.ico\"/>\n    <link rel=\"stylesheet\" href=\"public/opencensus.css\"/>\n    <link rel=\"stylesheet\" href=\"https://fonts.googleapis.com/icon?family=Material+Icons\">\n    <link rel=\"stylesheet\" href=\"https://code.getmdl.io/1.3.0/material.indigo-pink.min.css\">\n    <script defer src=\"https://code.getmdl.io/1.3.0/material.min.js\"></script>\n</head>\n<body>\n<h1>",
   .text title, .lit "</h1>\n"]

/-- zpages/internal/templates/footer.html. -/
def footerSegs : List Seg := [.lit "</body>\n</html>\n"]

/-- The name of a latency column, zpages/tracez.go:420-426; `dur` is `%v` on a duration. -/
def columnName (dur : Int → Bytes) (l : Int) : Bytes :=
  if l = 100000000000 then str ">100s" else 62 :: dur l

/-- A link of the summary and its number: `<a href="{{$a}}?zspanname={{$name}}&ztype=...">{{...}}`,
zpages/internal/templates/summary.html:26. `TracesEndpoint` is the constant `tracez`, zpages/tracez.go:410. -/
def activeCell (name : Bytes) (n : Nat) : List Seg :=
  [.lit "<td align=\"center\"><a href=\"tracez?zspanname=", .query name, .lit "&ztype=0\">", .text (Http.itoa n), .lit "</a></td>"]

/-- The same for a latency column, zpages/internal/templates/summary.html:32. -/
def latencyCell (name : Bytes) (k n : Nat) : List Seg :=
  [.lit "<td align=\"center\"><a href=\"tracez?zspanname=", .query name, .lit "&ztype=1&zsubtype=", .query (Http.itoa k), .lit "\">",
   .text (Http.itoa n), .lit "</a></td>"]

/-- The same for errors, zpages/internal/templates/summary.html:38; the link is not closed there. -/
def errorCell (name : Bytes) (n : Nat) : List Seg :=
  [.lit "<td align=\"center\"><a href=\"tracez?zspanname=", .query name, .lit "&ztype=2&zsubtype=0\">", .text (Http.itoa n), .lit "</td>"]

/-- The cells of the columns from `k` on, zpages/internal/templates/summary.html:32. -/
def latencyCells (name : Bytes) (k : Nat) : List Nat → List Seg
  | [] => []
  | n :: ns => latencyCell name k n ++ latencyCells name (k + 1) ns

/-- The row with index `i`, zpages/internal/templates/summary.html:22-42. `Links` is always set, zpages/tracez.go:409. -/
def rowSegs (i : Nat) (r : Row) : List Seg :=
  [.lit (if i % 2 = 0 then "<tr style=\"background: #eee\">" else "<tr>"), .lit "<td>", .text r.name,
   .lit "</td><td>&nbsp;&nbsp;|&nbsp;&nbsp;</td>"] ++ activeCell r.name r.active ++
  [.lit "<td>&nbsp;&nbsp;|&nbsp;&nbsp;</td>"] ++ latencyCells r.name 0 r.latency ++
  [.lit "<td>&nbsp;&nbsp;|&nbsp;&nbsp;</td>"] ++ errorCell r.name r.errors ++ [.lit "</tr>\n"]

/-- The rows from index `i` on, zpages/internal/templates/summary.html:22-43. -/
def rowsSegs (i : Nat) : List Row → List Seg
  | [] => []
  | r :: rs => rowSegs i r ++ rowsSegs (i + 1) rs

/-- zpages/internal/templates/summary.html. -/
def summarySegs (columns : List Bytes) (rows : List Row) : List Seg :=
  [.lit "<table style=\"border-spacing: 0\">\n    <tr>\n        <td colspan=1 align=left><b>Span Name</b></td>\n        <td>&nbsp;&nbsp;|&nbsp;&nbsp;</td><td colspan=1 align=\"center\"><b>Running</b></td>\n        <td>&nbsp;&nbsp;|&nbsp;&nbsp;</td>\n        <td colspan=9 align=\"center\"><b>Latency Samples</b></td>\n        <td>&nbsp;&nbsp;|&nbsp;&nbsp;</td>\n        <td colspan=1 align=\"center\"><b>Error Samples</b></td>\n    </tr>\n    <tr>\n        <td colspan=1></td>\n        <td>&nbsp;&nbsp;|&nbsp;&nbsp;</td>\n        <td colspan=1></td>\n        <td>&nbsp;&nbsp;|&nbsp;&nbsp;</td>\n    "] ++
  columns.flatMap (fun c => [.lit "<th colspan=1 align=\"center\"><b>[", .text c, .lit "]</b></th>"]) ++
  [.lit "\n        <td>&nbsp;&nbsp;|&nbsp;&nbsp;</td>\n        <td colspan=1></td>\n    </tr>\n\n\n"] ++
  rowsSegs 0 rows ++ [.lit "</table>\n"]

/-- `traceIDFormatter`, zpages/templates.go:108-121, a `template.HTML`. `none` is the zero span context of the other rows. -/
def traceIDFormatter (r : TraceRow) : Bytes :=
  match r.span with
  | none => []
  | some (sc, parent) =>
    if sc = SpanContext.zero then []
    else
      let col := if sc.opts &&& 1 = 1 then str "blue" else str "black"
      let s := str "trace_id: <b style=\"color:" ++ col ++ str "\">" ++ Wire.hexEncode sc.traceID ++ str "</b> span_id: " ++
        Wire.hexEncode sc.spanID
      if parent ≠ List.replicate 8 0 then s ++ str " parent_span_id: " ++ Wire.hexEncode parent else s

/-- A line of zpages/internal/templates/traces.html:6-7. `printf "%26s"` counts characters, which are bytes in the texts
of times. -/
def lineSegs (r : TraceRow) : List Seg :=
  [.text (pad 26 32 r.whenText), .lit " ", .text (pad 12 32 r.elapsed), .lit " ", .text r.text, .html (traceIDFormatter r), .lit "\n"]

/-- zpages/internal/templates/traces.html. -/
def tracesSegs (name : Bytes) (num : Nat) (rows : List TraceRow) : List Seg :=
  [.lit "<p><b>Span Name: ", .text name, .lit " </b></p>\n<p>", .text (Http.itoa num), .lit " Requests</p>\n<pre>\nWhen                       Elapsed (sec)\n----------------------------------------\n"] ++
  rows.flatMap lineSegs ++
  [.lit "</pre>\n<br>\n<p><b style=\"color:blue;\">TraceId</b> means sampled request.\n    <b style=\"color:black;\">TraceId</b> means not sampled request.</p>\n"]

/-- `WriteHTMLTracezPage`, zpages/tracez.go:95-129. `stores` is an iteration order of the span stores, `orders` are those
of attributes (see `traceSpans`), `ess` the orders of the events (see `traceRows`); `.err` stands for orders that are
none. -/
def writeTracezPage (x : Text) (dur : Int → Bytes) (st : State) (stores : GoMap Bytes Store) (orders : List (List Bytes))
    (ess : List (List Event)) (name : Bytes) (spanType subtype : Int) : Res (State × Bytes) :=
  (getSummaryPageData stores).bind fun (hdr, rows) =>
    let before := headerSegs (str "Trace Spans") ++ summarySegs (hdr.map (columnName dur)) rows
    if name = [] then .ok (st, render (before ++ footerSegs))
    else (traceSpans st orders name spanType subtype).bind fun (st', spans) =>
      if ess.length ≠ spans.length then .err
      else (tracePage x (spans.zip ess)).bind fun lines =>
        .ok (st', render (before ++ tracesSegs name spans.length lines ++ footerSegs))

/-! ## Requests -/

/-- How `url.ParseQuery` takes a semicolon: as a separator (before Go 1.17), or as an error of the pair it is in. -/
inductive Semicolon where
  | separates
  | spoils
  deriving DecidableEq, Repr

/-- `url.QueryUnescape`; `none` is the error. -/
def queryUnescape : Bytes → Option Bytes
  | [] => some []
  | 37 :: a :: b :: cs => match Wire.fromHexChar a, Wire.fromHexChar b with
    | some x, some y => (queryUnescape cs).map fun r => (x <<< 4 ||| y) :: r
    | _, _ => none
  | c :: cs => if c = 37 then none else (queryUnescape cs).map fun r => (if c = 43 then 32 else c) :: r

/-- The text before and after the first `c`. -/
def cutAt (c : UInt8) : Bytes → Bytes × Bytes
  | [] => ([], [])
  | x :: xs => if x = c then ([], xs) else let p := cutAt c xs; (x :: p.1, p.2)

/-- The parts of a query that `url.ParseQuery` goes through. -/
def queryParts (rule : Semicolon) (q : Bytes) : List Bytes :=
  match rule with
  | .separates => (Wire.split 38 q).flatMap (Wire.split 59)
  | .spoils => (Wire.split 38 q).filter fun p => !p.contains 59

/-- One part: empty ones and those with an error are skipped. -/
def queryPart (p : Bytes) : Option (Bytes × Bytes) :=
  if p = [] then none
  else match queryUnescape (cutAt 61 p).1, queryUnescape (cutAt 61 p).2 with
    | some k, some v => some (k, v)
    | _, _ => none

/-- `url.ParseQuery`, whose error `tracezHandler` does not look at: the pairs in order. -/
def parseQuery (rule : Semicolon) (q : Bytes) : List (Bytes × Bytes) := (queryParts rule q).filterMap queryPart

/-- `r.Form.Get(key)` of a request without a body. -/
def formGet (form : List (Bytes × Bytes)) (key : Bytes) : Bytes :=
  ((form.find? fun e => e.1 = key).map Prod.snd).getD []

/-- `strconv.Atoi` without its error: zero for a syntax error, and the nearest `int` (of 64 bits) for a number that is
out of range. -/
def atoi (s : Bytes) : Int :=
  let digits := match s with
    | 43 :: r => r
    | 45 :: r => r
    | _ => s
  if digits = [] then 0
  else match Wire.parseDigits 0 digits with
    | none => 0
    | some n => if s.head? = some 45 then max (-2 ^ 63) (-(n : Int)) else min (2 ^ 63 - 1) (n : Int)

/-- What `tracezHandler` takes from a query, zpages/tracez.go:85-93. -/
def tracezArgs (rule : Semicolon) (q : Bytes) : Bytes × Int × Int :=
  let form := parseQuery rule q
  (formGet form (str "zspanname"), atoi (formGet form (str "ztype")), atoi (formGet form (str "zsubtype")))

/-- `tracezHandler` on a request without a body, zpages/tracez.go:85-93. -/
def tracezHandler (rule : Semicolon) (x : Text) (dur : Int → Bytes) (st : State) (stores : GoMap Bytes Store)
    (orders : List (List Bytes)) (ess : List (List Event)) (q : Bytes) : Res (State × Bytes) :=
  let a := tracezArgs rule q
  writeTracezPage x dur st stores orders ess a.1 a.2.1 a.2.2

end Verif.Zpages
