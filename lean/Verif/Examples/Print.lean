import Verif.Wire.Hex

/-!
# The exporter of the examples that prints (examples/exporter/exporter.go)

What `PrintExporter` writes to the standard output, byte by byte.

Simplified: the texts of numbers, times, durations and attribute values are inputs (`fmt` makes them), and so is the order in which a map is
ranged over: attributes are a list in that order.
-/

namespace Verif.Examples.Print
open Verif Verif.Wire

/-- An annotation: its message and its attributes. trace/basetypes.go:39-43. -/
structure Annotation where
  message : Bytes
  attributes : List (Bytes × Bytes)
  deriving DecidableEq, Repr

/-- What `ExportSpan` reads of a span, exporter.go:66-105; `code` and `elapsed` are the printed texts. -/
structure Span where
  trace : Bytes
  span : Bytes
  parent : Bytes
  name : Bytes
  message : Bytes
  code : Bytes
  elapsed : Bytes
  annotations : List Annotation
  attributes : List (Bytes × Bytes)
  deriving DecidableEq, Repr

/-- `fmt.Println` of a text: it and a newline. -/
def line (b : Bytes) : Bytes := b ++ [10]

/-- `reZero.MatchString`: at least one character, all of them zeros. exporter.go:31. -/
def reZero (b : Bytes) : Bool := !b.isEmpty && b.all (· == 48)

/-- An attribute of an annotation, exporter.go:91-93. -/
def printAttr (x : Bytes × Bytes) : Bytes := [32] ++ x.1 ++ [61] ++ x.2

/-- An annotation: indented, its attributes on the same line. exporter.go:89-95. -/
def printAnnotation (a : Annotation) : Bytes := line ([32, 32] ++ a.message ++ a.attributes.flatMap printAttr)

/-- An attribute of the span, or a tag of a row: a line of its own. exporter.go:59-61, 101-103. -/
def printItem (x : Bytes × Bytes) : Bytes := line ([32, 32] ++ [45, 32] ++ x.1 ++ [61] ++ x.2)

/-- The lines with the IDs, exporter.go:72-79. -/
def printIds (s : Span) : Bytes :=
  line [] ++ line (str "#----------------------------------------------") ++ line [] ++
  line (str "TraceID:      " ++ hexEncode s.trace) ++ line (str "SpanID:       " ++ hexEncode s.span) ++
  if reZero (hexEncode s.parent) then [] else line (str "ParentSpanID: " ++ hexEncode s.parent)

/-- The rest, exporter.go:81-104. -/
def printRest (s : Span) : Bytes :=
  line [] ++ line (str "Span:    " ++ s.name) ++
  line (str "Status:  " ++ s.message ++ [32, 91] ++ s.code ++ [93]) ++ line (str "Elapsed: " ++ s.elapsed) ++
  (if s.annotations.length > 0 then line [] ++ line (str "Annotations:") ++ s.annotations.flatMap printAnnotation else []) ++
  if s.attributes.length > 0 then line [] ++ line (str "Attributes:") ++ s.attributes.flatMap printItem else []

/-- `ExportSpan`, exporter.go:66-105. -/
def exportSpan (s : Span) : Bytes := printIds s ++ printRest s

/-- A row: the text of its data (exporter.go:47-56) and its tags. -/
structure Row where
  data : Bytes
  tags : List (Bytes × Bytes)
  deriving DecidableEq, Repr

/-- `%-45s`: the name and spaces up to 45 characters. exporter.go:45. -/
def pad (b : Bytes) : Bytes := b ++ List.replicate (45 - b.length) 32

/-- `ExportView` of a view with this name, whose interval ends at this time (as printed). exporter.go:43-63. -/
def exportView (time name : Bytes) (rows : List Row) : Bytes :=
  rows.flatMap fun r => line (time ++ [32] ++ pad name ++ r.data) ++ r.tags.flatMap printItem

end Verif.Examples.Print
