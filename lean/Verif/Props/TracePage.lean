import Verif.Zpages.Page
import Verif.Props.TracezSummary

/-!
# C90: the trace page shows what was recorded, and nothing recorded acts as markup
-/

namespace Verif.Props.TracePage
open Verif Verif.Trace Verif.Zpages
open Verif.Wire (forall_byte)

/-! ## Specification: how a document is read -/

/-- What a document is made of for its reader: characters and tags. -/
inductive Item where
  | ch (c : UInt8)
  | tag (raw : Bytes)
  deriving DecidableEq, Repr

/-- Where a reader is: in text, after an ampersand, or in a tag (inside quotes or not). -/
inductive Mode where
  | text
  | ref (acc : Bytes)
  | tag (acc : Bytes) (quoted : Bool)
  deriving DecidableEq, Repr

/-- The character references that occur. -/
def reference (n : Bytes) : Bytes :=
  if n = str "amp" then [38] else if n = str "lt" then [60] else if n = str "gt" then [62]
  else if n = str "#34" then [34] else if n = str "#39" then [39] else if n = str "#43" then [43]
  else if n = str "nbsp" then [0xC2, 0xA0]
  else 38 :: n ++ [59]

def feed : Mode → UInt8 → Mode × List Item
  | .text, c => if c = 60 then (.tag [] false, []) else if c = 38 then (.ref [], []) else (.text, [.ch c])
  | .ref acc, c =>
    if c = 59 then (.text, (reference acc).map .ch)
    else if c = 60 then (.tag [] false, (38 :: acc).map .ch)
    else if c = 38 then (.ref [], (38 :: acc).map .ch)
    else (.ref (acc ++ [c]), [])
  | .tag acc q, c =>
    if c = 34 then (.tag (acc ++ [c]) (!q), [])
    else if c = 62 ∧ q = false then (.text, [.tag acc])
    else (.tag (acc ++ [c]) q, [])

def feedAll : Mode → Bytes → Mode × List Item
  | m, [] => (m, [])
  | m, c :: cs => ((feedAll (feed m c).1 cs).1, (feed m c).2 ++ (feedAll (feed m c).1 cs).2)

/-- What a reader sees: characters, tags, and links to the trace page, as its handler takes them. -/
inductive Shown where
  | ch (c : UInt8)
  | tag (raw : Bytes)
  | link (name : Bytes) (type subtype : Int)
  deriving DecidableEq, Repr

def linkStart : Bytes := str "a href=\"tracez?"

/-- The query of a link to the trace page. -/
def linkQuery (raw : Bytes) : Option Bytes :=
  if linkStart.isPrefixOf raw ∧ raw.getLast? = some 34 then some (raw.drop linkStart.length).dropLast else none

def see (rule : Semicolon) : Item → Shown
  | .ch c => .ch c
  | .tag raw => match linkQuery raw with
    | some q => .link (tracezArgs rule q).1 (tracezArgs rule q).2.1 (tracezArgs rule q).2.2
    | none => .tag raw

/-- A document that ends in the middle of a tag or of a reference is not read at all. -/
def read (rule : Semicolon) (doc : Bytes) : Option (List Shown) :=
  match feedAll .text doc with
  | (.text, items) => some (items.map (see rule))
  | _ => none

/-! ## Specification: what there is to see -/

/-- Text as it is shown: as it is, with U+FFFD for a zero byte. -/
def chars (b : Bytes) : List Shown := (b.flatMap fun c => if c = 0 then [0xEF, 0xBF, 0xBD] else [c]).map .ch

def tag (s : String) : Shown := .tag (str s)

/-- Two blanks, a bar, and two blanks, in a cell. -/
def bar : List Shown :=
  [tag "td"] ++ chars [0xC2, 0xA0, 0xC2, 0xA0, 124, 0xC2, 0xA0, 0xC2, 0xA0] ++ [tag "/td"]

/-- A number with its link. -/
def cell (name : Bytes) (type subtype : Int) (n : Nat) : List Shown :=
  [tag "td align=\"center\"", .link name type subtype] ++ chars (Http.itoa n)

/-- The row of a span name: the name, the running spans, the latency columns, and the errors, whose link the page does not
close. -/
def specRow (i : Nat) (r : Row) : List Shown :=
  [if i % 2 = 0 then tag "tr style=\"background: #eee\"" else tag "tr", tag "td"] ++ chars r.name ++ [tag "/td"] ++ bar ++
  cell r.name 0 0 r.active ++ [tag "/a", tag "/td"] ++ bar ++
  (r.latency.zipIdx.flatMap fun e => cell r.name 1 e.2 e.1 ++ [tag "/a", tag "/td"]) ++ bar ++
  cell r.name 2 0 r.errors ++ [tag "/td", tag "/tr"] ++ chars [10]

def specColumn (c : Bytes) : List Shown :=
  [tag "th colspan=1 align=\"center\"", tag "b"] ++ chars (91 :: c ++ [93]) ++ [tag "/b", tag "/th"]

/-- A line of the table of traces. -/
def specLine (r : TraceRow) : List Shown :=
  chars (pad 26 32 r.whenText ++ [32] ++ pad 12 32 r.elapsed ++ [32] ++ r.text) ++
  (match r.span with
    | none => []
    | some (sc, parent) =>
      if sc = SpanContext.zero then []
      else chars (str "trace_id: ") ++
        [if sc.opts &&& 1 = 1 then tag "b style=\"color:blue\"" else tag "b style=\"color:black\""] ++
        chars (Wire.hexEncode sc.traceID) ++ [tag "/b"] ++ chars (str " span_id: " ++ Wire.hexEncode sc.spanID) ++
        (if parent = List.replicate 8 0 then [] else chars (str " parent_span_id: " ++ Wire.hexEncode parent))) ++
  chars [10]

/-- The head of the page, up to the heading. -/
def specHeader (title : Bytes) : List Shown :=
  [tag "!DOCTYPE html"] ++ chars (str "\n") ++ [tag "html lang=\"en\"", tag "head"] ++ chars (str "\n    ") ++
  [tag "meta charset=\"utf-8\""] ++ chars (str "\n    ") ++ [tag "title"] ++ chars title ++ [tag "/title"] ++ chars (str "\n    ") ++
  [tag "link rel=\"shortcut icon\" href=\"//www.opencensus.io/favicon.ico\"/"] ++ chars (str "\n    ") ++
  [tag "link rel=\"stylesheet\" href=\"public/opencensus.css\"/"] ++ chars (str "\n    ") ++
  [tag "link rel=\"stylesheet\" href=\"https://fonts.googleapis.com/icon?family=Material+Icons\""] ++ chars (str "\n    ") ++
  [tag "link rel=\"stylesheet\" href=\"https://code.getmdl.io/1.3.0/material.indigo-pink.min.css\""] ++ chars (str "\n    ") ++
  [tag "script defer src=\"https://code.getmdl.io/1.3.0/material.min.js\"", tag "/script"] ++ chars (str "\n") ++
  [tag "/head"] ++ chars (str "\n") ++ [tag "body"] ++ chars (str "\n") ++ [tag "h1"] ++ chars title ++ [tag "/h1"] ++ chars (str "\n")

def headCell (attrs : String) (s : String) : List Shown := [.tag (str attrs), tag "b"] ++ chars (str s) ++ [tag "/b", tag "/td"]

/-- The two lines of headings of the summary. -/
def specHeadings (columns : List Bytes) : List Shown :=
  [tag "table style=\"border-spacing: 0\""] ++ chars (str "\n    ") ++ [tag "tr"] ++ chars (str "\n        ") ++
  headCell "td colspan=1 align=left" "Span Name" ++ chars (str "\n        ") ++ bar ++
  headCell "td colspan=1 align=\"center\"" "Running" ++ chars (str "\n        ") ++ bar ++ chars (str "\n        ") ++
  headCell "td colspan=9 align=\"center\"" "Latency Samples" ++ chars (str "\n        ") ++ bar ++ chars (str "\n        ") ++
  headCell "td colspan=1 align=\"center\"" "Error Samples" ++ chars (str "\n    ") ++ [tag "/tr"] ++ chars (str "\n    ") ++
  [tag "tr"] ++ chars (str "\n        ") ++ [tag "td colspan=1", tag "/td"] ++ chars (str "\n        ") ++ bar ++
  chars (str "\n        ") ++ [tag "td colspan=1", tag "/td"] ++ chars (str "\n        ") ++ bar ++ chars (str "\n    ") ++
  columns.flatMap specColumn ++ chars (str "\n        ") ++ bar ++ chars (str "\n        ") ++ [tag "td colspan=1", tag "/td"] ++
  chars (str "\n    ") ++ [tag "/tr"] ++ chars (str "\n\n\n")

def specSummary (columns : List Bytes) (rows : List Row) : List Shown :=
  specHeadings columns ++ (rows.zipIdx.flatMap fun e => specRow e.2 e.1) ++ [tag "/table"] ++ chars [10]

/-- The table of traces, with the number of spans. -/
def specTraces (name : Bytes) (num : Nat) (rows : List TraceRow) : List Shown :=
  [tag "p", tag "b"] ++ chars (str "Span Name: " ++ name ++ str " ") ++ [tag "/b", tag "/p"] ++ chars (str "\n") ++ [tag "p"] ++
  chars (Http.itoa num ++ str " Requests") ++ [tag "/p"] ++ chars (str "\n") ++ [tag "pre"] ++
  chars (str "\nWhen                       Elapsed (sec)\n----------------------------------------\n") ++ rows.flatMap specLine ++
  [tag "/pre"] ++ chars (str "\n") ++ [tag "br"] ++ chars (str "\n") ++ [tag "p", tag "b style=\"color:blue;\""] ++
  chars (str "TraceId") ++ [tag "/b"] ++ chars (str " means sampled request.\n    ") ++ [tag "b style=\"color:black;\""] ++
  chars (str "TraceId") ++ [tag "/b"] ++ chars (str " means not sampled request.") ++ [tag "/p"] ++ chars (str "\n")

def specFooter : List Shown := [tag "/body"] ++ chars (str "\n") ++ [tag "/html"] ++ chars (str "\n")

/-! ## Reading -/

theorem feedAll_append (m : Mode) (a b : Bytes) :
    feedAll m (a ++ b) = ((feedAll (feedAll m a).1 b).1, (feedAll m a).2 ++ (feedAll (feedAll m a).1 b).2) := by
  induction a generalizing m with
  | nil => rfl
  | cons c a ih => simp [feedAll, ih]

/-- A piece that begins and ends in text, with what is seen of it. -/
def Whole (rule : Semicolon) (b : Bytes) (l : List Shown) : Prop :=
  ∃ items, feedAll .text b = (.text, items) ∧ items.map (see rule) = l

theorem read_iff {rule : Semicolon} {b : Bytes} {l : List Shown} : read rule b = some l ↔ Whole rule b l := by
  unfold read Whole
  constructor
  · intro h
    split at h
    · rename_i items hi; exact ⟨items, hi, Option.some.inj h⟩
    · simp at h
  · rintro ⟨items, h1, h2⟩
    rw [h1]; simp [h2]

theorem Whole.nil {rule : Semicolon} : Whole rule [] [] := ⟨[], rfl, rfl⟩

theorem Whole.append {rule : Semicolon} {a b : Bytes} {l k : List Shown} (h1 : Whole rule a l) (h2 : Whole rule b k) :
    Whole rule (a ++ b) (l ++ k) := by
  obtain ⟨i1, e1, f1⟩ := h1
  obtain ⟨i2, e2, f2⟩ := h2
  exact ⟨i1 ++ i2, by rw [feedAll_append, e1]; simp [e2], by simp [f1, f2]⟩

theorem chars_append (a b : Bytes) : chars (a ++ b) = chars a ++ chars b := by simp [chars]

theorem escape1_read : ∀ c : UInt8, feedAll .text (htmlEscape1 c) =
    (.text, (if c = 0 then [0xEF, 0xBF, 0xBD] else [c]).map Item.ch) := forall_byte (by decide +kernel)

theorem Whole.text {rule : Semicolon} (b : Bytes) : Whole rule (htmlEscape b) (chars b) := by
  induction b with
  | nil => exact Whole.nil
  | cons c b ih =>
    have : Whole rule (htmlEscape1 c) (chars [c]) := by
      refine ⟨_, escape1_read c, ?_⟩
      simp only [chars, List.flatMap_cons, List.flatMap_nil, List.append_nil, List.map_map]
      rfl
    have h := this.append ih
    rw [← chars_append] at h
    simpa [htmlEscape] using h

/-- Bytes that stand for themselves. -/
theorem Whole.plain {rule : Semicolon} {b : Bytes} (h : ∀ c ∈ b, c ≠ 0 ∧ c ≠ 60 ∧ c ≠ 38) : Whole rule b (chars b) := by
  induction b with
  | nil => exact Whole.nil
  | cons c b ih =>
    obtain ⟨h0, h1, h2⟩ := h c (by simp)
    have : Whole rule [c] (chars [c]) := by
      refine ⟨[.ch c], by simp [feedAll, feed, h1, h2], ?_⟩
      simp [chars, h0, see]
    have h := this.append (ih fun x hx => h x (List.mem_cons_of_mem _ hx))
    rw [← chars_append] at h
    simpa using h

/-! ## Escaped queries -/

theorem url1_plain : ∀ c : UInt8, (urlEscape1 c).all (fun x => unreserved x || x = 37) = true := forall_byte (by decide +kernel)

theorem url_plain (b : Bytes) : ∀ c ∈ urlEscape b, unreserved c = true ∨ c = 37 := by
  intro c hc
  obtain ⟨x, _, hx⟩ := List.mem_flatMap.1 hc
  have := List.all_eq_true.1 (url1_plain x) c hx
  simpa using this

theorem plain_byte : ∀ c : UInt8, (unreserved c || c = 37) = true →
    c ≠ 34 ∧ c ≠ 38 ∧ c ≠ 59 ∧ c ≠ 61 ∧ htmlEscape1 c = [c] := forall_byte (by decide +kernel)

theorem url_bytes (b : Bytes) : ∀ c ∈ urlEscape b, c ≠ 34 ∧ c ≠ 38 ∧ c ≠ 59 ∧ c ≠ 61 ∧ htmlEscape1 c = [c] :=
  fun c hc => plain_byte c (by simpa using url_plain b c hc)

theorem html_url (b : Bytes) : htmlEscape (urlEscape b) = urlEscape b := by
  have : ∀ l : Bytes, (∀ c ∈ l, htmlEscape1 c = [c]) → htmlEscape l = l := by
    intro l hl
    induction l with
    | nil => rfl
    | cons c l ih =>
      simp only [htmlEscape, List.flatMap_cons, hl c (by simp)]
      have := ih fun x hx => hl x (List.mem_cons_of_mem _ hx)
      unfold htmlEscape at this
      rw [this]; rfl
  exact this _ fun c hc => (url_bytes b c hc).2.2.2.2

theorem tag_feed {b : Bytes} (acc : Bytes) (h : ∀ c ∈ b, c ≠ 34) : feedAll (.tag acc true) b = (.tag (acc ++ b) true, []) := by
  induction b generalizing acc with
  | nil => simp [feedAll]
  | cons c b ih =>
    have hc := h c (by simp)
    simp only [feedAll, feed, if_neg hc, Bool.true_eq_false, and_false, if_false]
    rw [ih _ fun x hx => h x (List.mem_cons_of_mem _ hx)]
    simp

theorem split_of_not_mem {sep : UInt8} {a : Bytes} (h : sep ∉ a) : Wire.split sep a = [a] := by
  induction a with
  | nil => rfl
  | cons c a ih =>
    simp only [List.mem_cons, not_or] at h
    simp [Wire.split, ih h.2, Ne.symm h.1]

theorem split_append {sep : UInt8} {a b : Bytes} (h : sep ∉ a) : Wire.split sep (a ++ sep :: b) = a :: Wire.split sep b := by
  induction a with
  | nil => simp [Wire.split]
  | cons c a ih =>
    simp only [List.mem_cons, not_or] at h
    simp [Wire.split, ih h.2, Ne.symm h.1]

theorem cutAt_append {c : UInt8} {a b : Bytes} (h : c ∉ a) : cutAt c (a ++ c :: b) = (a, b) := by
  induction a with
  | nil => simp [cutAt]
  | cons x a ih =>
    simp only [List.mem_cons, not_or] at h
    simp [cutAt, Ne.symm h.1, ih h.2]

theorem url1_cases : ∀ c : UInt8, (urlEscape1 c = [c] ∧ c ≠ 37 ∧ c ≠ 43) ∨
    (urlEscape1 c = [37, Wire.hexDigit (c >>> 4), Wire.hexDigit (c &&& 15)] ∧
      Wire.fromHexChar (Wire.hexDigit (c >>> 4)) = some (c >>> 4) ∧
      Wire.fromHexChar (Wire.hexDigit (c &&& 15)) = some (c &&& 15) ∧ ((c >>> 4) <<< 4 ||| (c &&& 15)) = c) :=
  forall_byte (by decide +kernel)

theorem unescape_escape (b : Bytes) : queryUnescape (urlEscape b) = some b := by
  induction b with
  | nil => rfl
  | cons c b ih =>
    have hsplit : urlEscape (c :: b) = urlEscape1 c ++ urlEscape b := by simp [urlEscape]
    rw [hsplit]
    rcases url1_cases c with ⟨h1, h2, h3⟩ | ⟨h1, h2, h3, h4⟩
    · rw [h1]
      simp only [List.cons_append, List.nil_append]
      rw [queryUnescape.eq_def]
      split
      · rename_i heq; simp at heq
      · rename_i heq; simp only [List.cons.injEq] at heq; exact absurd heq.1 h2
      · rename_i heq
        simp only [List.cons.injEq] at heq
        obtain ⟨rfl, rfl⟩ := heq
        simp [h2, h3, ih]
    · rw [h1]
      simp only [List.cons_append, List.nil_append]
      rw [queryUnescape, h2, h3]
      simp [ih, h4]

/-! ## Links -/

theorem parts_append {rule : Semicolon} {a b : Bytes} (h1 : (38 : UInt8) ∉ a) (h2 : (59 : UInt8) ∉ a) :
    queryParts rule (a ++ 38 :: b) = a :: queryParts rule b := by
  cases rule with
  | separates => simp [queryParts, split_append h1, split_of_not_mem h2]
  | spoils => simp [queryParts, split_append h1, h2]

theorem name_part (name : Bytes) : queryPart (str "zspanname=" ++ urlEscape name) = some (str "zspanname", name) := by
  have h : str "zspanname=" ++ urlEscape name = str "zspanname" ++ 61 :: urlEscape name := by
    have : str "zspanname=" = str "zspanname" ++ [61] := by decide +kernel
    rw [this]; simp
  have hk : queryUnescape (str "zspanname") = some (str "zspanname") := by decide +kernel
  have hne : str "zspanname" ++ 61 :: urlEscape name ≠ [] := by simp
  rw [queryPart, h, if_neg hne, cutAt_append (by decide +kernel)]
  simp only [hk, unescape_escape]

theorem parse_link {rule : Semicolon} (name r : Bytes) :
    parseQuery rule (str "zspanname=" ++ urlEscape name ++ 38 :: r) = (str "zspanname", name) :: parseQuery rule r := by
  have h38 : (38 : UInt8) ∉ str "zspanname=" ++ urlEscape name := by
    rw [List.mem_append, not_or]
    exact ⟨by decide +kernel, fun h => (url_bytes name 38 h).2.1 rfl⟩
  have h59 : (59 : UInt8) ∉ str "zspanname=" ++ urlEscape name := by
    rw [List.mem_append, not_or]
    exact ⟨by decide +kernel, fun h => (url_bytes name 59 h).2.2.1 rfl⟩
  unfold parseQuery
  rw [parts_append h38 h59, List.filterMap_cons, name_part]

/-- The rest of a query of a link names a type and a column. -/
def Names (rule : Semicolon) (r : Bytes) (t s : Int) : Prop :=
  atoi (formGet (parseQuery rule r) (str "ztype")) = t ∧ atoi (formGet (parseQuery rule r) (str "zsubtype")) = s ∧ ∀ c ∈ r, c ≠ 34

theorem args_link {rule : Semicolon} {name r : Bytes} {t s : Int} (h : Names rule r t s) :
    tracezArgs rule (str "zspanname=" ++ urlEscape name ++ 38 :: r) = (name, t, s) := by
  have e2 : (decide (str "zspanname" = str "ztype")) = false := by decide +kernel
  have e3 : (decide (str "zspanname" = str "zsubtype")) = false := by decide +kernel
  obtain ⟨h1, h2, _⟩ := h
  unfold formGet at h1 h2
  unfold tracezArgs formGet
  rw [parse_link]
  simp only [List.find?_cons, decide_true, e2, e3, Option.map_some, Option.getD_some, h1, h2]

theorem names_active (rule : Semicolon) : Names rule (str "ztype=0") 0 0 := by
  cases rule <;> exact ⟨by decide +kernel, by decide +kernel, by decide +kernel⟩

theorem names_error (rule : Semicolon) : Names rule (str "ztype=2&zsubtype=0") 2 0 := by
  cases rule <;> exact ⟨by decide +kernel, by decide +kernel, by decide +kernel⟩

theorem names_latency (rule : Semicolon) {k : Nat} (hk : k < 10) : Names rule (str "ztype=1&zsubtype=" ++ Http.itoa k) 1 k := by
  have h1 : ∀ k < 10, atoi (formGet (parseQuery rule (str "ztype=1&zsubtype=" ++ Http.itoa (k : Nat))) (str "ztype")) = 1 := by
    cases rule <;> decide +kernel
  have h2 : ∀ k < 10, atoi (formGet (parseQuery rule (str "ztype=1&zsubtype=" ++ Http.itoa (k : Nat))) (str "zsubtype")) = k := by
    cases rule <;> decide +kernel
  have h3 : ∀ k < 10, ∀ c ∈ str "ztype=1&zsubtype=" ++ Http.itoa (k : Nat), c ≠ 34 := by decide +kernel
  exact ⟨h1 k hk, h2 k hk, h3 k hk⟩

theorem linkQuery_of (q : Bytes) : linkQuery (linkStart ++ q ++ [34]) = some q := by
  unfold linkQuery
  rw [if_pos ⟨by rw [List.append_assoc]; simp, by simp⟩]
  rw [List.append_assoc, List.drop_left, List.dropLast_concat]

theorem Whole.link {rule : Semicolon} {name r : Bytes} {t s : Int} (h : Names rule r t s) :
    Whole rule (str "<a href=\"tracez?zspanname=" ++ urlEscape name ++ 38 :: r ++ str "\">") [.link name t s] := by
  refine ⟨[.tag (linkStart ++ (str "zspanname=" ++ urlEscape name ++ 38 :: r) ++ [34])], ?_, ?_⟩
  · have h0 : feedAll .text (str "<a href=\"tracez?zspanname=") = (.tag (linkStart ++ str "zspanname=") true, []) := by decide +kernel
    have h1 : ∀ c ∈ urlEscape name ++ 38 :: r, c ≠ 34 := by
      intro c hc
      rcases List.mem_append.1 hc with hc | hc
      · exact (url_bytes name c hc).1
      · rcases List.mem_cons.1 hc with rfl | hc
        · decide
        · exact h.2.2 c hc
    have h2 : ∀ acc, feedAll (.tag acc true) (str "\">") = (.text, [.tag (acc ++ [34])]) := by
      intro acc
      have : str "\">" = [34, 62] := by decide +kernel
      rw [this]; rfl
    rw [List.append_assoc (str "<a href=\"tracez?zspanname="), feedAll_append, feedAll_append, h0]
    simp only
    rw [tag_feed _ h1]
    simp only
    rw [h2]
    simp [List.append_assoc]
  · simp only [List.map_cons, List.map_nil, see, linkQuery_of, args_link h]

/-! ## The templates -/

/-- A fixed piece, read by computation. -/
theorem Whole.lit {rule : Semicolon} {s : String} {items : List Item} {l : List Shown} (h : feedAll .text (str s) = (.text, items))
    (hl : items.map (see rule) = l) : Whole rule (Seg.render (.lit s)) l := ⟨items, h, hl⟩

theorem render_append (a b : List Seg) : render (a ++ b) = render a ++ render b := by simp [render]

theorem render_cons (a : Seg) (l : List Seg) : render (a :: l) = a.render ++ render l := by simp [render]

/-- Reading does not depend on the rule if there are no links. -/
def seeLit (i : Item) : Shown := match i with
  | .ch c => .ch c
  | .tag raw => .tag raw

def noLink (i : Item) : Bool := match i with
  | .ch _ => true
  | .tag raw => (linkQuery raw).isNone

theorem see_eq {rule : Semicolon} {items : List Item} (h : items.all noLink = true) : items.map (see rule) = items.map seeLit := by
  apply List.map_congr_left
  intro i hi
  have := List.all_eq_true.1 h i hi
  cases i with
  | ch c => rfl
  | tag raw =>
    simp only [noLink, Option.isNone_iff_eq_none] at this
    simp [see, seeLit, this]

/-- A fixed piece reads as `l`: to be checked by computation. -/
def Reads (s : String) (l : List Shown) : Bool :=
  let r := feedAll .text (str s)
  r.1 = .text && r.2.all noLink && r.2.map seeLit == l

theorem Whole.of {rule : Semicolon} {s : String} {l : List Shown} (h : Reads s l = true) : Whole rule (str s) l := by
  unfold Reads at h
  simp only [Bool.and_eq_true, decide_eq_true_eq, beq_iff_eq] at h
  obtain ⟨⟨h1, h2⟩, h3⟩ := h
  exact ⟨(feedAll .text (str s)).2, Prod.ext h1 rfl, by rw [see_eq h2, h3]⟩

theorem str_append (a b : String) : str (a ++ b) = str a ++ str b := by
  simp [str, String.toList_append]

theorem active_read (rule : Semicolon) (name : Bytes) (n : Nat) :
    Whole rule (render (activeCell name n)) (cell name 0 0 n ++ [tag "/a", tag "/td"]) := by
  have e1 : str "<td align=\"center\"><a href=\"tracez?zspanname=" = str "<td align=\"center\">" ++ str "<a href=\"tracez?zspanname=" := by
    decide +kernel
  have e2 : str "&ztype=0\">" = 38 :: str "ztype=0" ++ str "\">" := by decide +kernel
  have w1 : Whole rule (str "<td align=\"center\">") [tag "td align=\"center\""] := .of (by decide +kernel)
  have w2 : Whole rule (str "</a></td>") [tag "/a", tag "/td"] := .of (by decide +kernel)
  have := ((w1.append (Whole.link (name := name) (names_active rule))).append (Whole.text (Http.itoa n))).append w2
  simpa [activeCell, render, Seg.render, html_url, e1, e2, cell] using this

theorem error_read (rule : Semicolon) (name : Bytes) (n : Nat) :
    Whole rule (render (errorCell name n)) (cell name 2 0 n ++ [tag "/td"]) := by
  have e1 : str "<td align=\"center\"><a href=\"tracez?zspanname=" = str "<td align=\"center\">" ++ str "<a href=\"tracez?zspanname=" := by
    decide +kernel
  have e2 : str "&ztype=2&zsubtype=0\">" = 38 :: str "ztype=2&zsubtype=0" ++ str "\">" := by decide +kernel
  have w1 : Whole rule (str "<td align=\"center\">") [tag "td align=\"center\""] := .of (by decide +kernel)
  have w2 : Whole rule (str "</td>") [tag "/td"] := .of (by decide +kernel)
  have := ((w1.append (Whole.link (name := name) (names_error rule))).append (Whole.text (Http.itoa n))).append w2
  simpa [errorCell, render, Seg.render, html_url, e1, e2, cell] using this

theorem itoa_html : ∀ k < 10, htmlEscape (Http.itoa (k : Nat)) = Http.itoa k := by decide +kernel

theorem itoa_url : ∀ k < 10, urlEscape (Http.itoa (k : Nat)) = Http.itoa k := by decide +kernel

theorem latency_read (rule : Semicolon) (name : Bytes) {k : Nat} (hk : k < 10) (n : Nat) :
    Whole rule (render (latencyCell name k n)) (cell name 1 k n ++ [tag "/a", tag "/td"]) := by
  have e1 : str "<td align=\"center\"><a href=\"tracez?zspanname=" = str "<td align=\"center\">" ++ str "<a href=\"tracez?zspanname=" := by
    decide +kernel
  have e2 : str "&ztype=1&zsubtype=" = 38 :: str "ztype=1&zsubtype=" := by decide +kernel
  have w1 : Whole rule (str "<td align=\"center\">") [tag "td align=\"center\""] := .of (by decide +kernel)
  have w2 : Whole rule (str "</a></td>") [tag "/a", tag "/td"] := .of (by decide +kernel)
  have := ((w1.append (Whole.link (name := name) (names_latency rule hk))).append (Whole.text (Http.itoa n))).append w2
  simpa [latencyCell, render, Seg.render, html_url, e1, e2, cell, itoa_url k hk, itoa_html k hk] using this

theorem latencies_read (rule : Semicolon) (name : Bytes) (k : Nat) (l : List Nat) (h : k + l.length ≤ 10) :
    Whole rule (render (latencyCells name k l)) ((l.zipIdx k).flatMap fun e => cell name 1 e.2 e.1 ++ [tag "/a", tag "/td"]) := by
  induction l generalizing k with
  | nil => exact Whole.nil
  | cons n l ih =>
    simp only [List.length_cons] at h
    have := (latency_read rule name (k := k) (by omega) n).append (ih (k + 1) (by omega))
    simpa [latencyCells, render_append, List.zipIdx_cons] using this

theorem bar_read (rule : Semicolon) : Whole rule (str "<td>&nbsp;&nbsp;|&nbsp;&nbsp;</td>") bar := .of (by decide +kernel)

theorem row_read (rule : Semicolon) (i : Nat) (r : Row) (h : r.latency.length ≤ 10) :
    Whole rule (render (rowSegs i r)) (specRow i r) := by
  have w0 : Whole rule (str (if i % 2 = 0 then "<tr style=\"background: #eee\">" else "<tr>"))
      [if i % 2 = 0 then tag "tr style=\"background: #eee\"" else tag "tr"] := by
    split <;> exact .of (by decide +kernel)
  have w1 : Whole rule (str "<td>") [tag "td"] := .of (by decide +kernel)
  have w2 : Whole rule (str "</td><td>&nbsp;&nbsp;|&nbsp;&nbsp;</td>") ([tag "/td"] ++ bar) := .of (by decide +kernel)
  have w3 : Whole rule (str "</tr>\n") (tag "/tr" :: chars [10]) := .of (by decide +kernel)
  have := ((((((((w0.append w1).append (Whole.text r.name)).append w2).append (active_read rule r.name r.active)).append (bar_read rule)).append
    (latencies_read rule r.name 0 r.latency (by omega))).append (bar_read rule)).append (error_read rule r.name r.errors)).append w3
  simpa [rowSegs, specRow, render_append, render_cons, Seg.render, render, List.append_assoc] using this

theorem rows_read (rule : Semicolon) (i : Nat) (rows : List Row) (h : ∀ r ∈ rows, r.latency.length ≤ 10) :
    Whole rule (render (rowsSegs i rows)) ((rows.zipIdx i).flatMap fun e => specRow e.2 e.1) := by
  induction rows generalizing i with
  | nil => exact Whole.nil
  | cons r rows ih =>
    have := (row_read rule i r (h r (by simp))).append (ih (i + 1) fun x hx => h x (List.mem_cons_of_mem _ hx))
    simpa [rowsSegs, render_append, List.zipIdx_cons] using this

theorem columns_read (rule : Semicolon) (columns : List Bytes) :
    Whole rule (render (columns.flatMap fun c => [.lit "<th colspan=1 align=\"center\"><b>[", .text c, .lit "]</b></th>"]))
      (columns.flatMap specColumn) := by
  induction columns with
  | nil => exact Whole.nil
  | cons c l ih =>
    have w1 : Whole rule (str "<th colspan=1 align=\"center\"><b>[") ([tag "th colspan=1 align=\"center\"", tag "b"] ++ chars [91]) :=
      .of (by decide +kernel)
    have w2 : Whole rule (str "]</b></th>") (chars [93] ++ [tag "/b", tag "/th"]) := .of (by decide +kernel)
    have := ((w1.append (Whole.text c)).append w2).append ih
    have e : chars (91 :: (c ++ [93])) = chars [91] ++ (chars c ++ chars [93]) := by
      rw [← chars_append, ← chars_append]; rfl
    simpa [specColumn, render_append, render_cons, Seg.render, render, e, List.append_assoc] using this

theorem summary_read (rule : Semicolon) (columns : List Bytes) (rows : List Row) (h : ∀ r ∈ rows, r.latency.length ≤ 10) :
    Whole rule (render (summarySegs columns rows)) (specSummary columns rows) := by
  have w1 : Whole rule (str "<table style=\"border-spacing: 0\">\n    <tr>\n        <td colspan=1 align=left><b>Span Name</b></td>\n        <td>&nbsp;&nbsp;|&nbsp;&nbsp;</td><td colspan=1 align=\"center\"><b>Running</b></td>\n        <td>&nbsp;&nbsp;|&nbsp;&nbsp;</td>\n        <td colspan=9 align=\"center\"><b>Latency Samples</b></td>\n        <td>&nbsp;&nbsp;|&nbsp;&nbsp;</td>\n        <td colspan=1 align=\"center\"><b>Error Samples</b></td>\n    </tr>\n    <tr>\n        <td colspan=1></td>\n        <td>&nbsp;&nbsp;|&nbsp;&nbsp;</td>\n        <td colspan=1></td>\n        <td>&nbsp;&nbsp;|&nbsp;&nbsp;</td>\n    ")
      ([tag "table style=\"border-spacing: 0\""] ++ chars (str "\n    ") ++ [tag "tr"] ++ chars (str "\n        ") ++
  headCell "td colspan=1 align=left" "Span Name" ++ chars (str "\n        ") ++ bar ++
  headCell "td colspan=1 align=\"center\"" "Running" ++ chars (str "\n        ") ++ bar ++ chars (str "\n        ") ++
  headCell "td colspan=9 align=\"center\"" "Latency Samples" ++ chars (str "\n        ") ++ bar ++ chars (str "\n        ") ++
  headCell "td colspan=1 align=\"center\"" "Error Samples" ++ chars (str "\n    ") ++ [tag "/tr"] ++ chars (str "\n    ") ++
  [tag "tr"] ++ chars (str "\n        ") ++ [tag "td colspan=1", tag "/td"] ++ chars (str "\n        ") ++ bar ++
  chars (str "\n        ") ++ [tag "td colspan=1", tag "/td"] ++ chars (str "\n        ") ++ bar ++ chars (str "\n    ")) := .of (by decide +kernel)
  have w2 : Whole rule (str "\n        <td>&nbsp;&nbsp;|&nbsp;&nbsp;</td>\n        <td colspan=1></td>\n    </tr>\n\n\n")
      (chars (str "\n        ") ++ bar ++ chars (str "\n        ") ++ [tag "td colspan=1", tag "/td"] ++
  chars (str "\n    ") ++ [tag "/tr"] ++ chars (str "\n\n\n")) := .of (by decide +kernel)
  have w3 : Whole rule (str "</table>\n") ([tag "/table"] ++ chars [10]) := .of (by decide +kernel)
  have := (((w1.append (columns_read rule columns)).append w2).append (rows_read rule 0 rows h)).append w3
  have hr : render (summarySegs columns rows) = str "<table style=\"border-spacing: 0\">\n    <tr>\n        <td colspan=1 align=left><b>Span Name</b></td>\n        <td>&nbsp;&nbsp;|&nbsp;&nbsp;</td><td colspan=1 align=\"center\"><b>Running</b></td>\n        <td>&nbsp;&nbsp;|&nbsp;&nbsp;</td>\n        <td colspan=9 align=\"center\"><b>Latency Samples</b></td>\n        <td>&nbsp;&nbsp;|&nbsp;&nbsp;</td>\n        <td colspan=1 align=\"center\"><b>Error Samples</b></td>\n    </tr>\n    <tr>\n        <td colspan=1></td>\n        <td>&nbsp;&nbsp;|&nbsp;&nbsp;</td>\n        <td colspan=1></td>\n        <td>&nbsp;&nbsp;|&nbsp;&nbsp;</td>\n    " ++
      render (columns.flatMap fun c => [.lit "<th colspan=1 align=\"center\"><b>[", .text c, .lit "]</b></th>"]) ++
      str "\n        <td>&nbsp;&nbsp;|&nbsp;&nbsp;</td>\n        <td colspan=1></td>\n    </tr>\n\n\n" ++
      render (rowsSegs 0 rows) ++ str "</table>\n" := by
    unfold summarySegs
    simp only [render_append]
    simp only [render, List.flatMap_cons, List.flatMap_nil, List.append_nil, Seg.render]
  rw [hr]
  have hs : specSummary columns rows = ([tag "table style=\"border-spacing: 0\""] ++ chars (str "\n    ") ++ [tag "tr"] ++ chars (str "\n        ") ++
  headCell "td colspan=1 align=left" "Span Name" ++ chars (str "\n        ") ++ bar ++
  headCell "td colspan=1 align=\"center\"" "Running" ++ chars (str "\n        ") ++ bar ++ chars (str "\n        ") ++
  headCell "td colspan=9 align=\"center\"" "Latency Samples" ++ chars (str "\n        ") ++ bar ++ chars (str "\n        ") ++
  headCell "td colspan=1 align=\"center\"" "Error Samples" ++ chars (str "\n    ") ++ [tag "/tr"] ++ chars (str "\n    ") ++
  [tag "tr"] ++ chars (str "\n        ") ++ [tag "td colspan=1", tag "/td"] ++ chars (str "\n        ") ++ bar ++
  chars (str "\n        ") ++ [tag "td colspan=1", tag "/td"] ++ chars (str "\n        ") ++ bar ++ chars (str "\n    ")) ++
      columns.flatMap specColumn ++ (chars (str "\n        ") ++ bar ++ chars (str "\n        ") ++ [tag "td colspan=1", tag "/td"] ++
  chars (str "\n    ") ++ [tag "/tr"] ++ chars (str "\n\n\n")) ++ ((rows.zipIdx 0).flatMap fun e => specRow e.2 e.1) ++ ([tag "/table"] ++ chars [10]) := by
    unfold specSummary specHeadings
    simp only [List.append_assoc]
  rw [hs]
  exact this

theorem header_read (rule : Semicolon) (title : Bytes) : Whole rule (render (headerSegs title)) (specHeader title) := by
  have w1 : Whole rule (str "<!DOCTYPE html>\n<html lang=\"en\"><head>\n    <meta charset=\"utf-8\">\n    <title>")
      ([tag "!DOCTYPE html"] ++ chars (str "\n") ++ [tag "html lang=\"en\"", tag "head"] ++ chars (str "\n    ") ++
  [tag "meta charset=\"utf-8\""] ++ chars (str "\n    ") ++ [tag "title"]) := .of (by decide +kernel)
  have w2 : Whole rule (str "</title>\n    <link rel=\"shortcut icon\" href=\"//www.opencensus.io/favicon.ico\"/>\n    <link rel=\"stylesheet\" href=\"public/opencensus.css\"/>\n    <link rel=\"stylesheet\" href=\"https://fonts.googleapis.com/icon?family=Material+Icons\">\n    <link rel=\"stylesheet\" href=\"https://code.getmdl.io/1.3.0/material.indigo-pink.min.css\">\n    <script defer src=\"https://code.getmdl.io/1.3.0/material.min.js\"></script>\n</head>\n<body>\n<h1>")
      ([tag "/title"] ++ chars (str "\n    ") ++
  [tag "link rel=\"shortcut icon\" href=\"//www.opencensus.io/favicon.ico\"/"] ++ chars (str "\n    ") ++
  [tag "link rel=\"stylesheet\" href=\"public/opencensus.css\"/"] ++ chars (str "\n    ") ++
  [tag "link rel=\"stylesheet\" href=\"https://fonts.googleapis.com/icon?family=Material+Icons\""] ++ chars (str "\n    ") ++
  [tag "link rel=\"stylesheet\" href=\"https://code.getmdl.io/1.3.0/material.indigo-pink.min.css\""] ++ chars (str "\n    ") ++
  [tag "script defer src=\"https://code.getmdl.io/1.3.0/material.min.js\"", tag "/script"] ++ chars (str "\n") ++
  [tag "/head"] ++ chars (str "\n") ++ [tag "body"] ++ chars (str "\n") ++ [tag "h1"]) := .of (by decide +kernel)
  have w3 : Whole rule (str "</h1>\n") ([tag "/h1"] ++ chars (str "\n")) := .of (by decide +kernel)
  have := (((w1.append (Whole.text title)).append w2).append (Whole.text title)).append w3
  have hr : ∀ a b c : String, render [.lit a, .text title, .lit b, .text title, .lit c] =
      str a ++ htmlEscape title ++ str b ++ htmlEscape title ++ str c := by
    intro a b c; simp [render, Seg.render, List.append_assoc]
  unfold headerSegs
  rw [hr]
  unfold specHeader
  simp only [List.append_assoc] at this ⊢
  exact this

theorem footer_read (rule : Semicolon) : Whole rule (render footerSegs) specFooter := by
  have : Whole rule (str "</body>\n</html>\n") specFooter := .of (by decide +kernel)
  simpa [footerSegs, render, Seg.render] using this

theorem hex_plain : ∀ c : UInt8, ∀ d ∈ [Wire.hexDigit (c >>> 4), Wire.hexDigit (c &&& 15)], d ≠ 0 ∧ d ≠ 60 ∧ d ≠ 38 :=
  forall_byte (by decide +kernel)

theorem hex_read (rule : Semicolon) (b : Bytes) : Whole rule (Wire.hexEncode b) (chars (Wire.hexEncode b)) := by
  apply Whole.plain
  intro c hc
  obtain ⟨x, _, hx⟩ := List.mem_flatMap.1 hc
  exact hex_plain x c hx

theorem line_read (rule : Semicolon) (r : TraceRow) : Whole rule (render (lineSegs r)) (specLine r) := by
  have hsp : Whole rule (str " ") (chars [32]) := .of (by decide +kernel)
  have hnl : Whole rule (str "\n") (chars [10]) := .of (by decide +kernel)
  have w := (((Whole.text (rule := rule) (pad 26 32 r.whenText)).append hsp).append (Whole.text (pad 12 32 r.elapsed))).append hsp
  have w := w.append (Whole.text r.text)
  have wid : ∃ l, Whole rule (traceIDFormatter r) l ∧ specLine r =
      chars (pad 26 32 r.whenText ++ [32] ++ pad 12 32 r.elapsed ++ [32] ++ r.text) ++ l ++ chars [10] := by
    unfold traceIDFormatter specLine
    cases r.span with
    | none => exact ⟨[], Whole.nil, rfl⟩
    | some p =>
      obtain ⟨sc, parent⟩ := p
      simp only
      by_cases hz : sc = SpanContext.zero
      · rw [if_pos hz, if_pos hz]; exact ⟨[], Whole.nil, rfl⟩
      · rw [if_neg hz, if_neg hz]
        refine ⟨_, ?_, rfl⟩
        have wcol : Whole rule (str "trace_id: <b style=\"color:" ++ (if sc.opts &&& 1 = 1 then str "blue" else str "black") ++ str "\">")
            (chars (str "trace_id: ") ++ [if sc.opts &&& 1 = 1 then tag "b style=\"color:blue\"" else tag "b style=\"color:black\""]) := by
          split
          · have e : str "trace_id: <b style=\"color:" ++ str "blue" ++ str "\">" = str "trace_id: <b style=\"color:blue\">" := by decide +kernel
            rw [e]; exact .of (by decide +kernel)
          · have e : str "trace_id: <b style=\"color:" ++ str "black" ++ str "\">" = str "trace_id: <b style=\"color:black\">" := by decide +kernel
            rw [e]; exact .of (by decide +kernel)
        have wspan : Whole rule (str "</b> span_id: ") ([tag "/b"] ++ chars (str " span_id: ")) := .of (by decide +kernel)
        have wpar : Whole rule (str " parent_span_id: ") (chars (str " parent_span_id: ")) := .of (by decide +kernel)
        have wid := ((wcol.append (hex_read rule sc.traceID)).append wspan).append (hex_read rule sc.spanID)
        by_cases hp : parent = List.replicate 8 0
        · rw [if_neg (by simpa using hp), if_pos hp]
          simpa [chars_append, List.append_assoc] using wid
        · rw [if_pos hp, if_neg hp]
          simpa [chars_append, List.append_assoc] using (wid.append wpar).append (hex_read rule parent)
  obtain ⟨l, hl, hspec⟩ := wid
  rw [hspec]
  have w := (w.append hl).append hnl
  simp only [lineSegs, render, List.flatMap_cons, List.flatMap_nil, Seg.render, chars_append, List.append_assoc, List.append_nil] at w ⊢
  exact w

theorem lines_read (rule : Semicolon) (rows : List TraceRow) :
    Whole rule (render (rows.flatMap lineSegs)) (rows.flatMap specLine) := by
  induction rows with
  | nil => exact Whole.nil
  | cons r l ih =>
    simp only [List.flatMap_cons, render_append]
    exact (line_read rule r).append ih

theorem traces_read (rule : Semicolon) (name : Bytes) (num : Nat) (rows : List TraceRow) :
    Whole rule (render (tracesSegs name num rows)) (specTraces name num rows) := by
  have w1 : Whole rule (str "<p><b>Span Name: ") ([tag "p", tag "b"] ++ chars (str "Span Name: ")) := .of (by decide +kernel)
  have w2 : Whole rule (str " </b></p>\n<p>") (chars (str " ") ++ [tag "/b", tag "/p"] ++ chars (str "\n") ++ [tag "p"]) := .of (by decide +kernel)
  have w3 : Whole rule (str " Requests</p>\n<pre>\nWhen                       Elapsed (sec)\n----------------------------------------\n")
      (chars (str " Requests") ++ [tag "/p"] ++ chars (str "\n") ++ [tag "pre"] ++
        chars (str "\nWhen                       Elapsed (sec)\n----------------------------------------\n")) := .of (by decide +kernel)
  have w4 : Whole rule (str "</pre>\n<br>\n<p><b style=\"color:blue;\">TraceId</b> means sampled request.\n    <b style=\"color:black;\">TraceId</b> means not sampled request.</p>\n")
      ([tag "/pre"] ++ chars (str "\n") ++ [tag "br"] ++ chars (str "\n") ++ [tag "p", tag "b style=\"color:blue;\""] ++
  chars (str "TraceId") ++ [tag "/b"] ++ chars (str " means sampled request.\n    ") ++ [tag "b style=\"color:black;\""] ++
  chars (str "TraceId") ++ [tag "/b"] ++ chars (str " means not sampled request.") ++ [tag "/p"] ++ chars (str "\n")) := .of (by decide +kernel)
  have := (((((w1.append (Whole.text name)).append w2).append (Whole.text (Http.itoa num))).append w3).append (lines_read rule rows)).append w4
  have hr : ∀ a b c d : String, render ([.lit a, .text name, .lit b, .text (Http.itoa num), .lit c] ++ rows.flatMap lineSegs ++ [.lit d]) =
      str a ++ htmlEscape name ++ str b ++ htmlEscape (Http.itoa num) ++ str c ++ render (rows.flatMap lineSegs) ++ str d := by
    intro a b c d; simp [render_append, render_cons, render, Seg.render, List.append_assoc]
  unfold tracesSegs
  rw [hr]
  unfold specTraces
  simp only [chars_append, List.append_assoc] at this ⊢
  exact this

/-! ## C90 -/

/-- What is above the traces: the head of the page and the summary. -/
def specAbove (dur : Int → Bytes) (hdr : List Int) (rows : List Row) : List Shown :=
  specHeader (str "Trace Spans") ++ specSummary (hdr.map (columnName dur)) rows

theorem rows_nine {t : Int} {ops : List Op} {st : State} (h : run (State.init t) ops = .ok st)
    {l : GoMap Bytes Trace.Store} (hl : l.Perm st.stores) {hdr : List Int} {rows : List Row}
    (hr : getSummaryPageData l = .ok (hdr, rows)) : ∀ r ∈ rows, Tracez.RowOK ops st r := by
  obtain ⟨hdr', rows', h1, _, _, h2, _⟩ := Tracez.summary_page h hl
  rw [hr] at h1
  simp only [Res.ok.injEq, Prod.mk.injEq] at h1
  obtain ⟨rfl, rfl⟩ := h1
  exact h2

/-- **C90.** Whatever was recorded and whatever is asked for, the document that is sent reads as the head of the page, the
summary with the names, the numbers and their links, the lines of the traces, and the end of the page. -/
theorem page_reads {t : Int} {ops : List Op} {st : State} (h : run (State.init t) ops = .ok st)
    {l : GoMap Bytes Trace.Store} (hl : l.Perm st.stores) {rule : Semicolon} {x : Text} {dur : Int → Bytes}
    {orders : List (List Bytes)} {ess : List (List Event)} {q : Bytes} {st' : State} {doc : Bytes}
    (hd : tracezHandler rule x dur st l orders ess q = .ok (st', doc)) {name : Bytes} {ty sub : Int}
    (hq : tracezArgs rule q = (name, ty, sub)) :
    ∃ hdr rows, getSummaryPageData l = .ok (hdr, rows) ∧
      (name = [] → st' = st ∧ read rule doc = some (specAbove dur hdr rows ++ specFooter)) ∧
      (name ≠ [] → ∃ spans lines, traceSpans st orders name ty sub = .ok (st', spans) ∧ ess.length = spans.length ∧
        tracePage x (spans.zip ess) = .ok lines ∧
        read rule doc = some (specAbove dur hdr rows ++ specTraces name spans.length lines ++ specFooter)) := by
  unfold tracezHandler at hd
  rw [hq] at hd
  unfold writeTracezPage at hd
  cases hs : getSummaryPageData l with
  | err => simp [hs, Res.bind] at hd
  | panic => simp [hs, Res.bind] at hd
  | ok p =>
    obtain ⟨hdr, rows⟩ := p
    have hrow : ∀ r ∈ rows, r.latency.length ≤ 10 := by
      intro r hr
      rw [(rows_nine h hl hs r hr).latency]; simp
    have habove : Whole rule (render (headerSegs (str "Trace Spans") ++ summarySegs (hdr.map (columnName dur)) rows)) (specAbove dur hdr rows) := by
      rw [render_append]
      exact (header_read rule _).append (summary_read rule _ _ hrow)
    simp only [hs, Res.bind] at hd
    refine ⟨hdr, rows, rfl, ?_, ?_⟩
    · intro hn
      rw [if_pos hn] at hd
      simp only [Res.ok.injEq, Prod.mk.injEq] at hd
      refine ⟨hd.1.symm, ?_⟩
      rw [← hd.2, read_iff, render_append]
      exact habove.append (footer_read rule)
    · intro hn
      rw [if_neg hn] at hd
      cases ht : traceSpans st orders name ty sub with
      | err => simp [ht] at hd
      | panic => simp [ht] at hd
      | ok p =>
        obtain ⟨st1, spans⟩ := p
        simp only [ht] at hd
        by_cases he : ess.length = spans.length
        · rw [if_neg (by simpa using he)] at hd
          cases hp : tracePage x (spans.zip ess) with
          | err => simp [hp] at hd
          | panic => simp [hp] at hd
          | ok lines =>
            simp only [hp, Res.ok.injEq, Prod.mk.injEq] at hd
            refine ⟨spans, lines, by rw [hd.1], he, hp, ?_⟩
            rw [← hd.2, read_iff, render_append, render_append]
            exact (habove.append (traces_read rule _ _ _)).append (footer_read rule)
        · rw [if_pos he] at hd; cases hd

/-- The tags of the page. -/
def pageTags : List Bytes :=
  ["!DOCTYPE html", "html lang=\"en\"", "head", "meta charset=\"utf-8\"", "title", "/title",
   "link rel=\"shortcut icon\" href=\"//www.opencensus.io/favicon.ico\"/", "link rel=\"stylesheet\" href=\"public/opencensus.css\"/",
   "link rel=\"stylesheet\" href=\"https://fonts.googleapis.com/icon?family=Material+Icons\"",
   "link rel=\"stylesheet\" href=\"https://code.getmdl.io/1.3.0/material.indigo-pink.min.css\"",
   "script defer src=\"https://code.getmdl.io/1.3.0/material.min.js\"", "/script", "/head", "body", "h1", "/h1",
   "table style=\"border-spacing: 0\"", "/table", "tr", "tr style=\"background: #eee\"", "/tr", "td", "td colspan=1 align=left",
   "td colspan=1 align=\"center\"", "td colspan=9 align=\"center\"", "td colspan=1", "td align=\"center\"", "/td",
   "th colspan=1 align=\"center\"", "/th", "b", "b style=\"color:blue\"", "b style=\"color:black\"", "b style=\"color:blue;\"",
   "b style=\"color:black;\"", "/b", "/a", "p", "/p", "pre", "/pre", "br", "/body", "/html"].map str

/-- Only known tags. -/
def Known (l : List Shown) : Prop := ∀ raw, Shown.tag raw ∈ l → raw ∈ pageTags

theorem known_append {a b : List Shown} : Known (a ++ b) ↔ Known a ∧ Known b := by
  simp only [Known, List.mem_append]
  exact ⟨fun h => ⟨fun r hr => h r (.inl hr), fun r hr => h r (.inr hr)⟩, fun h r hr => hr.elim (h.1 r) (h.2 r)⟩

theorem known_chars (b : Bytes) : Known (chars b) := by
  intro raw h
  simp [chars] at h

theorem known_nil : Known [] := by intro raw h; simp at h

theorem known_cons {s : Shown} {l : List Shown} : Known (s :: l) ↔ Known [s] ∧ Known l := known_append (a := [s])

theorem known_link (n : Bytes) (t s : Int) : Known [.link n t s] := by intro raw h; simp at h

theorem known_tag {s : String} (h : (pageTags.contains (str s)) = true) : Known [tag s] := by
  intro raw hr
  simp only [tag, List.mem_singleton, Shown.tag.injEq] at hr
  subst hr
  simpa using h

theorem known_flatMap {α : Type} {l : List α} {f : α → List Shown} (h : ∀ a, Known (f a)) : Known (l.flatMap f) := by
  intro raw hr
  obtain ⟨a, _, ha⟩ := List.mem_flatMap.1 hr
  exact h a raw ha

theorem known_row (i : Nat) (r : Row) : Known (specRow i r) := by
  have hcell : ∀ n t s k, Known (cell n t s k) := by
    intro n t s k
    unfold cell
    rw [known_append, known_cons]
    exact ⟨⟨known_tag (by decide +kernel), known_link _ _ _⟩, known_chars _⟩
  have hbar : Known bar := by
    unfold bar
    rw [known_append, known_append]
    exact ⟨⟨known_tag (by decide +kernel), known_chars _⟩, known_tag (by decide +kernel)⟩
  have h1 : Known [if i % 2 = 0 then tag "tr style=\"background: #eee\"" else tag "tr", tag "td"] := by
    rw [known_cons]
    exact ⟨by split <;> exact known_tag (by decide +kernel), known_tag (by decide +kernel)⟩
  have h2 : Known [tag "/a", tag "/td"] := by
    rw [known_cons]; exact ⟨known_tag (by decide +kernel), known_tag (by decide +kernel)⟩
  have h3 : Known [tag "/td", tag "/tr"] := by
    rw [known_cons]; exact ⟨known_tag (by decide +kernel), known_tag (by decide +kernel)⟩
  have h4 : Known [tag "/td"] := known_tag (by decide +kernel)
  unfold specRow
  simp only [known_append]
  have h5 : Known (r.latency.zipIdx.flatMap fun e => cell r.name 1 e.2 e.1 ++ [tag "/a", tag "/td"]) :=
    known_flatMap fun e => known_append.2 ⟨hcell _ _ _ _, h2⟩
  repeat' apply And.intro
  all_goals first
    | exact h1
    | exact h2
    | exact h3
    | exact h4
    | exact h5
    | exact hbar
    | exact hcell _ _ _ _
    | exact known_chars _

/-- A fixed part, checked by computation. -/
def knownB (l : List Shown) : Bool := l.all fun s => match s with
  | .tag raw => pageTags.contains raw
  | _ => true

theorem known_of {l : List Shown} (h : knownB l = true) : Known l := by
  intro raw hr
  have := List.all_eq_true.1 h _ hr
  simpa using this

theorem known_column (c : Bytes) : Known (specColumn c) := by
  unfold specColumn
  rw [known_append, known_append]
  exact ⟨⟨known_of (by decide +kernel), known_chars _⟩, known_of (by decide +kernel)⟩

theorem known_headings (columns : List Bytes) : Known (specHeadings columns) := by
  unfold specHeadings
  simp only [known_append]
  have hc : Known (columns.flatMap specColumn) := known_flatMap known_column
  have hb : Known bar := known_of (by decide +kernel)
  repeat' apply And.intro
  all_goals first
    | exact hc
    | exact hb
    | exact known_chars _
    | exact known_of (by decide +kernel)

theorem known_line (r : TraceRow) : Known (specLine r) := by
  unfold specLine
  refine known_append.2 ⟨known_append.2 ⟨known_chars _, ?_⟩, known_chars _⟩
  split
  · exact known_nil
  · split
    · exact known_nil
    · simp only [known_append]
      refine ⟨⟨⟨⟨⟨known_chars _, ?_⟩, known_chars _⟩, known_of (by decide +kernel)⟩, known_chars _⟩, ?_⟩
      · split <;> exact known_of (by decide +kernel)
      · split
        · exact known_nil
        · exact known_chars _

theorem known_traces (name : Bytes) (num : Nat) (rows : List TraceRow) : Known (specTraces name num rows) := by
  have hl : Known (rows.flatMap specLine) := known_flatMap known_line
  unfold specTraces
  simp only [known_append]
  repeat' apply And.intro
  all_goals first
    | exact hl
    | exact known_chars _
    | exact known_of (by decide +kernel)

theorem known_above (dur : Int → Bytes) (hdr : List Int) (rows : List Row) : Known (specAbove dur hdr rows) := by
  unfold specAbove specSummary
  simp only [known_append]
  exact ⟨known_of (by decide +kernel), ⟨⟨known_headings _, known_flatMap fun e => known_row _ _⟩, known_of (by decide +kernel)⟩, known_chars _⟩

/-- **C90.** Nothing that is recorded or asked for brings a tag to the page: all tags are those of the templates, or links
to this page. -/
theorem no_markup {t : Int} {ops : List Op} {st : State} (h : run (State.init t) ops = .ok st)
    {l : GoMap Bytes Trace.Store} (hl : l.Perm st.stores) {rule : Semicolon} {x : Text} {dur : Int → Bytes}
    {orders : List (List Bytes)} {ess : List (List Event)} {q : Bytes} {st' : State} {doc : Bytes}
    (hd : tracezHandler rule x dur st l orders ess q = .ok (st', doc)) :
    ∃ seen, read rule doc = some seen ∧ ∀ raw, Shown.tag raw ∈ seen → raw ∈ pageTags := by
  obtain ⟨hdr, rows, _, h1, h2⟩ := page_reads h hl hd (name := (tracezArgs rule q).1) (ty := (tracezArgs rule q).2.1)
    (sub := (tracezArgs rule q).2.2) rfl
  have hf : Known specFooter := known_of (by decide +kernel)
  by_cases hn : (tracezArgs rule q).1 = []
  · exact ⟨_, (h1 hn).2, known_append.2 ⟨known_above _ _ _, hf⟩⟩
  · obtain ⟨spans, lines, _, _, _, hr⟩ := h2 hn
    exact ⟨_, hr, known_append.2 ⟨known_append.2 ⟨known_above _ _ _, known_traces _ _ _⟩, hf⟩⟩

end Verif.Props.TracePage
