import Verif.Props.RpcFigures
import Verif.Props.TracePage
import Verif.Props.Rpcz

/-!
# C92: the RPC page shows the figures of every method under their headings

The document is read as in C90, and its tables are then taken from it by `tables`, which knows rows, cells and their
`colspan`.
-/

namespace Verif.Props.RpcPage
open Verif Verif.Zpages Verif.Zpages.Rpcz
open Verif.Props.TracePage (Shown Item chars tag Whole Reads read see seeLit noLink read_iff render_append render_cons
  header_read footer_read specHeader specFooter feedAll chars_append)
open Verif.Props.RpcFigures
open Verif.Props.Rpcz (snapsAfter direction concerns shown page_shown_partial)
open Verif.Props.Grpc (numeral)

/-! ## Specification: the tables of a document -/

/-- A cell: how many columns it spans, and its text. -/
abbrev Cell := Nat × Bytes

/-- Where the reader of tables is. -/
inductive Mode where
  | outside
  | row (cells : List Cell)
  | cell (cells : List Cell) (span : Nat) (text : Bytes)
  deriving DecidableEq, Repr

/-- The name of a tag. -/
def nameOf (raw : Bytes) : Bytes := raw.takeWhile (· ≠ 32)

/-- The attribute `colspan`, one if there is none. -/
def spanOf (raw : Bytes) : Nat :=
  match (Wire.split 32 raw).find? (fun w => (str "colspan=").isPrefixOf w) with
  | some w => numeral (w.drop 8)
  | none => 1

/-- The row that ends here. -/
def flush : Mode → List (List Cell)
  | .outside => []
  | .row cs => [cs]
  | .cell cs n t => [cs ++ [(n, t)]]

def feed : Mode → Shown → Mode × List (List Cell)
  | m, .tag raw =>
    if nameOf raw = str "tr" then (.row [], flush m)
    else if nameOf raw = str "/tr" then (.outside, flush m)
    else if nameOf raw = str "td" ∨ nameOf raw = str "th" then
      match m with
      | .row cs => (.cell cs (spanOf raw) [], [])
      | m => (m, [])
    else if nameOf raw = str "/td" ∨ nameOf raw = str "/th" then
      match m with
      | .cell cs n t => (.row (cs ++ [(n, t)]), [])
      | m => (m, [])
    else (m, [])
  | .cell cs n t, .ch c => (.cell cs n (t ++ [c]), [])
  | m, .ch _ => (m, [])
  | m, .link .. => (m, [])

def feedL : Mode → List Shown → Mode × List (List Cell)
  | m, [] => (m, [])
  | m, s :: l => ((feedL (feed m s).1 l).1, (feed m s).2 ++ (feedL (feed m s).1 l).2)

/-- The rows of the tables of a document, from top to bottom. -/
def tables (l : List Shown) : List (List Cell) := (feedL .outside l).2

/-- The text above each column of a row of headings. -/
def columns (cells : List Cell) : List Bytes := cells.flatMap fun c => List.replicate c.1 c.2

/-- Text as it is shown. -/
def visible (b : Bytes) : Bytes := b.flatMap fun c => if c = 0 then [0xEF, 0xBF, 0xBD] else [c]

/-! ## Specification: the tables of the page -/

def heading1 : List Cell :=
  [(1, []), (1, []), (3, str "Count"), (1, []), (3, str "Avg latency (ms)"), (1, []), (3, str "Rate (rpc/s)"), (1, []),
   (3, str "Input (kb/s)"), (1, []), (3, str "Output (kb/s)"), (1, []), (3, str "Errors")]

def blanks (n : Nat) : Bytes := (List.replicate n [0xC2, 0xA0]).flatten

def heading2 : List Cell :=
  [(1, str "Method"), (1, blanks 4)] ++
  (List.replicate 5 [(1, str "Min."), (1, str "Hr."), (1, str "Tot."), (1, blanks 4)]).flatten ++
  [(1, str "Min."), (1, str "Hr."), (1, str "Tot.")]

/-- The columns. -/
inductive Col where
  | count | latency | rate | input | output | errors
  deriving DecidableEq, Repr

inductive Period where
  | min | hr | tot
  deriving DecidableEq, Repr

def Col.heading : Col → Bytes
  | .count => str "Count"
  | .latency => str "Avg latency (ms)"
  | .rate => str "Rate (rpc/s)"
  | .input => str "Input (kb/s)"
  | .output => str "Output (kb/s)"
  | .errors => str "Errors"

def Period.heading : Period → Bytes
  | .min => str "Min."
  | .hr => str "Hr."
  | .tot => str "Tot."

/-- The text of a row under two headings. -/
def under (c : Col) (p : Period) (row : List Cell) : Option Bytes :=
  match ((columns heading1).zip (columns heading2)).findIdx? (fun e => e.1 = c.heading ∧ e.2 = p.heading) with
  | some i => (columns row)[i]?
  | none => none

/-- A row shows a snapshot: the method; nothing for the last minute and the last hour; the totals, to the precision
that is shown. -/
structure Shows (s : Snap) (row : List Cell) : Prop where
  width : row.length = 26 ∧ ∀ c ∈ row, c.1 = 1
  method : row[0]? = some (1, visible s.method)
  earlier : ∀ c p, p ≠ .tot → ∃ t, under c p row = some t ∧ figure t = some 0
  count : ∃ t v, under .count .tot row = some t ∧ figure t = some v ∧ |v - s.countTotal.toNat| ≤ 501 / 10 ^ 6 * s.countTotal.toNat ∧
    (s.countTotal.toNat < 10 ^ 6 → v = s.countTotal.toNat)
  errors : ∃ t v, under .errors .tot row = some t ∧ figure t = some v ∧ |v - s.errorsTotal.toNat| ≤ 501 / 10 ^ 6 * s.errorsTotal.toNat ∧
    (s.errorsTotal.toNat < 10 ^ 6 → v = s.errorsTotal.toNat)
  latency : -2 ^ 63 ≤ s.avgLatencyTotal → s.avgLatencyTotal < 2 ^ 63 → ∃ t v, under .latency .tot row = some t ∧ figure t = some v ∧
    (10000000 ≤ s.avgLatencyTotal → v ≤ (s.avgLatencyTotal : Rat) / 10 ^ 6 ∧ (s.avgLatencyTotal : Rat) / 10 ^ 6 < v + 1) ∧
    (s.avgLatencyTotal < 10000000 →
      |v - (s.avgLatencyTotal : Rat) / 10 ^ 6| ≤ 1 / 2000 + |(s.avgLatencyTotal : Rat)| / 10 ^ 6 / 2 ^ 49)
  rate : ∀ q, s.rpcRateTotal = .fin q → ∃ t v, under .rate .tot row = some t ∧ figure t = some v ∧ |v - q| ≤ 1 / 2000
  /-- In millions of bytes, although the heading says kb. -/
  input : ∀ q, s.inputRateTotal = .fin q → F64.Valid q → ∃ t v, under .input .tot row = some t ∧ figure t = some v ∧
    |v - q / 10 ^ 6| ≤ 1 / 2000 + |q| / 10 ^ 6 / 2 ^ 53 + 1 / 2 ^ 1075
  output : ∀ q, s.outputRateTotal = .fin q → F64.Valid q → ∃ t v, under .output .tot row = some t ∧ figure t = some v ∧
    |v - q / 10 ^ 6| ≤ 1 / 2000 + |q| / 10 ^ 6 / 2 ^ 53 + 1 / 2 ^ 1075

/-- The rows above the snapshots of a group. -/
def groupHead (direction : String) : List (List Cell) := [[(1, str direction)], heading1, heading2, [(33, blanks 1)]]

/-! ## Reading tables -/

theorem feedL_append (m : Mode) (a b : List Shown) :
    feedL m (a ++ b) = ((feedL (feedL m a).1 b).1, (feedL m a).2 ++ (feedL (feedL m a).1 b).2) := by
  induction a generalizing m with
  | nil => rfl
  | cons s a ih => simp [feedL, ih, List.append_assoc]

theorem feedL_chars_row (cs : List Cell) (b : Bytes) : feedL (.row cs) (chars b) = (.row cs, []) := by
  have : ∀ l : List UInt8, feedL (.row cs) (l.map Shown.ch) = (.row cs, []) := by
    intro l
    induction l with
    | nil => rfl
    | cons c l ih => simp [feedL, feed, ih]
  exact this _

theorem feedL_chars_out (b : Bytes) : feedL .outside (chars b) = (.outside, []) := by
  have : ∀ l : List UInt8, feedL .outside (l.map Shown.ch) = (.outside, []) := by
    intro l
    induction l with
    | nil => rfl
    | cons c l ih => simp [feedL, feed, ih]
  exact this _

theorem feedL_chars_cell (cs : List Cell) (n : Nat) (t b : Bytes) : feedL (.cell cs n t) (chars b) = (.cell cs n (t ++ visible b), []) := by
  have : ∀ (l : List UInt8) (t : Bytes), feedL (.cell cs n t) (l.map Shown.ch) = (.cell cs n (t ++ l), []) := by
    intro l
    induction l with
    | nil => intro t; simp [feedL]
    | cons c l ih => intro t; simp [feedL, feed, ih]
  exact this _ _

theorem feed_tr : feedL .outside [tag "tr"] = (.row [], []) := by decide +kernel
theorem feed_trEnd (cs : List Cell) : feedL (.row cs) [tag "/tr"] = (.outside, [cs]) := by rfl
theorem feed_td (cs : List Cell) : feedL (.row cs) [tag "td"] = (.cell cs 1 [], []) := by rfl
theorem feed_tdRight (cs : List Cell) : feedL (.row cs) [tag "td align=\"right\""] = (.cell cs 1 [], []) := by rfl
theorem feed_tdEnd (cs : List Cell) (n : Nat) (t : Bytes) : feedL (.cell cs n t) [tag "/td"] = (.row (cs ++ [(n, t)]), []) := by rfl
theorem feed_b (cs : List Cell) (n : Nat) (t : Bytes) : feedL (.cell cs n t) [tag "b"] = (.cell cs n t, []) := by rfl
theorem feed_bEnd (cs : List Cell) (n : Nat) (t : Bytes) : feedL (.cell cs n t) [tag "/b"] = (.cell cs n t, []) := by rfl

/-! ## The document -/

/-- What is seen of a fixed piece. -/
def piece (s : String) : List Shown := (feedAll .text (str s)).2.map seeLit

/-- A fixed piece begins and ends in text, and has no links. -/
def plain (s : String) : Bool := (feedAll .text (str s)).1 = .text && (feedAll .text (str s)).2.all noLink

theorem whole_piece {rule : Semicolon} {s : String} (h : plain s = true) : Whole rule (str s) (piece s) := by
  apply Whole.of
  unfold plain at h
  unfold Reads piece
  simp only [Bool.and_eq_true, decide_eq_true_eq] at h
  simp only [h.1, h.2, decide_true, Bool.true_and, beq_self_eq_true]

/-- The kernel takes a long literal apart by this, not by decoding it. -/
theorem str_of {s : String} (l : List Char) (h : s = String.ofList l) : str s = l.map fun c => UInt8.ofNat c.toNat := by
  subst h; simp [str]

set_option maxRecDepth 20000 in
theorem plain_headings : plain groupHeadings = true := by
  unfold plain
  rw [str_of _ (show groupHeadings = String.ofList _ from rfl)]
  decide +kernel

theorem plain_start : plain groupStart = true := by
  unfold plain
  rw [str_of _ (show groupStart = String.ofList _ from rfl)]
  decide +kernel

set_option maxRecDepth 20000 in
theorem head_sent : feedL .outside (piece groupStart ++ chars (str "Sent") ++ piece groupHeadings) = (.outside, groupHead "Sent") := by
  unfold piece
  rw [str_of _ (show groupHeadings = String.ofList _ from rfl), str_of _ (show groupStart = String.ofList _ from rfl)]
  decide +kernel

set_option maxRecDepth 20000 in
theorem head_received : feedL .outside (piece groupStart ++ chars (str "Received") ++ piece groupHeadings) = (.outside, groupHead "Received") := by
  unfold piece
  rw [str_of _ (show groupHeadings = String.ofList _ from rfl), str_of _ (show groupStart = String.ofList _ from rfl)]
  decide +kernel

/-- Three figures and an empty cell. -/
def seenFigures (min hr tot : Bytes) : List Shown :=
  chars (str "\n        ") ++ [tag "td align=\"right\""] ++ chars min ++ [tag "/td"] ++ chars (str "\n        ") ++ [tag "td align=\"right\""] ++
  chars hr ++ [tag "/td"] ++ chars (str "\n        ") ++ [tag "td align=\"right\""] ++ chars tot ++ [tag "/td"] ++ [tag "td"] ++ [tag "/td"]

theorem figures_read (rule : Semicolon) (min hr tot : Bytes) : Whole rule (render (figureSegs min hr tot)) (seenFigures min hr tot) := by
  have w1 : Whole rule (str "\n        <td align=\"right\">") (chars (str "\n        ") ++ [tag "td align=\"right\""]) := .of (by decide +kernel)
  have w2 : Whole rule (str "</td>\n        <td align=\"right\">") ([tag "/td"] ++ chars (str "\n        ") ++ [tag "td align=\"right\""]) :=
    .of (by decide +kernel)
  have w3 : Whole rule (str "</td><td></td>") ([tag "/td"] ++ [tag "td"] ++ [tag "/td"]) := .of (by decide +kernel)
  have := (((((w1.append (Whole.text min)).append w2).append (Whole.text hr)).append w2).append (Whole.text tot)).append w3
  have e : ∀ a b c d : String, render [.lit a, .text min, .lit b, .text hr, .lit c, .text tot, .lit d] =
      str a ++ htmlEscape min ++ str b ++ htmlEscape hr ++ str c ++ htmlEscape tot ++ str d := by
    intro a b c d; simp [render, Seg.render, List.append_assoc]
  unfold figureSegs
  rw [e]
  unfold seenFigures
  simp only [List.append_assoc] at this ⊢
  exact this

/-- The cells of three figures. -/
def figureCells (min hr tot : Bytes) : List Cell := [(1, visible min), (1, visible hr), (1, visible tot), (1, [])]

theorem figures_cells (cs : List Cell) (min hr tot : Bytes) :
    feedL (.row cs) (seenFigures min hr tot) = (.row (cs ++ figureCells min hr tot), []) := by
  unfold seenFigures figureCells
  simp only [feedL_append, feedL_chars_row, feed_tdRight, feedL_chars_cell, feed_tdEnd, feed_td, List.nil_append, List.append_nil]
  simp only [List.append_assoc, List.cons_append, List.nil_append]

/-- The figures of a row. -/
def texts (s : Snap) : List (Bytes × Bytes × Bytes) :=
  [(countFormatter 0, countFormatter 0, countFormatter s.countTotal), (msFormatter 0, msFormatter 0, msFormatter s.avgLatencyTotal),
   (rateFormatter (.fin 0), rateFormatter (.fin 0), rateFormatter s.rpcRateTotal),
   (dataRateFormatter (.fin 0), dataRateFormatter (.fin 0), dataRateFormatter s.inputRateTotal),
   (dataRateFormatter (.fin 0), dataRateFormatter (.fin 0), dataRateFormatter s.outputRateTotal),
   (countFormatter 0, countFormatter 0, countFormatter s.errorsTotal)]

theorem snapSegs_eq (s : Snap) : snapSegs s =
    [.lit "\n    <tr>\n        <td><b>", .text s.method, .lit "</b></td>\n        <td></td>"] ++
    ((texts s).flatMap fun f => figureSegs f.1 f.2.1 f.2.2) ++ [.lit "\n    </tr>\n"] := by
  simp [snapSegs, texts, List.append_assoc]

def seenRow (s : Snap) : List Shown :=
  chars (str "\n    ") ++ [tag "tr"] ++ chars (str "\n        ") ++ [tag "td"] ++ [tag "b"] ++ chars s.method ++ [tag "/b"] ++ [tag "/td"] ++
  chars (str "\n        ") ++ [tag "td"] ++ [tag "/td"] ++ ((texts s).flatMap fun f => seenFigures f.1 f.2.1 f.2.2) ++ chars (str "\n    ") ++
  [tag "/tr"] ++ chars (str "\n")

theorem flat_read {α : Type} (rule : Semicolon) {f : α → List Seg} {g : α → List Shown} (h : ∀ a, Whole rule (render (f a)) (g a)) (l : List α) :
    Whole rule (render (l.flatMap f)) (l.flatMap g) := by
  induction l with
  | nil => exact .nil
  | cons a l ih =>
    rw [List.flatMap_cons, List.flatMap_cons, render_append]
    exact (h a).append ih

theorem row_read (rule : Semicolon) (s : Snap) : Whole rule (render (snapSegs s)) (seenRow s) := by
  have w1 : Whole rule (str "\n    <tr>\n        <td><b>")
      (chars (str "\n    ") ++ [tag "tr"] ++ chars (str "\n        ") ++ [tag "td"] ++ [tag "b"]) := .of (by decide +kernel)
  have w2 : Whole rule (str "</b></td>\n        <td></td>") ([tag "/b"] ++ [tag "/td"] ++ chars (str "\n        ") ++ [tag "td"] ++ [tag "/td"]) :=
    .of (by decide +kernel)
  have w3 : Whole rule (str "\n    </tr>\n") (chars (str "\n    ") ++ [tag "/tr"] ++ chars (str "\n")) := .of (by decide +kernel)
  have w4 := flat_read rule (f := fun f : Bytes × Bytes × Bytes => figureSegs f.1 f.2.1 f.2.2) (g := fun f => seenFigures f.1 f.2.1 f.2.2)
    (fun f => figures_read rule _ _ _) (texts s)
  have := (((w1.append (Whole.text s.method)).append w2).append w4).append w3
  rw [snapSegs_eq, render_append, render_append]
  have e : ∀ a b : String, render [.lit a, .text s.method, .lit b] = str a ++ htmlEscape s.method ++ str b := by
    intro a b; simp [render, Seg.render, List.append_assoc]
  have e' : ∀ a : String, render [.lit a] = str a := by intro a; simp [render, Seg.render]
  rw [e, e']
  unfold seenRow
  simp only [List.append_assoc] at this ⊢
  exact this

/-- The cells of a row. -/
def rowCells (s : Snap) : List Cell :=
  [(1, visible s.method), (1, [])] ++ (texts s).flatMap fun f => figureCells f.1 f.2.1 f.2.2

theorem figures_flat (cs : List Cell) (l : List (Bytes × Bytes × Bytes)) :
    feedL (.row cs) (l.flatMap fun f => seenFigures f.1 f.2.1 f.2.2) = (.row (cs ++ l.flatMap fun f => figureCells f.1 f.2.1 f.2.2), []) := by
  induction l generalizing cs with
  | nil => simp [feedL]
  | cons f l ih => simp only [List.flatMap_cons, feedL_append, figures_cells, ih, List.append_assoc, List.append_nil]

theorem row_cells (s : Snap) : feedL .outside (seenRow s) = (.outside, [rowCells s]) := by
  unfold seenRow rowCells
  simp only [feedL_append, feedL_chars_row, feedL_chars_out, feed_tr, feed_trEnd, feedL_chars_cell, feed_tdEnd, feed_td, feed_b, feed_bEnd,
    figures_flat, List.nil_append, List.append_nil]
  simp only [List.cons_append, List.nil_append]

theorem rows_cells (l : List Snap) : feedL .outside (l.flatMap seenRow) = (.outside, l.map rowCells) := by
  induction l with
  | nil => rfl
  | cons s l ih => simp only [List.flatMap_cons, feedL_append, row_cells, ih, List.map_cons, List.singleton_append]

def seenGroup (direction : String) (l : List Snap) : List Shown :=
  piece groupStart ++ chars (str direction) ++ piece groupHeadings ++ l.flatMap seenRow ++ piece "\n</table>\n"

theorem group_read (rule : Semicolon) (direction : String) (l : List Snap) :
    Whole rule (render (groupSegs (str direction) l)) (seenGroup direction l) := by
  have w1 : Whole rule (str groupStart) (piece groupStart) := whole_piece plain_start
  have w2 : Whole rule (str groupHeadings) (piece groupHeadings) := whole_piece plain_headings
  have w3 : Whole rule (str "\n</table>\n") (piece "\n</table>\n") := whole_piece (by decide +kernel)
  have := (((w1.append (Whole.text (str direction))).append w2).append (flat_read rule (row_read rule) l)).append w3
  have e : render (groupSegs (str direction) l) =
      str groupStart ++ htmlEscape (str direction) ++ str groupHeadings ++ render (l.flatMap snapSegs) ++ str "\n</table>\n" := by
    unfold groupSegs
    simp only [render_append]
    simp only [render, List.flatMap_cons, List.flatMap_nil, List.append_nil, Seg.render, List.append_assoc]
  rw [e]
  exact this

theorem group_tables (direction : String) (h : feedL .outside (piece groupStart ++ chars (str direction) ++ piece groupHeadings) =
      (.outside, groupHead direction)) (l : List Snap) :
    feedL .outside (seenGroup direction l) = (.outside, groupHead direction ++ l.map rowCells) := by
  have h3 : feedL .outside (piece "\n</table>\n") = (.outside, []) := by decide +kernel
  unfold seenGroup
  rw [feedL_append, feedL_append, h]
  simp only [rows_cells, h3, List.append_nil]

/-- What is seen of the page. -/
def seenPage (sent received : List Snap) : List Shown :=
  specHeader (str "RPC Stats") ++ (seenGroup "Sent" sent ++ seenGroup "Received" received ++ chars (str "\n")) ++ specFooter

theorem page_read (rule : Semicolon) (order : Snaps) :
    Whole rule (rpczPage order) (seenPage (getStatsPage order).1 (getStatsPage order).2) := by
  have w : Whole rule (str "\n") (chars (str "\n")) := .of (by decide +kernel)
  unfold rpczPage
  rw [render_append, render_append]
  unfold rpczSummary seenPage
  rw [render_append, render_append]
  have e' : ∀ a : String, render [.lit a] = str a := by intro a; simp [render, Seg.render]
  rw [e']
  exact ((header_read rule _).append (((group_read rule "Sent" _).append (group_read rule "Received" _)).append w)).append (footer_read rule)

theorem page_tables_eq (sent received : List Snap) : tables (seenPage sent received) =
    groupHead "Sent" ++ sent.map rowCells ++ (groupHead "Received" ++ received.map rowCells) := by
  have h1 : feedL .outside (specHeader (str "RPC Stats")) = (.outside, []) := by decide +kernel
  have h2 : feedL .outside specFooter = (.outside, []) := by decide +kernel
  unfold tables seenPage
  simp only [feedL_append, h1, h2, group_tables "Sent" head_sent, group_tables "Received" head_received, feedL_chars_out,
    List.nil_append, List.append_nil]

/-! ## What the rows show -/

theorem visible_plain {b : Bytes} (h : ∀ c ∈ b, c ≠ 0) : visible b = b := by
  unfold visible
  induction b with
  | nil => rfl
  | cons c b ih =>
    rw [List.flatMap_cons, if_neg (h c (by simp)), ih (fun x hx => h x (by simp [hx]))]
    rfl

theorem digit_ne_zero {c : UInt8} (h : Grpc.isDigit c = true) : c ≠ 0 := by
  rintro rfl
  revert h; decide

theorem fixed3_plain (q : Rat) : ∀ c ∈ fixed3 q, c ≠ 0 := by
  intro c hc
  unfold fixed3 at hc
  simp only [List.mem_append, List.mem_cons] at hc
  rcases hc with (hc | hc) | hc | hc
  · split at hc
    · simp at hc; subst hc; decide
    · simp at hc
  · exact digit_ne_zero (Grpc.digits_digits _ _ c hc)
  · subst hc; decide
  · exact digit_ne_zero ((pad3 (Nat.mod_lt _ (by omega))).2.1 c hc)

theorem sprintf3_plain (x : F64) : ∀ c ∈ sprintf3 x, c ≠ 0 := by
  cases x with
  | fin q => exact fixed3_plain q
  | nan => decide
  | pinf => decide
  | ninf => decide

theorem count_plain (w : BitVec 64) : ∀ c ∈ countFormatter w, c ≠ 0 := by
  have hs : ∀ x : F64, ∀ b : Bytes, (∀ c ∈ b, c ≠ 0) → ∀ c ∈ (if x ≠ .fin 0 then sprintf3 x ++ b else Http.digits 19 w.toNat), c ≠ 0 := by
    intro x b hb c hc
    split at hc
    · rcases List.mem_append.1 hc with hc | hc
      · exact sprintf3_plain x c hc
      · exact hb c hc
    · exact digit_ne_zero (Grpc.digits_digits _ _ c hc)
  unfold countFormatter
  split
  · decide
  · refine hs _ _ ?_
    split
    · show ∀ c ∈ str " E ", c ≠ 0; decide
    split
    · show ∀ c ∈ str " P ", c ≠ 0; decide
    split
    · show ∀ c ∈ str " T ", c ≠ 0; decide
    split
    · show ∀ c ∈ str " G ", c ≠ 0; decide
    split
    · show ∀ c ∈ str " M ", c ≠ 0; decide
    · simp

theorem ms_plain (d : Int) : ∀ c ∈ msFormatter d, c ≠ 0 := by
  unfold msFormatter
  split
  · decide
  · split
    · exact sprintf3_plain _
    · intro c hc
      unfold Http.itoa at hc
      split at hc
      · rcases List.mem_cons.1 hc with hc | hc
        · subst hc; decide
        · exact digit_ne_zero (Grpc.digits_digits _ _ c hc)
      · exact digit_ne_zero (Grpc.digits_digits _ _ c hc)

theorem row_eq (s : Snap) : rowCells s =
    [(1, visible s.method), (1, []), (1, str " "), (1, str " "), (1, countFormatter s.countTotal), (1, []),
     (1, str "0"), (1, str "0"), (1, msFormatter s.avgLatencyTotal), (1, []),
     (1, str "0.000"), (1, str "0.000"), (1, rateFormatter s.rpcRateTotal), (1, []),
     (1, str "0.000"), (1, str "0.000"), (1, dataRateFormatter s.inputRateTotal), (1, []),
     (1, str "0.000"), (1, str "0.000"), (1, dataRateFormatter s.outputRateTotal), (1, []),
     (1, str " "), (1, str " "), (1, countFormatter s.errorsTotal), (1, [])] := by
  have c0 : visible (countFormatter 0) = str " " := by decide +kernel
  have m0 : visible (msFormatter 0) = str "0" := by decide +kernel
  have r0 : visible (rateFormatter (.fin 0)) = str "0.000" := by decide +kernel
  have d0 : visible (dataRateFormatter (.fin 0)) = str "0.000" := by decide +kernel
  unfold rowCells texts figureCells
  simp only [List.flatMap_cons, List.flatMap_nil, List.cons_append, List.nil_append, List.append_nil, c0, m0, r0, d0,
    visible_plain (count_plain _), visible_plain (ms_plain _)]
  rw [visible_plain (b := rateFormatter _) (sprintf3_plain _), visible_plain (b := dataRateFormatter s.inputRateTotal) (sprintf3_plain _),
    visible_plain (b := dataRateFormatter s.outputRateTotal) (sprintf3_plain _)]

theorem under_at (c : Col) (p : Period) : ∀ row : List Cell, row.length = 26 → (∀ x ∈ row, x.1 = 1) → under c p row =
    (row.map Prod.snd)[(match c with | .count => 2 | .latency => 6 | .rate => 10 | .input => 14 | .output => 18 | .errors => 22) +
      (match p with | .min => 0 | .hr => 1 | .tot => 2)]? := by
  intro row _ h1
  have e : columns row = row.map Prod.snd := by
    unfold columns
    clear * - h1
    induction row with
    | nil => rfl
    | cons x row ih =>
      rw [List.flatMap_cons, ih (fun y hy => h1 y (by simp [hy])), h1 x (by simp)]
      rfl
  unfold under
  rw [e]
  have : ((columns heading1).zip (columns heading2)).findIdx? (fun e => decide (e.1 = c.heading ∧ e.2 = p.heading)) =
      some ((match c with | .count => 2 | .latency => 6 | .rate => 10 | .input => 14 | .output => 18 | .errors => 22) +
      (match p with | .min => 0 | .hr => 1 | .tot => 2)) := by cases c <;> cases p <;> decide +kernel
  rw [this]

theorem row_shows (s : Snap) : Shows s (rowCells s) := by
  rw [row_eq]
  have hw : ∀ m a b c d e f : Bytes, ∀ x ∈ ([(1, m), (1, []), (1, str " "), (1, str " "), (1, a), (1, []),
     (1, str "0"), (1, str "0"), (1, b), (1, []), (1, str "0.000"), (1, str "0.000"), (1, c), (1, []),
     (1, str "0.000"), (1, str "0.000"), (1, d), (1, []), (1, str "0.000"), (1, str "0.000"), (1, e), (1, []),
     (1, str " "), (1, str " "), (1, f), (1, [])] : List Cell), x.1 = 1 := by
    intro m a b c d e f
    simp
  have hu := fun c p => under_at c p _ rfl (hw (visible s.method) (countFormatter s.countTotal) (msFormatter s.avgLatencyTotal)
    (rateFormatter s.rpcRateTotal) (dataRateFormatter s.inputRateTotal) (dataRateFormatter s.outputRateTotal) (countFormatter s.errorsTotal))
  have f0 : figure (str " ") = some 0 ∧ figure (str "0") = some 0 ∧ figure (str "0.000") = some 0 := by decide +kernel
  refine ⟨⟨rfl, hw _ _ _ _ _ _ _⟩, rfl, ?_, ?_, ?_, ?_, ?_, ?_, ?_⟩
  · intro c p hp
    rw [hu]
    cases p with
    | tot => exact absurd rfl hp
    | min => cases c <;> first | exact ⟨_, rfl, f0.1⟩ | exact ⟨_, rfl, f0.2.1⟩ | exact ⟨_, rfl, f0.2.2⟩
    | hr => cases c <;> first | exact ⟨_, rfl, f0.1⟩ | exact ⟨_, rfl, f0.2.1⟩ | exact ⟨_, rfl, f0.2.2⟩
  · rw [hu]
    obtain ⟨v, h1, h2⟩ := count_close s.countTotal
    refine ⟨_, v, rfl, h1, h2, fun h => ?_⟩
    rw [count_exact _ h] at h1
    exact (Option.some.inj h1).symm
  · rw [hu]
    obtain ⟨v, h1, h2⟩ := count_close s.errorsTotal
    refine ⟨_, v, rfl, h1, h2, fun h => ?_⟩
    rw [count_exact _ h] at h1
    exact (Option.some.inj h1).symm
  · intro l1 l2
    rw [hu]
    obtain ⟨v, h1, h2, h3⟩ := ms_close s.avgLatencyTotal l1 l2
    exact ⟨_, v, rfl, h1, h2, h3⟩
  · intro q hq
    rw [hu]
    obtain ⟨v, h1, h2⟩ := rate_close q
    exact ⟨_, v, rfl, by rw [hq]; exact h1, h2⟩
  · intro q hq hv
    rw [hu]
    obtain ⟨v, h1, h2⟩ := dataRate_close q hv
    exact ⟨_, v, rfl, by rw [hq]; exact h1, by unfold F64.eps F64.eta at h2; rw [mul_one_div] at h2; exact h2⟩
  · intro q hq hv
    rw [hu]
    obtain ⟨v, h1, h2⟩ := dataRate_close q hv
    exact ⟨_, v, rfl, by rw [hq]; exact h1, by unfold F64.eps F64.eta at h2; rw [mul_one_div] at h2; exact h2⟩

/-- **C92.** After any exports, whatever the order in which the map of snapshots is read, the document reads as a page with two
tables, for methods called and methods served. Each has the headings, and then one row for each method that some export had rows for,
sorted by method, which shows under each heading the figure that the last exports for the method say.

Missing: the data rates in the unit of their headings (`heading_says_kb`), and what C59 is missing. -/
theorem page_tables_partial (c : Conv) (es : List Export) {order : Snaps} (ho : order.Perm (snapsAfter c es)) (rule : Semicolon) :
    ∃ (seen : List Shown) (sent received : List (Bytes × List Cell)), read rule (rpczPage order) = some seen ∧
      tables seen = groupHead "Sent" ++ sent.map Prod.snd ++ (groupHead "Received" ++ received.map Prod.snd) ∧
      ∀ rc : Bool, (if rc then received else sent).Pairwise (fun a b => a.1 < b.1) ∧
        (∀ m, m ∈ (if rc then received else sent).map Prod.fst ↔ es.any (concerns (m, rc)) = true) ∧
        ∀ e ∈ (if rc then received else sent), Shows (shown c es (e.1, rc)) e.2 := by
  have hp := page_shown_partial c es ho
  refine ⟨_, (getStatsPage order).1.map fun s => (s.method, rowCells s), (getStatsPage order).2.map fun s => (s.method, rowCells s),
    read_iff.2 (page_read rule order), ?_, ?_⟩
  · rw [page_tables_eq, List.map_map, List.map_map]; rfl
  · intro rc
    have key : (if rc = true then (getStatsPage order).2.map (fun s => (s.method, rowCells s)) else
        (getStatsPage order).1.map fun s => (s.method, rowCells s)) = (direction rc (getStatsPage order)).map fun s => (s.method, rowCells s) := by
      unfold direction
      split <;> rfl
    rw [key]
    obtain ⟨h1, h2⟩ := hp rc
    refine ⟨?_, ?_, ?_⟩
    · rw [List.pairwise_map]
      exact h1
    · intro m
      rw [List.map_map]
      simp only [List.mem_map, Function.comp]
      constructor
      · rintro ⟨s, hs, rfl⟩
        exact ((h2 s).1 hs).1
      · intro h
        refine ⟨shown c es (m, rc), (h2 _).2 ⟨h, rfl⟩, rfl⟩
    · intro e he
      obtain ⟨s, hs, rfl⟩ := List.mem_map.1 he
      obtain ⟨_, h4⟩ := (h2 s).1 hs
      simp only
      rw [← h4]
      exact row_shows s

/-! ## No markup -/

/-- The tags of the page's templates. -/
def pageTags : List Bytes :=
  ["!DOCTYPE html", "html lang=\"en\"", "head", "meta charset=\"utf-8\"", "title", "/title",
   "link rel=\"shortcut icon\" href=\"//www.opencensus.io/favicon.ico\"/", "link rel=\"stylesheet\" href=\"public/opencensus.css\"/",
   "link rel=\"stylesheet\" href=\"https://fonts.googleapis.com/icon?family=Material+Icons\"",
   "link rel=\"stylesheet\" href=\"https://code.getmdl.io/1.3.0/material.indigo-pink.min.css\"",
   "script defer src=\"https://code.getmdl.io/1.3.0/material.min.js\"", "/script", "/head", "body", "h1", "/h1", "/body", "/html",
   "p", "/p", "table bgcolor=#eeeeff width=100%", "tr align=center", "td", "font size=+2", "/font", "/td", "/tr", "/table",
   "table bgcolor=\"#fff5ee\" frame=box cellspacing=0 cellpadding=2", "tr bgcolor=\"#eee5de\"", "th", "/th", "th class=\"l1\" colspan=3",
   "th align=left", "th align=right", "tr", "td colspan=33", "font size=-2", "b", "/b", "td align=\"right\""].map str

/-- A document has no links to the trace page and no other tags. -/
def known (l : List Shown) : Bool := l.all fun
  | .ch _ => true
  | .tag raw => pageTags.contains raw
  | .link .. => false

theorem known_append (a b : List Shown) : known (a ++ b) = (known a && known b) := by simp [known]

theorem known_chars (b : Bytes) : known (chars b) = true := by
  unfold known chars
  simp

theorem known_flat {α : Type} {f : α → List Shown} (h : ∀ a, known (f a) = true) (l : List α) : known (l.flatMap f) = true := by
  induction l with
  | nil => rfl
  | cons a l ih => rw [List.flatMap_cons, known_append, h, ih]; rfl

theorem known_figures (a b c : Bytes) : known (seenFigures a b c) = true := by
  have h1 : known [tag "td align=\"right\""] = true := by decide +kernel
  have h2 : known [tag "/td"] = true := by decide +kernel
  have h3 : known [tag "td"] = true := by decide +kernel
  unfold seenFigures
  simp only [known_append, known_chars, h1, h2, h3, Bool.and_self]

theorem known_row (s : Snap) : known (seenRow s) = true := by
  have h1 : known [tag "tr"] = true := by decide +kernel
  have h2 : known [tag "/td"] = true := by decide +kernel
  have h3 : known [tag "td"] = true := by decide +kernel
  have h4 : known [tag "b"] = true := by decide +kernel
  have h5 : known [tag "/b"] = true := by decide +kernel
  have h6 : known [tag "/tr"] = true := by decide +kernel
  unfold seenRow
  simp only [known_append, known_chars, h1, h2, h3, h4, h5, h6, known_flat (fun f : Bytes × Bytes × Bytes => known_figures f.1 f.2.1 f.2.2),
    Bool.and_self]

set_option maxRecDepth 20000 in
theorem known_headings : known (piece groupHeadings) = true := by
  unfold piece
  rw [str_of _ (show groupHeadings = String.ofList _ from rfl)]
  decide +kernel

theorem known_start : known (piece groupStart) = true := by
  unfold piece
  rw [str_of _ (show groupStart = String.ofList _ from rfl)]
  decide +kernel

theorem known_page (sent received : List Snap) : known (seenPage sent received) = true := by
  have h1 : known (specHeader (str "RPC Stats")) = true := by decide +kernel
  have h2 : known specFooter = true := by decide +kernel
  have h3 : known (piece "\n</table>\n") = true := by decide +kernel
  unfold seenPage seenGroup
  simp only [known_append, known_chars, h1, h2, h3, known_headings, known_start, known_flat known_row, Bool.and_self]

/-- **C92.** No name of a method brings a tag to the page. -/
theorem no_markup (rule : Semicolon) (order : Snaps) :
    ∃ seen, read rule (rpczPage order) = some seen ∧ ∀ x ∈ seen, (∃ c, x = .ch c) ∨ ∃ raw ∈ pageTags, x = .tag raw := by
  refine ⟨_, read_iff.2 (page_read rule order), fun x hx => ?_⟩
  have h := known_page (getStatsPage order).1 (getStatsPage order).2
  unfold known at h
  have := List.all_eq_true.1 h x hx
  cases x with
  | ch c => exact .inl ⟨c, rfl⟩
  | tag raw => exact .inr ⟨raw, by simpa using this, rfl⟩
  | link a b c => simp at this

/-! ## What the headings of the data rates say -/

/-- A client that received a million bytes in a second. -/
def million : Snap := { Snap.new (str "m") false with inputRateTotal := .fin 1000000 }

/-- The page shows the rate in millions of bytes under a heading that says kb: for a million bytes per second the row has `1.000`
under `Input (kb/s)`. -/
theorem heading_says_kb : under .input .tot (rowCells million) = some (str "1.000") := by
  have h1 := F64.rnd_int 1 (by decide)
  have e : dataRateFormatter million.inputRateTotal = str "1.000" := by
    show sprintf3 (F64.div (.fin 1000000) (.fin 1000000)) = _
    have : F64.div (.fin 1000000) (.fin 1000000) = .fin 1 := by
      have e : F64.div (.fin 1000000) (.fin 1000000) = F64.rnd (1000000 / 1000000) := by simp [F64.div]
      rw [e, div_self (by norm_num)]
      exact_mod_cast h1
    rw [this]
    decide +kernel
  rw [row_eq, e]
  decide +kernel

/-! ## Examples -/

/-- A row as the template gives it, for a method whose name would be markup. -/
example : TracePage.read .spoils (render (snapSegs { Snap.new (str "<b>&") true with countTotal := 7 })) =
    some (seenRow { Snap.new (str "<b>&") true with countTotal := 7 }) := read_iff.2 (row_read _ _)

/-- The cells of a row with figures in every column. -/
example : rowCells ⟨str "<m>", true, 1234567, 2500000, .fin (3 / 2), .fin 0, .fin 0, 12⟩ =
    [(1, str "<m>"), (1, []), (1, str " "), (1, str " "), (1, countFormatter 1234567), (1, []), (1, str "0"), (1, str "0"),
     (1, msFormatter 2500000), (1, []), (1, str "0.000"), (1, str "0.000"), (1, str "1.500"), (1, []), (1, str "0.000"), (1, str "0.000"),
     (1, str "0.000"), (1, []), (1, str "0.000"), (1, str "0.000"), (1, str "0.000"), (1, []), (1, str " "), (1, str " "), (1, str "12"),
     (1, [])] := by
  rw [row_eq]
  decide +kernel

end Verif.Props.RpcPage
