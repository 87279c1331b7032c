import Verif.Examples.Print

/-!
# C120: what can be read from the output of the exporter that prints
-/

namespace Verif.Examples.Print
open Verif Verif.Wire

/-! ## Lemmas -/

theorem hexEncode_inj {a b : Bytes} (h : hexEncode a = hexEncode b) : a = b := by
  have := congrArg hexDecode h
  simpa [hexDecode_encode] using this

/-- A text without newlines and what is after its end are determined. -/
theorem line_inj {a b x y : Bytes} (ha : (10 : UInt8) ∉ a) (hb : (10 : UInt8) ∉ b) (h : line a ++ x = line b ++ y) : a = b ∧ x = y := by
  have h' : a ++ 10 :: x = b ++ 10 :: y := by simpa [line] using h
  have := congrArg (cut 10) h'
  rw [cut_append _ _ _ ha, cut_append _ _ _ hb] at this
  simpa using this

theorem hex_clean (b : Bytes) : (10 : UInt8) ∉ hexEncode b := fun h => by
  have := hexEncode_isHex b 10 h
  revert this
  decide

theorem digit_hi : ∀ b : UInt8, hexDigit (b >>> 4) = 48 ∧ hexDigit (b &&& 15) = 48 ↔ b = 0 := forall_byte (by decide +kernel)

theorem reZero_iff (b : Bytes) : reZero (hexEncode b) = true ↔ b ≠ [] ∧ ∀ x ∈ b, x = 0 := by
  have h : ∀ b : Bytes, (hexEncode b).all (· == 48) = true ↔ ∀ x ∈ b, x = 0 := by
    intro b
    induction b with
    | nil => simp [hexEncode]
    | cons x b ih =>
      rw [hexEncode_cons]
      simp only [List.all_cons, Bool.and_eq_true, beq_iff_eq, ih, List.mem_cons, forall_eq_or_imp]
      rw [← and_assoc, digit_hi]
  simp only [reZero, Bool.and_eq_true, h]
  cases b with
  | nil => simp [hexEncode]
  | cons x b => simp [hexEncode_cons]

theorem parent_head : ∃ t, str "ParentSpanID: " = 80 :: t := ⟨(str "ParentSpanID: ").tail, by decide⟩

/-! ## Spans -/

/-- **C120.** Whatever the names, messages and attributes of two spans are: if the same is printed for both, they have the same IDs. So the IDs can
be read from the output for the span, whatever texts it has (the output for several spans can have a forged one, in a name with newlines). -/
theorem ids {a b : Span} (ha : a.parent.length = 8) (hb : b.parent.length = 8) (h : exportSpan a = exportSpan b) :
    a.trace = b.trace ∧ a.span = b.span ∧ a.parent = b.parent := by
  simp only [exportSpan, printIds, List.append_assoc] at h
  have h := (line_inj (by decide) (by decide) h).2
  have h := (line_inj (by decide) (by decide) h).2
  have h := (line_inj (by decide) (by decide) h).2
  have clean : ∀ (p q : Bytes), (10 : UInt8) ∉ p → (10 : UInt8) ∉ p ++ hexEncode q := by
    intro p q hp hm
    rcases List.mem_append.mp hm with hm | hm
    · exact hp hm
    · exact hex_clean q hm
  obtain ⟨h1, h⟩ := line_inj (clean _ _ (by decide)) (clean _ _ (by decide)) h
  obtain ⟨h2, h⟩ := line_inj (clean _ _ (by decide)) (clean _ _ (by decide)) h
  refine ⟨hexEncode_inj (List.append_cancel_left h1), hexEncode_inj (List.append_cancel_left h2), ?_⟩
  have zero : ∀ p : Bytes, p.length = 8 → reZero (hexEncode p) = true → p = List.replicate 8 0 := by
    intro p hp hz
    rw [← hp]
    exact List.eq_replicate_iff.mpr ⟨rfl, ((reZero_iff p).mp hz).2⟩
  by_cases za : reZero (hexEncode a.parent) = true <;> by_cases zb : reZero (hexEncode b.parent) = true
  · rw [zero _ ha za, zero _ hb zb]
  · rw [if_pos za, if_neg zb, List.nil_append] at h
    simp only [printRest, List.append_assoc] at h
    have := (line_inj (by decide) (clean _ _ (by decide)) h).1
    obtain ⟨t, ht⟩ := parent_head
    rw [ht] at this
    simp at this
  · rw [if_neg za, if_pos zb, List.nil_append] at h
    simp only [printRest, List.append_assoc] at h
    have := (line_inj (clean _ _ (by decide)) (by decide) h).1
    obtain ⟨t, ht⟩ := parent_head
    rw [ht] at this
    simp at this
  · rw [if_neg za, if_neg zb] at h
    exact hexEncode_inj (List.append_cancel_left (line_inj (clean _ _ (by decide)) (clean _ _ (by decide)) h).1)

/-- **C120.** The line with the parent is printed exactly if the parent's ID is not zero. -/
theorem parent_iff (s : Span) (h : s.parent.length = 8) :
    (∃ r, exportSpan s = str "\n#----------------------------------------------\n\nTraceID:      " ++ hexEncode s.trace ++ str "\nSpanID:       " ++
      hexEncode s.span ++ str "\nParentSpanID: " ++ r) ↔ s.parent ≠ List.replicate 8 0 := by
  have hz : reZero (hexEncode s.parent) = true ↔ s.parent = List.replicate 8 0 := by
    rw [reZero_iff]
    constructor
    · intro hh; rw [← h]; exact List.eq_replicate_iff.mpr ⟨rfl, hh.2⟩
    · intro hh; rw [hh]; exact ⟨by decide, fun x hx => List.eq_of_mem_replicate hx⟩
  rw [ne_eq, ← hz]
  have e : exportSpan s = str "\n#----------------------------------------------\n\nTraceID:      " ++ (hexEncode s.trace ++ (str "\nSpanID:       " ++
      (hexEncode s.span ++ ([10] ++ ((if reZero (hexEncode s.parent) then [] else line (str "ParentSpanID: " ++ hexEncode s.parent)) ++
        printRest s))))) := by
    simp only [exportSpan, printIds, line, List.append_assoc]
    rw [show str "\n#----------------------------------------------\n\nTraceID:      " = [] ++ ([10] ++
      (str "#----------------------------------------------" ++ ([10] ++ ([] ++ ([10] ++ str "TraceID:      "))))) by decide,
      show str "\nSpanID:       " = [10] ++ str "SpanID:       " by decide]
    simp only [List.append_assoc]
  rw [e]
  simp only [List.append_assoc, List.append_cancel_left_eq]
  rw [show str "\nParentSpanID: " = [10] ++ str "ParentSpanID: " by decide]
  simp only [List.append_assoc, List.append_cancel_left_eq]
  by_cases z : reZero (hexEncode s.parent) = true
  · simp only [z, if_true, List.nil_append, not_true, iff_false]
    rintro ⟨r, hr⟩
    obtain ⟨t, ht⟩ := parent_head
    rw [ht] at hr
    simp [printRest, line] at hr
  · simp only [z, not_false_eq_true, iff_true, line, Bool.false_eq_true, if_false]
    exact ⟨hexEncode s.parent ++ [10] ++ printRest s, by simp⟩

/-- **C120.** The name of a span can be read from the output, if it has no newline. -/
theorem name_partial {a b : Span} (ha : a.parent.length = 8) (hb : b.parent.length = 8) (na : (10 : UInt8) ∉ a.name) (nb : (10 : UInt8) ∉ b.name)
    (h : exportSpan a = exportSpan b) : a.name = b.name := by
  obtain ⟨h1, h2, h3⟩ := ids ha hb h
  have hi : printIds a = printIds b := by simp only [printIds, h1, h2, h3]
  rw [exportSpan, exportSpan, hi] at h
  have h := List.append_cancel_left h
  simp only [printRest, List.append_assoc] at h
  have h := (line_inj (by decide) (by decide) h).2
  have clean : ∀ (p q : Bytes), (10 : UInt8) ∉ p → (10 : UInt8) ∉ q → (10 : UInt8) ∉ p ++ q := by
    intro p q hp hq hm
    rcases List.mem_append.mp hm with hm | hm
    · exact hp hm
    · exact hq hm
  exact List.append_cancel_left (line_inj (clean _ _ (by decide) na) (clean _ _ (by decide) nb) h).1

/-- A span with this name and status message. -/
def plain (name message : Bytes) : Span := ⟨List.replicate 16 1, List.replicate 8 2, List.replicate 8 0, name, message, str "0", str "1ms", [], []⟩

/-- **C120.** With newlines in names and messages it cannot: the same is printed for a span whose name has a newline and one that has none. -/
theorem name_fails : ¬ ∀ a b : Span, a.parent.length = 8 → b.parent.length = 8 → exportSpan a = exportSpan b → a.name = b.name := by
  intro h
  exact absurd (h (plain (str "a\nStatus:  b") (str "")) ({ plain (str "a") (str "b\nStatus:  ") with }) rfl rfl (by decide +kernel)) (by decide)

/-- **C120.** And nothing tells an attribute `a` of value `b=c` from an attribute `a=b` of value `c`. -/
theorem attributes_ambiguous (s : Span) (a b c : Bytes) :
    exportSpan { s with attributes := [(a, b ++ [61] ++ c)] } = exportSpan { s with attributes := [(a ++ [61] ++ b, c)] } := by
  simp [exportSpan, printIds, printRest, printItem, line]

/-! ## Views -/

/-- The lines of a row. -/
def rowLines (time name : Bytes) (r : Row) : List Bytes :=
  (time ++ [32] ++ (name ++ List.replicate (45 - name.length) 32) ++ r.data) :: r.tags.map fun x => str "  - " ++ x.1 ++ str "=" ++ x.2

/-- Texts without newlines. -/
def Clean (rows : List Row) : Prop := ∀ r ∈ rows, (10 : UInt8) ∉ r.data ∧ ∀ x ∈ r.tags, (10 : UInt8) ∉ x.1 ∧ (10 : UInt8) ∉ x.2

/-- **C120.** For every view each row is printed, in the order of the rows: a line with the time, the name and the data, then one line for each of its
tags; and nothing else. -/
theorem view_lines {time name : Bytes} (ht : (10 : UInt8) ∉ time) (hn : (10 : UInt8) ∉ name) {rows : List Row} (h : Clean rows) :
    split 10 (exportView time name rows) = rows.flatMap (rowLines time name) ++ [[]] := by
  have one : ∀ (l : Bytes) (x : Bytes), (10 : UInt8) ∉ l → split 10 (line l ++ x) = l :: split 10 x := by
    intro l x hl
    have := split_append 10 l hl x
    simpa [line] using this
  have items : ∀ (l : List (Bytes × Bytes)) (x : Bytes), (∀ y ∈ l, (10 : UInt8) ∉ y.1 ∧ (10 : UInt8) ∉ y.2) →
      split 10 (l.flatMap printItem ++ x) = (l.map fun x => str "  - " ++ x.1 ++ str "=" ++ x.2) ++ split 10 x := by
    intro l x
    induction l with
    | nil => intro _; rfl
    | cons y l ih =>
      intro hl
      have hy := hl y (by simp)
      rw [List.flatMap_cons, List.append_assoc, printItem, one _ _ (by
        simp only [List.mem_append, not_or]
        exact ⟨⟨⟨⟨by decide, by decide⟩, hy.1⟩, by decide⟩, hy.2⟩), ih (fun z hz => hl z (by simp [hz]))]
      rfl
  induction rows with
  | nil => rfl
  | cons r rows ih =>
    have hr := h r (by simp)
    have hrest : Clean rows := fun z hz => h z (by simp [hz])
    have e : exportView time name (r :: rows) = line (time ++ [32] ++ pad name ++ r.data) ++ (r.tags.flatMap printItem ++ exportView time name rows) := by
      simp [exportView]
    rw [e, one _ _ (by
      simp only [List.mem_append, not_or, pad]
      refine ⟨⟨⟨ht, by decide⟩, hn, fun hm => ?_⟩, hr.1⟩
      exact absurd (List.eq_of_mem_replicate hm) (by decide)), items _ _ hr.2, ih hrest, List.flatMap_cons, rowLines]
    simp [pad]

/-- The text of a span has no newlines. -/
structure CleanSpan (s : Span) : Prop where
  name : (10 : UInt8) ∉ s.name
  message : (10 : UInt8) ∉ s.message
  code : (10 : UInt8) ∉ s.code
  elapsed : (10 : UInt8) ∉ s.elapsed
  annotations : ∀ a ∈ s.annotations, (10 : UInt8) ∉ a.message ∧ ∀ x ∈ a.attributes, (10 : UInt8) ∉ x.1 ∧ (10 : UInt8) ∉ x.2
  attributes : ∀ x ∈ s.attributes, (10 : UInt8) ∉ x.1 ∧ (10 : UInt8) ∉ x.2

/-- The line of an annotation. -/
def annotationLine (a : Annotation) : Bytes := str "  " ++ a.message ++ (a.attributes.map fun x => str " " ++ x.1 ++ str "=" ++ x.2).flatten

/-- The lines of a span. -/
def spanLines (s : Span) : List Bytes :=
  [[], str "#----------------------------------------------", [], str "TraceID:      " ++ hexEncode s.trace, str "SpanID:       " ++ hexEncode s.span] ++
  (if s.parent = List.replicate 8 0 then [] else [str "ParentSpanID: " ++ hexEncode s.parent]) ++
  [[], str "Span:    " ++ s.name, str "Status:  " ++ s.message ++ str " [" ++ s.code ++ str "]", str "Elapsed: " ++ s.elapsed] ++
  (if s.annotations = [] then [] else [] :: str "Annotations:" :: s.annotations.map annotationLine) ++
  (if s.attributes = [] then [] else [] :: str "Attributes:" :: s.attributes.map fun x => str "  - " ++ x.1 ++ str "=" ++ x.2)

/-- **C120.** For a span without newlines in its texts these lines are printed: the IDs, the name, the status, the time it took, each annotation with
its attributes on one line, and each attribute on a line of its own. -/
theorem span_lines {s : Span} (hp : s.parent.length = 8) (h : CleanSpan s) : split 10 (exportSpan s) = spanLines s ++ [[]] := by
  have one : ∀ (l : Bytes) (x : Bytes), (10 : UInt8) ∉ l → split 10 (line l ++ x) = l :: split 10 x := by
    intro l x hl
    have := split_append 10 l hl x
    simpa [line] using this
  have many : ∀ {α : Type} (f : α → Bytes) (l : List α) (x : Bytes), (∀ y ∈ l, (10 : UInt8) ∉ f y) →
      split 10 (l.flatMap (fun y => line (f y)) ++ x) = l.map f ++ split 10 x := by
    intro α f l x
    induction l with
    | nil => intro _; rfl
    | cons y l ih =>
      intro hl
      rw [List.flatMap_cons, List.append_assoc, one _ _ (hl y (by simp)), ih (fun z hz => hl z (by simp [hz]))]
      rfl
  have app : ∀ {p q : Bytes}, (10 : UInt8) ∉ p → (10 : UInt8) ∉ q → (10 : UInt8) ∉ p ++ q := by
    intro p q hp hq hm
    rcases List.mem_append.mp hm with hm | hm
    · exact hp hm
    · exact hq hm
  have hz : reZero (hexEncode s.parent) = true ↔ s.parent = List.replicate 8 0 := by
    rw [reZero_iff]
    constructor
    · intro hh; rw [← hp]; exact List.eq_replicate_iff.mpr ⟨rfl, hh.2⟩
    · intro hh; rw [hh]; exact ⟨by decide, fun x hx => List.eq_of_mem_replicate hx⟩
  have attrs : split 10 (if s.attributes.length > 0 then line [] ++ line (str "Attributes:") ++ s.attributes.flatMap printItem else []) =
      (if s.attributes = [] then [] else [] :: str "Attributes:" :: s.attributes.map fun x => str "  - " ++ x.1 ++ str "=" ++ x.2) ++ [[]] := by
    by_cases ha : s.attributes = []
    · rw [ha]; rfl
    · rw [if_pos (List.length_pos_iff.mpr ha), if_neg ha, List.append_assoc, one _ _ (by decide), one _ _ (by decide)]
      have := many (fun x : Bytes × Bytes => [32, 32] ++ [45, 32] ++ x.1 ++ [61] ++ x.2) s.attributes []
        (fun y hy => app (app (app (by decide) (h.attributes y hy).1) (by decide)) (h.attributes y hy).2)
      rw [List.append_nil] at this
      exact congrArg (fun l => [] :: str "Attributes:" :: l) this
  have anns : ∀ x : Bytes, split 10 ((if s.annotations.length > 0 then line [] ++ line (str "Annotations:") ++
      s.annotations.flatMap printAnnotation else []) ++ x) =
      (if s.annotations = [] then [] else [] :: str "Annotations:" :: s.annotations.map annotationLine) ++ split 10 x := by
    intro x
    by_cases ha : s.annotations = []
    · rw [ha]; rfl
    · rw [if_pos (List.length_pos_iff.mpr ha), if_neg ha, List.append_assoc, List.append_assoc, one _ _ (by decide), one _ _ (by decide)]
      have := many annotationLine s.annotations x (fun y hy => by
        refine app (app (by decide) (h.annotations y hy).1) (fun hm => ?_)
        obtain ⟨l, hl, hm⟩ := List.mem_flatten.mp hm
        obtain ⟨z, hz, rfl⟩ := List.mem_map.mp hl
        exact app (app (app (by decide) ((h.annotations y hy).2 z hz).1) (by decide)) ((h.annotations y hy).2 z hz).2 hm)
      have e : printAnnotation = fun y => line (annotationLine y) := by
        funext y
        simp only [printAnnotation, annotationLine, List.flatMap_def]
        rfl
      rw [e, this]
      rfl
  have rest : split 10 (printRest s) = [[], str "Span:    " ++ s.name, str "Status:  " ++ s.message ++ str " [" ++ s.code ++ str "]",
      str "Elapsed: " ++ s.elapsed] ++ ((if s.annotations = [] then [] else [] :: str "Annotations:" :: s.annotations.map annotationLine) ++
      ((if s.attributes = [] then [] else [] :: str "Attributes:" :: s.attributes.map fun x => str "  - " ++ x.1 ++ str "=" ++ x.2) ++ [[]])) := by
    rw [← attrs, ← anns]
    have e : printRest s = line [] ++ (line (str "Span:    " ++ s.name) ++ (line (str "Status:  " ++ s.message ++ [32, 91] ++ s.code ++ [93]) ++
        (line (str "Elapsed: " ++ s.elapsed) ++ ((if s.annotations.length > 0 then line [] ++ line (str "Annotations:") ++
          s.annotations.flatMap printAnnotation else []) ++ (if s.attributes.length > 0 then line [] ++ line (str "Attributes:") ++
          s.attributes.flatMap printItem else []))))) := by
      unfold printRest
      rw [List.append_assoc, List.append_assoc, List.append_assoc, List.append_assoc]
    rw [e, one _ _ (by decide), one _ _ (app (by decide) h.name), one _ _ (app (app (app (app (by decide) h.message) (by decide)) h.code) (by decide)),
      one _ _ (app (by decide) h.elapsed)]
    rfl
  have ids : ∀ x : Bytes, split 10 (printIds s ++ x) = [[], str "#----------------------------------------------", [],
      str "TraceID:      " ++ hexEncode s.trace, str "SpanID:       " ++ hexEncode s.span] ++
      ((if s.parent = List.replicate 8 0 then [] else [str "ParentSpanID: " ++ hexEncode s.parent]) ++ split 10 x) := by
    intro x
    unfold printIds
    simp only [List.append_assoc]
    rw [one _ _ (by decide), one _ _ (by decide), one _ _ (by decide), one _ _ (app (by decide) (hex_clean _)), one _ _ (app (by decide) (hex_clean _))]
    by_cases z : s.parent = List.replicate 8 0
    · rw [if_pos (hz.mpr z), if_pos z]; rfl
    · rw [if_neg (fun hh => z (hz.mp hh)), if_neg z, one _ _ (app (by decide) (hex_clean _))]; rfl
  rw [exportSpan, ids, rest, spanLines]
  simp only [List.append_assoc]

/-- The hypotheses can be met: a span with a parent, an annotation and attributes. -/
example : let s : Span := { plain (str "a b") (str "") with parent := List.replicate 8 3, annotations := [⟨str "hit", [(str "k", str "1"), (str "l", str "2")]⟩],
                                                             attributes := [(str "x", str "y")] }
    s.parent.length = 8 ∧ CleanSpan s ∧ (spanLines s).length = 16 ∧ (spanLines s).getLast? = some (str "  - x=y") := by
  refine ⟨rfl, ⟨by decide, by decide, by decide, by decide, by decide, by decide⟩, by decide +kernel, by decide +kernel⟩

/-- The hypotheses can be met: a row with two tags and one without. -/
example : let rows : List Row := [⟨str "count:        value=3", [(str "method", str "Get"), (str "host", str "a=b")]⟩, ⟨str "count:        value=1", []⟩]
    Clean rows ∧ (rows.flatMap (rowLines (str "10:00:00") (str "calls"))).length = 4 := by
  refine ⟨?_, rfl⟩
  intro r hr
  simp only [List.mem_cons, List.not_mem_nil, or_false] at hr
  rcases hr with rfl | rfl <;> decide

/-- The hypotheses can be met: spans with newlines in their messages, with and without a parent. -/
example : (plain (str "a") (str "b\nParentSpanID: 0")).parent.length = 8 ∧ (10 : UInt8) ∉ (plain (str "a") (str "b\nc")).name ∧
    exportSpan (plain (str "a") (str "b")) = str "\n#----------------------------------------------\n\nTraceID:      01010101010101010101010101010101\nSpanID:       0202020202020202\n\nSpan:    a\nStatus:  b [0]\nElapsed: 1ms\n" := by
  decide +kernel

end Verif.Examples.Print
