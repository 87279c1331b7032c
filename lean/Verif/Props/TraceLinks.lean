import Verif.Props.TracePage
import Verif.Props.TraceRows

/-!
# C91: the links of the trace page lead to what they count, and every request is answered
-/

namespace Verif.Props.TraceLinks
open Verif Verif.Trace Verif.Zpages Verif.Props.TracePage
open Verif.Props.Tracez (RowOK Ordinary)
open Verif.Props.Store (latencyOf)

/-! ## Specification -/

/-- The links of a document, in order. -/
def links (l : List Shown) : List (Bytes × Int × Int) := l.filterMap fun s => match s with
  | .link n t s => some (n, t, s)
  | _ => none

/-- The links of a row. -/
def rowLinks (r : Row) : List (Bytes × Int × Int) :=
  (r.name, 0, 0) :: (List.range r.latency.length).map (fun k : Nat => (r.name, (1 : Int), (k : Int))) ++ [(r.name, 2, 0)]

/-! ## Links -/

theorem links_append (a b : List Shown) : links (a ++ b) = links a ++ links b := by simp [links]

theorem links_chars (b : Bytes) : links (chars b) = [] := by
  simp [links, chars, List.filterMap_eq_nil_iff]

theorem links_cell (n : Bytes) (t s : Int) (k : Nat) : links (cell n t s k) = [(n, t, s)] := by
  unfold cell
  rw [links_append, links_chars]
  rfl

theorem links_bar : links bar = [] := by decide +kernel

theorem links_latency (n : Bytes) (l : List Nat) (i : Nat) :
    links ((l.zipIdx i).flatMap fun e => cell n 1 e.2 e.1 ++ [tag "/a", tag "/td"]) =
      (List.range' i l.length).map fun k : Nat => (n, (1 : Int), (k : Int)) := by
  induction l generalizing i with
  | nil => rfl
  | cons a l ih =>
    simp only [List.zipIdx_cons, List.flatMap_cons, links_append, links_cell, ih, List.length_cons, List.range'_succ, List.map_cons]
    rfl

theorem links_row (i : Nat) (r : Row) : links (specRow i r) = rowLinks r := by
  have h1 : links [if i % 2 = 0 then tag "tr style=\"background: #eee\"" else tag "tr", tag "td"] = [] := by
    split <;> rfl
  have h2 : links [tag "/a", tag "/td"] = [] := rfl
  have h3 : links [tag "/td", tag "/tr"] = [] := rfl
  have h4 : links [tag "/td"] = [] := rfl
  unfold specRow
  simp only [links_append, links_chars, links_cell, links_bar, h1, h2, h3, h4, links_latency, List.nil_append, List.append_nil]
  simp [rowLinks, List.range_eq_range']

theorem links_rows (i : Nat) (rows : List Row) :
    links ((rows.zipIdx i).flatMap fun e => specRow e.2 e.1) = rows.flatMap rowLinks := by
  induction rows generalizing i with
  | nil => rfl
  | cons r rows ih => simp [List.zipIdx_cons, links_append, links_row, ih]

theorem links_flatMap {α : Type} {l : List α} {f : α → List Shown} (h : ∀ a, links (f a) = []) : links (l.flatMap f) = [] := by
  induction l with
  | nil => rfl
  | cons a l ih => simp [links_append, h, ih]

theorem links_column (c : Bytes) : links (specColumn c) = [] := by
  unfold specColumn
  rw [links_append, links_append, links_chars]
  rfl

theorem links_above (dur : Int → Bytes) (hdr : List Int) (rows : List Row) :
    links (specAbove dur hdr rows) = rows.flatMap rowLinks := by
  have h1 : links (specHeader (str "Trace Spans")) = [] := by decide +kernel
  have h2 : links (specHeadings (hdr.map (columnName dur))) = [] := by
    unfold specHeadings headCell
    simp only [links_append, links_chars, links_bar, links_flatMap links_column]
    rfl
  have h3 : links [tag "/table"] = [] := rfl
  unfold specAbove specSummary
  simp only [links_append, h1, h2, h3, links_rows, links_chars, List.nil_append, List.append_nil]

theorem links_line (r : TraceRow) : links (specLine r) = [] := by
  unfold specLine
  rw [links_append, links_append, links_chars, links_chars]
  split
  · rfl
  · split
    · rfl
    · simp only [links_append, links_chars]
      split <;> split <;> first
        | rfl
        | (simp only [links_chars]; rfl)

theorem links_traces (name : Bytes) (num : Nat) (rows : List TraceRow) : links (specTraces name num rows) = [] := by
  unfold specTraces
  simp only [links_append, links_chars, links_flatMap links_line]
  rfl

/-- **C91.** The links of every page, as the handler takes them: for each row of the summary, the running spans, the
latency columns and the errors of that name, whatever bytes the name has. -/
theorem page_links {t : Int} {ops : List Op} {st : State} (h : run (State.init t) ops = .ok st)
    {l : GoMap Bytes Trace.Store} (hl : l.Perm st.stores) {rule : Semicolon} {x : Text} {dur : Int → Bytes}
    {orders : List (List Bytes)} {ess : List (List Event)} {q : Bytes} {st' : State} {doc : Bytes}
    (hd : tracezHandler rule x dur st l orders ess q = .ok (st', doc)) :
    ∃ hdr rows seen, getSummaryPageData l = .ok (hdr, rows) ∧ read rule doc = some seen ∧ links seen = rows.flatMap rowLinks := by
  obtain ⟨hdr, rows, h0, h1, h2⟩ := page_reads h hl hd (name := (tracezArgs rule q).1) (ty := (tracezArgs rule q).2.1)
    (sub := (tracezArgs rule q).2.2) rfl
  have hf : links specFooter = [] := by decide +kernel
  by_cases hn : (tracezArgs rule q).1 = []
  · exact ⟨hdr, rows, _, h0, (h1 hn).2, by rw [links_append, links_above, hf, List.append_nil]⟩
  · obtain ⟨spans, lines, _, _, _, hr⟩ := h2 hn
    exact ⟨hdr, rows, _, h0, hr, by rw [links_append, links_append, links_above, links_traces, hf, List.append_nil, List.append_nil]⟩

/-! ## Following a link -/

theorem active_length {t : Int} {ops : List Op} {st : State} (h : run (State.init t) ops = .ok st) {r : Row} (hr : RowOK ops st r)
    {orders : List (List Bytes)} {st' : State} {out : List SpanData} {sub : Int}
    (hs : traceSpans st orders r.name 0 sub = .ok (st', out)) : out.length = r.active := by
  have hs' : reportActive st r.name orders = .ok (st', out) := by simpa [traceSpans] using hs
  obtain ⟨ids, h1, h2, h3⟩ := Store.active_report h hs'
  obtain ⟨ids', g1, g2, g3⟩ := hr.active
  have hp : ids.Perm ids' := (List.perm_ext_iff_of_nodup h1 g1).2 fun i => (h2 i).trans (g2 i).symm
  have := congrArg List.length h3
  simp only [List.length_map] at this
  rw [this, g3, hp.length_eq]

theorem latency_length {t : Int} {ops : List Op} {st : State} (h : run (State.init t) ops = .ok st) {r : Row} (hr : RowOK ops st r)
    (ho : ∀ k, ∀ sd ∈ latencyOf st r.name k, Ordinary sd) {orders : List (List Bytes)} {st' : State} {out : List SpanData} {k n : Nat}
    (hk : r.latency[k]? = some n) (hs : traceSpans st orders r.name 1 k = .ok (st', out)) : out.length = n := by
  rw [hr.latency, List.getElem?_map] at hk
  have hk8 : k ≤ 8 := by
    by_contra hc
    rw [List.getElem?_eq_none (by simp; omega)] at hk
    simp at hk
  rw [List.getElem?_range (by omega)] at hk
  simp only [Option.map_some, Option.some.injEq] at hk
  obtain ⟨out', h1, h2⟩ := Tracez.page_contents h orders r.name hk8
  rw [hs] at h1
  simp only [Res.ok.injEq, Prod.mk.injEq] at h1
  obtain ⟨_, rfl⟩ := h1
  rw [h2.length_eq, ← hk]
  have hin : ∀ j, ∀ sd ∈ latencyOf st r.name j, Tracez.InColumn j sd := fun j sd => Tracez.column_mem h
  unfold Tracez.pageSpec
  split
  · rename_i hlt
    rw [List.filter_eq_nil_iff.2, List.append_nil]
    intro sd hsd
    have h1 := ho _ sd hsd
    unfold Ordinary at h1
    simp only [List.mem_cons, List.not_mem_nil, or_false, not_or] at h1
    obtain ⟨⟨a0, a1, a2, a3, a4, a5, a6⟩, a7, a8⟩ := h1
    interval_cases k <;> simp [Tracez.pageHi] <;> omega
  · split
    · rename_i h7
      subst h7
      rw [List.filter_eq_nil_iff.2, List.append_nil]
      intro sd hsd
      have h1 := ho _ sd hsd
      have h2 := hin _ sd hsd
      unfold Ordinary at h1
      unfold Tracez.InColumn at h2
      simp
      omega
    · have h8 : k = 8 := by omega
      subst h8
      rw [List.filter_eq_self.2]
      intro sd hsd
      have h1 := ho _ sd hsd
      have h2 := hin _ sd hsd
      unfold Ordinary at h1
      unfold Tracez.InColumn at h2
      simp
      omega

/-- **C91.** Someone follows a link of a row of the summary, and nothing happens meanwhile: the page they get lists
the spans of that name, running, of that column or failed, and their number is the number that was shown at the
link. For latency columns this is for ordinary durations: the code takes different bounds for the two pages. For the empty
name no spans are listed at all. -/
theorem links_lead_partial {t : Int} {ops : List Op} {st : State} (h : run (State.init t) ops = .ok st)
    {l l' : GoMap Bytes Trace.Store} (hl : l.Perm st.stores) (hl' : l'.Perm st.stores) {rule : Semicolon} {x : Text} {dur : Int → Bytes}
    {hdr : List Int} {rows : List Row} (hs : getSummaryPageData l = .ok (hdr, rows)) {r : Row} (hr : r ∈ rows) (hn : r.name ≠ [])
    {orders : List (List Bytes)} {ess : List (List Event)} {q : Bytes} {st' : State} {doc : Bytes}
    (hd : tracezHandler rule x dur st l' orders ess q = .ok (st', doc)) :
    (tracezArgs rule q = (r.name, 0, 0) →
      ∃ above lines, read rule doc = some (above ++ specTraces r.name r.active lines ++ specFooter)) ∧
    (∀ (k n : Nat), r.latency[k]? = some n → (∀ j, ∀ sd ∈ latencyOf st r.name j, Ordinary sd) →
      tracezArgs rule q = (r.name, 1, (k : Int)) →
      ∃ above lines, read rule doc = some (above ++ specTraces r.name n lines ++ specFooter)) ∧
    (tracezArgs rule q = (r.name, 2, 0) →
      ∃ above lines, read rule doc = some (above ++ specTraces r.name r.errors lines ++ specFooter)) := by
  have hrow := rows_nine h hl hs r hr
  refine ⟨fun hq => ?_, fun k n hk ho hq => ?_, fun hq => ?_⟩
  · obtain ⟨hdr', rows', _, _, h2⟩ := page_reads h hl' hd hq
    obtain ⟨spans, lines, g1, _, _, g4⟩ := h2 hn
    exact ⟨_, lines, by rw [g4, active_length h hrow g1]⟩
  · obtain ⟨hdr', rows', _, _, h2⟩ := page_reads h hl' hd hq
    obtain ⟨spans, lines, g1, _, _, g4⟩ := h2 hn
    exact ⟨_, lines, by rw [g4, latency_length h hrow ho hk g1]⟩
  · obtain ⟨hdr', rows', _, _, h2⟩ := page_reads h hl' hd hq
    obtain ⟨spans, lines, g1, _, _, g4⟩ := h2 hn
    obtain ⟨out, e1, _⟩ := Tracez.error_page h orders r.name 0
    have he : st' = st := by rw [e1] at g1; simp only [Res.ok.injEq, Prod.mk.injEq] at g1; exact g1.1.symm
    have hlen := hrow.errors orders 0 spans (by rw [g1, he])
    exact ⟨_, lines, by rw [g4, hlen]⟩

/-! ## Every request -/

theorem active_exists {st : State} {is : List Nat} (h : ∀ i ∈ is, ∃ v, (views st)[i]? = some v ∧ v.start.isSome) :
    ∃ orders st' out, reportActiveLoop st is orders = .ok (st', out) := by
  induction is generalizing st with
  | nil => exact ⟨[], st, [], rfl⟩
  | cons i is ih =>
    obtain ⟨v, h1, h2⟩ := h i (by simp)
    simp only [views, List.getElem?_map] at h1
    cases hs : st.spans[i]? with
    | none => rw [hs] at h1; simp at h1
    | some s =>
      rw [hs] at h1
      simp at h1
      subst h1
      cases hd : s.data with
      | none => simp [Span.view, hd] at h2
      | some r =>
        have hm : ∃ p, r.makeSpanData (GoMap.keys r.attrs.cacheKeys) = .ok p := by
          unfold Rec.makeSpanData
          rw [if_neg (by rw [List.isPerm_iff.2 (List.Perm.refl _)]; simp)]
          exact ⟨_, rfl⟩
        obtain ⟨⟨r', sd⟩, hm⟩ := hm
        have hv : views { st with spans := st.spans.set i { s with data := some r' } } = views st :=
          views_set hs (by simp [Span.view, hd, (makeSpanData_ok hm).1])
        obtain ⟨orders, st', out, ho⟩ := ih (st := { st with spans := st.spans.set i { s with data := some r' } }) (by
          intro j hj
          rw [hv]
          exact h j (by simp [hj]))
        exact ⟨GoMap.keys r.attrs.cacheKeys :: orders, st', sd :: out, by simp only [reportActiveLoop, hs, hd, hm, Res.bind, ho]⟩

theorem reportActive_exists {t : Int} {ops : List Op} {st : State} (h : run (State.init t) ops = .ok st) (name : Bytes) :
    ∃ orders st' out, reportActive st name orders = .ok (st', out) := by
  have hg := good_run h
  unfold reportActive
  cases hgs : GoMap.get st.stores name with
  | none => exact ⟨[], st, [], rfl⟩
  | some s =>
    simp only
    apply active_exists
    intro i hi
    obtain ⟨v, h1, h2, _⟩ := ((SInv.ok hg name s hgs).active i).mp hi
    exact ⟨v, h1, (SInv.has hg i v name h1 h2).2⟩

theorem reportActive_not_panic {t : Int} {ops : List Op} {st : State} (h : run (State.init t) ops = .ok st) (name : Bytes)
    (orders : List (List Bytes)) : reportActive st name orders ≠ .panic := by
  have hg := good_run h
  unfold reportActive
  cases hgs : GoMap.get st.stores name with
  | none => simp
  | some s =>
    simp only
    apply reportActiveLoop_not_panic
    intro i hi
    obtain ⟨v, h1, h2, _⟩ := ((SInv.ok hg name s hgs).active i).mp hi
    exact ⟨v, h1, (SInv.has hg i v name h1 h2).2⟩

theorem bounds_ok (sub : Int) : ∃ p, pageBounds sub = .ok p := by
  unfold pageBounds
  have hn : (zLatencies.length : Int) = 8 := rfl
  simp only [hn]
  split
  · exact ⟨_, rfl⟩
  · split
    · rename_i h; subst h; exact ⟨_, rfl⟩
    · split
      · rename_i h
        obtain ⟨h1, h2⟩ := h
        obtain ⟨n, rfl⟩ : ∃ n : Nat, sub = n := ⟨sub.toNat, by omega⟩
        have : n < 8 := by omega
        interval_cases n <;> first | (simp at h1; done) | exact ⟨_, rfl⟩
      · exact ⟨_, rfl⟩

theorem spans_answer {t : Int} {ops : List Op} {st : State} (h : run (State.init t) ops = .ok st) (name : Bytes) (ty sub : Int) :
    (∀ orders, traceSpans st orders name ty sub ≠ .panic) ∧ ∃ orders p, traceSpans st orders name ty sub = .ok p := by
  unfold traceSpans
  by_cases h0 : ty = 0
  · simp only [if_pos h0]
    obtain ⟨orders, st', out, ho⟩ := reportActive_exists h name
    exact ⟨reportActive_not_panic h name, orders, _, ho⟩
  · simp only [if_neg h0]
    by_cases h1 : ty = 1
    · simp only [if_pos h1]
      obtain ⟨⟨lo, hi⟩, hb⟩ := bounds_ok sub
      obtain ⟨out, h2, _⟩ := Store.latency_report_exact h name lo hi
      simp only [hb, Res.bind, h2]
      exact ⟨fun _ => by simp, [], _, rfl⟩
    · simp only [if_neg h1]
      split
      · exact ⟨fun _ => by simp, [], _, rfl⟩
      · exact ⟨fun _ => by simp, [], _, rfl⟩

theorem page_answer (x : Text) (spans : List SpanData) :
    (∀ ess, tracePage x (spans.zip ess) ≠ .panic) ∧ ∃ ess lines, ess.length = spans.length ∧ tracePage x (spans.zip ess) = .ok lines := by
  have hnp : ∀ l : List (SpanData × List Event), tracePage x l ≠ .panic := by
    intro l
    induction l with
    | nil => simp [tracePage]
    | cons e l ih =>
      obtain ⟨s, es⟩ := e
      exact bind_not_panic ((TraceRows.no_panic x s).1 es) fun _ _ => bind_not_panic ih fun _ _ => by simp
  refine ⟨fun ess => hnp _, ?_⟩
  induction spans with
  | nil => exact ⟨[], [], rfl, rfl⟩
  | cons s spans ih =>
    obtain ⟨ess, lines, h1, h2⟩ := ih
    obtain ⟨es, out, h3⟩ := (TraceRows.no_panic x s).2
    exact ⟨es :: ess, out ++ lines, by simp [h1], by simp [tracePage, h3, h2, Res.bind]⟩

/-- **C91.** Every request for the page, with any query, after any program, is answered with a page: there is no panic,
whatever order maps and events come in, and such orders exist. -/
theorem always_answered {t : Int} {ops : List Op} {st : State} (h : run (State.init t) ops = .ok st)
    {l : GoMap Bytes Trace.Store} (hl : l.Perm st.stores) (rule : Semicolon) (x : Text) (dur : Int → Bytes) (q : Bytes) :
    (∀ orders ess, tracezHandler rule x dur st l orders ess q ≠ .panic) ∧
    ∃ orders ess p, tracezHandler rule x dur st l orders ess q = .ok p := by
  obtain ⟨hdr, rows, hs, _⟩ := Tracez.summary_page h hl
  unfold tracezHandler writeTracezPage
  simp only [hs, Res.bind]
  by_cases hn : (tracezArgs rule q).1 = []
  · simp only [if_pos hn]
    exact ⟨fun _ _ => by simp, [], [], _, rfl⟩
  · simp only [if_neg hn]
    obtain ⟨h1, orders, ⟨st', spans⟩, h2⟩ := spans_answer h (tracezArgs rule q).1 (tracezArgs rule q).2.1 (tracezArgs rule q).2.2
    constructor
    · intro orders ess
      cases hsp : traceSpans st orders (tracezArgs rule q).1 (tracezArgs rule q).2.1 (tracezArgs rule q).2.2 with
      | err => simp
      | panic => exact absurd hsp (h1 orders)
      | ok p =>
        simp only
        split
        · simp
        · cases hp : tracePage x (p.2.zip ess) with
          | ok l => simp
          | err => simp
          | panic => exact absurd hp ((page_answer x p.2).1 ess)
    · obtain ⟨ess, lines, h3, h4⟩ := (page_answer x spans).2
      refine ⟨orders, ess, ?_⟩
      rw [h2]
      simp only [h3, ne_eq, not_true_eq_false, if_false, h4]
      exact ⟨_, rfl⟩

/-- **C91.** The page without a query is the summary alone. -/
theorem no_query (rule : Semicolon) : tracezArgs rule [] = ([], 0, 0) := by cases rule <;> decide +kernel

/-! ## The empty name, and examples -/

/-- A span is started under the given name. -/
def demo (name : Bytes) : List Op :=
  [.enableStore, Store.neverConfig, .start none name [] (List.replicate 16 1) (List.replicate 8 1)]

/-- The row of the summary after `demo`. -/
def demoRow (name : Bytes) : Row := ⟨name, 1, [0, 0, 0, 0, 0, 0, 0, 0, 0], 0⟩

def demoSummary (name : Bytes) : Option (List (Bytes × Nat × List Nat × Nat)) :=
  match run (State.init 0) (demo name) with
  | .ok st => match reportSpansPerMethod st.stores with
    | .ok l => some (l.map fun e => ((rowOf e).name, (rowOf e).active, (rowOf e).latency, (rowOf e).errors))
    | _ => none
  | _ => none

/-- **C91, where the code differs.** A running span with an empty name is counted in the summary, and no page
lists it: for the name that its link has, as for every query with an empty name, there is only the summary. -/
theorem empty_name_not_listed : demoSummary [] = some [([], 1, [0, 0, 0, 0, 0, 0, 0, 0, 0], 0)] ∧
    ∀ {t : Int} {ops : List Op} {st : State}, run (State.init t) ops = .ok st → ∀ {l : GoMap Bytes Trace.Store}, l.Perm st.stores →
      ∀ {rule : Semicolon} {x : Text} {dur : Int → Bytes} {orders : List (List Bytes)} {ess : List (List Event)} {q : Bytes} {st' : State}
        {doc : Bytes} {ty sub : Int}, tracezHandler rule x dur st l orders ess q = .ok (st', doc) → tracezArgs rule q = ([], ty, sub) →
        ∃ hdr rows, getSummaryPageData l = .ok (hdr, rows) ∧ read rule doc = some (specAbove dur hdr rows ++ specFooter) := by
  refine ⟨by decide +kernel, ?_⟩
  intro t ops st h l hl rule x dur orders ess q st' doc ty sub hd hq
  obtain ⟨hdr, rows, h0, h1, _⟩ := page_reads h hl hd hq
  exact ⟨hdr, rows, h0, (h1 rfl).2⟩

/-- Non-vacuity of `page_reads`, `no_markup`, `page_links` and `links_lead_partial`: a span whose name looks like markup. -/
example : demoSummary (str "<script>&\"'") = some [(str "<script>&\"'", 1, [0, 0, 0, 0, 0, 0, 0, 0, 0], 0)] ∧
    read .spoils (render (rowSegs 0 (demoRow (str "<script>&\"'")))) = some (specRow 0 (demoRow (str "<script>&\"'"))) ∧
    links (specRow 0 (demoRow (str "<script>&\"'"))) = rowLinks (demoRow (str "<script>&\"'")) := by
  decide +kernel

/-- The document of that row. -/
example : (render (activeCell (str "<b>&") 1)) =
    str "<td align=\"center\"><a href=\"tracez?zspanname=%3cb%3e%26&ztype=0\">1</a></td>" := by decide +kernel

/-- Queries of all sorts: spaces, semicolons, numbers out of range, errors of syntax. -/
example : tracezArgs .separates (str "zspanname=a+b&ztype=1;zsubtype=7") = (str "a b", 1, 7) ∧
    tracezArgs .spoils (str "zspanname=a+b&ztype=1;zsubtype=7") = (str "a b", 0, 0) ∧
    tracezArgs .spoils (str "zspanname=%zz&zspanname=c&ztype=x&zsubtype=99999999999999999999") = (str "c", 0, 2 ^ 63 - 1) := by
  decide +kernel

end Verif.Props.TraceLinks
