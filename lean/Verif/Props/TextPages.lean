import Verif.Zpages.Text
import Verif.Props.TracePage
import Verif.Props.Grpc
import Verif.Props.TraceRows

/-!
# C98: the trace pages as text

A reader of the text finds every figure under its heading: at the same distance, in characters, from the beginning of the line.
-/

namespace Verif.Props.TextPages
open Verif Verif.Trace Verif.Zpages Verif.Zpages.Text
open Verif.Props.Grpc (numeral numeral_digits isDigit digits_digits)

/-! ## Specification -/

/-- Text that does not end cells or lines and is no escape: no tabs, newlines, vertical tabs, form feeds, and no byte 255 (which is
not in any UTF-8 text). -/
def Plain (t : Bytes) : Prop := ∀ c ∈ t, c ≠ 9 ∧ c ≠ 10 ∧ c ≠ 11 ∧ c ≠ 12 ∧ c ≠ 255

/-- In the line, after `off` characters, stands the cell, and then a space or nothing. -/
def Stands (off : Nat) (cell line : Bytes) : Prop :=
  ∃ pre post, line = pre ++ cell ++ post ∧ runes pre = off ∧ (post = [] ∨ post.head? = some 32)

/-- How a count is shown: a point for none, its digits otherwise. -/
def Figure (cell : Bytes) (n : Nat) : Prop :=
  if n = 0 then cell = [46] else cell ≠ [] ∧ (∀ c ∈ cell, isDigit c = true) ∧ numeral cell = n

/-- The document has these lines. -/
def Lines (doc : Bytes) (lines : List Bytes) : Prop := doc = lines.flatMap (· ++ [10]) ∧ ∀ l ∈ lines, (10 : UInt8) ∉ l

instance (t : Bytes) : Decidable (Plain t) := inferInstanceAs (Decidable (∀ c ∈ t, _))

/-! ## Counting characters -/

theorem decode_space (x : UInt8) (a b : Bytes) : Utf8.decodeRune (x :: (a ++ 32 :: b)) = Utf8.decodeRune (x :: a) := by
  have h1 : ∀ n : Nat, ((if n = 0xE0 then 0xA0 else 0x80) ≤ 32) = False := by intro n; simp only [eq_iff_iff, iff_false]; split <;> omega
  have h2 : ∀ n : Nat, ((if n = 0xF0 then 0x90 else 0x80) ≤ 32) = False := by intro n; simp only [eq_iff_iff, iff_false]; split <;> omega
  have h3 : Utf8.contByte 32 = false := by decide
  have h4 : (32 : UInt8).toNat = 32 := rfl
  match a, b with
  | [], [] => simp [Utf8.decodeRune, h3]
  | [], [c] => simp [Utf8.decodeRune, h3, h4, h1]
  | [], c :: d :: b => simp [Utf8.decodeRune, h3, h4, h1, h2]
  | [y], [] => simp [Utf8.decodeRune, h3]
  | [y], c :: b => simp [Utf8.decodeRune, h3]
  | [y, z], b => simp [Utf8.decodeRune, h3]
  | y :: z :: u :: a, b => simp [Utf8.decodeRune]

theorem decode_size (x : UInt8) (a : Bytes) : (Utf8.decodeRune (x :: a)).2 ≤ a.length + 1 := by
  match a with
  | [] => simp only [Utf8.decodeRune]; repeat' split
          all_goals simp
  | [y] => simp only [Utf8.decodeRune]; repeat' split
           all_goals simp
  | [y, z] => simp only [Utf8.decodeRune]; repeat' split
              all_goals simp
  | y :: z :: u :: a => simp only [Utf8.decodeRune]; repeat' split
                        all_goals simp

theorem runesFrom_space (a b : Bytes) (k : Nat) (hk : k ≤ a.length) :
    runesFrom k (a ++ 32 :: b) = runesFrom k a + 1 + runes b := by
  induction a generalizing k with
  | nil =>
    have : k = 0 := by simpa using hk
    subst this
    simp [runesFrom, Utf8.decodeRune, runes]; omega
  | cons x a ih =>
    cases k with
    | zero =>
      show runesFrom ((Utf8.decodeRune (x :: (a ++ 32 :: b))).2 - 1) (a ++ 32 :: b) + 1 = runesFrom ((Utf8.decodeRune (x :: a)).2 - 1) a + 1 + 1 + runes b
      rw [decode_space, ih _ (by have := decode_size x a; omega)]
      omega
    | succ k =>
      show runesFrom k (a ++ 32 :: b) = runesFrom k a + 1 + runes b
      exact ih k (by simpa using hk)

theorem runes_spaces (a b : Bytes) (n : Nat) : runes (a ++ List.replicate (n + 1) 32 ++ b) = runes a + (n + 1) + runes b := by
  induction n generalizing a with
  | zero =>
    have := runesFrom_space a b 0 (by omega)
    simpa [runes] using this
  | succ n ih =>
    have h1 := ih (a ++ [32])
    rw [show a ++ List.replicate (n + 1 + 1) (32 : UInt8) ++ b = a ++ [32] ++ List.replicate (n + 1) 32 ++ b by
      rw [List.replicate_succ (n := n + 1)]; simp, h1]
    have h2 := runesFrom_space a [] 0 (by omega)
    have h3 : runes (a ++ [32]) = runes a + 1 := by simpa [runes, runesFrom] using h2
    omega

/-! ## The writer -/

/-- A cell of plain text. -/
def cellOf (t : Bytes) : Cell := ⟨t, runes t⟩

theorem put_plain (min pad : Int) (t : Bytes) (ht : Plain t) (w : Tw) (he : w.esc = false) :
    t.foldl (Tw.put min pad) w = { w with text := w.text ++ t, seg := w.seg ++ t } := by
  induction t generalizing w with
  | nil => simp
  | cons c t ih =>
    have hc := ht c (by simp)
    have e : Tw.put min pad w c = { w with text := w.text ++ [c], seg := w.seg ++ [c] } := by
      unfold Tw.put
      rw [if_neg (by simp [he]), if_neg (by tauto), if_neg (by tauto), if_neg (by tauto)]
    rw [List.foldl_cons, e, ih (fun c h => ht c (by simp [h])) { w with text := w.text ++ [c], seg := w.seg ++ [c] } he]
    simp

theorem put_tab (min pad : Int) (w : Tw) (he : w.esc = false) : Tw.put min pad w 9 = w.endCell := by
  unfold Tw.put
  rw [if_neg (by simp [he]), if_pos (by tauto)]

/-- The cells of a line, after some cells of it. -/
theorem put_cells (min pad : Int) (ts : List Bytes) (hne : ts ≠ []) (ht : ∀ t ∈ ts, Plain t) (out : Bytes) (ls : List (List Cell))
    (cur : List Cell) (h2 : 2 ≤ cur.length + ts.length) :
    (tabbed ts ++ [10]).foldl (Tw.put min pad) ⟨out, ls, cur, [], [], 0, false⟩ =
      ⟨out, ls ++ [cur ++ ts.map cellOf], [], [], [], 0, false⟩ := by
  induction ts generalizing cur with
  | nil => exact absurd rfl hne
  | cons t ts ih =>
    cases ts with
    | nil =>
      simp only [tabbed, List.foldl_append, List.foldl_cons, List.foldl_nil]
      rw [put_plain min pad t (ht t (by simp)) _ rfl]
      unfold Tw.put
      have hn : (cur ++ [cellOf t]).length ≠ 1 := by
        simp only [List.length_append, List.length_cons, List.length_nil] at h2 ⊢; omega
      rw [if_neg (by simp), if_neg (by decide), if_pos (by decide)]
      simp only [Tw.endCell, List.nil_append, Int.zero_add, List.map_cons, List.map_nil]
      rw [if_neg]
      · rfl
      · rintro (h | h)
        · revert h; decide
        · exact hn h
    | cons t' ts =>
      have e : tabbed (t :: t' :: ts) = t ++ 9 :: tabbed (t' :: ts) := rfl
      rw [e, List.append_assoc, List.foldl_append, put_plain min pad t (ht t (by simp)) _ rfl, List.cons_append, List.foldl_cons,
        put_tab _ _ _ rfl]
      have := ih (by simp) (fun t h => ht t (by simp [h])) (cur ++ [cellOf t]) (by simp at h2 ⊢; omega)
      simp only [Tw.endCell, List.nil_append, Int.zero_add, List.map_cons, List.append_assoc, List.cons_append] at this ⊢
      exact this

theorem put_lines (min pad : Int) (L : List (List Bytes)) (h : ∀ ts ∈ L, 2 ≤ ts.length ∧ ∀ t ∈ ts, Plain t) (out : Bytes)
    (ls : List (List Cell)) :
    (L.flatMap fun ts => tabbed ts ++ [10]).foldl (Tw.put min pad) ⟨out, ls, [], [], [], 0, false⟩ =
      ⟨out, ls ++ L.map (·.map cellOf), [], [], [], 0, false⟩ := by
  induction L generalizing ls with
  | nil => simp
  | cons ts L ih =>
    obtain ⟨h1, h2⟩ := h ts (by simp)
    rw [List.flatMap_cons, List.foldl_append, put_cells min pad ts (by rintro rfl; simp at h1) h2 out ls [] (by simpa using h1),
      ih fun ts h' => h ts (by simp [h'])]
    simp

/-! ## The layout -/

theorem width_mono (min pad : Int) (j : Nat) (acc : Int) (ls : List (List Cell)) : acc ≤ (columnWidths min pad j acc ls).2 := by
  induction ls generalizing acc with
  | nil => simp [columnWidths]
  | cons l ls ih =>
    unfold columnWidths
    split
    · next c _ => exact le_trans (le_max_left _ _) (ih (max acc (c.width + pad)))
    · exact le_refl _

/-- A tab-terminated cell fits into its column with the padding. -/
theorem width_fits (min pad : Int) (j : Nat) (acc : Int) (ls : List (List Cell)) (i : Nat) {l : List Cell} {c : Cell}
    (hl : ls[i]? = some l) (hc : l.dropLast[j]? = some c) :
    c.width + pad ≤ ((columnWidths min pad j acc ls).1[i]?).getD 0 := by
  induction ls generalizing acc i with
  | nil => simp at hl
  | cons l0 ls ih =>
    unfold columnWidths
    cases i with
    | zero =>
      simp only [List.getElem?_cons_zero, Option.some.injEq] at hl
      subst hl
      rw [hc]
      simp only [List.getElem?_cons_zero, Option.getD_some]
      exact le_trans (le_max_right _ _) (width_mono min pad j _ ls)
    | succ i =>
      simp only [List.getElem?_cons_succ] at hl
      split
      · exact ih _ i hl
      · exact ih _ i hl

/-- A column that all lines have is one column. -/
theorem width_same (min pad : Int) (j : Nat) (acc : Int) (ls : List (List Cell)) (h : ∀ l ∈ ls, j + 1 < l.length) :
    ∃ m, acc ≤ m ∧ (columnWidths min pad j acc (ls ++ [[]])).2 = m ∧
      ∀ i < ls.length, (columnWidths min pad j acc (ls ++ [[]])).1[i]? = some m := by
  induction ls generalizing acc with
  | nil => exact ⟨acc, le_refl _, rfl, fun i hi => by simp at hi⟩
  | cons l ls ih =>
    have hl := h l (by simp)
    obtain ⟨c, hc⟩ : ∃ c, l.dropLast[j]? = some c := ⟨_, List.getElem?_eq_getElem (by simp; omega)⟩
    obtain ⟨m, h1, h2, h3⟩ := ih (max acc (c.width + pad)) fun l h' => h l (by simp [h'])
    refine ⟨m, le_trans (le_max_left _ _) h1, ?_, ?_⟩
    · simp only [List.cons_append, columnWidths, hc]; exact h2
    · intro i hi
      simp only [List.cons_append, columnWidths, hc]
      cases i with
      | zero => simp [h2]
      | succ i => simp only [List.getElem?_cons_succ]; exact h3 i (by simpa using hi)

/-- Where column `j` begins. -/
def start (widthOf : Nat → Int) (j0 : Nat) : Nat → Nat
  | 0 => 0
  | j + 1 => (widthOf j0).toNat + start widthOf (j0 + 1) j

theorem start_congr {f g : Nat → Int} {j0 j : Nat} (h : ∀ k, j0 ≤ k → k < j0 + j → f k = g k) : start f j0 j = start g j0 j := by
  induction j generalizing j0 with
  | zero => rfl
  | succ j ih =>
    simp only [start]
    rw [h j0 (by omega) (by omega), ih fun k h1 h2 => h k (by omega) (by omega)]

theorem start_succ (f : Nat → Int) (j0 j : Nat) : start f j0 (j + 1) = start f j0 j + (f (j0 + j)).toNat := by
  induction j generalizing j0 with
  | zero => simp [start]
  | succ j ih =>
    have e : start f j0 (j + 1 + 1) = (f j0).toNat + start f (j0 + 1) (j + 1) := rfl
    rw [e, ih (j0 + 1)]
    have : start f j0 (j + 1) = (f j0).toNat + start f (j0 + 1) j := rfl
    rw [this, show j0 + (j + 1) = j0 + 1 + j by omega]; omega

theorem stands_line (f : Nat → Int) (ts : List Bytes) (j0 : Nat)
    (hw : ∀ k t, ts.dropLast[k]? = some t → (runes t : Int) + 1 ≤ f (j0 + k)) (j : Nat) (t : Bytes) (ht : ts[j]? = some t) :
    Stands (start f j0 j) t (layLine f j0 (ts.map cellOf)) := by
  induction ts generalizing j0 j with
  | nil => simp at ht
  | cons a ts ih =>
    cases ts with
    | nil =>
      cases j with
      | zero => simp at ht; subst ht; exact ⟨[], [], by simp [layLine, cellOf], rfl, .inl rfl⟩
      | succ j => simp at ht
    | cons b ts =>
      have h0 := hw 0 a (by simp)
      rw [Nat.add_zero] at h0
      obtain ⟨n, hn⟩ : ∃ n : Nat, f j0 - runes a = (n : Int) + 1 := ⟨(f j0 - runes a - 1).toNat, by omega⟩
      have e : layLine f j0 ((a :: b :: ts).map cellOf) = a ++ List.replicate (n + 1) 32 ++ layLine f (j0 + 1) ((b :: ts).map cellOf) := by
        show a ++ List.replicate (f j0 - runes a).toNat 32 ++ _ = _
        rw [show (f j0 - runes a).toNat = n + 1 by omega]
      rw [e]
      cases j with
      | zero =>
        simp only [List.getElem?_cons_zero, Option.some.injEq] at ht
        subst ht
        exact ⟨[], _, by rw [List.nil_append, List.append_assoc], rfl, .inr (by rw [List.replicate_succ]; rfl)⟩
      | succ j =>
        simp only [List.getElem?_cons_succ] at ht
        obtain ⟨pre, post, h1, h2, h3⟩ := ih (j0 + 1) (fun k t hk => by
          have := hw (k + 1) t (by simpa using hk)
          rw [show j0 + 1 + k = j0 + (k + 1) by omega]; exact this) j ht
        refine ⟨a ++ List.replicate (n + 1) 32 ++ pre, post, by rw [h1]; simp, ?_, h3⟩
        rw [runes_spaces, h2]
        simp only [start]
        omega

theorem line_plain (f : Nat → Int) (ts : List Bytes) (j0 : Nat) (h : ∀ t ∈ ts, Plain t) : (10 : UInt8) ∉ layLine f j0 (ts.map cellOf) := by
  have hp : ∀ t ∈ ts, (10 : UInt8) ∉ t := fun t ht hc => (h t ht 10 hc).2.1 rfl
  induction ts generalizing j0 with
  | nil => simp [layLine]
  | cons a ts ih =>
    cases ts with
    | nil => simpa [layLine, cellOf] using hp a (by simp)
    | cons b ts =>
      show (10 : UInt8) ∉ a ++ List.replicate _ 32 ++ layLine f (j0 + 1) ((b :: ts).map cellOf)
      intro hc
      simp only [List.mem_append] at hc
      rcases hc with (hc | hc) | hc
      · exact hp a (by simp) hc
      · have := (List.mem_replicate.1 hc).2; revert this; decide
      · exact ih (j0 + 1) (fun t ht => h t (by simp [ht])) (fun t ht => hp t (by simp [ht])) hc

/-- C98. A table: lines of plain cells, with at least `m + 1` cells each. Every cell of the columns up to `m` stands, in all lines, at
the beginning of its column; columns are at least `min` characters wide, and the lines are the lines that were written. -/
theorem table (min : Int) (m : Nat) (L : List (List Bytes))
    (h : ∀ ts ∈ L, 2 ≤ ts.length ∧ m < ts.length ∧ ∀ t ∈ ts, Plain t) :
    ∃ (lines : List Bytes) (off : Nat → Nat),
      Lines (tabulate min 1 (L.flatMap fun ts => tabbed ts ++ [10])) lines ∧ lines.length = L.length ∧
      off 0 = 0 ∧ (∀ j < m, off j + min ≤ off (j + 1)) ∧
      ∀ (i : Nat) (ts : List Bytes) (line : Bytes), L[i]? = some ts → lines[i]? = some line → ∀ j ≤ m, ∀ t, ts[j]? = some t →
        Stands (off j) t line := by
  let C : List (List Cell) := L.map (·.map cellOf) ++ [[]]
  let W : Nat → Nat → Int := fun i j => ((columnWidths min 1 j min C).1[i]?).getD 0
  have hC : ∀ (i : Nat) (ts : List Bytes), L[i]? = some ts → C[i]? = some (ts.map cellOf) := by
    intro i ts hi
    have hlt : i < L.length := (List.getElem?_eq_some_iff.1 hi).1
    show (L.map (·.map cellOf) ++ [[]])[i]? = _
    rw [List.getElem?_append_left (by simpa using hlt)]
    simp [hi]
  have hout : tabulate min 1 (L.flatMap fun ts => tabbed ts ++ [10]) =
      ((List.range L.length).map fun i => layLine (W i) 0 (((L[i]?).getD []).map cellOf)).flatMap (· ++ [10]) := by
    unfold tabulate
    rw [show Tw.new = ⟨[], [], [], [], [], 0, false⟩ from rfl, put_lines min 1 L fun ts ht => ⟨(h ts ht).1, (h ts ht).2.2⟩]
    unfold Tw.flush
    simp only [if_true, List.nil_append]
    have e : layLines min 1 C = ((List.range L.length).map fun i => layLine (W i) 0 (((L[i]?).getD []).map cellOf)) ++ [[]] := by
      unfold layLines
      have hlen : C.length = L.length + 1 := by simp [C]
      rw [hlen, List.range_succ, List.map_append]
      congr 1
      · apply List.map_congr_left
        intro i hi
        have hi' : i < L.length := by simpa using hi
        rw [hC i _ (List.getElem?_eq_getElem hi'), List.getElem?_eq_getElem hi']
        rfl
      · have : C[L.length]? = some [] := by
          show (L.map (·.map cellOf) ++ [[]])[L.length]? = _
          rw [List.getElem?_append_right (by simp)]
          simp
        simp [this, layLine]
    rw [show layLines min 1 (L.map (·.map cellOf) ++ [[]]) = _ from e]
    simp
  -- one width for all lines
  have hsame : ∀ j, j < m → ∃ M, min ≤ M ∧ ∀ i < L.length, W i j = M := by
    intro j hj
    obtain ⟨M, h1, _, h3⟩ := width_same min 1 j min (L.map (·.map cellOf)) (by
      intro l hl
      obtain ⟨ts, ht, rfl⟩ := List.mem_map.1 hl
      have := (h ts ht).2.1
      simp; omega)
    refine ⟨M, h1, fun i hi => ?_⟩
    show ((columnWidths min 1 j min C).1[i]?).getD 0 = M
    rw [h3 i (by simpa using hi)]; rfl
  rcases L with _ | ⟨ts0, L0⟩
  · refine ⟨[], fun j => j * min.toNat, ⟨by rw [hout]; rfl, by simp⟩, rfl, by simp, ?_, by simp⟩
    intro j _
    push_cast
    have : min ≤ (min.toNat : Int) := Int.self_le_toNat min
    nlinarith
  · refine ⟨_, start (W 0) 0, ⟨hout, ?_⟩, by simp, rfl, ?_, ?_⟩
    · intro l hl
      obtain ⟨i, hi, rfl⟩ := List.mem_map.1 hl
      have hi' : i < (ts0 :: L0).length := by simpa using hi
      rw [List.getElem?_eq_getElem hi']
      exact line_plain _ _ _ (h _ (List.getElem_mem hi')).2.2
    · intro j hj
      obtain ⟨M, h1, h2⟩ := hsame j hj
      rw [start_succ, Nat.zero_add, h2 0 (by simp)]
      have : M ≤ (M.toNat : Int) := Int.self_le_toNat M
      push_cast; linarith
    · intro i ts line hi hline j hj t ht
      have hlt : i < (ts0 :: L0).length := (List.getElem?_eq_some_iff.1 hi).1
      have hl : line = layLine (W i) 0 (ts.map cellOf) := by
        rw [List.getElem?_map, List.getElem?_range hlt] at hline
        simp only [Option.map_some, Option.some.injEq] at hline
        rw [← hline, hi]; rfl
      rw [hl]
      have hs : start (W 0) 0 j = start (W i) 0 j := by
        apply start_congr
        intro k _ hk
        obtain ⟨M, _, h2⟩ := hsame k (by omega)
        rw [h2 0 (by simp), h2 i hlt]
      rw [hs]
      apply stands_line
      · intro k t hk
        have hd : (ts.map cellOf).dropLast[k]? = some (cellOf t) := by
          rw [← List.map_dropLast, List.getElem?_map, hk]; rfl
        have := width_fits min 1 k min C i (hC i ts hi) hd
        rw [Nat.zero_add]
        exact this
      · exact ht

/-! ## The summary -/

/-- The text of a figure. -/
def figure (n : Nat) : Bytes := if n = 0 then [46] else Http.itoa n

/-- The texts of the cells of a row. -/
def rowCells (r : Row) : List Bytes := r.name :: (r.active :: (r.latency ++ [r.errors])).map figure

theorem figure_of (n : Nat) (h : n < 2 ^ 63) : Figure (figure n) n := by
  unfold Figure figure
  split
  · rfl
  · rw [TraceRows.itoa_nat]
    obtain ⟨c, r, h1, _⟩ := TraceRows.digits_head 19 n
    refine ⟨by rw [h1]; simp, digits_digits 19 n, numeral_digits 19 n (lt_trans h (by norm_num))⟩

theorem digit_plain (c : UInt8) (h : isDigit c = true) : c ≠ 9 ∧ c ≠ 10 ∧ c ≠ 11 ∧ c ≠ 12 ∧ c ≠ 255 := by
  refine ⟨?_, ?_, ?_, ?_, ?_⟩ <;> (rintro rfl; revert h; decide)

theorem plain_figure (n : Nat) : Plain (figure n) := by
  unfold figure
  split
  · decide
  · rw [TraceRows.itoa_nat]
    exact fun c hc => digit_plain c (digits_digits 19 n c hc)

theorem put_tabs (ns : List Nat) (t : Bytes) : t ++ [9] ++ ns.flatMap putFigure ++ [10] =
    tabbed (t :: ns.map figure ++ [[]]) ++ [10] := by
  induction ns generalizing t with
  | nil => simp [tabbed]
  | cons n ns ih =>
    have e : tabbed (t :: (n :: ns).map figure ++ [[]]) =
        t ++ 9 :: tabbed (figure n :: ns.map figure ++ [[]]) := by
      cases ns <;> rfl
    have e2 : t ++ 9 :: tabbed (figure n :: ns.map figure ++ [[]]) ++ [10] = t ++ 9 :: (tabbed (figure n :: ns.map figure ++ [[]]) ++ [10]) := by
      simp
    rw [e, e2, ← ih]
    have hp : putFigure n = figure n ++ [9] := by unfold putFigure figure; split <;> rfl
    simp [hp]

theorem line_cells (r : Row) : summaryLine r = tabbed (rowCells r ++ [[]]) ++ [10] := by
  have := put_tabs (r.active :: (r.latency ++ [r.errors])) r.name
  unfold summaryLine rowCells
  rw [← this]
  simp

theorem plain_str (t : Bytes) (h : t.all (fun c => 32 ≤ c && c < 127) = true) : Plain t := by
  intro c hc
  have := List.all_eq_true.1 h c hc
  refine ⟨?_, ?_, ?_, ?_, ?_⟩ <;> (rintro rfl; revert this; decide)

theorem plain_append {a b : Bytes} (ha : Plain a) (hb : Plain b) : Plain (a ++ b) := by
  intro c hc
  rcases List.mem_append.1 hc with h | h
  · exact ha c h
  · exact hb c h

theorem plain_column {dur : Int → Bytes} (hd : ∀ l, Plain (dur l)) (l : Int) : Plain (columnName dur l) := by
  unfold columnName
  split
  · exact plain_str _ (by decide +kernel)
  · exact plain_append (a := [62]) (by decide) (hd l)

/-- C98. The text of the summary, after any program whose span names are plain text. If a span store exists, it is a title, a line of
headings, and a line for each span name; there are twelve columns of at least eight characters, and every name and figure stands where
the heading of its column begins. -/
theorem summary_text_partial {t : Int} {ops : List Op} {st : State} (h : run (State.init t) ops = .ok st)
    {l : GoMap Bytes Trace.Store} (hl : l.Perm st.stores) {dur : Int → Bytes} (hd : ∀ n, Plain (dur n))
    (hn : ∀ name, Tracez.Named ops name → Plain name) :
    ∃ hdr rows, getSummaryPageData l = .ok (hdr, rows) ∧
      (rows = [] → writeTextSummary dur l = .ok title) ∧
      (rows ≠ [] → hdr.length = 9 ∧ ∃ (doc head : Bytes) (body : List Bytes) (off : Nat → Nat),
        writeTextSummary dur l = .ok (title ++ doc) ∧ Lines doc (head :: body) ∧ body.length = rows.length ∧
        off 0 = 0 ∧ (∀ j < 11, off j + 8 ≤ off (j + 1)) ∧
        Stands (off 0) (str "Name") head ∧ Stands (off 1) (str "Active") head ∧ Stands (off 11) (str "Errors") head ∧
        (∀ k n, hdr[k]? = some n → Stands (off (k + 2)) (columnName dur n) head) ∧
        ∀ (i : Nat) r line, rows[i]? = some r → body[i]? = some line →
          Stands (off 0) r.name line ∧
          (∃ a, Stands (off 1) a line ∧ (r.active < 2 ^ 63 → Figure a r.active)) ∧
          (∃ e, Stands (off 11) e line ∧ (r.errors < 2 ^ 63 → Figure e r.errors)) ∧
          r.latency.length = 9 ∧
          ∀ k n, r.latency[k]? = some n → ∃ c, Stands (off (k + 2)) c line ∧ (n < 2 ^ 63 → Figure c n)) := by
  obtain ⟨hdr, rows, h1, _, hnames, hok, hhdr⟩ := Tracez.summary_page h hl
  refine ⟨hdr, rows, h1, ?_, ?_⟩
  · rintro rfl
    simp [writeTextSummary, h1, Res.bind]
  · intro hne
    have hh : hdr.length = 9 := by rw [hhdr hne]; rfl
    have hlat : ∀ r ∈ rows, r.latency.length = 9 := fun r hr => by rw [(hok r hr).latency]; simp
    refine ⟨hh, ?_⟩
    let L : List (List Bytes) := header dur hdr :: rows.map fun r => rowCells r ++ [[]]
    have hL : ∀ ts ∈ L, 2 ≤ ts.length ∧ 11 < ts.length ∧ ∀ t ∈ ts, Plain t := by
      intro ts hts
      rcases List.mem_cons.1 hts with rfl | hts
      · refine ⟨by simp [header, hh], by simp [header, hh], fun t ht => ?_⟩
        simp only [header, List.mem_append, List.mem_cons, List.not_mem_nil, or_false, List.mem_map] at ht
        rcases ht with ((rfl | rfl) | ⟨n, _, rfl⟩) | rfl
        · exact plain_str _ (by decide +kernel)
        · exact plain_str _ (by decide +kernel)
        · exact plain_column hd n
        · exact plain_str _ (by decide +kernel)
      · obtain ⟨r, hr, rfl⟩ := List.mem_map.1 hts
        have := hlat r hr
        refine ⟨by simp [rowCells], by simp [rowCells, this], fun t ht => ?_⟩
        simp only [rowCells, List.cons_append, List.mem_cons, List.mem_append, List.mem_map, List.not_mem_nil, or_false] at ht
        rcases ht with rfl | ⟨n, _, rfl⟩ | rfl
        · exact hn _ ((hnames r.name).1 ⟨r, hr, rfl⟩)
        · exact plain_figure n
        · intro c hc; simp at hc
    obtain ⟨lines, off, ⟨hdoc, hnl⟩, hlen, h0, hstep, hst⟩ := table 8 11 L hL
    have hbytes : (L.flatMap fun ts => tabbed ts ++ [10]) = tabbed (header dur hdr) ++ [10] ++ rows.flatMap summaryLine := by
      simp only [L, List.flatMap_cons, List.flatMap_map]
      congr 1
      apply List.flatMap_congr
      intro r _
      rw [line_cells]
    cases lines with
    | nil => simp [L] at hlen
    | cons head body =>
      refine ⟨_, head, body, off, ?_, ⟨hdoc, hnl⟩, by simpa [L] using hlen, h0, ?_, ?_, ?_, ?_, ?_, ?_⟩
      · unfold writeTextSummary
        rw [h1]
        simp only [Res.bind]
        rw [if_neg (by simpa using hne), hbytes]
      · intro j hj
        have := hstep j hj
        omega
      · exact hst 0 _ head rfl rfl 0 (by omega) _ rfl
      · exact hst 0 _ head rfl rfl 1 (by omega) _ rfl
      · refine hst 0 _ head rfl rfl 11 (by omega) _ ?_
        simp [header, hh]
      · intro k n hk
        have hk9 : k < 9 := by have := (List.getElem?_eq_some_iff.1 hk).1; omega
        refine hst 0 _ head rfl rfl (k + 2) (by omega) _ ?_
        show (([str "Name", str "Active"] ++ hdr.map (columnName dur)) ++ [str "Errors"])[k + 2]? = _
        rw [List.getElem?_append_left (by simp; omega), List.getElem?_append_right (by simp)]
        simp [hk]
      · intro i r line hi hline
        have hr : r ∈ rows := List.mem_of_getElem? hi
        have hl9 := hlat r hr
        have key : ∀ j ≤ 11, ∀ t, (rowCells r ++ [[]])[j]? = some t → Stands (off j) t line :=
          fun j hj t ht => hst (i + 1) (rowCells r ++ [[]]) line (by simp [L, hi]) (by simpa using hline) j hj t ht
        refine ⟨key 0 (by omega) _ rfl, ⟨_, key 1 (by omega) _ rfl, figure_of _⟩, ⟨_, key 11 (by omega) _ ?_, figure_of _⟩, hl9, ?_⟩
        · simp [rowCells, hl9]
        · intro k n hk
          have hk9 : k < 9 := by have := (List.getElem?_eq_some_iff.1 hk).1; omega
          refine ⟨_, key (k + 2) (by omega) _ ?_, figure_of n⟩
          simp only [rowCells, List.map_cons, List.map_append, List.cons_append, List.getElem?_cons_succ]
          rw [List.getElem?_append_left (by simp; omega), List.getElem?_append_left (by simp; omega)]
          simp [hk]

/-! ## The traces -/

theorem trace_cells (r : TraceRow) : traceLine r = tabbed [r.whenText, r.elapsed, lastCell r] ++ [10] := by
  simp [traceLine, tabbed]

theorem plain_hex (b : Bytes) : Plain (Wire.hexEncode b) := by
  have : ∀ c : UInt8, ∀ d ∈ [Wire.hexDigit (c >>> 4), Wire.hexDigit (c &&& 15)], d ≠ 9 ∧ d ≠ 10 ∧ d ≠ 11 ∧ d ≠ 12 ∧ d ≠ 255 :=
    Wire.forall_byte (by decide +kernel)
  intro c hc
  obtain ⟨x, _, hx⟩ := List.mem_flatMap.1 hc
  exact this x c hx

theorem plain_last {r : TraceRow} (h : Plain r.text) : Plain (lastCell r) := by
  have p1 : Plain (str "trace_id: ") := plain_str _ (by decide +kernel)
  have p2 : Plain (str " span_id: ") := plain_str _ (by decide +kernel)
  have p3 : Plain (str " parent_span_id: ") := plain_str _ (by decide +kernel)
  unfold lastCell
  split
  · exact h
  · rename_i sc parent _
    split
    · exact h
    · have h1 := plain_append (plain_append (plain_append (plain_append h p1) (plain_hex sc.traceID)) p2) (plain_hex sc.spanID)
      simp only
      split
      · exact plain_append (plain_append h1 p3) (plain_hex parent)
      · exact h1

/-- C98. The text of the traces, if the texts of the rows are plain: a line of headings and one line for each row, in order; the time, the
time elapsed and the text of every row stand where the headings When, Elapsed(s) and Type begin. -/
theorem traces_text_partial (rows : List TraceRow) (h : ∀ r ∈ rows, Plain r.whenText ∧ Plain r.elapsed ∧ Plain r.text) :
    ∃ (head : Bytes) (body : List Bytes) (p q : Nat), Lines (writeTextTraces rows) (head :: body) ∧ body.length = rows.length ∧ 0 < p ∧ p < q ∧
      Stands 0 (str "When") head ∧ Stands p (str "Elapsed(s)") head ∧ Stands q (str "Type") head ∧
      ∀ (i : Nat) r line, rows[i]? = some r → body[i]? = some line →
        Stands 0 r.whenText line ∧ Stands p r.elapsed line ∧ Stands q (lastCell r) line := by
  let L : List (List Bytes) := [str "When", str "Elapsed(s)", str "Type"] :: rows.map fun r => [r.whenText, r.elapsed, lastCell r]
  have hL : ∀ ts ∈ L, 2 ≤ ts.length ∧ 2 < ts.length ∧ ∀ t ∈ ts, Plain t := by
    intro ts hts
    rcases List.mem_cons.1 hts with rfl | hts
    · refine ⟨by simp, by simp, fun t ht => ?_⟩
      simp only [List.mem_cons, List.not_mem_nil, or_false] at ht
      rcases ht with rfl | rfl | rfl <;> exact plain_str _ (by decide +kernel)
    · obtain ⟨r, hr, rfl⟩ := List.mem_map.1 hts
      refine ⟨by simp, by simp, fun t ht => ?_⟩
      simp only [List.mem_cons, List.not_mem_nil, or_false] at ht
      rcases ht with rfl | rfl | rfl
      · exact (h r hr).1
      · exact (h r hr).2.1
      · exact plain_last (h r hr).2.2
  obtain ⟨lines, off, ⟨hdoc, hnl⟩, hlen, h0, hstep, hst⟩ := table 1 2 L hL
  have hbytes : (L.flatMap fun ts => tabbed ts ++ [10]) = str "When\tElapsed(s)\tType\n" ++ rows.flatMap traceLine := by
    simp only [L, List.flatMap_cons, List.flatMap_map]
    have e : tabbed [str "When", str "Elapsed(s)", str "Type"] ++ [10] = str "When\tElapsed(s)\tType\n" := by decide +kernel
    rw [e]
    congr 1
    apply List.flatMap_congr
    intro r _
    rw [trace_cells]
  cases lines with
  | nil => simp [L] at hlen
  | cons head body =>
    have s0 : off 0 + 1 ≤ off 1 := by exact_mod_cast hstep 0 (by omega)
    have s1 : off 1 + 1 ≤ off 2 := by exact_mod_cast hstep 1 (by omega)
    refine ⟨head, body, off 1, off 2, ⟨?_, hnl⟩, by simpa [L] using hlen, by omega, by omega, ?_, ?_, ?_, ?_⟩
    · unfold writeTextTraces; rw [← hbytes]; exact hdoc
    · have := hst 0 _ head rfl rfl 0 (by omega) _ rfl; rwa [h0] at this
    · exact hst 0 _ head rfl rfl 1 (by omega) _ rfl
    · exact hst 0 _ head rfl rfl 2 (by omega) _ rfl
    · intro i r line hi hline
      have key : ∀ j ≤ 2, ∀ t, ([r.whenText, r.elapsed, lastCell r] : List Bytes)[j]? = some t → Stands (off j) t line :=
        fun j hj t ht => hst (i + 1) [r.whenText, r.elapsed, lastCell r] line (by simp [L, hi]) (by simpa using hline) j hj t ht
      have k0 := key 0 (by omega) _ rfl
      rw [h0] at k0
      exact ⟨k0, key 1 (by omega) _ rfl, key 2 (by omega) _ rfl⟩

/-! ## Which rows are plain -/

/-- What package `fmt` and package `time` write is plain: dates and times, quoted text, and the values of attributes (which are quoted
if they are strings). -/
structure PlainText (x : Zpages.Text) : Prop where
  date : ∀ d, Plain (x.dateText d)
  clock : ∀ t, Plain (x.clockText t)
  quote : ∀ b, Plain (x.quote b)
  value : ∀ v, Plain (x.showVal v)

/-- What the program writes in a span without being quoted is plain: the keys of attributes and the messages of annotations. -/
structure PlainSpan (s : SpanData) : Prop where
  keys : ∀ p ∈ s.attributes, Plain p.1
  messages : ∀ a ∈ s.annotations, Plain a.message ∧ ∀ p ∈ a.attributes.getD [], Plain p.1

theorem plain_nil : Plain [] := fun c hc => by simp at hc

theorem plain_itoa (n : Int) : Plain (Http.itoa n) := by
  unfold Http.itoa
  split
  · exact plain_append (a := [45]) (by decide) fun c hc => digit_plain c (digits_digits 19 _ c hc)
  · exact fun c hc => digit_plain c (digits_digits 19 _ c hc)

theorem plain_replicate (k : Nat) (c : UInt8) (h : Plain [c]) : Plain (List.replicate k c) := by
  intro d hd
  rw [List.eq_of_mem_replicate hd]
  exact h c (by simp)

theorem plain_pad (w : Nat) (c : UInt8) (t : Bytes) (h : Plain [c]) (ht : Plain t) : Plain (pad w c t) :=
  plain_append (plain_replicate _ c h) ht

theorem plain_micro (t : Int) : Plain (microText t) :=
  plain_append (a := [46]) (by decide) (plain_pad _ _ _ (by decide) (plain_itoa _))

theorem plain_elapsed (last t : Int) : Plain (formatElapsed last t) := by
  have p1 : Plain (str "s") := plain_str _ (by decide +kernel)
  have p2 : Plain (str ".") := plain_str _ (by decide +kernel)
  have p3 : Plain (str "     .") := plain_str _ (by decide +kernel)
  have p := fun w n => plain_pad w 32 (Http.itoa n) (by decide) (plain_itoa n)
  have q := fun w n => plain_pad w 48 (Http.itoa n) (by decide) (plain_itoa n)
  unfold formatElapsed elapsedText
  split
  · exact plain_append (p _ _) p1
  · split
    · exact plain_append (plain_append (p _ _) p2) (q _ _)
    · split
      · exact plain_append p3 (p _ _)
      · split
        · exact plain_append (plain_append (p _ _) p2) (q _ _)
        · exact plain_append (p _ _) p1

theorem plain_join (l : List Bytes) (h : ∀ t ∈ l, Plain t) : Plain (join l) := by
  have p : Plain (str ", ") := plain_str _ (by decide +kernel)
  induction l with
  | nil => exact plain_nil
  | cons a l ih =>
    cases l with
    | nil => exact h a (by simp)
    | cons b l => exact plain_append (plain_append (h a (by simp)) p) (ih fun t ht => h t (by simp [ht]))

theorem plain_attributes {x : Zpages.Text} (hx : PlainText x) (a : GoMap Bytes AttrVal) (h : ∀ p ∈ a, Plain p.1) :
    Plain (formatAttributes x a) := by
  have p1 : Plain (str "Attributes:{") := plain_str _ (by decide +kernel)
  have p2 : Plain (str "}") := plain_str _ (by decide +kernel)
  have p3 : Plain (str "=") := plain_str _ (by decide +kernel)
  unfold formatAttributes
  split
  · exact plain_nil
  · refine plain_append (plain_append p1 (plain_join _ fun t ht => ?_)) p2
    obtain ⟨k, hk, rfl⟩ := List.mem_map.1 ht
    obtain ⟨p, hp, rfl⟩ := List.mem_map.1 ((List.mergeSort_perm _ _).mem_iff.1 hk)
    exact plain_append (plain_append (h p hp) p3) (hx.value _)

theorem plain_code (n : Int) : Plain (canonicalCodeString n) := by
  unfold canonicalCodeString
  split
  · exact plain_append (plain_str _ (by decide +kernel)) (plain_itoa n)
  · have : ∀ t ∈ canonicalCodes, t.all (fun c => 32 ≤ c && c < 127) = true := by decide +kernel
    cases h : canonicalCodes[n.toNat]? with
    | none => exact plain_nil
    | some t => exact plain_str _ (this t (List.mem_of_getElem? h))

theorem plain_event {x : Zpages.Text} (hx : PlainText x) (e : Event)
    (h : ∀ a, e = .annotation a → Plain a.message ∧ ∀ p ∈ a.attributes.getD [], Plain p.1) : Plain (eventText x e) := by
  have p1 : Plain (str "  ") := plain_str _ (by decide +kernel)
  have p2 : Plain (str "sent message [") := plain_str _ (by decide +kernel)
  have p3 : Plain (str "received message [") := plain_str _ (by decide +kernel)
  have p4 : Plain (str " bytes, ") := plain_str _ (by decide +kernel)
  have p5 : Plain (str " compressed bytes]") := plain_str _ (by decide +kernel)
  cases e with
  | annotation a =>
    obtain ⟨h1, h2⟩ := h a rfl
    simp only [eventText]
    split
    · exact plain_append (plain_append h1 p1) (plain_attributes hx _ h2)
    · exact h1
  | message m =>
    simp only [eventText]
    split
    · exact plain_append (plain_append (plain_append (plain_append p2 (plain_itoa _)) p4) (plain_itoa _)) p5
    · exact plain_append (plain_append (plain_append (plain_append p3 (plain_itoa _)) p4) (plain_itoa _)) p5
    · exact plain_nil

theorem plain_eventRows {x : Zpages.Text} (hx : PlainText x) (es : List Event)
    (h : ∀ a, Event.annotation a ∈ es → Plain a.message ∧ ∀ p ∈ a.attributes.getD [], Plain p.1) (date : Int × Int × Int) (last : Int) :
    ∀ r ∈ eventRows x date last es, Plain r.whenText ∧ Plain r.elapsed ∧ Plain r.text := by
  induction es generalizing date last with
  | nil => intro r hr; simp [eventRows] at hr
  | cons e es ih =>
    intro r hr
    rcases List.mem_cons.1 hr with rfl | hr
    · refine ⟨?_, plain_elapsed _ _, plain_event hx e fun a ha => h a (by simp [ha])⟩
      show Plain (formatTime x date e.time).1
      unfold formatTime wholeTime
      split
      · exact plain_append (plain_append (plain_replicate _ _ (by decide)) (hx.clock _)) (plain_micro _)
      · exact plain_append (plain_append (hx.date _) (hx.clock _)) (plain_micro _)
    · exact ih (fun a ha => h a (by simp [ha])) _ _ r hr

theorem plain_rows {x : Zpages.Text} (hx : PlainText x) {s : SpanData} (hs : PlainSpan s) {es : List Event} {rows : List TraceRow}
    (h : traceRows x s es = .ok rows) : ∀ r ∈ rows, Plain r.whenText ∧ Plain r.elapsed ∧ Plain r.text := by
  unfold traceRows at h
  split at h
  · rename_i hes
    injection h with h
    subst h
    intro r hr
    obtain ⟨q, hq, rfl⟩ := List.mem_map.1 hr
    have key : Plain q.whenText ∧ Plain q.elapsed ∧ Plain q.text := by
      simp only [List.mem_cons, List.mem_append] at hq
      rcases hq with rfl | (hq | hq) | hq
      · refine ⟨plain_append (plain_append (hx.date _) (hx.clock _)) (plain_micro _), ?_, plain_nil⟩
        show Plain (if _ then _ else _)
        split
        · exact plain_replicate _ _ (by decide)
        · exact plain_elapsed _ _
      · unfold statusRows at hq
        split at hq
        · simp only [List.mem_cons, List.not_mem_nil, or_false] at hq
          subst hq
          exact ⟨plain_nil, plain_nil, plain_append (plain_append (plain_append (plain_append (plain_str _ (by decide +kernel)) (plain_code _))
            (plain_str _ (by decide +kernel))) (hx.quote _)) (plain_str _ (by decide +kernel))⟩
        · simp at hq
      · unfold attributeRows at hq
        split at hq
        · simp only [List.mem_cons, List.not_mem_nil, or_false] at hq
          subst hq
          exact ⟨plain_nil, plain_nil, plain_attributes hx _ hs.keys⟩
        · simp at hq
      · refine plain_eventRows hx es (fun a ha => ?_) _ _ q hq
        have := hes.1.mem_iff.1 ha
        simp only [eventsOf, List.mem_append, List.mem_map, Event.annotation.injEq, exists_eq_right, reduceCtorEq, and_false, exists_false,
          or_false] at this
        exact hs.messages a this
    unfold cut
    split
    · exact ⟨key.1, key.2.1, fun c hc => key.2.2 c (List.mem_of_mem_take hc)⟩
    · exact key
  · cases h

theorem plain_page {x : Zpages.Text} (hx : PlainText x) (l : List (SpanData × List Event)) (hs : ∀ p ∈ l, PlainSpan p.1) {rows : List TraceRow}
    (h : tracePage x l = .ok rows) : ∀ r ∈ rows, Plain r.whenText ∧ Plain r.elapsed ∧ Plain r.text := by
  obtain ⟨parts, rfl, hp⟩ := TraceRows.page x l rows h
  intro r hr
  obtain ⟨part, hpart, hr⟩ := List.mem_flatten.1 hr
  have : Res.ok part ∈ l.map fun p => traceRows x p.1 p.2 := by rw [← hp]; exact List.mem_map_of_mem hpart
  obtain ⟨p, hpl, he⟩ := List.mem_map.1 this
  exact plain_rows hx (hs p hpl) he r hr

/-- C98. The text of the spans of a name, in any state: if it is written, and the spans it shows have plain keys and messages, it is a
line of headings and one line for each row of the spans, and the columns stand under the headings. -/
theorem spans_text_partial {x : Zpages.Text} (hx : PlainText x) {st st' : State} {orders : List (List Bytes)} {ess : List (List Event)}
    {name : Bytes} {spanType subtype : Int} {doc : Bytes} (h : writeTextSpans x st orders ess name spanType subtype = .ok (st', doc)) :
    ∃ spans, traceSpans st orders name spanType subtype = .ok (st', spans) ∧ ess.length = spans.length ∧
      ∃ rows, tracePage x (spans.zip ess) = .ok rows ∧ ((∀ s ∈ spans, PlainSpan s) →
      ∃ (head : Bytes) (body : List Bytes) (p q : Nat), Lines doc (head :: body) ∧ body.length = rows.length ∧ 0 < p ∧ p < q ∧
        Stands 0 (str "When") head ∧ Stands p (str "Elapsed(s)") head ∧ Stands q (str "Type") head ∧
        ∀ (i : Nat) r line, rows[i]? = some r → body[i]? = some line →
          Stands 0 r.whenText line ∧ Stands p r.elapsed line ∧ Stands q (lastCell r) line) := by
  unfold writeTextSpans at h
  cases h1 : traceSpans st orders name spanType subtype with
  | err => rw [h1] at h; cases h
  | panic => rw [h1] at h; cases h
  | ok p =>
    obtain ⟨st1, spans⟩ := p
    rw [h1] at h
    simp only [Res.bind] at h
    split at h
    · cases h
    · rename_i hlen
      have hlen : ess.length = spans.length := not_not.1 hlen
      cases h2 : tracePage x (spans.zip ess) with
      | err => rw [h2] at h; cases h
      | panic => rw [h2] at h; cases h
      | ok rows =>
        rw [h2] at h
        simp only [Res.ok.injEq, Prod.mk.injEq] at h
        obtain ⟨rfl, rfl⟩ := h
        refine ⟨spans, rfl, hlen, rows, h2, fun hs => ?_⟩
        exact traces_text_partial rows (plain_page hx _ (fun p hp => hs p.1 (List.of_mem_zip hp).1) h2)

/-! ## Texts that are not plain -/

/-- A program in which one span of each name is active. -/
def active (names : List Bytes) : List Op :=
  [.enableStore, Store.neverConfig] ++ names.map fun n => .start none n [] (List.replicate 16 1) (List.replicate 8 1)

/-- The span stores after a program. -/
def storesOf (ops : List Op) : GoMap Bytes Trace.Store :=
  match run (State.init 0) ops with
  | .ok st => st.stores
  | _ => []

/-- The rows of the summary, before they are sorted. -/
def reported (l : GoMap Bytes Trace.Store) : List Int × List Row :=
  match reportSpansPerMethod l with
  | .ok s => (match s with
      | [] => []
      | e :: _ => e.2.latency.map LatencySummary.min, s.map rowOf)
  | _ => ([], [])

theorem data_of {l : GoMap Bytes Trace.Store} (h : (match reportSpansPerMethod l with | .ok _ => true | _ => false) = true)
    (hs : (reported l).2.Pairwise fun a b => rowLe a b = true) : getSummaryPageData l = .ok (reported l) := by
  unfold getSummaryPageData
  unfold reported at hs ⊢
  cases hr : reportSpansPerMethod l with
  | ok s =>
    rw [hr] at hs
    simp only at hs
    simp only [Res.bind, List.mergeSort_of_pairwise hs]
    rfl
  | err => rw [hr] at h; cases h
  | panic => rw [hr] at h; cases h

def ones : List Bytes := [str "a", str "b"]

/-- A name that contains the rest of a line and the name of the next. -/
def forged : List Bytes := [str "a\t1\t.\t.\t.\t.\t.\t.\t.\t.\t.\t.\t\nb"]

/-- C98 does not hold for every name: names are not escaped. Two programs, one with the spans `a` and `b` and one with a single span whose
name has a newline in it, have the same summary. -/
theorem names_forge_lines (dur : Int → Bytes) :
    (∃ st, run (State.init 0) (active ones) = .ok st ∧ st.stores = storesOf (active ones)) ∧
    (∃ st, run (State.init 0) (active forged) = .ok st ∧ st.stores = storesOf (active forged)) ∧
    (storesOf (active ones)).map Prod.fst = ones ∧ (storesOf (active forged)).map Prod.fst = forged ∧
    writeTextSummary dur (storesOf (active ones)) = writeTextSummary dur (storesOf (active forged)) := by
  refine ⟨⟨_, rfl, rfl⟩, ⟨_, rfl, rfl⟩, by decide +kernel, by decide +kernel, ?_⟩
  have h1 := data_of (l := storesOf (active ones)) (by decide +kernel) (by decide +kernel)
  have h2 := data_of (l := storesOf (active forged)) (by decide +kernel) (by decide +kernel)
  have e1 : (reported (storesOf (active ones))).1 = (reported (storesOf (active forged))).1 := by decide +kernel
  have e2 : (reported (storesOf (active ones))).2.flatMap summaryLine = (reported (storesOf (active forged))).2.flatMap summaryLine := by
    decide +kernel
  have n1 : (reported (storesOf (active ones))).2.length = 2 := by decide +kernel
  have n2 : (reported (storesOf (active forged))).2.length = 1 := by decide +kernel
  unfold writeTextSummary
  rw [h1, h2]
  simp only [Res.bind, n1, n2, e1, e2]
  rfl

def escaped : List Bytes := [[97, 255], str "b"]

/-- The byte 255 is the escape of package `text/tabwriter`: after a name with it, the rest of the summary is not laid out, though the
other name is plain. The summary ends with the line of `b` as it was before the layout, with its tabs. -/
theorem names_escape : (∃ st, run (State.init 0) (active escaped) = .ok st ∧ st.stores = storesOf (active escaped)) ∧
    (storesOf (active escaped)).map Prod.fst = escaped ∧
    ∃ pre, writeTextSummary (fun _ => str "1s") (storesOf (active escaped)) = .ok (pre ++ str "b\t1\t.\t.\t.\t.\t.\t.\t.\t.\t.\t.\t\n") := by
  refine ⟨⟨_, rfl, rfl⟩, by decide +kernel, ?_⟩
  have h1 := data_of (l := storesOf (active escaped)) (by decide +kernel) (by decide +kernel)
  have n1 : (reported (storesOf (active escaped))).2.length = 2 := by decide +kernel
  unfold writeTextSummary
  rw [h1]
  simp only [Res.bind, n1]
  let doc := title ++ tabulate 8 1 (tabbed (header (fun _ => str "1s") (reported (storesOf (active escaped))).1) ++ [10] ++
    (reported (storesOf (active escaped))).2.flatMap summaryLine)
  refine ⟨doc.take (doc.length - 25), ?_⟩
  have : doc.drop (doc.length - 25) = str "b\t1\t.\t.\t.\t.\t.\t.\t.\t.\t.\t.\t\n" := by decide +kernel
  rw [← this, List.take_append_drop]
  rfl

/-- A calendar and a way of quoting that write plain text. -/
def hexText : Zpages.Text :=
  { TraceRows.exText with
    dateText := fun d => str "1970/01/0" ++ Http.itoa d.2.2 ++ str "-"
    quote := fun m => [34] ++ Wire.hexEncode m ++ [34]
    showVal := fun v => Wire.hexEncode v }

/-- A span with these annotations. -/
def annotated (l : List Annotation) : SpanData := { TraceRows.exSpan with annotations := l, messageEvents := [] }

def two : List Annotation := [⟨86399000000000, str "first", none⟩, ⟨86399000000000, str "second", none⟩]

def oneOf : List Annotation := [⟨86399000000000, str "first\n           23:59:59.000000\t     .     0\tsecond", none⟩]

def rowsTwo : List TraceRow :=
  [⟨str "1970/01/01-23:59:58.000000", str "    5.500000", [], some (TraceRows.exSpan.ctx, TraceRows.exSpan.parentSpanID)⟩,
    ⟨[], [], str "Status{canonicalCode=NOT_FOUND, description=\"676f6e65\"}", none⟩,
    ⟨str "           23:59:59.000000", str "    1.000000", str "first", none⟩,
    ⟨str "           23:59:59.000000", str "     .     0", str "second", none⟩]

def rowsOne : List TraceRow :=
  [⟨str "1970/01/01-23:59:58.000000", str "    5.500000", [], some (TraceRows.exSpan.ctx, TraceRows.exSpan.parentSpanID)⟩,
    ⟨[], [], str "Status{canonicalCode=NOT_FOUND, description=\"676f6e65\"}", none⟩,
    ⟨str "           23:59:59.000000", str "    1.000000", str "first\n           23:59:59.000000\t     .     0\tsecond", none⟩]

/-- Neither are messages of annotations: a span with two annotations and a span with one, whose message has a newline in it, have the same
text. -/
theorem messages_forge_lines : ∃ a b, tracePage hexText [(annotated two, two.map .annotation)] = .ok a ∧
    tracePage hexText [(annotated oneOf, oneOf.map .annotation)] = .ok b ∧ a.length = 4 ∧ b.length = 3 ∧
    writeTextTraces a = writeTextTraces b := by
  have h1 : ((two.map Event.annotation).Perm (eventsOf (annotated two)) ∧
      (two.map Event.annotation).Pairwise (fun a b => ¬ b.time < a.time)) := by constructor <;> decide +kernel
  have h2 : ((oneOf.map Event.annotation).Perm (eventsOf (annotated oneOf)) ∧
      (oneOf.map Event.annotation).Pairwise (fun a b => ¬ b.time < a.time)) := by constructor <;> decide +kernel
  have e1 : tracePage hexText [(annotated two, two.map .annotation)] = .ok rowsTwo := by
    unfold tracePage traceRows
    rw [if_pos h1]
    rfl
  have e2 : tracePage hexText [(annotated oneOf, oneOf.map .annotation)] = .ok rowsOne := by
    unfold tracePage traceRows
    rw [if_pos h2]
    rfl
  refine ⟨_, _, e1, e2, rfl, rfl, ?_⟩
  unfold writeTextTraces
  have : rowsTwo.flatMap traceLine = rowsOne.flatMap traceLine := by decide +kernel
  rw [this]

/-! ## Pages -/

/-- The hypotheses of `summary_text_partial` hold for a program with two spans. -/
example : (∃ st, run (State.init 0) (active ones) = .ok st ∧ st.stores.map Prod.fst = ones) ∧
    (∀ name, Tracez.Named (active ones) name → Plain name) ∧ ∀ n : Int, Plain ((fun _ => str "1s") n) := by
  refine ⟨⟨_, rfl, by decide +kernel⟩, ?_, fun _ => plain_str (str "1s") (by decide +kernel)⟩
  intro name hname
  have : name = str "a" ∨ name = str "b" := by
    rcases hname with ⟨c, op, d, x, h1, h2, rfl, _⟩ | ⟨bcs, h1, _⟩
    · have hop : op ∈ active ones := by rw [h1]; simp
      simp only [active, ones, Store.neverConfig, List.map_cons, List.map_nil, List.mem_append, List.mem_cons, List.not_mem_nil,
        or_false] at hop
      rcases hop with (rfl | rfl) | rfl | rfl
      · cases h2
      · cases h2
      · cases h2; exact .inl rfl
      · cases h2; exact .inr rfl
    · simp [active, ones, Store.neverConfig] at h1
  rcases this with rfl | rfl <;> exact plain_str _ (by decide +kernel)

/-- The hypotheses of `spans_text_partial`. -/
example : PlainText hexText :=
  ⟨fun d => plain_append (plain_append (plain_str _ (by decide +kernel)) (plain_itoa _)) (plain_str _ (by decide +kernel)),
    fun t => plain_append (plain_append (plain_append (plain_append (plain_pad _ _ _ (by decide) (plain_itoa _))
      (plain_str _ (by decide +kernel))) (plain_pad _ _ _ (by decide) (plain_itoa _))) (plain_str _ (by decide +kernel)))
      (plain_pad _ _ _ (by decide) (plain_itoa _)),
    fun b => plain_append (plain_append (by decide) (plain_hex _)) (by decide), fun v => plain_hex _⟩

example : PlainSpan (annotated two) := by
  refine ⟨by decide +kernel, fun a ha => ?_⟩
  have : a.message = str "first" ∨ a.message = str "second" := by
    simp [annotated, two] at ha
    rcases ha with rfl | rfl
    · exact .inl rfl
    · exact .inr rfl
  have ha2 : a.attributes = none := by
    simp [annotated, two] at ha
    rcases ha with rfl | rfl <;> rfl
  rw [ha2]
  refine ⟨?_, by simp⟩
  rcases this with h | h <;> rw [h] <;> exact plain_str _ (by decide +kernel)

/-- A page: the text that a reader sees. -/
example : writeTextTraces rowsTwo = str
    "When                       Elapsed(s)   Type\n1970/01/01-23:59:58.000000     5.500000 trace_id: 01010101010101010101010101010101 span_id: 0202020202020202 parent_span_id: 0303030303030303\n                                        Status{canonicalCode=NOT_FOUND, description=\"676f6e65\"}\n           23:59:59.000000     1.000000 first\n           23:59:59.000000      .     0 second\n" := by
  decide +kernel

/-- The page of the spans of a name. -/
example : ∃ st, run (State.init 0) (active ones) = .ok st ∧
    (match writeTextSpans hexText st [[]] [[]] (str "a") 0 0 with
      | .ok (_, doc) => doc.length != 0
      | _ => false) = true := by
  refine ⟨_, rfl, ?_⟩
  decide +kernel

end Verif.Props.TextPages
