import Verif.Conc.ExportCalls
import Mathlib.Data.List.Nodup
import Mathlib.Data.List.Induction
import Mathlib.Data.List.Perm.Basic

/-!
# C105: exporters that use the API they are called from
-/

namespace Verif.Props.ExportCalls
open Verif.Conc.ExportCalls

/-! ## Specification -/

/-- The exporter is registered after these events. -/
def isReg (e : Nat) : List Ev → Bool := List.foldl (fun b ev => if ev = .registered e then true else if ev = .unregistered e then false else b) false

/-- The exporters that were called with the span, in order. -/
def calls (log : List Ev) (s : Nat) : List Nat := log.filterMap fun ev => match ev with
  | .called _ e s' => if s' = s then some e else none
  | _ => none

/-- There was a moment after `End` was called such that every exporter registered at that moment has since been called with the span and has
returned. -/
def Told (log : List Ev) (s : Nat) : Prop := ∃ pre suf, log = pre ++ suf ∧ (∃ g, Ev.ended g s ∈ pre) ∧
  ∀ e, isReg e pre = true → ∃ g, Ev.returned g e s ∈ suf

/-- An exporter panicked over the span. -/
def Failed (log : List Ev) (s : Nat) : Prop := ∃ g e, Ev.panicked g e s ∈ log

/-- There was a moment after `End` was called at which all exporters that have been called with the span were registered. -/
def Fair (log : List Ev) (s : Nat) : Prop := ∃ pre suf, log = pre ++ suf ∧
  ∀ e ∈ calls log s, isReg e pre = true ∧ ∃ g, Ev.ended g s ∈ pre

/-! ## The log grows -/

theorem isReg_snoc (e : Nat) (log : List Ev) (ev : Ev) : isReg e (log ++ [ev]) =
    if ev = .registered e then true else if ev = .unregistered e then false else isReg e log := by
  simp [isReg, List.foldl_append]

theorem calls_snoc (log : List Ev) (ev : Ev) (s : Nat) : calls (log ++ [ev]) s = calls log s ++ (match ev with
    | .called _ e s' => if s' = s then [e] else []
    | _ => []) := by
  unfold calls
  rw [List.filterMap_append]
  congr 1
  cases ev <;> simp only [List.filterMap_cons, List.filterMap_nil]
  split <;> split <;> simp_all

theorem Told.snoc {log : List Ev} {s : Nat} (h : Told log s) (ev : Ev) : Told (log ++ [ev]) s := by
  obtain ⟨pre, suf, h1, h2, h3⟩ := h
  refine ⟨pre, suf ++ [ev], by rw [h1, List.append_assoc], h2, fun e he => ?_⟩
  obtain ⟨g, hg⟩ := h3 e he
  exact ⟨g, List.mem_append_left _ hg⟩

theorem Failed.snoc {log : List Ev} {s : Nat} (h : Failed log s) (ev : Ev) : Failed (log ++ [ev]) s := by
  obtain ⟨g, e, h⟩ := h
  exact ⟨g, e, List.mem_append_left _ h⟩

def NotCall (ev : Ev) (s : Nat) : Prop := ∀ g e, ev ≠ .called g e s

theorem calls_not {ev : Ev} {s : Nat} (h : NotCall ev s) (log : List Ev) : calls (log ++ [ev]) s = calls log s := by
  rw [calls_snoc]
  cases ev with
  | called g e s' =>
    have : s' ≠ s := fun e' => h g e (by rw [e'])
    simp [this]
  | _ => simp

/-- What is known of a span. -/
def SInv (log : List Ev) (s : Nat) (x : Span) : Prop := match x.once with
  | .fresh => calls log s = []
  | .held _ none => calls log s = [] ∧ ∃ g, Ev.ended g s ∈ log
  | .held _ (some l) => x.kind = .sampled ∧ ∃ pre suf don e rest, l = e :: rest ∧ log = pre ++ suf ∧ (∃ g, Ev.ended g s ∈ pre) ∧
      (don ++ l).Nodup ∧ (∀ e, isReg e pre = true ↔ e ∈ don ++ l) ∧ calls log s = don ++ [e] ∧ ∀ e ∈ don, ∃ g, Ev.returned g e s ∈ suf
  | .over => (calls log s).Nodup ∧ Fair log s ∧ (x.kind = .sampled → Told log s ∨ Failed log s)

theorem SInv.snoc {log : List Ev} {s : Nat} {x : Span} (h : SInv log s x) {ev : Ev} (hc : NotCall ev s) : SInv (log ++ [ev]) s x := by
  obtain ⟨k, o⟩ := x
  cases o with
  | fresh => simpa [SInv, calls_not hc] using h
  | held g todo =>
    cases todo with
    | none =>
      obtain ⟨h1, g', h2⟩ := h
      exact ⟨by rw [calls_not hc]; exact h1, g', List.mem_append_left _ h2⟩
    | some l =>
      obtain ⟨hk, pre, suf, don, e, rest, h1, h2, h3, h4, h5, h6, h7⟩ := h
      refine ⟨hk, pre, suf ++ [ev], don, e, rest, h1, by rw [h2, List.append_assoc], h3, h4, h5, by rw [calls_not hc]; exact h6, fun e he => ?_⟩
      obtain ⟨g', hg⟩ := h7 e he
      exact ⟨g', List.mem_append_left _ hg⟩
  | over =>
    obtain ⟨h1, ⟨pre, suf, h2, h3⟩, h4⟩ := h
    refine ⟨by rw [calls_not hc]; exact h1, ⟨pre, suf ++ [ev], by rw [h2, List.append_assoc], by rw [calls_not hc]; exact h3⟩, fun hk => ?_⟩
    rcases h4 hk with h4 | h4
    · exact .inl (h4.snoc ev)
    · exact .inr (h4.snoc ev)

/-- Whenever `End` has returned. -/
def OInv (spans : List Span) (log : List Ev) : Prop := ∀ pre g s, pre ++ [Ev.over g s] <+: log → ∃ x, spans[s]? = some x ∧
  (x.kind = .sampled → Told pre s ∨ Failed pre s)

theorem OInv.snoc {spans : List Span} {log : List Ev} (h : OInv spans log) {ev : Ev}
    (hn : ∀ g s, ev = .over g s → ∃ x, spans[s]? = some x ∧ (x.kind = .sampled → Told log s ∨ Failed log s)) : OInv spans (log ++ [ev]) := by
  intro pre g s hp
  rcases List.prefix_concat_iff.1 hp with hp | hp
  · obtain ⟨h1, h2⟩ := List.append_inj' hp rfl
    subst h1
    exact hn g s (by simpa using h2.symm)
  · exact h pre g s hp

theorem OInv.kinds {spans spans' : List Span} {log : List Ev} (h : OInv spans log)
    (hk : ∀ (s : Nat) (x : Span), spans[s]? = some x → ∃ x' : Span, spans'[s]? = some x' ∧ x'.kind = x.kind) : OInv spans' log := by
  intro pre g s hp
  obtain ⟨x, h1, h2⟩ := h pre g s hp
  obtain ⟨x', h3, h4⟩ := hk s x h1
  exact ⟨x', h3, by rw [h4]; exact h2⟩

structure LInv (spans : List Span) (exps : List Nat) (log : List Ev) : Prop where
  nodup : exps.Nodup
  reg : ∀ e, e ∈ exps ↔ isReg e log = true
  span : ∀ (s : Nat) (x : Span), spans[s]? = some x → SInv log s x
  none : ∀ s, spans.length ≤ s → calls log s = []
  over : OInv spans log

abbrev Inv (st : St) : Prop := LInv st.spans st.exps st.log

theorem modify_get (l : List Span) (s : Nat) (o : Once) (i : Nat) (x : Span) (h : (l.modify s fun x => { x with once := o })[i]? = some x) :
    (i = s ∧ ∃ y, l[s]? = some y ∧ x = { y with once := o }) ∨ (i ≠ s ∧ l[i]? = some x) := by
  rw [List.getElem?_modify] at h
  by_cases hi : s = i
  · subst hi
    simp only [if_true, Option.map_eq_map, Option.map_eq_some_iff] at h
    obtain ⟨y, h1, h2⟩ := h
    exact .inl ⟨rfl, y, h1, h2.symm⟩
  · simp only [hi, if_false, Option.map_eq_map, Option.map_id'] at h
    exact .inr ⟨fun e => hi e.symm, by simpa using h⟩

theorem modify_kind (l : List Span) (s : Nat) (o : Once) (i : Nat) (x : Span) (h : l[i]? = some x) :
    ∃ x', (l.modify s fun x => { x with once := o })[i]? = some x' ∧ x'.kind = x.kind := by
  rw [List.getElem?_modify, h]
  simp only [Option.map_eq_map, Option.map_some]
  refine ⟨_, rfl, ?_⟩
  split <;> rfl

/-- An event that is no call of an exporter and no registration. -/
theorem LInv.snoc {spans : List Span} {exps : List Nat} {log : List Ev} (h : LInv spans exps log) {ev : Ev}
    (hc : ∀ s, NotCall ev s) (hr : ∀ e, ev ≠ .registered e ∧ ev ≠ .unregistered e)
    (ho : ∀ g s, ev = .over g s → ∃ x, spans[s]? = some x ∧ (x.kind = .sampled → Told log s ∨ Failed log s)) :
    LInv spans exps (log ++ [ev]) where
  nodup := h.nodup
  reg e := by rw [isReg_snoc, if_neg (hr e).1, if_neg (hr e).2]; exact h.reg e
  span s x hx := (h.span s x hx).snoc (hc s)
  none s hs := by rw [calls_not (hc s)]; exact h.none s hs
  over := h.over.snoc ho

/-- The state of a span changes. -/
theorem LInv.once {spans : List Span} {exps : List Nat} {log : List Ev} (h : LInv spans exps log) (s : Nat) (o : Once)
    (hs : ∀ y, spans[s]? = some y → SInv log s { y with once := o }) : LInv (spans.modify s fun x => { x with once := o }) exps log where
  nodup := h.nodup
  reg := h.reg
  span i x hx := by
    rcases modify_get _ _ _ _ _ hx with ⟨rfl, y, hy, rfl⟩ | ⟨_, hx⟩
    · exact hs y hy
    · exact h.span i x hx
  none i hi := h.none i (by simpa using hi)
  over := h.over.kinds fun i x hx => modify_kind _ _ _ _ _ hx

/-- An exporter is called, and the state of its span set. -/
theorem LInv.call {spans : List Span} {exps : List Nat} {log : List Ev} (h : LInv spans exps log) (g e s : Nat) (o : Once) {y : Span}
    (hy : spans[s]? = some y) (hs : SInv (log ++ [.called g e s]) s { y with once := o }) :
    LInv (spans.modify s fun x => { x with once := o }) exps (log ++ [.called g e s]) where
  nodup := h.nodup
  reg e' := by rw [isReg_snoc]; simpa using h.reg e'
  span i x hx := by
    rcases modify_get _ _ _ _ _ hx with ⟨rfl, y', hy', rfl⟩ | ⟨hi, hx⟩
    · rw [hy] at hy'; cases hy'; exact hs
    · exact (h.span i x hx).snoc (by intro g' e' he; injection he; omega)
  none i hi := by
    rw [List.length_modify] at hi
    have := (List.getElem?_eq_some_iff.1 hy).1
    rw [calls_not (by intro g' e' he; injection he; omega)]; exact h.none i hi
  over := (h.over.snoc (by simp)).kinds fun i x hx => modify_kind _ _ _ _ _ hx

theorem top_some {st : St} {g s : Nat} {k : Kind} {todo : Option (List Nat)} (h : st.top g = some (s, k, todo)) :
    (st.gs g).wait = none ∧ (∃ tl, (st.gs g).stack = s :: tl) ∧ ∃ g', st.spans[s]? = some ⟨k, .held g' todo⟩ := by
  unfold St.top at h
  split at h
  · rename_i s' tl h1 h2
    split at h
    · rename_i k' g' todo' h3
      simp only [Option.some.injEq, Prod.mk.injEq] at h
      obtain ⟨rfl, rfl, rfl⟩ := h
      exact ⟨h1, ⟨tl, h2⟩, g', h3⟩
    · cases h
  · cases h

theorem told_of_held {log : List Ev} {s : Nat} {g g' e : Nat} (h : SInv log s ⟨.sampled, .held g (some [e])⟩) :
    SInv (log ++ [.returned g' e s]) s ⟨.sampled, .over⟩ := by
  have hc : NotCall (.returned g' e s) s := by intro a b; simp
  obtain ⟨-, pre, suf, don, e', rest, h1, h2, h3, h4, h5, h6, h7⟩ := h
  simp only [List.cons.injEq] at h1
  obtain ⟨rfl, rfl⟩ := h1
  refine ⟨by rw [calls_not hc, h6]; exact h4, ⟨pre, suf ++ [.returned g' e s], by rw [h2, List.append_assoc], ?_⟩, fun _ => .inl
    ⟨pre, suf ++ [.returned g' e s], by rw [h2, List.append_assoc], h3, ?_⟩⟩
  · intro a ha
    rw [calls_not hc, h6] at ha
    exact ⟨(h5 a).2 ha, h3⟩
  · intro a ha
    rcases List.mem_append.1 ((h5 a).1 ha) with hd | hd
    · obtain ⟨b, hb⟩ := h7 a hd
      exact ⟨b, List.mem_append_left _ hb⟩
    · rw [List.mem_singleton] at hd
      subst hd
      exact ⟨g', by simp⟩

theorem failed_of_held {log : List Ev} {s : Nat} {k : Kind} {g g' e : Nat} {l : List Nat} (h : SInv log s ⟨k, .held g (some l)⟩) :
    SInv (log ++ [.panicked g' e s]) s ⟨k, .over⟩ := by
  have hc : NotCall (.panicked g' e s) s := by intro a b; simp
  obtain ⟨-, pre, suf, don, e', rest, h1, h2, h3, h4, h5, h6, h7⟩ := h
  subst h1
  have hsub : (don ++ [e']).Sublist (don ++ e' :: rest) := (List.Sublist.refl don).append (by simp)
  refine ⟨by rw [calls_not hc, h6]; exact h4.sublist hsub, ⟨pre, suf ++ [.panicked g' e s], by rw [h2, List.append_assoc], ?_⟩,
    fun _ => .inr ⟨g', e, by simp⟩⟩
  intro a ha
  rw [calls_not hc, h6] at ha
  exact ⟨(h5 a).2 (hsub.subset ha), h3⟩

theorem next_of_held {log : List Ev} {s : Nat} {k : Kind} {g g' g'' e e' : Nat} {es : List Nat} (h : SInv log s ⟨k, .held g (some (e :: e' :: es))⟩) :
    SInv (log ++ [.returned g' e s] ++ [.called g' e' s]) s ⟨k, .held g'' (some (e' :: es))⟩ := by
  obtain ⟨hk, pre, suf, don, d, rest, h1, h2, h3, h4, h5, h6, h7⟩ := h
  simp only [List.cons.injEq] at h1
  obtain ⟨rfl, rfl⟩ := h1
  refine ⟨hk, pre, suf ++ [.returned g' e s] ++ [.called g' e' s], don ++ [e], e', es, rfl, by rw [h2]; simp only [List.append_assoc], h3, by simpa using h4,
    fun a => by rw [h5 a]; simp, ?_, ?_⟩
  · rw [calls_snoc, calls_not (by intro a b; simp), h6]; simp
  · intro a ha
    rcases List.mem_append.1 ha with ha | ha
    · obtain ⟨b, hb⟩ := h7 a ha
      exact ⟨b, by simp [hb]⟩
    · rw [List.mem_singleton] at ha
      subst ha
      exact ⟨g', by simp⟩

theorem inv_init : Inv init := by
  refine ⟨by simp [init], by simp [init, isReg], by simp [init], by simp [init, calls], ?_⟩
  intro pre g s h
  have := h.length_le
  simp [init] at this

theorem held_sampled {log : List Ev} {s g : Nat} {k : Kind} {l : List Nat} (h : SInv log s ⟨k, .held g (some l)⟩) : k = .sampled := h.1

theorem inv_step {st st' : St} (h : Inv st) (o : Op) (hs : step st o = some st') : Inv st' := by
  cases o with
  | start g k =>
    simp only [step] at hs
    split at hs
    · simp only [Option.some.injEq] at hs
      subst hs
      refine ⟨h.nodup, h.reg, ?_, ?_, h.over.kinds ?_⟩
      · intro s x hx
        simp only at hx
        by_cases hl : s < st.spans.length
        · rw [List.getElem?_append_left hl] at hx
          exact h.span s x hx
        · rw [List.getElem?_append_right (by omega)] at hx
          have : s = st.spans.length := by
            have := (List.getElem?_eq_some_iff.1 hx).1
            simp at this; omega
          subst this
          simp only [Nat.sub_self, List.getElem?_cons_zero, Option.some.injEq] at hx
          subst hx
          exact h.none _ (Nat.le_refl _)
      · intro s hl
        simp only [List.length_append] at hl
        exact h.none s (by omega)
      · intro s x hx
        exact ⟨x, by simp only; rw [List.getElem?_append_left (List.getElem?_eq_some_iff.1 hx).1]; exact hx, rfl⟩
    · cases hs
  | register g e =>
    simp only [step] at hs
    split at hs
    · simp only [Option.some.injEq] at hs
      subst hs
      refine ⟨?_, ?_, fun s x hx => (h.span s x hx).snoc (by intro a b; simp), fun s hl => ?_, h.over.snoc (by simp)⟩
      · show (if e ∈ st.exps then st.exps else st.exps ++ [e]).Nodup
        split
        · exact h.nodup
        · rename_i hn
          rw [List.nodup_append]
          exact ⟨h.nodup, by simp, fun a ha b hb => by rw [List.mem_singleton] at hb; rintro rfl; exact hn (hb ▸ ha)⟩
      · intro a
        show a ∈ (if e ∈ st.exps then st.exps else st.exps ++ [e]) ↔ isReg a (st.log ++ [.registered e]) = true
        rw [isReg_snoc]
        by_cases he : e = a
        · subst he
          simp only [if_true, iff_true]
          split <;> simp_all
        · have : (Ev.registered e = Ev.registered a) = False := by simp [he]
          simp only [this, if_false, reduceCtorEq]
          rw [← h.reg a]
          split
          · rfl
          · simp [Ne.symm he]
      · show calls (st.log ++ [.registered e]) s = []
        rw [calls_not (by intro a b; simp)]; exact h.none s hl
    · cases hs
  | unregister g e =>
    simp only [step] at hs
    split at hs
    · simp only [Option.some.injEq] at hs
      subst hs
      refine ⟨h.nodup.filter _, ?_, fun s x hx => (h.span s x hx).snoc (by intro a b; simp), fun s hl => ?_, h.over.snoc (by simp)⟩
      · intro a
        show a ∈ st.exps.filter (· ≠ e) ↔ isReg a (st.log ++ [.unregistered e]) = true
        rw [isReg_snoc]
        by_cases he : e = a
        · subst he; simp
        · have : (Ev.unregistered e = Ev.unregistered a) = False := by simp [he]
          simp only [this, if_false, reduceCtorEq]
          rw [← h.reg a]
          simp [Ne.symm he]
      · show calls (st.log ++ [.unregistered e]) s = []
        rw [calls_not (by intro a b; simp)]; exact h.none s hl
    · cases hs
  | endSpan g s =>
    simp only [step] at hs
    split at hs
    · have happ : st.log ++ [Ev.ended g s, Ev.over g s] = (st.log ++ [Ev.ended g s]) ++ [Ev.over g s] := by simp
      have h1 : LInv st.spans st.exps (st.log ++ [Ev.ended g s]) := h.snoc (by intro a b c; simp) (by simp) (by simp)
      split at hs
      · cases hs
      · rename_i o hx
        simp only [Option.some.injEq] at hs
        subst hs
        show LInv st.spans st.exps (st.log ++ [Ev.ended g s, Ev.over g s])
        rw [happ]
        exact h1.snoc (by intro a b c; simp) (by simp) (by intro a b hab; injection hab with _ hb; subst hb; exact ⟨_, hx, by simp⟩)
      · rename_i k hk hx
        simp only [Option.some.injEq] at hs
        subst hs
        show LInv (st.spans.modify s _) st.exps (st.log ++ [Ev.ended g s])
        refine h1.once s _ ?_
        intro y hy
        have := h1.span s y hy
        rw [hx] at hy
        cases hy
        exact ⟨this, g, by simp⟩
      · rename_i k g' todo hk hx
        simp only [Option.some.injEq] at hs
        subst hs
        exact h1
      · rename_i k hk hx
        simp only [Option.some.injEq] at hs
        subst hs
        show LInv st.spans st.exps (st.log ++ [Ev.ended g s, Ev.over g s])
        rw [happ]
        refine h1.snoc (by intro a b c; simp) (by simp) ?_
        intro a b hab; injection hab with _ hb; subst hb
        exact ⟨_, hx, (h1.span s _ hx).2.2⟩
    · cases hs
  | load g order =>
    simp only [step] at hs
    split at hs
    · rename_i s k ht
      obtain ⟨_, _, g', hx⟩ := top_some ht
      have hi := h.span s _ hx
      obtain ⟨hc, ge, he⟩ := hi
      split at hs
      · rename_i hord
        have hperm : order.Perm st.exps := List.isPerm_iff.1 hord
        have hmem : ∀ e, isReg e st.log = true ↔ e ∈ order := fun e => by rw [hperm.mem_iff]; exact (h.reg e).symm
        split at hs
        · rename_i hnil
          simp only [Option.some.injEq] at hs
          subst hs
          show LInv (st.spans.modify s _) st.exps (st.log ++ [Ev.over g s])
          have hover : SInv st.log s ⟨k, .over⟩ := by
            refine ⟨by rw [hc]; exact List.nodup_nil, ⟨st.log, [], by simp, by rw [hc]; simp⟩, fun hk => .inl ⟨st.log, [], by simp, ⟨ge, he⟩, ?_⟩⟩
            simp only at hk
            rw [if_pos hk] at hnil
            intro e hr
            rw [hmem, hnil] at hr
            cases hr
          have h1 := h.once s .over (by intro y hy; rw [hx] at hy; cases hy; exact hover)
          refine h1.snoc (by intro a b c; simp) (by simp) ?_
          intro a b hab; injection hab with _ hb; subst hb
          obtain ⟨x', e1, e2⟩ := modify_kind st.spans s .over s _ hx
          exact ⟨x', e1, by rw [e2]; exact hover.2.2⟩
        · rename_i e es hcons
          simp only [Option.some.injEq] at hs
          subst hs
          have hk : k = .sampled := by
            by_contra hne
            rw [if_neg hne] at hcons
            cases hcons
          rw [if_pos hk] at hcons
          subst hcons
          show LInv (st.spans.modify s _) st.exps (st.log ++ [Ev.called g e s])
          refine h.call g e s _ hx ?_
          refine ⟨hk, st.log, [.called g e s], [], e, es, rfl, rfl, ⟨ge, he⟩, ?_, ?_, ?_, by simp⟩
          · simpa using hperm.nodup_iff.2 h.nodup
          · simpa using hmem
          · rw [calls_snoc, hc]; simp
      · cases hs
    · cases hs
  | ret g =>
    simp only [step] at hs
    split at hs
    · rename_i s k e e' es ht
      obtain ⟨_, _, g', hx⟩ := top_some ht
      simp only [Option.some.injEq] at hs
      subst hs
      have h1 : LInv st.spans st.exps (st.log ++ [Ev.returned g e s]) := h.snoc (by intro a b c; simp) (by simp) (by simp)
      show LInv (st.spans.modify s _) st.exps (st.log ++ [Ev.returned g e s, Ev.called g e' s])
      have happ : st.log ++ [Ev.returned g e s, Ev.called g e' s] = (st.log ++ [Ev.returned g e s]) ++ [Ev.called g e' s] := by simp
      rw [happ]
      exact h1.call g e' s _ hx (next_of_held (h.span s _ hx))
    · rename_i s k e ht
      obtain ⟨_, _, g', hx⟩ := top_some ht
      simp only [Option.some.injEq] at hs
      subst hs
      have hi := h.span s _ hx
      obtain rfl := held_sampled hi
      have h1 : LInv st.spans st.exps (st.log ++ [Ev.returned g e s]) := h.snoc (by intro a b c; simp) (by simp) (by simp)
      show LInv (st.spans.modify s _) st.exps (st.log ++ [Ev.returned g e s, Ev.over g s])
      have happ : st.log ++ [Ev.returned g e s, Ev.over g s] = (st.log ++ [Ev.returned g e s]) ++ [Ev.over g s] := by simp
      rw [happ]
      have hover := told_of_held (g' := g) hi
      have h2 := h1.once s .over (by intro y hy; rw [hx] at hy; cases hy; exact hover)
      refine h2.snoc (by intro a b c; simp) (by simp) ?_
      intro a b hab; injection hab with _ hb; subst hb
      obtain ⟨x', e1, e2⟩ := modify_kind st.spans s .over s _ hx
      exact ⟨x', e1, by rw [e2]; exact hover.2.2⟩
    · cases hs
  | panic g =>
    simp only [step] at hs
    split at hs
    · rename_i s k e es ht
      obtain ⟨_, _, g', hx⟩ := top_some ht
      simp only [Option.some.injEq] at hs
      subst hs
      have h1 : LInv st.spans st.exps (st.log ++ [Ev.panicked g e s]) := h.snoc (by intro a b c; simp) (by simp) (by simp)
      show LInv (st.spans.modify s _) st.exps (st.log ++ [Ev.panicked g e s])
      exact h1.once s .over (by intro y hy; rw [hx] at hy; cases hy; exact failed_of_held (h.span s _ hx))
    · cases hs
  | wake g =>
    simp only [step] at hs
    split at hs
    · rename_i s hw
      split at hs
      · rename_i k hx
        simp only [Option.some.injEq] at hs
        subst hs
        show LInv st.spans st.exps (st.log ++ [Ev.over g s])
        refine h.snoc (by intro a b c; simp) (by simp) ?_
        intro a b hab; injection hab with _ hb; subst hb
        exact ⟨_, hx, (h.span s _ hx).2.2⟩
      · cases hs
    · cases hs

theorem inv_run {st st' : St} (h : Inv st) (os : List Op) (hs : run st os = some st') : Inv st' := by
  induction os generalizing st with
  | nil => simp only [run, Option.some.injEq] at hs; subst hs; exact h
  | cons o os ih =>
    simp only [run, Option.bind_eq_some_iff] at hs
    obtain ⟨st1, h1, h2⟩ := hs
    exact ih (inv_step h o h1) h2

/-! ## Who is where -/

structure KInv (st : St) : Prop where
  stack : ∀ g s, s ∈ (st.gs g).stack ↔ ∃ k todo, st.spans[s]? = some ⟨k, .held g todo⟩
  nodup : ∀ g, (st.gs g).stack.Nodup
  wait : ∀ g s, (st.gs g).wait = some s → ∃ x, st.spans[s]? = some x ∧ x.once ≠ .fresh

theorem kinv_init : KInv init := ⟨by simp [init], by simp [init], by simp [init]⟩

theorem user_wait {st : St} {g : Nat} (h : st.user g = true) : (st.gs g).wait = none := by
  unfold St.user at h
  split at h
  · cases h
  · assumption
  · assumption

theorem modify_self (l : List Span) (s : Nat) (o : Once) {x : Span} (h : l[s]? = some x) :
    (l.modify s fun x => { x with once := o })[s]? = some { x with once := o } := by
  rw [List.getElem?_modify, h]; simp

theorem modify_other (l : List Span) (s : Nat) (o : Once) {i : Nat} (h : i ≠ s) : (l.modify s fun x => { x with once := o })[i]? = l[i]? := by
  rw [List.getElem?_modify]
  cases l[i]? <;> simp [Ne.symm h]

theorem top_own {st : St} (h : KInv st) {g s : Nat} {k : Kind} {todo : Option (List Nat)} (ht : st.top g = some (s, k, todo)) :
    (st.gs g).wait = none ∧ (∃ tl, (st.gs g).stack = s :: tl) ∧ st.spans[s]? = some ⟨k, .held g todo⟩ := by
  obtain ⟨h1, ⟨tl, h2⟩, g', h3⟩ := top_some ht
  refine ⟨h1, ⟨tl, h2⟩, ?_⟩
  obtain ⟨k', todo', h4⟩ := (h.stack g s).1 (by rw [h2]; simp)
  rw [h3] at h4
  cases h4
  exact h3

theorem kinv_finish {st : St} (h : KInv st) {g s : Nat} {k : Kind} {todo : Option (List Nat)} (ht : st.top g = some (s, k, todo)) :
    KInv (st.finish g s) := by
  obtain ⟨h1, ⟨tl, h2⟩, h3⟩ := top_own h ht
  have hnd := h.nodup g
  rw [h2, List.nodup_cons] at hnd
  have hgs : ∀ i, (st.finish g s).gs i = if i = g then ⟨tl, none⟩ else st.gs i := by
    intro i; simp [St.finish, St.gor, St.once, h2]
  have hsp : (st.finish g s).spans = st.spans.modify s fun x => { x with once := .over } := rfl
  refine ⟨?_, ?_, ?_⟩
  · intro i j
    rw [hgs, hsp]
    by_cases hj : j = s
    · subst hj
      rw [modify_self _ _ _ h3]
      constructor
      · intro hm
        exfalso
        split at hm
        · exact hnd.1 hm
        · rename_i hi
          obtain ⟨k', todo', h4⟩ := (h.stack i j).1 hm
          rw [h3] at h4
          cases h4
          exact hi rfl
      · rintro ⟨k', todo', h4⟩; cases h4
    · rw [modify_other _ _ _ hj, ← h.stack i j]
      split
      · rename_i hi
        subst hi
        simp [h2, hj]
      · rfl
  · intro i
    rw [hgs]
    split
    · exact hnd.2
    · exact h.nodup i
  · intro i j hw
    rw [hgs] at hw
    split at hw
    · cases hw
    · obtain ⟨x, e1, e2⟩ := h.wait i j hw
      rw [hsp]
      by_cases hj : j = s
      · subst hj
        exact ⟨_, modify_self _ _ _ e1, by simp⟩
      · exact ⟨x, by rw [modify_other _ _ _ hj]; exact e1, e2⟩

theorem KInv.say {st : St} (h : KInv st) (l : List Ev) : KInv (st.say l) := ⟨h.stack, h.nodup, h.wait⟩

theorem kinv_held {st : St} (h : KInv st) {g s : Nat} {k : Kind} {todo todo' : Option (List Nat)} (hx : st.spans[s]? = some ⟨k, .held g todo⟩) :
    KInv (st.once s (.held g todo')) := by
  have hsp : (st.once s (.held g todo')).spans = st.spans.modify s fun x => { x with once := .held g todo' } := rfl
  refine ⟨?_, h.nodup, ?_⟩
  · intro i j
    rw [hsp]
    show j ∈ (st.gs i).stack ↔ _
    rw [h.stack i j]
    by_cases hj : j = s
    · subst hj
      rw [modify_self _ _ _ hx, hx]
      constructor
      · rintro ⟨_, _, e⟩; cases e; exact ⟨_, _, rfl⟩
      · rintro ⟨_, _, e⟩; cases e; exact ⟨_, _, rfl⟩
    · rw [modify_other _ _ _ hj]
  · intro i j hw
    obtain ⟨x, e1, e2⟩ := h.wait i j hw
    rw [hsp]
    by_cases hj : j = s
    · subst hj
      exact ⟨_, modify_self _ _ _ e1, by simp⟩
    · exact ⟨x, by rw [modify_other _ _ _ hj]; exact e1, e2⟩

theorem kinv_step {st st' : St} (h : KInv st) (o : Op) (hs : step st o = some st') : KInv st' := by
  cases o with
  | start g k =>
    simp only [step] at hs
    split at hs
    · simp only [Option.some.injEq] at hs
      subst hs
      have hget : ∀ (j : Nat) (x : Span), st.spans[j]? = some x → (st.spans ++ [⟨k, .fresh⟩])[j]? = some x := by
        intro j x hx
        rw [List.getElem?_append_left (List.getElem?_eq_some_iff.1 hx).1]; exact hx
      refine ⟨?_, h.nodup, fun g s hw => ?_⟩
      · intro i j
        show j ∈ (st.gs i).stack ↔ _
        rw [h.stack i j]
        constructor
        · rintro ⟨a, b, e⟩; exact ⟨a, b, hget j _ e⟩
        · rintro ⟨a, b, e⟩
          refine ⟨a, b, ?_⟩
          simp only at e
          by_cases hl : j < st.spans.length
          · rwa [List.getElem?_append_left hl] at e
          · rw [List.getElem?_append_right (by omega)] at e
            have hmem := List.mem_of_getElem? e
            simp at hmem
      · obtain ⟨x, e1, e2⟩ := h.wait g s hw
        exact ⟨x, hget s x e1, e2⟩
    · cases hs
  | register g e =>
    simp only [step] at hs
    split at hs
    · simp only [Option.some.injEq] at hs
      subst hs
      exact ⟨h.stack, h.nodup, h.wait⟩
    · cases hs
  | unregister g e =>
    simp only [step] at hs
    split at hs
    · simp only [Option.some.injEq] at hs
      subst hs
      exact ⟨h.stack, h.nodup, h.wait⟩
    · cases hs
  | endSpan g s =>
    simp only [step] at hs
    split at hs
    · rename_i hu
      have hw0 := user_wait hu
      split at hs
      · cases hs
      · simp only [Option.some.injEq] at hs
        subst hs
        exact h.say _
      · rename_i k hk hx
        simp only [Option.some.injEq] at hs
        subst hs
        refine KInv.say ?_ _
        have hsp : ((st.once s (.held g none)).gor g ⟨s :: (st.gs g).stack, none⟩).spans =
          st.spans.modify s fun x => { x with once := .held g none } := rfl
        have hgs : ∀ i, ((st.once s (.held g none)).gor g ⟨s :: (st.gs g).stack, none⟩).gs i =
          if i = g then ⟨s :: (st.gs g).stack, none⟩ else st.gs i := fun _ => rfl
        have hno : ∀ i, s ∉ (st.gs i).stack := by
          intro i hm
          obtain ⟨a, b, e⟩ := (h.stack i s).1 hm
          rw [hx] at e; cases e
        refine ⟨?_, ?_, ?_⟩
        · intro i j
          rw [hsp, hgs]
          by_cases hj : j = s
          · subst hj
            rw [modify_self _ _ _ hx]
            split
            · rename_i hi; subst hi; simp
            · rename_i hi
              constructor
              · intro hm; exact absurd hm (hno i)
              · rintro ⟨_, _, e⟩; cases e; exact absurd rfl hi
          · rw [modify_other _ _ _ hj, ← h.stack i j]
            split
            · rename_i hi; subst hi; simp [hj]
            · rfl
        · intro i
          rw [hgs]
          split
          · exact List.nodup_cons.2 ⟨hno g, h.nodup g⟩
          · exact h.nodup i
        · intro i j hw
          rw [hgs] at hw
          split at hw
          · cases hw
          · obtain ⟨x, e1, e2⟩ := h.wait i j hw
            rw [hsp]
            by_cases hj : j = s
            · subst hj
              exact ⟨_, modify_self _ _ _ e1, by simp⟩
            · exact ⟨x, by rw [modify_other _ _ _ hj]; exact e1, e2⟩
      · rename_i k g' todo hk hx
        simp only [Option.some.injEq] at hs
        subst hs
        refine KInv.say ?_ _
        have hgs : ∀ i, (st.gor g ⟨(st.gs g).stack, some s⟩).gs i = if i = g then ⟨(st.gs g).stack, some s⟩ else st.gs i := fun _ => rfl
        refine ⟨?_, ?_, ?_⟩
        · intro i j
          rw [hgs]
          split
          · rename_i hi; subst hi; exact h.stack i j
          · exact h.stack i j
        · intro i
          rw [hgs]
          split
          · exact h.nodup g
          · exact h.nodup i
        · intro i j hw
          rw [hgs] at hw
          split at hw
          · simp only [Option.some.injEq] at hw
            subst hw
            exact ⟨_, hx, by simp⟩
          · exact h.wait i j hw
      · simp only [Option.some.injEq] at hs
        subst hs
        exact h.say _
    · cases hs
  | load g order =>
    simp only [step] at hs
    split at hs
    · rename_i s k ht
      split at hs
      · split at hs
        · simp only [Option.some.injEq] at hs
          subst hs
          exact (kinv_finish h ht).say _
        · simp only [Option.some.injEq] at hs
          subst hs
          exact (kinv_held h (top_own h ht).2.2).say _
      · cases hs
    · cases hs
  | ret g =>
    simp only [step] at hs
    split at hs
    · rename_i ht
      simp only [Option.some.injEq] at hs
      subst hs
      exact (kinv_held h (top_own h ht).2.2).say _
    · rename_i ht
      simp only [Option.some.injEq] at hs
      subst hs
      exact (kinv_finish h ht).say _
    · cases hs
  | panic g =>
    simp only [step] at hs
    split at hs
    · rename_i ht
      simp only [Option.some.injEq] at hs
      subst hs
      exact (kinv_finish h ht).say _
    · cases hs
  | wake g =>
    simp only [step] at hs
    split at hs
    · rename_i s hw
      split at hs
      · rename_i k hx
        simp only [Option.some.injEq] at hs
        subst hs
        refine KInv.say ?_ _
        have hgs : ∀ i, (st.gor g ⟨(st.gs g).stack, none⟩).gs i = if i = g then ⟨(st.gs g).stack, none⟩ else st.gs i := fun _ => rfl
        refine ⟨?_, ?_, ?_⟩
        · intro i j
          rw [hgs]
          split
          · rename_i hi; subst hi; exact h.stack i j
          · exact h.stack i j
        · intro i
          rw [hgs]
          split
          · exact h.nodup g
          · exact h.nodup i
        · intro i j hw
          rw [hgs] at hw
          split at hw
          · cases hw
          · exact h.wait i j hw
      · cases hs
    · cases hs

theorem kinv_run {st st' : St} (h : KInv st) (os : List Op) (hs : run st os = some st') : KInv st' := by
  induction os generalizing st with
  | nil => simp only [run, Option.some.injEq] at hs; subst hs; exact h
  | cons o os ih =>
    simp only [run, Option.bind_eq_some_iff] at hs
    obtain ⟨st1, h1, h2⟩ := hs
    exact ih (kinv_step h o h1) h2

/-! ## Goroutines that wait -/

/-- Exporters call `End` only for spans that were started after the one they are given. -/
def Careful (st : St) : List Op → Prop
  | [] => True
  | o :: os => (match o with
      | .endSpan g s => ∀ s0 ∈ (st.gs g).stack.head?, s0 < s
      | _ => True) ∧ ∀ st', step st o = some st' → Careful st' os

/-- Spans are inside later ones only. -/
structure Ordered (st : St) : Prop where
  stack : ∀ g, (st.gs g).stack.Pairwise (· > ·)
  wait : ∀ g s, (st.gs g).wait = some s → ∀ s0 ∈ (st.gs g).stack, s0 < s

theorem ordered_init : Ordered init := ⟨by simp [init], by simp [init]⟩

theorem ordered_gor {st st' : St} (h : Ordered st) (g : Nat) (x : Gor) (hgs : ∀ i, st'.gs i = if i = g then x else st.gs i)
    (h1 : x.stack.Pairwise (· > ·)) (h2 : ∀ s, x.wait = some s → ∀ s0 ∈ x.stack, s0 < s) : Ordered st' := by
  refine ⟨fun i => ?_, fun i s hw => ?_⟩
  · rw [hgs]; split
    · exact h1
    · exact h.stack i
  · rw [hgs] at hw ⊢
    split at hw
    · rename_i hi
      rw [if_pos hi]
      exact h2 s hw
    · rename_i hi
      rw [if_neg hi]
      exact h.wait i s hw

theorem head_all {l : List Nat} (h : l.Pairwise (· > ·)) {s : Nat} (hs : ∀ s0 ∈ l.head?, s0 < s) : ∀ s0 ∈ l, s0 < s := by
  cases l with
  | nil => simp
  | cons a l =>
    have ha : a < s := hs a (by simp)
    intro s0 h0
    rcases List.mem_cons.1 h0 with rfl | h0
    · exact ha
    · have := List.rel_of_pairwise_cons h h0
      omega

theorem ordered_finish {st : St} (h : Ordered st) (g s : Nat) : Ordered (st.finish g s) := by
  refine ordered_gor h g ⟨(st.gs g).stack.tail, none⟩ (fun _ => rfl) (h.stack g).tail ?_
  intro s hs; cases hs

theorem ordered_step {st st' : St} (h : Ordered st) (o : Op) (hc : match o with
      | .endSpan g s => ∀ s0 ∈ (st.gs g).stack.head?, s0 < s
      | _ => True) (hs : step st o = some st') : Ordered st' := by
  cases o with
  | start g k =>
    simp only [step] at hs
    split at hs
    · simp only [Option.some.injEq] at hs; subst hs; exact ⟨h.stack, h.wait⟩
    · cases hs
  | register g e =>
    simp only [step] at hs
    split at hs
    · simp only [Option.some.injEq] at hs; subst hs; exact ⟨h.stack, h.wait⟩
    · cases hs
  | unregister g e =>
    simp only [step] at hs
    split at hs
    · simp only [Option.some.injEq] at hs; subst hs; exact ⟨h.stack, h.wait⟩
    · cases hs
  | endSpan g s =>
    have hall := head_all (h.stack g) hc
    simp only [step] at hs
    split at hs
    · split at hs
      · cases hs
      · simp only [Option.some.injEq] at hs; subst hs; exact ⟨h.stack, h.wait⟩
      · simp only [Option.some.injEq] at hs; subst hs
        refine ordered_gor h g ⟨s :: (st.gs g).stack, none⟩ (fun _ => rfl) (List.pairwise_cons.2 ⟨hall, h.stack g⟩) ?_
        intro s hs; cases hs
      · simp only [Option.some.injEq] at hs; subst hs
        refine ordered_gor h g ⟨(st.gs g).stack, some s⟩ (fun _ => rfl) (h.stack g) ?_
        intro s' hs'
        simp only [Option.some.injEq] at hs'
        subst hs'
        exact hall
      · simp only [Option.some.injEq] at hs; subst hs; exact ⟨h.stack, h.wait⟩
    · cases hs
  | load g order =>
    simp only [step] at hs
    split at hs
    · split at hs
      · split at hs
        · simp only [Option.some.injEq] at hs; subst hs
          have := ordered_finish h g (by assumption)
          exact ⟨this.stack, this.wait⟩
        · simp only [Option.some.injEq] at hs; subst hs; exact ⟨h.stack, h.wait⟩
      · cases hs
    · cases hs
  | ret g =>
    simp only [step] at hs
    split at hs
    · simp only [Option.some.injEq] at hs; subst hs; exact ⟨h.stack, h.wait⟩
    · rename_i s _ _ _
      simp only [Option.some.injEq] at hs; subst hs
      have := ordered_finish h g s
      exact ⟨this.stack, this.wait⟩
    · cases hs
  | panic g =>
    simp only [step] at hs
    split at hs
    · rename_i s _ _ _ _
      simp only [Option.some.injEq] at hs; subst hs
      have := ordered_finish h g s
      exact ⟨this.stack, this.wait⟩
    · cases hs
  | wake g =>
    simp only [step] at hs
    split at hs
    · split at hs
      · simp only [Option.some.injEq] at hs; subst hs
        refine ordered_gor h g ⟨(st.gs g).stack, none⟩ (fun _ => rfl) (h.stack g) ?_
        intro s hs; cases hs
      · cases hs
    · cases hs

theorem ordered_run {st st' : St} (h : Ordered st) (os : List Op) (hc : Careful st os) (hs : run st os = some st') : Ordered st' := by
  induction os generalizing st with
  | nil => simp only [run, Option.some.injEq] at hs; subst hs; exact h
  | cons o os ih =>
    simp only [run, Option.bind_eq_some_iff] at hs
    obtain ⟨st1, h1, h2⟩ := hs
    exact ih (ordered_step h o hc.1 h1) (hc.2 st1 h1) h2

/-- Nothing is called: exporters return, and `End` does. -/
def Back : Op → Prop
  | .load _ _ => True
  | .ret _ => True
  | .wake _ => True
  | _ => False

structure Good (st : St) : Prop where
  inv : Inv st
  kinv : KInv st
  ordered : Ordered st

theorem good_step {st st' : St} (h : Good st) {o : Op} (ho : Back o) (hs : step st o = some st') : Good st' :=
  ⟨inv_step h.inv o hs, kinv_step h.kinv o hs, ordered_step h.ordered o (by cases o <;> trivial) hs⟩

theorem good_run {st st' : St} (h : Good st) {os : List Op} (ho : ∀ o ∈ os, Back o) (hs : run st os = some st') : Good st' := by
  induction os generalizing st with
  | nil => simp only [run, Option.some.injEq] at hs; subst hs; exact h
  | cons o os ih =>
    simp only [run, Option.bind_eq_some_iff] at hs
    obtain ⟨st1, h1, h2⟩ := hs
    exact ih (good_step h (ho o (by simp)) h1) (fun o h => ho o (by simp [h])) h2

/-- What is left to do. -/
def weight (n : Nat) (x : Span) : Nat := match x.once with
  | .held _ none => n + 2
  | .held _ (some l) => l.length + 1
  | _ => 0

def left (st : St) : Nat := (st.spans.map (weight st.exps.length)).sum

theorem sum_modify (w : Span → Nat) (l : List Span) (s : Nat) (o : Once) {x : Span} (hx : l[s]? = some x) (hw : w { x with once := o } < w x) :
    ((l.modify s fun x => { x with once := o }).map w).sum < (l.map w).sum := by
  induction l generalizing s with
  | nil => simp at hx
  | cons a l ih =>
    cases s with
    | zero =>
      simp only [List.getElem?_cons_zero, Option.some.injEq] at hx
      subst hx
      simp only [List.modify_zero_cons, List.map_cons, List.sum_cons]
      omega
    | succ s =>
      have := ih s (by simpa using hx)
      simp only [List.modify_succ_cons, List.map_cons, List.sum_cons]
      omega

/-- A goroutine that does not wait can go on. -/
theorem work {st : St} (h : Good st) {g : Nat} (hw : (st.gs g).wait = none) (hn : (st.gs g).stack ≠ []) :
    ∃ o st', Back o ∧ step st o = some st' ∧ left st' < left st := by
  obtain ⟨s, tl, hst⟩ := List.exists_cons_of_ne_nil hn
  obtain ⟨k, todo, hx⟩ := (h.kinv.stack g s).1 (by rw [hst]; simp)
  have ht : st.top g = some (s, k, todo) := by
    unfold St.top
    rw [hw, hst]
    simp only [hx]
  cases todo with
  | none =>
    have hord : isOrder st.exps st.exps = true := List.isPerm_iff.2 (List.Perm.refl _)
    cases hm : (if k = .sampled then st.exps else []) with
    | nil =>
      refine ⟨.load g st.exps, _, trivial, by simp only [step, ht, hord, if_true, hm]; rfl, ?_⟩
      exact sum_modify (weight st.exps.length) st.spans s .over hx (by simp [weight])
    | cons e es =>
      refine ⟨.load g st.exps, _, trivial, by simp only [step, ht, hord, if_true, hm]; rfl, ?_⟩
      refine sum_modify (weight st.exps.length) st.spans s _ hx ?_
      have : st.exps = e :: es := by
        by_cases hk : k = .sampled
        · rwa [if_pos hk] at hm
        · rw [if_neg hk] at hm; cases hm
      simp [weight, this]
  | some l =>
    obtain ⟨_, _, _, _, e, rest, hl, _⟩ := h.inv.span s _ hx
    subst hl
    cases rest with
    | nil =>
      refine ⟨.ret g, _, trivial, by simp only [step, ht]; rfl, ?_⟩
      exact sum_modify (weight st.exps.length) st.spans s .over hx (by simp [weight])
    | cons e' es =>
      refine ⟨.ret g, _, trivial, by simp only [step, ht]; rfl, ?_⟩
      exact sum_modify (weight st.exps.length) st.spans s _ hx (by simp [weight])

theorem run_append (st : St) (a b : List Op) : run st (a ++ b) = (run st a).bind (run · b) := by
  induction a generalizing st with
  | nil => rfl
  | cons o a ih =>
    simp only [List.cons_append, run]
    cases step st o with
    | none => rfl
    | some st1 => simp [ih]

theorem advance {st : St} (h : Good st) (n : Nat) : ∀ g s, (st.gs g).wait = some s → st.spans.length - s ≤ n →
    ∃ os st', (∀ o ∈ os, Back o) ∧ run st os = some st' ∧ (left st' < left st ∨
      (left st' = left st ∧ (st'.gs g).wait = none ∧ (st'.gs g).stack = (st.gs g).stack)) := by
  induction n with
  | zero =>
    intro g s hw hle
    obtain ⟨x, hx, _⟩ := h.kinv.wait g s hw
    have := (List.getElem?_eq_some_iff.1 hx).1
    omega
  | succ n ih =>
    intro g s hw hle
    obtain ⟨⟨k, o⟩, hx, hf⟩ := h.kinv.wait g s hw
    cases o with
    | fresh => exact absurd rfl hf
    | over =>
      refine ⟨[.wake g], (st.gor g ⟨(st.gs g).stack, none⟩).say [.over g s], by simp [Back], ?_, .inr ⟨rfl, ?_, ?_⟩⟩
      · simp only [run, step, hw, hx, Option.bind_some]
      · simp [St.gor, St.say]
      · simp [St.gor, St.say]
    | held g' todo =>
      have hm : s ∈ (st.gs g').stack := (h.kinv.stack g' s).2 ⟨k, todo, hx⟩
      have hn : (st.gs g').stack ≠ [] := List.ne_nil_of_mem hm
      cases hw' : (st.gs g').wait with
      | none =>
        obtain ⟨o, st', h1, h2, h3⟩ := work h hw' hn
        exact ⟨[o], st', by simpa using h1, by simp [run, h2], .inl h3⟩
      | some s' =>
        have hlt := h.ordered.wait g' s' hw' s hm
        have hlen := (List.getElem?_eq_some_iff.1 hx).1
        obtain ⟨os, st1, h1, h2, h3⟩ := ih g' s' hw' (by omega)
        rcases h3 with h3 | ⟨h3, h4, h5⟩
        · exact ⟨os, st1, h1, h2, .inl h3⟩
        · obtain ⟨o, st', e1, e2, e3⟩ := work (good_run h h1 h2) h4 (by rw [h5]; exact hn)
          refine ⟨os ++ [o], st', ?_, ?_, .inl (by omega)⟩
          · intro x hx
            rcases List.mem_append.1 hx with hx | hx
            · exact h1 x hx
            · rw [List.mem_singleton] at hx; rw [hx]; exact e1
          · rw [run_append, h2]; simp [run, e2]

theorem can_return {st : St} (h : Good st) (g : Nat) : ∃ os st', (∀ o ∈ os, Back o) ∧ run st os = some st' ∧ st'.gs g = ⟨[], none⟩ := by
  suffices ∀ n st, Good st → left st < n → ∃ os st', (∀ o ∈ os, Back o) ∧ run st os = some st' ∧ st'.gs g = ⟨[], none⟩ from
    this _ st h (Nat.lt_succ_self _)
  intro n
  induction n with
  | zero => intro st _ hlt; omega
  | succ n ih =>
    intro st h hlt
    -- what is done so far, and then the rest
    have go : ∀ os st1, (∀ o ∈ os, Back o) → run st os = some st1 → left st1 < left st →
        ∃ os st', (∀ o ∈ os, Back o) ∧ run st os = some st' ∧ st'.gs g = ⟨[], none⟩ := by
      intro os st1 h1 h2 h3
      obtain ⟨os', st', e1, e2, e3⟩ := ih st1 (good_run h h1 h2) (by omega)
      refine ⟨os ++ os', st', ?_, by rw [run_append, h2]; exact e2, e3⟩
      intro x hx
      rcases List.mem_append.1 hx with hx | hx
      · exact h1 x hx
      · exact e1 x hx
    -- not waiting
    have free : ∀ os st1, (∀ o ∈ os, Back o) → run st os = some st1 → left st1 = left st → (st1.gs g).wait = none →
        ∃ os st', (∀ o ∈ os, Back o) ∧ run st os = some st' ∧ st'.gs g = ⟨[], none⟩ := by
      intro os st1 h1 h2 h3 h4
      cases hst : (st1.gs g).stack with
      | nil => exact ⟨os, st1, h1, h2, by rw [← hst, ← h4]⟩
      | cons s tl =>
        obtain ⟨o, st', e1, e2, e3⟩ := work (good_run h h1 h2) h4 (by rw [hst]; simp)
        refine go (os ++ [o]) st' ?_ (by rw [run_append, h2]; simp [run, e2]) (by omega)
        intro x hx
        rcases List.mem_append.1 hx with hx | hx
        · exact h1 x hx
        · rw [List.mem_singleton] at hx; rw [hx]; exact e1
    cases hw : (st.gs g).wait with
    | none => exact free [] st (by simp) rfl rfl hw
    | some s =>
      obtain ⟨os, st1, h1, h2, h3⟩ := advance h _ g s hw (Nat.le_refl _)
      rcases h3 with h3 | ⟨h3, h4, _⟩
      · exact go os st1 h1 h2 h3
      · exact free os st1 h1 h2 h3 h4

/-- These goroutines wait for each other. -/
def Stuck (D : Nat → Prop) (st : St) : Prop := ∀ g, D g → ∃ s g' k todo, (st.gs g).wait = some s ∧ st.spans[s]? = some ⟨k, .held g' todo⟩ ∧ D g'

theorem stuck_same {D : Nat → Prop} {st st' : St} (h : Stuck D st) (hw : ∀ g, D g → (st'.gs g).wait = (st.gs g).wait)
    (hs : ∀ (s g : Nat) (k : Kind) (todo : Option (List Nat)), D g → st.spans[s]? = some ⟨k, .held g todo⟩ → st'.spans[s]? = some ⟨k, .held g todo⟩) : Stuck D st' := by
  intro g hg
  obtain ⟨s, g', k, todo, h1, h2, h3⟩ := h g hg
  exact ⟨s, g', k, todo, by rw [hw g hg]; exact h1, hs s g' k todo h3 h2, h3⟩

theorem stuck_step {D : Nat → Prop} {st st' : St} (hk : KInv st) (h : Stuck D st) (o : Op) (hs : step st o = some st') : Stuck D st' := by
  have nouser : ∀ g, st.user g = true → ¬ D g := by
    intro g hu hd
    obtain ⟨s, _, _, _, h1, _⟩ := h g hd
    rw [user_wait hu] at h1
    cases h1
  have notop : ∀ g x, st.top g = some x → ¬ D g := by
    rintro g ⟨s, k, todo⟩ ht hd
    obtain ⟨s, _, _, _, h1, _⟩ := h g hd
    rw [(top_some ht).1] at h1
    cases h1
  have finish : ∀ g s k todo, st.top g = some (s, k, todo) → ∀ l, Stuck D ((st.finish g s).say l) := by
    intro g s k todo ht l
    have hd := notop g _ ht
    have hx := (top_own hk ht).2.2
    refine stuck_same h ?_ ?_
    · intro i hi
      have : i ≠ g := fun e => hd (e ▸ hi)
      simp [St.finish, St.gor, St.once, St.say, this]
    · intro j i k' todo' hi hj
      have : j ≠ s := by
        rintro rfl
        rw [hx] at hj
        cases hj
        exact hd hi
      show (st.spans.modify s _)[j]? = _
      rw [modify_other _ _ _ this]; exact hj
  have held : ∀ g s k todo, st.top g = some (s, k, todo) → ∀ todo' l, Stuck D ((st.once s (.held g todo')).say l) := by
    intro g s k todo ht todo' l
    have hd := notop g _ ht
    have hx := (top_own hk ht).2.2
    refine stuck_same h (fun _ _ => rfl) ?_
    intro j i k' todo'' hi hj
    have : j ≠ s := by
      rintro rfl
      rw [hx] at hj
      cases hj
      exact hd hi
    show (st.spans.modify s _)[j]? = _
    rw [modify_other _ _ _ this]; exact hj
  cases o with
  | start g k =>
    simp only [step] at hs
    split at hs
    · simp only [Option.some.injEq] at hs; subst hs
      refine stuck_same h (fun _ _ => rfl) ?_
      intro j i k' todo' _ hj
      show (st.spans ++ _)[j]? = _
      rw [List.getElem?_append_left (List.getElem?_eq_some_iff.1 hj).1]; exact hj
    · cases hs
  | register g e =>
    simp only [step] at hs
    split at hs
    · simp only [Option.some.injEq] at hs; subst hs
      exact stuck_same h (fun _ _ => rfl) (fun _ _ _ _ _ hj => hj)
    · cases hs
  | unregister g e =>
    simp only [step] at hs
    split at hs
    · simp only [Option.some.injEq] at hs; subst hs
      exact stuck_same h (fun _ _ => rfl) (fun _ _ _ _ _ hj => hj)
    · cases hs
  | endSpan g s =>
    simp only [step] at hs
    split at hs
    · rename_i hu
      have hd := nouser g hu
      split at hs
      · cases hs
      · simp only [Option.some.injEq] at hs; subst hs
        exact stuck_same h (fun _ _ => rfl) (fun _ _ _ _ _ hj => hj)
      · rename_i k _ hx
        simp only [Option.some.injEq] at hs; subst hs
        refine stuck_same h ?_ ?_
        · intro i hi
          have : i ≠ g := fun e => hd (e ▸ hi)
          simp [St.gor, St.once, St.say, this]
        · intro j i k' todo' hi hj
          have : j ≠ s := by
            rintro rfl
            rw [hx] at hj
            cases hj
          show (st.spans.modify s _)[j]? = _
          rw [modify_other _ _ _ this]; exact hj
      · simp only [Option.some.injEq] at hs; subst hs
        refine stuck_same h ?_ (fun _ _ _ _ _ hj => hj)
        intro i hi
        have : i ≠ g := fun e => hd (e ▸ hi)
        simp [St.gor, St.say, this]
      · simp only [Option.some.injEq] at hs; subst hs
        exact stuck_same h (fun _ _ => rfl) (fun _ _ _ _ _ hj => hj)
    · cases hs
  | load g order =>
    simp only [step] at hs
    split at hs
    · rename_i ht
      split at hs
      · split at hs
        · simp only [Option.some.injEq] at hs; subst hs
          exact finish g _ _ _ ht _
        · simp only [Option.some.injEq] at hs; subst hs
          exact held g _ _ _ ht _ _
      · cases hs
    · cases hs
  | ret g =>
    simp only [step] at hs
    split at hs
    · rename_i ht
      simp only [Option.some.injEq] at hs; subst hs
      exact held g _ _ _ ht _ _
    · rename_i ht
      simp only [Option.some.injEq] at hs; subst hs
      exact finish g _ _ _ ht _
    · cases hs
  | panic g =>
    simp only [step] at hs
    split at hs
    · rename_i ht
      simp only [Option.some.injEq] at hs; subst hs
      exact finish g _ _ _ ht _
    · cases hs
  | wake g =>
    simp only [step] at hs
    split at hs
    · rename_i s hw
      split at hs
      · rename_i k hx
        simp only [Option.some.injEq] at hs; subst hs
        have hd : ¬ D g := by
          intro hd
          obtain ⟨s', _, _, _, h1, h2, _⟩ := h g hd
          rw [hw] at h1
          cases h1
          rw [hx] at h2
          cases h2
        refine stuck_same h ?_ (fun _ _ _ _ _ hj => hj)
        intro i hi
        have : i ≠ g := fun e => hd (e ▸ hi)
        simp [St.gor, St.say, this]
      · cases hs
    · cases hs

theorem stuck_run {D : Nat → Prop} {st st' : St} (hk : KInv st) (h : Stuck D st) (os : List Op) (hs : run st os = some st') : Stuck D st' := by
  induction os generalizing st with
  | nil => simp only [run, Option.some.injEq] at hs; subst hs; exact h
  | cons o os ih =>
    simp only [run, Option.bind_eq_some_iff] at hs
    obtain ⟨st1, h1, h2⟩ := hs
    exact ih (kinv_step hk o h1) (stuck_step hk h o h1) h2

/-! ## Exporters that are called from exporters -/

/-- How many calls of exporters goroutine `g` is inside of. -/
def depth (g : Nat) : List Ev → Nat := List.foldl (fun d ev => match ev with
  | .called g' _ _ => if g' = g then d + 1 else d
  | .returned g' _ _ => if g' = g then d - 1 else d
  | .panicked g' _ _ => if g' = g then d - 1 else d
  | _ => d) 0

theorem depth_snoc (g : Nat) (log : List Ev) (ev : Ev) : depth g (log ++ [ev]) = match ev with
  | .called g' _ _ => if g' = g then depth g log + 1 else depth g log
  | .returned g' _ _ => if g' = g then depth g log - 1 else depth g log
  | .panicked g' _ _ => if g' = g then depth g log - 1 else depth g log
  | _ => depth g log := by
  simp only [depth, List.foldl_append, List.foldl_cons, List.foldl_nil]

/-- Exporters call `End` only for spans that are not sampled. -/
def Quiet (st : St) : List Op → Prop
  | [] => True
  | o :: os => (match o with
      | .endSpan g s => (st.gs g).stack ≠ [] → ∀ x ∈ st.spans[s]?, x.kind ≠ .sampled
      | _ => True) ∧ ∀ st', step st o = some st' → Quiet st' os

inductive Flat (spans : List Span) (g : Nat) : Gor → Nat → Prop
  | out (w) : Flat spans g ⟨[], w⟩ 0
  | looking (s w k) (h : spans[s]? = some ⟨k, .held g none⟩) : Flat spans g ⟨[s], w⟩ 0
  | exporting (s w k l) (h : spans[s]? = some ⟨k, .held g (some l)⟩) : Flat spans g ⟨[s], w⟩ 1
  | inner (s' s w k' k l) (h' : spans[s']? = some ⟨k', .held g none⟩) (hk : k' ≠ .sampled) (h : spans[s]? = some ⟨k, .held g (some l)⟩) :
      Flat spans g ⟨[s', s], w⟩ 1

theorem Flat.keep {spans spans' : List Span} {g : Nat} {x : Gor} {d : Nat} (h : Flat spans g x d)
    (hs : ∀ (s : Nat) (k : Kind) (todo : Option (List Nat)), spans[s]? = some ⟨k, .held g todo⟩ → spans'[s]? = some ⟨k, .held g todo⟩) : Flat spans' g x d := by
  cases h with
  | out w => exact .out w
  | looking s w k h => exact .looking s w k (hs _ _ _ h)
  | exporting s w k l h => exact .exporting s w k l (hs _ _ _ h)
  | inner s' s w k' k l h' hk h => exact .inner s' s w k' k l (hs _ _ _ h') hk (hs _ _ _ h)

theorem Flat.wait {spans : List Span} {g : Nat} {x : Gor} {d : Nat} (h : Flat spans g x d) (w : Option Nat) : Flat spans g ⟨x.stack, w⟩ d := by
  cases h with
  | out _ => exact .out w
  | looking s _ k h => exact .looking s w k h
  | exporting s _ k l h => exact .exporting s w k l h
  | inner s' s _ k' k l h' hk h => exact .inner s' s w k' k l h' hk h

theorem Flat.le {spans : List Span} {g : Nat} {x : Gor} {d : Nat} (h : Flat spans g x d) : d ≤ 1 := by
  cases h <;> omega

def AllFlat (st : St) : Prop := ∀ g, Flat st.spans g (st.gs g) (depth g st.log)

theorem top_flat {st : St} (h : KInv st) (hf : AllFlat st) {g s : Nat} {k : Kind} {todo : Option (List Nat)} (ht : st.top g = some (s, k, todo)) :
    (todo = none ∧ ((st.gs g = ⟨[s], none⟩ ∧ depth g st.log = 0) ∨ (k ≠ .sampled ∧ depth g st.log = 1 ∧ ∃ s0 k0 l, s0 ≠ s ∧ st.gs g = ⟨[s, s0], none⟩ ∧
      st.spans[s0]? = some ⟨k0, .held g (some l)⟩))) ∨ (todo ≠ none ∧ st.gs g = ⟨[s], none⟩ ∧ depth g st.log = 1) := by
  obtain ⟨h1, ⟨tl, h2⟩, h3⟩ := top_own h ht
  have hg := hf g
  have hnd := h.nodup g
  generalize st.gs g = x at *
  generalize depth g st.log = d at *
  cases hg with
  | out w => simp at h2
  | looking s1 w k1 e =>
    simp only [List.cons.injEq] at h2
    obtain ⟨rfl, rfl⟩ := h2
    simp only at h1
    subst h1
    rw [h3] at e
    cases e
    exact .inl ⟨rfl, .inl ⟨rfl, rfl⟩⟩
  | exporting s1 w k1 l e =>
    simp only [List.cons.injEq] at h2
    obtain ⟨rfl, rfl⟩ := h2
    simp only at h1
    subst h1
    rw [h3] at e
    cases e
    exact .inr ⟨by simp, rfl, rfl⟩
  | inner s1 s0 w k1 k0 l e hk e0 =>
    simp only [List.cons.injEq] at h2
    obtain ⟨rfl, rfl⟩ := h2
    simp only at h1
    subst h1
    rw [h3] at e
    cases e
    refine .inl ⟨rfl, .inr ⟨hk, rfl, s0, k0, l, ?_, rfl, e0⟩⟩
    rintro rfl
    rw [h3] at e0
    cases e0

theorem flat_init : AllFlat init := fun _ => .out none

theorem flat_step {st st' : St} (hk : KInv st) (hi : Inv st) (h : AllFlat st) (o : Op) (hq : match o with
      | .endSpan g s => (st.gs g).stack ≠ [] → ∀ x ∈ st.spans[s]?, x.kind ≠ .sampled
      | _ => True) (hs : step st o = some st') : AllFlat st' := by
  -- a span of `g`'s changes: other goroutines
  have others : ∀ g s k todo o, st.spans[s]? = some ⟨k, .held g todo⟩ → ∀ i, i ≠ g →
      Flat (st.spans.modify s fun x => { x with once := o }) i (st.gs i) (depth i st.log) := by
    intro g s k todo o hx i hi
    refine (h i).keep ?_
    intro j k' todo' hj
    rw [modify_other _ _ _ (by rintro rfl; rw [hx] at hj; cases hj; exact hi rfl)]
    exact hj
  -- its outermost call is over
  have finish : ∀ g s k todo ev, st.top g = some (s, k, todo) → (∀ i, i ≠ g → depth i (st.log ++ ev) = depth i st.log) →
      (∀ d, depth g st.log = d → depth g (st.log ++ ev) = if todo = none then d else d - 1) → AllFlat ((st.finish g s).say ev) := by
    intro g s k todo ev ht hd1 hd2 i
    show Flat (st.spans.modify s _) i (if i = g then ⟨(st.gs g).stack.tail, none⟩ else st.gs i) (depth i (st.log ++ ev))
    by_cases hig : i = g
    · subst hig
      rw [if_pos rfl, hd2 _ rfl]
      rcases top_flat hk h ht with ⟨rfl, ⟨e1, e2⟩ | ⟨e1, e2, s0, k0, l, e3, e4, e5⟩⟩ | ⟨e1, e2, e3⟩
      · rw [e1, e2]; exact .out none
      · rw [e4, e2]
        exact .exporting s0 none k0 l (by rw [modify_other _ _ _ e3]; exact e5)
      · rw [e2, e3, if_neg e1]; exact .out none
    · rw [if_neg hig, hd1 i hig]
      exact others g s k todo _ (top_own hk ht).2.2 i hig
  cases o with
  | start g k =>
    simp only [step] at hs
    split at hs
    · simp only [Option.some.injEq] at hs; subst hs
      intro i
      refine (h i).keep ?_
      intro j k' todo' hj
      show (st.spans ++ _)[j]? = _
      rw [List.getElem?_append_left (List.getElem?_eq_some_iff.1 hj).1]; exact hj
    · cases hs
  | register g e =>
    simp only [step] at hs
    split at hs
    · simp only [Option.some.injEq] at hs; subst hs
      intro i
      show Flat st.spans i (st.gs i) (depth i (st.log ++ [_]))
      rw [depth_snoc]; exact h i
    · cases hs
  | unregister g e =>
    simp only [step] at hs
    split at hs
    · simp only [Option.some.injEq] at hs; subst hs
      intro i
      show Flat st.spans i (st.gs i) (depth i (st.log ++ [_]))
      rw [depth_snoc]; exact h i
    · cases hs
  | endSpan g s =>
    have h2 : ∀ i, depth i (st.log ++ [.ended g s, .over g s]) = depth i st.log := by
      intro i
      have : st.log ++ [Ev.ended g s, Ev.over g s] = (st.log ++ [Ev.ended g s]) ++ [Ev.over g s] := by simp
      rw [this, depth_snoc, depth_snoc]
    have h1 : ∀ i, depth i (st.log ++ [.ended g s]) = depth i st.log := fun i => by rw [depth_snoc]
    simp only [step] at hs
    split at hs
    · rename_i hu
      split at hs
      · cases hs
      · simp only [Option.some.injEq] at hs; subst hs
        intro i
        show Flat st.spans i (st.gs i) (depth i (st.log ++ _))
        rw [h2]; exact h i
      · rename_i k _ hx
        simp only [Option.some.injEq] at hs; subst hs
        intro i
        show Flat (st.spans.modify s _) i (if i = g then ⟨s :: (st.gs g).stack, none⟩ else st.gs i) (depth i (st.log ++ _))
        rw [h1]
        have keep : ∀ (j : Nat) (k' : Kind) (i : Nat) (todo' : Option (List Nat)), st.spans[j]? = some ⟨k', .held i todo'⟩ →
            (st.spans.modify s fun x => { x with once := .held g none })[j]? = some ⟨k', .held i todo'⟩ := by
          intro j k' i todo' hj
          rw [modify_other _ _ _ (by rintro rfl; rw [hx] at hj; cases hj)]; exact hj
        by_cases hig : i = g
        · subst hig
          rw [if_pos rfl]
          have hself := modify_self st.spans s (.held i none) hx
          have hg := h i
          have hq' : (st.gs i).stack ≠ [] → ∀ x ∈ st.spans[s]?, x.kind ≠ .sampled := hq
          have huser := hu
          unfold St.user St.top at huser
          generalize st.gs i = x at *
          generalize depth i st.log = d at *
          cases hg with
          | out w => exact .looking s none k hself
          | looking s1 w k1 e => cases w <;> simp [e] at huser
          | exporting s1 w k1 l e => exact .inner s s1 none k k1 l hself (hq' (by simp) _ hx) (keep _ _ _ _ e)
          | inner s1 s0 w k1 k0 l e1 e2 e3 => cases w <;> simp [e1] at huser
        · rw [if_neg hig]
          exact (h i).keep fun j k' todo' hj => keep j k' i todo' hj
      · simp only [Option.some.injEq] at hs; subst hs
        intro i
        show Flat st.spans i (if i = g then ⟨(st.gs g).stack, some s⟩ else st.gs i) (depth i (st.log ++ _))
        rw [h1]
        split
        · rename_i hig; subst hig; exact (h i).wait _
        · exact h i
      · simp only [Option.some.injEq] at hs; subst hs
        intro i
        show Flat st.spans i (st.gs i) (depth i (st.log ++ _))
        rw [h2]; exact h i
    · cases hs
  | load g order =>
    simp only [step] at hs
    split at hs
    · rename_i s k ht
      split at hs
      · split at hs
        · simp only [Option.some.injEq] at hs; subst hs
          exact finish g s k none _ ht (fun i _ => by rw [depth_snoc]) (fun d hd => by rw [depth_snoc]; simpa using hd)
        · rename_i e es hcons
          simp only [Option.some.injEq] at hs; subst hs
          have hks : k = .sampled := by
            by_contra hne
            rw [if_neg hne] at hcons
            cases hcons
          have hx := (top_own hk ht).2.2
          intro i
          show Flat (st.spans.modify s _) i (st.gs i) (depth i (st.log ++ _))
          rw [depth_snoc]
          by_cases hig : i = g
          · subst hig
            simp only [if_true]
            rcases top_flat hk h ht with ⟨_, ⟨e1, e2⟩ | ⟨e1, _⟩⟩ | ⟨e1, _⟩
            · rw [e1, e2]
              exact .exporting s none k _ (modify_self _ _ _ hx)
            · exact absurd hks e1
            · exact absurd rfl e1
          · simp only [Ne.symm hig, if_false]
            exact others g s k none _ hx i hig
      · cases hs
    · cases hs
  | ret g =>
    simp only [step] at hs
    split at hs
    · rename_i s k e e' es ht
      simp only [Option.some.injEq] at hs; subst hs
      have hx := (top_own hk ht).2.2
      intro i
      have happ : st.log ++ [Ev.returned g e s, Ev.called g e' s] = (st.log ++ [Ev.returned g e s]) ++ [Ev.called g e' s] := by simp
      show Flat (st.spans.modify s _) i (st.gs i) (depth i (st.log ++ [Ev.returned g e s, Ev.called g e' s]))
      rw [happ, depth_snoc, depth_snoc]
      by_cases hig : i = g
      · subst hig
        simp only [if_true]
        rcases top_flat hk h ht with ⟨e1, _⟩ | ⟨_, e1, e2⟩
        · cases e1
        · rw [e1, e2]
          exact .exporting s none k _ (modify_self _ _ _ hx)
      · simp only [Ne.symm hig, if_false]
        exact others g s k _ _ hx i hig
    · rename_i s k e ht
      simp only [Option.some.injEq] at hs; subst hs
      have happ : st.log ++ [Ev.returned g e s, Ev.over g s] = (st.log ++ [Ev.returned g e s]) ++ [Ev.over g s] := by simp
      refine finish g s k (some [e]) _ ht (fun i hi => ?_) (fun d hd => ?_)
      · rw [happ, depth_snoc, depth_snoc]; simp [Ne.symm hi]
      · rw [happ, depth_snoc, depth_snoc]; simp [hd]
    · cases hs
  | panic g =>
    simp only [step] at hs
    split at hs
    · rename_i s k e es ht
      simp only [Option.some.injEq] at hs; subst hs
      refine finish g s k (some (e :: es)) _ ht (fun i hi => ?_) (fun d hd => ?_)
      · rw [depth_snoc]; simp [Ne.symm hi]
      · rw [depth_snoc]; simp [hd]
    · cases hs
  | wake g =>
    simp only [step] at hs
    split at hs
    · rename_i s hw
      split at hs
      · simp only [Option.some.injEq] at hs; subst hs
        intro i
        show Flat st.spans i (if i = g then ⟨(st.gs g).stack, none⟩ else st.gs i) (depth i (st.log ++ [_]))
        rw [depth_snoc]
        split
        · rename_i hig; subst hig; exact (h i).wait _
        · exact h i
      · cases hs
    · cases hs

theorem flat_run {st st' : St} (hk : KInv st) (hi : Inv st) (h : AllFlat st) (os : List Op) (hq : Quiet st os) (hs : run st os = some st') :
    AllFlat st' := by
  induction os generalizing st with
  | nil => simp only [run, Option.some.injEq] at hs; subst hs; exact h
  | cons o os ih =>
    simp only [run, Option.bind_eq_some_iff] at hs
    obtain ⟨st1, h1, h2⟩ := hs
    exact ih (kinv_step hk o h1) (inv_step hi o h1) (flat_step hk hi h o hq.1 h1) (hq.2 st1 h1) h2

/-! ## The theorems -/

/-- C105. Whatever exporters do when they are called, no exporter is called twice with a span, and all that are called were registered at one
moment after `End` was called. -/
theorem called_once (os : List Op) (st : St) (hs : run init os = some st) (s : Nat) : (calls st.log s).Nodup ∧ Fair st.log s := by
  have hi := inv_run inv_init os hs
  by_cases hl : s < st.spans.length
  · have hx := hi.span s _ (List.getElem?_eq_getElem hl)
    generalize st.spans[s] = x at hx
    obtain ⟨k, o⟩ := x
    have none : calls st.log s = [] → (calls st.log s).Nodup ∧ Fair st.log s := by
      intro hc
      rw [hc]
      exact ⟨List.nodup_nil, st.log, [], by simp, by rw [hc]; simp⟩
    cases o with
    | fresh => exact none hx
    | held g todo =>
      cases todo with
      | none => exact none hx.1
      | some l =>
        obtain ⟨_, pre, suf, don, e, rest, h1, h2, h3, h4, h5, h6, _⟩ := hx
        subst h1
        have hsub : (don ++ [e]).Sublist (don ++ e :: rest) := (List.Sublist.refl don).append (by simp)
        exact ⟨by rw [h6]; exact h4.sublist hsub, pre, suf, h2, fun a ha => ⟨(h5 a).2 (hsub.subset (h6 ▸ ha)), h3⟩⟩
    | over => exact ⟨hx.1, hx.2.1⟩
  · have := hi.none s (by omega)
    rw [this]
    exact ⟨List.nodup_nil, st.log, [], by simp, by rw [this]; simp⟩

/-- C105. When `End` of a sampled span returns, to whomever, every exporter registered at some moment since the first call has been called with
the span and has returned; unless an exporter panicked over it. -/
theorem told_partial (os : List Op) (st : St) (hs : run init os = some st) (pre : List Ev) (g s : Nat) (hp : pre ++ [Ev.over g s] <+: st.log)
    (hk : ∃ o, st.spans[s]? = some ⟨.sampled, o⟩) : Told pre s ∨ Failed pre s := by
  obtain ⟨x, h1, h2⟩ := (inv_run inv_init os hs).over pre g s hp
  obtain ⟨o, ho⟩ := hk
  rw [h1] at ho
  cases ho
  exact h2 rfl

/-- C105. If exporters call `End` only for spans started after the one they are given, and return, every call of `End` can return. -/
theorem never_stuck_partial (os : List Op) (st : St) (hs : run init os = some st) (hc : Careful init os) (g : Nat) :
    ∃ os' st', (∀ o ∈ os', Back o) ∧ run st os' = some st' ∧ st'.gs g = ⟨[], none⟩ :=
  can_return ⟨inv_run inv_init os hs, kinv_run kinv_init os hs, ordered_run ordered_init os hc hs⟩ g

/-- C105. If exporters end only spans that are not sampled, no exporter is called from inside of an exporter. -/
theorem not_nested (os : List Op) (st : St) (hs : run init os = some st) (hq : Quiet init os) (g : Nat) : depth g st.log ≤ 1 :=
  (flat_run kinv_init inv_init flat_init os hq hs g).le

/-- C105. Goroutines that wait for each other's exporters, or one for its own, do so for ever: whatever others do. -/
theorem wait_for_ever (os os' : List Op) (st st' : St) (hs : run init os = some st) (D : Nat → Prop) (hd : Stuck D st)
    (hs' : run st os' = some st') : ∀ g, D g → (st'.gs g).wait ≠ none := by
  intro g hg
  obtain ⟨s, _, _, _, h1, _⟩ := stuck_run (kinv_run kinv_init os hs) hd os' hs' g hg
  rw [h1]
  simp

/-! ## Cases -/

/-- An exporter that ends the span it is given waits for ever, and so does the program's call. -/
def selfEnd : List Op := [.register 0 7, .start 0 .sampled, .endSpan 0 0, .load 0 [7], .endSpan 0 0]

theorem self_end_stuck : ∃ st, run init selfEnd = some st ∧ ∀ os' st', run st os' = some st' → (st'.gs 0).wait ≠ none := by
  obtain ⟨st, hst⟩ : ∃ st, run init selfEnd = some st := Option.isSome_iff_exists.1 (by decide +kernel)
  refine ⟨st, hst, fun os' st' h => wait_for_ever selfEnd os' st st' hst (· = 0) ?_ h 0 rfl⟩
  rintro g rfl
  have h1 : (run init selfEnd).map (fun st => ((st.gs 0).wait, st.spans[0]?)) = some (some 0, some ⟨.sampled, .held 0 (some [7])⟩) := by
    decide +kernel
  rw [hst] at h1
  simp only [Option.map_some, Option.some.injEq, Prod.mk.injEq] at h1
  exact ⟨0, 0, _, _, h1.1, h1.2, rfl⟩

/-- Two goroutines whose exporters end each other's span. -/
def eachOther : List Op := [.register 0 7, .start 0 .sampled, .start 1 .sampled, .endSpan 0 0, .load 0 [7], .endSpan 1 1, .load 1 [7],
  .endSpan 0 1, .endSpan 1 0]

theorem each_other_stuck : ∃ st, run init eachOther = some st ∧
    ∀ os' st', run st os' = some st' → (st'.gs 0).wait ≠ none ∧ (st'.gs 1).wait ≠ none := by
  obtain ⟨st, hst⟩ : ∃ st, run init eachOther = some st := Option.isSome_iff_exists.1 (by decide +kernel)
  have hd : Stuck (fun g => g = 0 ∨ g = 1) st := by
    have h1 : (run init eachOther).map (fun st => ((st.gs 0).wait, (st.gs 1).wait, st.spans[0]?, st.spans[1]?)) =
        some (some 1, some 0, some ⟨.sampled, .held 0 (some [7])⟩, some ⟨.sampled, .held 1 (some [7])⟩) := by decide +kernel
    rw [hst] at h1
    simp only [Option.map_some, Option.some.injEq, Prod.mk.injEq] at h1
    rintro g (rfl | rfl)
    · exact ⟨1, 1, _, _, h1.1, h1.2.2.2, .inr rfl⟩
    · exact ⟨0, 0, _, _, h1.2.1, h1.2.2.1, .inl rfl⟩
  exact ⟨st, hst, fun os' st' h => ⟨wait_for_ever _ os' st st' hst _ hd h 0 (.inl rfl), wait_for_ever _ os' st st' hst _ hd h 1 (.inr rfl)⟩⟩

/-- An exporter that traces itself: it starts a sampled span and ends it. -/
def traced (s : Nat) : List Op := [.start 0 .sampled, .endSpan 0 s, .load 0 [7]]

def tracedTimes : Nat → List Op
  | 0 => .register 0 7 :: traced 0
  | n + 1 => tracedTimes n ++ traced (n + 1)

/-- It is called from inside of itself, as deep as one likes, and the program's call of `End` has not returned. -/
theorem traces_itself (n : Nat) : ∃ st, run init (tracedTimes n) = some st ∧ depth 0 st.log = n + 1 ∧ ∀ g s, Ev.over g s ∉ st.log := by
  suffices ∃ st, run init (tracedTimes n) = some st ∧ depth 0 st.log = n + 1 ∧ (∀ g s, Ev.over g s ∉ st.log) ∧ st.spans.length = n + 1 ∧
      st.exps = [7] ∧ (st.gs 0).wait = none ∧ (∃ tl, (st.gs 0).stack = n :: tl) ∧ st.spans[n]? = some ⟨.sampled, .held 0 (some [7])⟩ by
    obtain ⟨st, h1, h2, h3, _⟩ := this
    exact ⟨st, h1, h2, h3⟩
  induction n with
  | zero =>
    refine ⟨_, rfl, rfl, ?_, rfl, rfl, rfl, ⟨[], rfl⟩, rfl⟩
    intro g s
    simp [St.say, St.once, St.gor, init]
  | succ n ih =>
    obtain ⟨st, h1, h2, h3, h4, h5, h6, ⟨tl, h7⟩, h8⟩ := ih
    have hu : st.user 0 = true := by
      unfold St.user St.top
      rw [h6, h7]
      simp [h8]
    let st1 : St := { st with spans := st.spans ++ [⟨.sampled, .fresh⟩] }
    have hs1 : step st (.start 0 .sampled) = some st1 := by simp [step, hu, st1]
    have hu1 : st1.user 0 = true := by
      have : st1.spans[n]? = some ⟨.sampled, .held 0 (some [7])⟩ := by
        show (st.spans ++ _)[n]? = _
        rw [List.getElem?_append_left (by omega)]; exact h8
      unfold St.user St.top
      show (match (st.gs 0).wait, (st.gs 0).stack with | _, _ => _) = true
      rw [h6, h7]
      simp [this]
    have hg1 : st1.spans[n + 1]? = some ⟨.sampled, .fresh⟩ := by
      show (st.spans ++ _)[n + 1]? = _
      rw [List.getElem?_append_right (by omega), h4]; simp
    let st2 : St := ((st1.once (n + 1) (.held 0 none)).gor 0 ⟨(n + 1) :: (st1.gs 0).stack, none⟩).say [.ended 0 (n + 1)]
    have hs2 : step st1 (.endSpan 0 (n + 1)) = some st2 := by simp only [step, hu1, if_true, hg1]; rfl
    have hg2 : st2.spans[n + 1]? = some ⟨.sampled, .held 0 none⟩ := modify_self _ _ _ hg1
    have ht2 : st2.top 0 = some (n + 1, .sampled, none) := by
      unfold St.top
      have : st2.gs 0 = ⟨(n + 1) :: (st1.gs 0).stack, none⟩ := by simp [st2, St.gor, St.say]
      rw [this]
      simp only [hg2]
    have he2 : st2.exps = [7] := h5
    let st3 : St := (st2.once (n + 1) (.held 0 (some [7]))).say [.called 0 7 (n + 1)]
    have hs3 : step st2 (.load 0 [7]) = some st3 := by
      simp only [step, ht2, he2, isOrder, if_true]
      rfl
    refine ⟨st3, ?_, ?_, ?_, ?_, h5, ?_, ⟨(st1.gs 0).stack, ?_⟩, modify_self _ _ _ hg2⟩
    · show run init (tracedTimes n ++ traced (n + 1)) = _
      rw [run_append, h1]
      simp [traced, run, hs1, hs2, hs3]
    · show depth 0 ((st.log ++ [.ended 0 (n + 1)]) ++ [.called 0 7 (n + 1)]) = _
      rw [depth_snoc, depth_snoc]
      simp [h2]
    · intro g s
      show Ev.over g s ∉ (st.log ++ [.ended 0 (n + 1)]) ++ [.called 0 7 (n + 1)]
      simp [h3]
    · simp [st3, st2, st1, St.say, St.once, St.gor, h4]
    · simp [st3, st2, St.say, St.once, St.gor]
    · simp [st3, st2, St.say, St.once, St.gor]

/-- Exporter 7 panics and the program recovers: exporter 8 never gets the span, though a second call of `End` returns. -/
theorem panic_loses : ∃ os st pre s, run init os = some st ∧ pre ++ [Ev.over 0 s] <+: st.log ∧ st.spans[s]?.map Span.kind = some .sampled ∧
    isReg 8 pre = true ∧ calls st.log s = [7] ∧ ¬ Told pre s := by
  refine ⟨[.register 0 7, .register 0 8, .start 0 .sampled, .endSpan 0 0, .load 0 [7, 8], .panic 0, .endSpan 0 0], _,
    [.registered 7, .registered 8, .ended 0 0, .called 0 7 0, .panicked 0 7 0, .ended 0 0], 0, rfl, List.prefix_refl _, rfl, rfl, rfl, ?_⟩
  rintro ⟨pre, suf, h1, ⟨g, h2⟩, h3⟩
  -- the moment is after `End` was called, when both were registered
  have hr : isReg 7 pre = true := by
    have hlen : 3 ≤ pre.length := by
      by_contra hlt
      have hp : pre <+: [.registered 7, .registered 8, .ended 0 0, .called 0 7 0, .panicked 0 7 0, .ended 0 0] := ⟨suf, h1.symm⟩
      have hp2 : pre <+: [Ev.registered 7, Ev.registered 8] :=
        List.prefix_of_prefix_length_le hp ⟨[.ended 0 0, .called 0 7 0, .panicked 0 7 0, .ended 0 0], rfl⟩ (by simp; omega)
      have := hp2.subset h2
      simp at this
    have hp : [Ev.registered 7, Ev.registered 8, Ev.ended 0 0] <+: pre :=
      List.prefix_of_prefix_length_le ⟨[.called 0 7 0, .panicked 0 7 0, .ended 0 0], rfl⟩ ⟨suf, h1.symm⟩ (by simpa using hlen)
    obtain ⟨tl, rfl⟩ := hp
    have htl : tl ++ suf = [.called 0 7 0, .panicked 0 7 0, .ended 0 0] := by simpa using h1.symm
    have hno : ∀ ev ∈ tl, ev ≠ .unregistered 7 := by
      intro ev hev
      have : ev ∈ [Ev.called 0 7 0, .panicked 0 7 0, .ended 0 0] := by rw [← htl]; exact List.mem_append_left _ hev
      rintro rfl
      simp at this
    clear h1 h2 h3 hlen htl
    induction tl using List.reverseRecOn with
    | nil => rfl
    | append_singleton l a ih =>
      rw [← List.append_assoc, isReg_snoc]
      split
      · rfl
      · rw [if_neg (hno a (by simp))]
        exact ih fun ev hev => hno ev (by simp [hev])
  obtain ⟨g', hg'⟩ := h3 7 hr
  have : Ev.returned g' 7 0 ∈ pre ++ suf := List.mem_append_right _ hg'
  rw [← h1] at this
  simp at this

/-- A history the theorems are about: two goroutines end the same span, the exporter of one starts and ends spans of its own, and another
exporter is registered meanwhile. -/
def busy : List Op := [.register 0 7, .start 0 .sampled, .endSpan 0 0, .load 0 [7], .start 0 .stored, .endSpan 1 0, .register 2 8, .endSpan 0 1,
  .load 0 [8, 7], .ret 0, .start 2 .sampled, .endSpan 2 2, .load 2 [8, 7], .ret 2, .wake 1, .ret 2]

def decNext {P : St → Prop} [d : ∀ st, Decidable (P st)] : (x : Option St) → Decidable (∀ st', x = some st' → P st')
  | none => .isTrue (by simp)
  | some st => match d st with
    | .isTrue h => .isTrue (by intro st' he; cases he; exact h)
    | .isFalse h => .isFalse fun hn => h (hn st rfl)

def decCareful : (os : List Op) → (st : St) → Decidable (Careful st os)
  | [], _ => .isTrue trivial
  | o :: os, st =>
    have : ∀ st', Decidable (Careful st' os) := decCareful os
    have : Decidable (∀ st', step st o = some st' → Careful st' os) := decNext _
    match o with
    | .endSpan g s => inferInstanceAs (Decidable ((∀ s0 ∈ (st.gs g).stack.head?, s0 < s) ∧ _))
    | .start _ _ | .register _ _ | .unregister _ _ | .load _ _ | .ret _ | .panic _ | .wake _ => inferInstanceAs (Decidable (True ∧ _))

def decQuiet : (os : List Op) → (st : St) → Decidable (Quiet st os)
  | [], _ => .isTrue trivial
  | o :: os, st =>
    have : ∀ st', Decidable (Quiet st' os) := decQuiet os
    have : Decidable (∀ st', step st o = some st' → Quiet st' os) := decNext _
    match o with
    | .endSpan g s => inferInstanceAs (Decidable (((st.gs g).stack ≠ [] → ∀ x ∈ st.spans[s]?, x.kind ≠ .sampled) ∧ _))
    | .start _ _ | .register _ _ | .unregister _ _ | .load _ _ | .ret _ | .panic _ | .wake _ => inferInstanceAs (Decidable (True ∧ _))

instance (st : St) (os : List Op) : Decidable (Careful st os) := decCareful os st
instance (st : St) (os : List Op) : Decidable (Quiet st os) := decQuiet os st

example : Careful init busy ∧ Quiet init busy := by decide +kernel

example : (run init busy).map (fun st => st.log) = some [.registered 7, .ended 0 0, .called 0 7 0, .ended 1 0, .registered 8, .ended 0 1, .over 0 1,
    .returned 0 7 0, .over 0 0, .ended 2 2, .called 2 8 2, .returned 2 8 2, .called 2 7 2, .over 1 0, .returned 2 7 2, .over 2 2] := by decide +kernel

/-- The second caller's `End`, with the span sampled. -/
example : (run init busy).map (fun st => (decide ((st.log.take 13) ++ [Ev.over 1 0] <+: st.log), st.spans[0]?)) =
    some (true, some ⟨.sampled, .over⟩) := by decide +kernel

end Verif.Props.ExportCalls
