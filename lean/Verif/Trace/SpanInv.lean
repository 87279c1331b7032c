import Verif.Trace.SpanLemmas
import Verif.Trace.QueueLemmas

/-! # Invariants of the span machine -/

namespace Verif.Trace
open Verif

theorem run_append (st : State) (a b : List Op) : run st (a ++ b) = (run st a).bind fun st => run st b := by
  induction a generalizing st with
  | nil => rfl
  | cons op a ih =>
    simp only [List.cons_append, run]
    cases step st op with
    | ok st1 => simp only [Res.bind]; exact ih st1
    | err => rfl
    | panic => rfl

theorem run_snoc_ok {st st' : State} {a : List Op} {op : Op} (h : run st (a ++ [op]) = .ok st') :
    ∃ mid, run st a = .ok mid ∧ step mid op = .ok st' := by
  rw [run_append] at h
  obtain ⟨mid, h1, h2⟩ := Res_bind_ok h
  simp only [run] at h2
  obtain ⟨st1, h3, h4⟩ := Res_bind_ok h2
  cases h4
  exact ⟨mid, h1, h3⟩

/-! ## What was added to each span -/

/-- The time after an operation. -/
def clock (now : Int) : Op → Int
  | .tick d => now + d
  | _ => now

def clockAfter (now : Int) (ops : List Op) : Int := ops.foldl clock now

/-- What an operation adds to span `i`. -/
structure Adds where
  anns : List Annotation
  msgs : List MessageEvent
  links : List Link
  attrs : List (Bytes × AttrVal)

def Adds.none : Adds := ⟨[], [], [], []⟩
def Adds.append (a b : Adds) : Adds := ⟨a.anns ++ b.anns, a.msgs ++ b.msgs, a.links ++ b.links, a.attrs ++ b.attrs⟩

theorem Adds.append_none (a : Adds) : a.append .none = a := by simp [Adds.append, Adds.none]

/-- Additions of one operation at time `now`, read off the program. -/
def opAdds (now : Int) (i : Nat) : Op → Adds
  | .annotate s l msg => if s = some i then { Adds.none with anns := [⟨now, msg, attrMap l⟩] } else .none
  | .addMessageEvent s t id un co => if s = some i then { Adds.none with msgs := [⟨now, t, id, un, co⟩] } else .none
  | .addLink s l => if s = some i then { Adds.none with links := [l] } else .none
  | .addAttributes s l => if s = some i then { Adds.none with attrs := l.map fun a => (a.key, a.value) } else .none
  | _ => .none

/-- Additions of a program. -/
def adds (i : Nat) : Int → List Op → Adds
  | _, [] => .none
  | now, op :: ops => (opAdds now i op).append (adds i (clock now op) ops)

theorem Adds.append_assoc (a b c : Adds) : (a.append b).append c = a.append (b.append c) := by
  simp [Adds.append]

theorem adds_snoc (i : Nat) (now : Int) (ops : List Op) (op : Op) :
    adds i now (ops ++ [op]) = (adds i now ops).append (opAdds (clockAfter now ops) i op) := by
  induction ops generalizing now with
  | nil =>
    simp only [List.nil_append, adds, clockAfter, List.foldl_nil]
    simp [Adds.append, Adds.none]
  | cons o ops ih =>
    simp only [List.cons_append, adds, ih, Adds.append_assoc]
    rfl

/-- What a recording span holds after the additions `a`. -/
structure RecInv (r : Rec) (a : Adds) : Prop where
  anns : QInv r.annotations a.anns
  msgs : QInv r.messageEvents a.msgs
  links : QInv r.links a.links
  attrs : AInv r.attrs a.attrs

/-- The configuration can be used. -/
structure Usable (c : Config) : Prop where
  sampler : c.sampler.isSome
  idGenerator : c.idGenerator.isSome
  annotations : 0 < c.maxAnnotations
  messageEvents : 0 < c.maxMessageEvents
  attributes : 0 < c.maxAttributes
  links : 0 < c.maxLinks

theorem usable_initial : Usable Config.initial := by
  constructor <;> simp [Config.initial]

theorem usable_apply {c : Config} (h : Usable c) (d : Config) : Usable (c.apply d) := by
  obtain ⟨h1, h2, h3, h4, h5, h6⟩ := h
  constructor <;> simp only [Config.apply] <;> split <;> assumption

/-- The state after `ops` from time `t`. -/
structure HInv (t : Int) (ops : List Op) (st : State) : Prop where
  now : st.now = clockAfter t ops
  cfg : Usable st.cfg
  recs : ∀ (i : Nat) (s : Span) (r : Rec), st.spans[i]? = some s → s.data = some r → RecInv r (adds i t ops)
  fresh : ∀ i : Nat, st.spans.length ≤ i → adds i t ops = .none
  strong : (∀ name orders, Op.reportActive name orders ∉ ops) →
    ∀ (i : Nat) (s : Span) (r : Rec), st.spans[i]? = some s → s.data = some r → s.ended = false →
      AStrong r.attrs (adds i t ops).attrs

theorem hinv_init (t : Int) : HInv t [] (State.init t) :=
  ⟨rfl, usable_initial, by simp [State.init], fun _ _ => rfl, by simp [State.init]⟩

theorem getElem?_lt {α : Type} {l : List α} {i : Nat} {x : α} (h : l[i]? = some x) : i < l.length := by
  by_contra hc
  rw [List.getElem?_eq_none (by omega)] at h; cases h

/-- A step that leaves spans, configuration and clock alone, and adds nothing. -/
theorem HInv.same {t : Int} {ops : List Op} {st st' : State} (h : HInv t ops st) {op : Op}
    (h1 : st'.spans = st.spans) (h2 : Usable st'.cfg) (h3 : st'.now = clock st.now op)
    (h4 : ∀ now i, opAdds now i op = .none) : HInv t (ops ++ [op]) st' := by
  have ha : ∀ i, adds i t (ops ++ [op]) = adds i t ops := by
    intro i; rw [adds_snoc, h4, Adds.append_none]
  refine ⟨?_, h2, ?_, ?_, ?_⟩
  · rw [h3, h.now]; simp [clockAfter]
  · intro i s r hs hr; rw [ha]; rw [h1] at hs; exact h.recs i s r hs hr
  · intro i hi; rw [ha]; rw [h1] at hi; exact h.fresh i hi
  · intro hn i s r hs hr he; rw [ha]; rw [h1] at hs
    exact h.strong (fun n o hm => hn n o (by simp [hm])) i s r hs hr he

theorem modifyRec_cases {st st' : State} {i : Nat} {f : Rec → Res Rec} (h : modifyRec st i f = .ok st') :
    ∃ s, st.spans[i]? = some s ∧ ((s.data = none ∧ st' = st) ∨
      ∃ r r', s.data = some r ∧ f r = .ok r' ∧ st' = { st with spans := st.spans.set i { s with data := some r' } }) := by
  unfold modifyRec at h
  cases hs : st.spans[i]? with
  | none => rw [hs] at h; simp at h
  | some s =>
    rw [hs] at h
    simp only at h
    refine ⟨s, rfl, ?_⟩
    cases hd : s.data with
    | none => rw [hd] at h; cases h; exact .inl ⟨rfl, rfl⟩
    | some r =>
      rw [hd] at h
      simp only at h
      obtain ⟨r', hr', h2⟩ := Res_bind_ok h
      cases h2
      exact .inr ⟨r, r', rfl, hr', rfl⟩

/-- A mutator step. -/
theorem HInv.mutate {t : Int} {ops : List Op} {st st' : State} (h : HInv t ops st) {op : Op} {i : Nat}
    {f : Rec → Res Rec} (hm : modifyRec st i f = .ok st') (hc : ∀ now, clock now op = now)
    (ho : ∀ now j, j ≠ i → opAdds now j op = .none)
    (hf : ∀ r r' a, RecInv r a → f r = .ok r' → RecInv r' (a.append (opAdds st.now i op)) ∧
      (AStrong r.attrs a.attrs → AStrong r'.attrs (a.append (opAdds st.now i op)).attrs)) :
    HInv t (ops ++ [op]) st' := by
  have ha : ∀ j, j ≠ i → adds j t (ops ++ [op]) = adds j t ops := by
    intro j hj; rw [adds_snoc, ho _ _ hj, Adds.append_none]
  have hai : adds i t (ops ++ [op]) = (adds i t ops).append (opAdds st.now i op) := by
    rw [adds_snoc, h.now]
  have hclk : clockAfter t (ops ++ [op]) = clockAfter t ops := by simp [clockAfter, hc]
  obtain ⟨s0, hs0, hcase⟩ := modifyRec_cases hm
  have hlt := getElem?_lt hs0
  rcases hcase with ⟨hd, rfl⟩ | ⟨r0, r1, hd, hr, rfl⟩
  · refine ⟨by rw [hclk]; exact h.now, h.cfg, ?_, ?_, ?_⟩
    · intro j s r hs hr
      have hj : j ≠ i := by rintro rfl; rw [hs0] at hs; cases hs; rw [hd] at hr; cases hr
      rw [ha j hj]; exact h.recs j s r hs hr
    · intro j hj; rw [ha j (by omega)]; exact h.fresh j hj
    · intro hn j s r hs hr he
      have hj : j ≠ i := by rintro rfl; rw [hs0] at hs; cases hs; rw [hd] at hr; cases hr
      rw [ha j hj]
      exact h.strong (fun n o hm => hn n o (by simp [hm])) j s r hs hr he
  · refine ⟨by rw [hclk]; exact h.now, h.cfg, ?_, ?_, ?_⟩
    · intro j s r hs hr'
      by_cases hj : i = j
      · subst hj
        rw [List.getElem?_set_self hlt] at hs
        cases hs; cases hr'
        rw [hai]
        exact (hf r0 r1 _ (h.recs i s0 r0 hs0 hd) hr).1
      · rw [List.getElem?_set_ne hj] at hs
        rw [ha j (Ne.symm hj)]; exact h.recs j s r hs hr'
    · intro j hj
      simp only [List.length_set] at hj
      rw [ha j (by omega)]; exact h.fresh j hj
    · intro hn j s r hs hr' he
      have hn' : ∀ n o, Op.reportActive n o ∉ ops := fun n o hm => hn n o (by simp [hm])
      by_cases hj : i = j
      · subst hj
        rw [List.getElem?_set_self hlt] at hs
        cases hs; cases hr'
        rw [hai]
        exact (hf r0 r1 _ (h.recs i s0 r0 hs0 hd) hr).2 (h.strong hn' i s0 r0 hs0 hd he)
      · rw [List.getElem?_set_ne hj] at hs
        rw [ha j (Ne.symm hj)]; exact h.strong hn' j s r hs hr' he

theorem foldl_attrs {m : LruMap AttrVal} {a : List (Bytes × AttrVal)} (h : AInv m a) (l : List Attribute) :
    AInv (l.foldl (fun m a => m.add a.key a.value) m) (a ++ l.map fun a => (a.key, a.value)) ∧
      (AStrong m a → AStrong (l.foldl (fun m a => m.add a.key a.value) m) (a ++ l.map fun a => (a.key, a.value))) ∧
      (l.foldl (fun m a => m.add a.key a.value) m).maxEntries = m.maxEntries := by
  induction l generalizing m a with
  | nil => simpa using h
  | cons x l ih =>
    obtain ⟨h1, h1c⟩ := h.add x.key x.value
    obtain ⟨i1, i2, i3⟩ := ih h1
    simp only [List.foldl_cons, List.map_cons]
    rw [show a ++ (x.key, x.value) :: l.map (fun a => (a.key, a.value)) =
      (a ++ [(x.key, x.value)]) ++ l.map (fun a => (a.key, a.value)) by simp]
    exact ⟨i1, fun hs => i2 (AStrong.add h hs _ _), i3.trans h1c⟩

theorem HInv.onSpan {t : Int} {ops : List Op} {st st' : State} (h : HInv t ops st) {op : Op} {s : Option Nat}
    {f : Rec → Res Rec} (hm : (Trace.onSpan st s fun i => modifyRec st i f) = .ok st') (hc : ∀ now, clock now op = now)
    (ho : ∀ now j, s ≠ some j → opAdds now j op = .none)
    (hf : ∀ i, s = some i → ∀ r r' a, RecInv r a → f r = .ok r' → RecInv r' (a.append (opAdds st.now i op)) ∧
      (AStrong r.attrs a.attrs → AStrong r'.attrs (a.append (opAdds st.now i op)).attrs)) :
    HInv t (ops ++ [op]) st' := by
  cases s with
  | none =>
    cases hm
    exact h.same rfl h.cfg (hc _).symm (fun now i => ho now i (by simp))
  | some i =>
    exact h.mutate hm hc (fun now j hj => ho now j (by simpa using Ne.symm hj)) (hf i rfl)

theorem HInv.start {t : Int} {ops : List Op} {st st' : State} (h : HInv t ops st) {op : Op}
    {name : Bytes} {hasParent : Bool} {parent : SpanContext} {remote : Bool} {o : StartOptions} {tid sid : Bytes}
    (hs : startSpanInternal st name hasParent parent remote o tid sid = .ok st')
    (hc : ∀ now, clock now op = now) (ho : ∀ now j, opAdds now j op = .none) :
    HInv t (ops ++ [op]) st' := by
  have ha : ∀ i, adds i t (ops ++ [op]) = adds i t ops := by
    intro i; rw [adds_snoc, ho, Adds.append_none]
  have hclk : clockAfter t (ops ++ [op]) = clockAfter t ops := by simp [clockAfter, hc]
  obtain ⟨s0, h1, h2, h3, h4, h5, h6⟩ := startSpanInternal_ok hs
  have hcfg : st'.cfg = st.cfg ∧ st'.now = st.now := by
    unfold startSpanInternal at hs
    split at hs
    · simp at hs
    · split at hs
      · simp at hs
      · simp only at hs
        split at hs
        · cases hs; exact ⟨rfl, rfl⟩
        · split at hs <;> (cases hs; exact ⟨rfl, rfl⟩)
  have hfr := h.fresh st.spans.length (Nat.le_refl _)
  have hcase : ∀ (j : Nat) (s : Span), st'.spans[j]? = some s → st.spans[j]? = some s ∨ (j = st.spans.length ∧ s = s0) := by
    intro j s hj
    rw [h1] at hj
    rcases Nat.lt_trichotomy j st.spans.length with hlt | heq | hgt
    · rw [List.getElem?_append_left hlt] at hj; exact .inl hj
    · subst heq
      rw [List.getElem?_append_right (Nat.le_refl _)] at hj
      simp at hj; exact .inr ⟨rfl, hj.symm⟩
    · rw [List.getElem?_eq_none (by simp; omega)] at hj; cases hj
  refine ⟨by rw [hclk, hcfg.2]; exact h.now, by rw [hcfg.1]; exact h.cfg, ?_, ?_, ?_⟩
  · intro j s r hj hr
    rw [ha]
    rcases hcase j s hj with hj | ⟨rfl, rfl⟩
    · exact h.recs j s r hj hr
    · rw [hfr, h6 r hr]
      exact ⟨qinv_new h.cfg.annotations, qinv_new h.cfg.messageEvents, qinv_new h.cfg.links, ainv_new h.cfg.attributes⟩
  · intro j hj
    rw [ha]
    rw [h1] at hj
    simp at hj
    exact h.fresh j (by omega)
  · intro hn j s r hj hr he
    rw [ha]
    rcases hcase j s hj with hj | ⟨rfl, rfl⟩
    · exact h.strong (fun n o hm => hn n o (by simp [hm])) j s r hj hr he
    · rw [hfr, h6 r hr]; exact astrong_new _

theorem makeSpanData_attrs {r r' : Rec} {order : List Bytes} {sd : SpanData} {a : Adds} (ha : RecInv r a)
    (h : r.makeSpanData order = .ok (r', sd)) : RecInv r' a ∧
      r'.attrs.maxEntries = r.attrs.maxEntries := by
  obtain ⟨h1, h2, h3, h4, h5⟩ := makeSpanData_ok h
  obtain ⟨g1, g2, g3, g4⟩ := ha.attrs.read h5
  have hr : r'.attrs = r.attrs ∨ r'.attrs = (r.attrs.toAttributeMap order).1 := by
    unfold Rec.makeSpanData at h
    split at h
    · simp at h
    · simp only [Res.ok.injEq, Prod.mk.injEq] at h
      obtain ⟨h, _⟩ := h
      subst h
      split
      · exact .inr rfl
      · exact .inl rfl
  refine ⟨⟨by rw [h2]; exact ha.anns, by rw [h3]; exact ha.msgs, by rw [h4]; exact ha.links, ?_⟩, ?_⟩
  · rcases hr with hr | hr <;> rw [hr]
    · exact ha.attrs
    · exact g1
  · rcases hr with hr | hr <;> rw [hr]
    rw [g2]

/-- The result of `End` on a recording span that has not ended. -/
inductive Ended (st : State) (i : Nat) (s : Span) (r : Rec) (order : List Bytes) : State → Prop where
  | quiet (h1 : s.store = none) (h2 : (s.ctx.isSampled && decide (st.exporters.length > 0)) = false) :
      Ended st i s r order { st with spans := st.spans.set i { s with ended := true } }
  | full (r' : Rec) (sd : SpanData) (hm : r.makeSpanData order = .ok (r', sd)) (stores : GoMap Bytes Store)
      (hst : (s.store = none ∧ stores = st.stores) ∨ ∃ name store store', s.store = some name ∧
        GoMap.get st.stores name = some store ∧
        store.finished i { sd with endTime := monotonicEndTime sd.startTime st.now } = .ok store' ∧
        stores = GoMap.set st.stores name store') :
      Ended st i s r order { st with
        spans := st.spans.set i { s with data := some r', ended := true }
        stores := stores
        exported := st.exported ++ if s.ctx.isSampled then
          st.exporters.map fun e => (e, i, { sd with endTime := monotonicEndTime sd.startTime st.now }) else [] }

theorem endBody_cases {st st' : State} {i : Nat} {s : Span} {r : Rec} {order : List Bytes}
    (h : endBody st i s r order = .ok st') : Ended st i s r order st' := by
  unfold endBody at h
  simp only at h
  split at h
  · next hc =>
    obtain ⟨⟨r', sd⟩, hm, h⟩ := Res_bind_ok h
    simp only at h
    have hexp : (if (s.ctx.isSampled && decide (st.exporters.length > 0)) = true then
        st.exported ++ st.exporters.map fun e => (e, i, { sd with endTime := monotonicEndTime sd.startTime st.now })
        else st.exported) = st.exported ++ if s.ctx.isSampled then
          st.exporters.map fun e => (e, i, { sd with endTime := monotonicEndTime sd.startTime st.now }) else [] := by
      cases hs : s.ctx.isSampled
      · simp
      · cases he : st.exporters <;> simp
    cases hst : s.store with
    | none =>
      rw [hst] at h
      simp only [Res.ok.injEq] at h
      have := Ended.full (st := st) (i := i) (s := s) (order := order) r' sd hm st.stores (.inl ⟨hst, rfl⟩)
      rw [← hexp] at this
      rw [← h]
      convert this using 1
      rw [hst]
      split <;> rfl
    | some name =>
      rw [hst] at h
      simp only at h
      cases hg : GoMap.get st.stores name with
      | none => rw [hg] at h; simp at h
      | some store =>
        rw [hg] at h
        simp only at h
        obtain ⟨store', hf, h⟩ := Res_bind_ok h
        simp only [Res.ok.injEq] at h
        have := Ended.full (st := st) (i := i) (s := s) (order := order) r' sd hm _
          (.inr ⟨name, store, store', hst, hg, hf, rfl⟩)
        rw [← hexp] at this
        rw [← h]
        convert this using 1
        rw [hst]
        split <;> rfl
  · next hc =>
    cases h
    rw [Bool.not_eq_true, Bool.or_eq_false_iff] at hc
    exact .quiet (by simpa using hc.1) hc.2

theorem endSpan_cases {st st' : State} {i : Nat} {order : List Bytes} (h : endSpan st i order = .ok st') :
    ∃ s, st.spans[i]? = some s ∧ ((st' = st ∧ (s.data = none ∨ s.ended = true)) ∨
      ∃ r, s.data = some r ∧ s.ended = false ∧ Ended st i s r order st') := by
  unfold endSpan at h
  cases hs : st.spans[i]? with
  | none => rw [hs] at h; simp at h
  | some s =>
    rw [hs] at h
    simp only at h
    refine ⟨s, rfl, ?_⟩
    cases hd : s.data with
    | none => rw [hd] at h; cases h; exact .inl ⟨rfl, .inl rfl⟩
    | some r =>
      rw [hd] at h
      simp only at h
      split at h
      · next he => cases h; exact .inl ⟨rfl, .inr he⟩
      · next he => exact .inr ⟨r, rfl, by simpa using he, endBody_cases h⟩

/-- Reading a span. -/
theorem HInv.read {t : Int} {ops : List Op} {st : State} (h : HInv t ops st) {i : Nat} {s s' : Span} {r r' : Rec}
    {order : List Bytes} {sd : SpanData} (hs : st.spans[i]? = some s) (hd : s.data = some r)
    (hm : r.makeSpanData order = .ok (r', sd)) (hd' : s'.data = some r') :
    ∀ (j : Nat) (x : Span) (rx : Rec), (st.spans.set i s')[j]? = some x → x.data = some rx → RecInv rx (adds j t ops) := by
  intro j x rx hj hx
  by_cases hij : i = j
  · subst hij
    rw [List.getElem?_set_self (getElem?_lt hs)] at hj
    cases hj
    rw [hd'] at hx; cases hx
    exact (makeSpanData_attrs (h.recs i s r hs hd) hm).1
  · rw [List.getElem?_set_ne hij] at hj
    exact h.recs j x rx hj hx

theorem reportActiveLoop_recs {st st' : State} {is : List Nat} {orders : List (List Bytes)} {out : List SpanData}
    {a : Nat → Adds} (hr : ∀ (i : Nat) (s : Span) (r : Rec), st.spans[i]? = some s → s.data = some r → RecInv r (a i))
    (h : reportActiveLoop st is orders = .ok (st', out)) :
    ∀ (i : Nat) (s : Span) (r : Rec), st'.spans[i]? = some s → s.data = some r → RecInv r (a i) := by
  induction is generalizing st orders out with
  | nil => cases h; exact hr
  | cons i is ih =>
    cases orders with
    | nil => simp [reportActiveLoop] at h
    | cons order orders =>
      simp only [reportActiveLoop] at h
      cases hs : st.spans[i]? with
      | none => rw [hs] at h; simp at h
      | some s =>
        rw [hs] at h
        simp only at h
        cases hd : s.data with
        | none => rw [hd] at h; simp at h
        | some r =>
          rw [hd] at h
          simp only at h
          obtain ⟨⟨r', sd⟩, hm, h⟩ := Res_bind_ok h
          simp only at h
          obtain ⟨⟨st1, out1⟩, h1, h⟩ := Res_bind_ok h
          cases h
          refine ih (st := { st with spans := st.spans.set i { s with data := some r' } }) ?_ h1
          intro j x rx hj hx
          by_cases hij : i = j
          · subst hij
            simp only at hj
            rw [List.getElem?_set_self (getElem?_lt hs)] at hj
            cases hj; cases hx
            exact (makeSpanData_attrs (hr i s r hs hd) hm).1
          · simp only at hj
            rw [List.getElem?_set_ne hij] at hj
            exact hr j x rx hj hx

theorem HInv.step {t : Int} {ops : List Op} {st st' : State} (h : HInv t ops st) {op : Op}
    (hs : Trace.step st op = .ok st') : HInv t (ops ++ [op]) st' := by
  have noAdd : ∀ r a, RecInv r a → RecInv r (a.append .none) := fun r a h => by rw [Adds.append_none]; exact h
  cases op with
  | start p name opts tid sid =>
    cases p with
    | none => exact h.start hs (fun _ => rfl) (fun _ _ => rfl)
    | some p =>
      simp only [Trace.step, startSpan] at hs
      cases hp : st.spans[p]? with
      | none => rw [hp] at hs; simp at hs
      | some ps =>
        rw [hp] at hs
        simp only at hs
        obtain ⟨st1, hm, hs⟩ := Res_bind_ok hs
        -- the parent's child count
        have h1 : HInv t (ops ++ [Op.tick 0]) st1 :=
          h.mutate (op := .tick 0) hm (fun now => by simp [clock]) (fun _ _ _ => rfl) (by
            intro r r' a hr hf
            cases hf
            rw [show opAdds st.now p (Op.tick 0) = .none from rfl, Adds.append_none]
            exact ⟨⟨hr.anns, hr.msgs, hr.links, hr.attrs⟩, id⟩)
        have h1 : HInv t ops st1 := by
          have ha : ∀ i, adds i t (ops ++ [Op.tick 0]) = adds i t ops := by
            intro i; rw [adds_snoc]; exact Adds.append_none _
          refine ⟨by rw [h1.now]; simp [clockAfter, clock], h1.cfg, ?_, ?_, ?_⟩
          · intro i s r hi hr; rw [← ha]; exact h1.recs i s r hi hr
          · intro i hi; rw [← ha]; exact h1.fresh i hi
          · intro hn i s r hi hr he; rw [← ha]
            exact h1.strong (fun n o hmem => by
              rcases List.mem_append.mp hmem with hmem | hmem
              · exact hn n o hmem
              · simp at hmem) i s r hi hr he
        exact h1.start hs (fun _ => rfl) (fun _ _ => rfl)
  | startRemote sc name opts tid sid => exact h.start hs (fun _ => rfl) (fun _ _ => rfl)
  | setName s name =>
    refine h.onSpan hs (fun _ => rfl) (fun _ _ _ => rfl) ?_
    intro i _ r r' a hr hf
    cases hf
    rw [show opAdds st.now i (Op.setName s name) = .none from rfl, Adds.append_none]
    exact ⟨⟨hr.anns, hr.msgs, hr.links, hr.attrs⟩, id⟩
  | setStatus s x =>
    refine h.onSpan hs (fun _ => rfl) (fun _ _ _ => rfl) ?_
    intro i _ r r' a hr hf
    cases hf
    rw [show opAdds st.now i (Op.setStatus s x) = .none from rfl, Adds.append_none]
    exact ⟨⟨hr.anns, hr.msgs, hr.links, hr.attrs⟩, id⟩
  | addAttributes s l =>
    refine h.onSpan hs (fun _ => rfl) (fun _ j hj => by simp [opAdds, hj]) ?_
    intro i hi r r' a hr hf
    cases hf
    obtain ⟨g1, g2, _⟩ := foldl_attrs hr.attrs l
    subst hi
    simp only [opAdds, if_true, Adds.append, Adds.none, List.append_nil]
    exact ⟨⟨hr.anns, hr.msgs, hr.links, g1⟩, g2⟩
  | annotate s l msg =>
    refine h.onSpan hs (fun _ => rfl) (fun _ j hj => by simp [opAdds, hj]) ?_
    intro i hi r r' a hr hf
    obtain ⟨q, hq, hf⟩ := Res_bind_ok hf
    cases hf
    obtain ⟨q', hq', hi', _⟩ := hr.anns.add ⟨st.now, msg, attrMap l⟩
    rw [hq] at hq'; cases hq'
    subst hi
    simp only [opAdds, if_true, Adds.append, Adds.none, List.append_nil]
    exact ⟨⟨hi', hr.msgs, hr.links, hr.attrs⟩, id⟩
  | addMessageEvent s ty id' un co =>
    refine h.onSpan hs (fun _ => rfl) (fun _ j hj => by simp [opAdds, hj]) ?_
    intro i hi r r' a hr hf
    obtain ⟨q, hq, hf⟩ := Res_bind_ok hf
    cases hf
    obtain ⟨q', hq', hi', _⟩ := hr.msgs.add ⟨st.now, ty, id', un, co⟩
    rw [hq] at hq'; cases hq'
    subst hi
    simp only [opAdds, if_true, Adds.append, Adds.none, List.append_nil]
    exact ⟨⟨hr.anns, hi', hr.links, hr.attrs⟩, id⟩
  | addLink s l =>
    refine h.onSpan hs (fun _ => rfl) (fun _ j hj => by simp [opAdds, hj]) ?_
    intro i hi r r' a hr hf
    obtain ⟨q, hq, hf⟩ := Res_bind_ok hf
    cases hf
    obtain ⟨q', hq', hi', _⟩ := hr.links.add l
    rw [hq] at hq'; cases hq'
    subst hi
    simp only [opAdds, if_true, Adds.append, Adds.none, List.append_nil]
    exact ⟨⟨hr.anns, hr.msgs, hi', hr.attrs⟩, id⟩
  | endSpan s order =>
    cases s with
    | none => cases hs; exact h.same rfl h.cfg rfl (fun _ _ => rfl)
    | some i =>
      obtain ⟨s, hi, ⟨rfl, _⟩ | ⟨r, hd, he, hE⟩⟩ := endSpan_cases hs
      · exact h.same rfl h.cfg rfl (fun _ _ => rfl)
      · have ha : ∀ j, adds j t (ops ++ [Op.endSpan (some i) order]) = adds j t ops := by
          intro j; rw [adds_snoc]; exact Adds.append_none _
        have hclk : clockAfter t (ops ++ [Op.endSpan (some i) order]) = clockAfter t ops := by simp [clockAfter, clock]
        have key : ∀ (s' : Span), s'.ended = true →
            (∀ (j : Nat) (x : Span) (rx : Rec), (st.spans.set i s')[j]? = some x → x.data = some rx → RecInv rx (adds j t ops)) →
            ∀ st1 : State, st1.spans = st.spans.set i s' → st1.cfg = st.cfg → st1.now = st.now →
            HInv t (ops ++ [Op.endSpan (some i) order]) st1 := by
          intro s' he' hrec st1 e1 e2 e3
          refine ⟨by rw [hclk, e3]; exact h.now, by rw [e2]; exact h.cfg, ?_, ?_, ?_⟩
          · intro j x rx hj hx; rw [ha]; rw [e1] at hj; exact hrec j x rx hj hx
          · intro j hj; rw [ha]; rw [e1] at hj; simp at hj; exact h.fresh j hj
          · intro hn j x rx hj hx hxe
            rw [ha]
            rw [e1] at hj
            by_cases hij : i = j
            · subst hij
              rw [List.getElem?_set_self (getElem?_lt hi)] at hj
              cases hj
              rw [he'] at hxe; cases hxe
            · rw [List.getElem?_set_ne hij] at hj
              exact h.strong (fun n o hm => hn n o (by simp [hm])) j x rx hj hx hxe
        cases hE with
        | quiet h1 h2 =>
          refine key { s with ended := true } rfl ?_ _ rfl rfl rfl
          intro j x rx hj hx
          by_cases hij : i = j
          · subst hij
            rw [List.getElem?_set_self (getElem?_lt hi)] at hj
            cases hj
            exact h.recs i s rx hi hx
          · rw [List.getElem?_set_ne hij] at hj
            exact h.recs j x rx hj hx
        | full r' sd hm stores hst =>
          exact key { s with data := some r', ended := true } rfl (h.read hi hd hm rfl) _ rfl rfl rfl
  | registerExporter e => cases hs; exact h.same rfl h.cfg rfl (fun _ _ => rfl)
  | unregisterExporter e => cases hs; exact h.same rfl h.cfg rfl (fun _ _ => rfl)
  | applyConfig c => cases hs; exact h.same rfl (usable_apply h.cfg c) rfl (fun _ _ => rfl)
  | configure bcs =>
    obtain ⟨stores, _, hs⟩ := Res_bind_ok hs
    cases hs; exact h.same rfl h.cfg rfl (fun _ _ => rfl)
  | reportActive name orders =>
    obtain ⟨⟨st1, out⟩, h1, hs⟩ := Res_bind_ok hs
    cases hs
    unfold reportActive at h1
    split at h1
    · cases h1
      exact h.same rfl h.cfg rfl (fun _ _ => rfl)
    · obtain ⟨_, k2, k3⟩ := reportActiveLoop_spans h1
      have hrec := reportActiveLoop_recs h.recs h1
      have ha : ∀ j, adds j t (ops ++ [Op.reportActive name orders]) = adds j t ops := by
        intro j; rw [adds_snoc]; exact Adds.append_none _
      refine ⟨?_, ?_, ?_, ?_, ?_⟩
      · rw [k3, show clockAfter t (ops ++ [Op.reportActive name orders]) = clockAfter t ops by simp [clockAfter, clock]]
        exact h.now
      · rw [k3]; exact h.cfg
      · intro j x rx hj hx; rw [ha]; exact hrec j x rx hj hx
      · intro j hj; rw [ha]; exact h.fresh j (by omega)
      · intro hn; exact absurd (by simp) (hn name orders)
  | enableStore => cases hs; exact h.same rfl h.cfg rfl (fun _ _ => rfl)
  | tick d => cases hs; exact h.same rfl h.cfg rfl (fun _ _ => rfl)

theorem hinv_run {t : Int} {ops : List Op} {st : State} (h : run (State.init t) ops = .ok st) : HInv t ops st := by
  induction ops using List.reverseRecOn generalizing st with
  | nil => cases h; exact hinv_init t
  | append_singleton ops op ih =>
    obtain ⟨mid, h1, h2⟩ := run_snoc_ok h
    exact (ih h1).step h2

end Verif.Trace
