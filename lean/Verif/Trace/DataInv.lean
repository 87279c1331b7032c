import Verif.Trace.ExportInv

/-! # Name, status and child count of a span -/

namespace Verif.Trace
open Verif

/-- The fields of the span data that mutators overwrite. -/
structure Core where
  name : Bytes
  status : Status
  children : Int

def Rec.core (r : Rec) : Core := ⟨r.data.name, r.data.status, r.data.childSpanCount⟩

/-- What an operation does to them on span `i`. -/
def coreStep (i : Nat) (c : Core) : Op → Core
  | .setName s n => if s = some i then { c with name := n } else c
  | .setStatus s x => if s = some i then { c with status := x } else c
  | .start p _ _ _ _ => if p = some i then { c with children := wrap64 (c.children + 1) } else c
  | _ => c

structure CoreRel (st st' : State) (op : Op) : Prop where
  old : ∀ (j : Nat) (s : Span) (r : Rec), st.spans[j]? = some s → s.data = some r →
    ∀ (s' : Span) (r' : Rec), st'.spans[j]? = some s' → s'.data = some r' → r'.core = coreStep j r.core op
  fresh : ∀ j : Nat, st.spans.length ≤ j → ∀ c, coreStep j c op = c
  same : st'.spans.length = st.spans.length

theorem coreRel_modify {st st' : State} {i : Nat} {f : Rec → Res Rec} (h : modifyRec st i f = .ok st') {op : Op}
    (hf : ∀ r r', f r = .ok r' → r'.core = coreStep i r.core op) (ho : ∀ j c, j ≠ i → coreStep j c op = c) :
    CoreRel st st' op := by
  obtain ⟨s0, hs0, hc⟩ := modifyRec_cases h
  have hlt := getElem?_lt hs0
  rcases hc with ⟨hd, rfl⟩ | ⟨r0, r1, hd, hr, rfl⟩
  · refine ⟨?_, fun j hj c => ho j c (by omega), rfl⟩
    intro j s r hs hr s' r' hs' hr'
    rw [hs] at hs'; cases hs'; rw [hr] at hr'; cases hr'
    rw [ho]
    rintro rfl
    rw [hs0] at hs; cases hs; rw [hd] at hr; cases hr
  · refine ⟨?_, fun j hj c => ho j c (by omega), by simp⟩
    intro j s r hs hr' s' r' hs' hr''
    by_cases hj : i = j
    · subst hj
      simp only [List.getElem?_set_self hlt] at hs'
      cases hs'; cases hr''
      rw [hs0] at hs; cases hs; rw [hd] at hr'; cases hr'
      exact hf _ _ hr
    · simp only [List.getElem?_set_ne hj] at hs'
      rw [hs] at hs'; cases hs'; rw [hr'] at hr''; cases hr''
      rw [ho j _ (Ne.symm hj)]

theorem coreRel_same {st st' : State} {op : Op} (h : st'.spans = st.spans) (ho : ∀ j c, coreStep j c op = c) :
    CoreRel st st' op := by
  refine ⟨?_, fun j _ c => ho j c, by rw [h]⟩
  intro j s r hs hr s' r' hs' hr'
  rw [h, hs] at hs'; cases hs'; rw [hr] at hr'; cases hr'
  rw [ho]

theorem reportActiveLoop_core {st st' : State} {is : List Nat} {orders : List (List Bytes)} {out : List SpanData}
    (h : reportActiveLoop st is orders = .ok (st', out)) :
    ∀ (j : Nat) (s : Span) (r : Rec), st.spans[j]? = some s → s.data = some r →
      ∀ (s' : Span) (r' : Rec), st'.spans[j]? = some s' → s'.data = some r' → r'.core = r.core := by
  induction is generalizing st orders out with
  | nil =>
    cases h
    intro j s r hs hr s' r' hs' hr'
    rw [hs] at hs'; cases hs'; rw [hr] at hr'; cases hr'; rfl
  | cons i is ih =>
    cases orders with
    | nil => simp [reportActiveLoop] at h
    | cons order orders =>
      simp only [reportActiveLoop] at h
      cases hs : st.spans[i]? with
      | none => rw [hs] at h; simp at h
      | some s =>
        rw [hs] at h
        simp only at h
        cases hd : s.data with
        | none => rw [hd] at h; simp at h
        | some r =>
          rw [hd] at h
          simp only at h
          obtain ⟨⟨r', sd⟩, hm, h⟩ := Res_bind_ok h
          simp only at h
          obtain ⟨⟨st1, out1⟩, h1, h⟩ := Res_bind_ok h
          cases h
          intro j sj rj hsj hrj s' r'' hs' hr'
          by_cases hij : i = j
          · subst hij
            rw [hs] at hsj; cases hsj; rw [hd] at hrj; cases hrj
            rw [ih h1 i { s with data := some r' } r' (by simp [List.getElem?_set_self (getElem?_lt hs)]) rfl s' r'' hs' hr']
            simp [Rec.core, (makeSpanData_ok hm).1]
          · exact ih h1 j sj rj (by simp [List.getElem?_set_ne hij, hsj]) hrj s' r'' hs' hr'

theorem step_core {st st' : State} {op : Op} (h : step st op = .ok st') :
    (∀ (j : Nat) (s : Span) (r : Rec), st.spans[j]? = some s → s.data = some r →
      ∀ (s' : Span) (r' : Rec), st'.spans[j]? = some s' → s'.data = some r' → r'.core = coreStep j r.core op) ∧
    (∀ j : Nat, st.spans.length ≤ j → ∀ c, coreStep j c op = c) ∧
    (∀ (j : Nat) (s' : Span) (r' : Rec), st.spans.length ≤ j → st'.spans[j]? = some s' → s'.data = some r' →
      r'.data.status = ⟨0, []⟩ ∧ r'.data.childSpanCount = 0 ∧
        ((∃ p o a b, op = .start p r'.data.name o a b) ∨ (∃ p o a b, op = .startRemote p r'.data.name o a b))) := by
  have pack : CoreRel st st' op →
    (∀ (j : Nat) (s : Span) (r : Rec), st.spans[j]? = some s → s.data = some r →
      ∀ (s' : Span) (r' : Rec), st'.spans[j]? = some s' → s'.data = some r' → r'.core = coreStep j r.core op) ∧
    (∀ j : Nat, st.spans.length ≤ j → ∀ c, coreStep j c op = c) ∧
    (∀ (j : Nat) (s' : Span) (r' : Rec), st.spans.length ≤ j → st'.spans[j]? = some s' → s'.data = some r' →
      r'.data.status = ⟨0, []⟩ ∧ r'.data.childSpanCount = 0 ∧
        ((∃ p o a b, op = .start p r'.data.name o a b) ∨ (∃ p o a b, op = .startRemote p r'.data.name o a b))) := by
    intro k
    refine ⟨k.old, k.fresh, ?_⟩
    intro j s' r' hj hs'
    rw [List.getElem?_eq_none (by rw [k.same]; exact hj)] at hs'; cases hs'
  have mod : ∀ (s : Option Nat) (f : Rec → Res Rec), (∀ i, s = some i → ∀ r r', f r = .ok r' → r'.core = coreStep i r.core op) →
      (∀ j c, s ≠ some j → coreStep j c op = c) → (onSpan st s fun i => modifyRec st i f) = .ok st' → CoreRel st st' op := by
    intro s f hf ho hm
    cases s with
    | none => cases hm; exact coreRel_same rfl (fun j c => ho j c (by simp))
    | some i => exact coreRel_modify hm (hf i rfl) (fun j c hj => ho j c (by simpa using Ne.symm hj))
  have start : ∀ (mid : State) (name : Bytes) (hp : Bool) (parent : SpanContext) (remote : Bool) (o : StartOptions)
      (tid sid : Bytes), CoreRel st mid op → startSpanInternal mid name hp parent remote o tid sid = .ok st' →
      ((∃ p o a b, op = .start p name o a b) ∨ (∃ p o a b, op = .startRemote p name o a b)) →
    (∀ (j : Nat) (s : Span) (r : Rec), st.spans[j]? = some s → s.data = some r →
      ∀ (s' : Span) (r' : Rec), st'.spans[j]? = some s' → s'.data = some r' → r'.core = coreStep j r.core op) ∧
    (∀ j : Nat, st.spans.length ≤ j → ∀ c, coreStep j c op = c) ∧
    (∀ (j : Nat) (s' : Span) (r' : Rec), st.spans.length ≤ j → st'.spans[j]? = some s' → s'.data = some r' →
      r'.data.status = ⟨0, []⟩ ∧ r'.data.childSpanCount = 0 ∧
        ((∃ p o a b, op = .start p r'.data.name o a b) ∨ (∃ p o a b, op = .startRemote p r'.data.name o a b))) := by
    intro mid name hp parent remote o tid sid k hs hop
    obtain ⟨s0, h1, h2, h3, h4, h5, h6⟩ := startSpanInternal_ok hs
    refine ⟨?_, k.fresh, ?_⟩
    · intro j s r hsj hr s' r' hs' hr'
      have hlt := getElem?_lt hsj
      rw [h1, List.getElem?_append_left (by rw [k.same]; exact hlt)] at hs'
      exact k.old j s r hsj hr s' r' hs' hr'
    · intro j s' r' hj hs' hr'
      rw [h1] at hs'
      rw [List.getElem?_append_right (by rw [k.same]; exact hj)] at hs'
      have : j - mid.spans.length = 0 := by
        have := getElem?_lt hs'; simp at this; exact this
      rw [this] at hs'
      simp at hs'
      subst hs'
      rw [h6 r' hr']
      exact ⟨rfl, rfl, hop⟩
  cases op with
  | start p name opts tid sid =>
    cases p with
    | none =>
      exact start st name false .zero false _ tid sid (coreRel_same rfl (by simp [coreStep])) h (.inl ⟨_, _, _, _, rfl⟩)
    | some p =>
      simp only [step, startSpan] at h
      cases hp : st.spans[p]? with
      | none => rw [hp] at h; simp at h
      | some ps =>
        rw [hp] at h
        simp only at h
        obtain ⟨st1, hm, h⟩ := Res_bind_ok h
        refine start st1 name _ _ _ _ tid sid (coreRel_modify hm ?_ ?_) h (.inl ⟨_, _, _, _, rfl⟩)
        · intro r r' hr; cases hr; simp [Rec.core, coreStep]
        · intro j c hj; simp [coreStep, Ne.symm hj]
  | startRemote sc name opts tid sid =>
    exact start st name _ _ _ _ tid sid (coreRel_same rfl (by simp [coreStep])) h (.inr ⟨_, _, _, _, rfl⟩)
  | setName s name =>
    refine pack (mod s _ ?_ ?_ h)
    · rintro i rfl r r' hr; cases hr; simp [Rec.core, coreStep]
    · intro j c hj; simp [coreStep, hj]
  | setStatus s x =>
    refine pack (mod s _ ?_ ?_ h)
    · rintro i rfl r r' hr; cases hr; simp [Rec.core, coreStep]
    · intro j c hj; simp [coreStep, hj]
  | addAttributes s l =>
    exact pack (mod s _ (by rintro i rfl r r' hr; cases hr; rfl) (by simp [coreStep]) h)
  | annotate s l m =>
    refine pack (mod s _ ?_ (by simp [coreStep]) h)
    rintro i rfl r r' hr; obtain ⟨q, _, hr⟩ := Res_bind_ok hr; cases hr; rfl
  | addMessageEvent s t a b c =>
    refine pack (mod s _ ?_ (by simp [coreStep]) h)
    rintro i rfl r r' hr; obtain ⟨q, _, hr⟩ := Res_bind_ok hr; cases hr; rfl
  | addLink s l =>
    refine pack (mod s _ ?_ (by simp [coreStep]) h)
    rintro i rfl r r' hr; obtain ⟨q, _, hr⟩ := Res_bind_ok hr; cases hr; rfl
  | endSpan s order =>
    cases s with
    | none => cases h; exact pack (coreRel_same rfl (by simp [coreStep]))
    | some i =>
      obtain ⟨s, hi, ⟨rfl, hx⟩ | ⟨r, hd, he, hE⟩⟩ := endSpan_cases h
      · exact pack (coreRel_same rfl (by simp [coreStep]))
      · have hlt := getElem?_lt hi
        apply pack
        cases hE with
        | quiet h1 h2 =>
          refine ⟨?_, by simp [coreStep], by simp⟩
          intro j sj rj hsj hrj s' r' hs' hr'
          simp only [coreStep]
          by_cases hij : i = j
          · subst hij
            simp only [List.getElem?_set_self hlt] at hs'
            cases hs'
            rw [hi] at hsj; cases hsj
            rw [hrj] at hr'; cases hr'; rfl
          · simp only [List.getElem?_set_ne hij] at hs'
            rw [hsj] at hs'; cases hs'; rw [hrj] at hr'; cases hr'; rfl
        | full r1 sd hm stores hst =>
          refine ⟨?_, by simp [coreStep], by simp⟩
          intro j sj rj hsj hrj s' r' hs' hr'
          simp only [coreStep]
          by_cases hij : i = j
          · subst hij
            simp only [List.getElem?_set_self hlt] at hs'
            cases hs'
            rw [hi] at hsj; cases hsj
            rw [hd] at hrj; cases hrj; cases hr'
            simp [Rec.core, (makeSpanData_ok hm).1]
          · simp only [List.getElem?_set_ne hij] at hs'
            rw [hsj] at hs'; cases hs'; rw [hrj] at hr'; cases hr'; rfl
  | registerExporter e => cases h; exact pack (coreRel_same rfl (by simp [coreStep]))
  | unregisterExporter e => cases h; exact pack (coreRel_same rfl (by simp [coreStep]))
  | applyConfig c => cases h; exact pack (coreRel_same rfl (by simp [coreStep]))
  | configure bcs =>
    obtain ⟨stores, h1, h⟩ := Res_bind_ok h
    cases h; exact pack (coreRel_same rfl (by simp [coreStep]))
  | reportActive name orders =>
    obtain ⟨⟨st1, out⟩, h1, h⟩ := Res_bind_ok h
    cases h
    unfold reportActive at h1
    split at h1
    · cases h1; exact pack (coreRel_same rfl (by simp [coreStep]))
    · exact pack ⟨reportActiveLoop_core h1, by simp [coreStep], (reportActiveLoop_spans h1).2.1⟩
  | enableStore => cases h; exact pack (coreRel_same rfl (by simp [coreStep]))
  | tick d => cases h; exact pack (coreRel_same rfl (by simp [coreStep]))

end Verif.Trace
