import Verif.Props.Start
import Verif.Trace.DataInv

/-!
# C27-C31 and C55: exported spans
(C27 with concurrent callers is in `Verif.Props.EndConc`.)
-/

namespace Verif.Props.Spans
open Verif Verif.Trace Verif.Props.Start

/-! ## Helper lemmas -/

/-- Where an exported span comes from. -/
theorem exported_from {t : Int} {ops : List Op} {st : State} (h : run (State.init t) ops = .ok st)
    {e : Exporter} {i : Nat} {sd : SpanData} (hx : (e, i, sd) ∈ st.exported) :
    ∃ a order b mid s r r' sd0, ops = a ++ .endSpan (some i) order :: b ∧ run (State.init t) a = .ok mid ∧
      mid.spans[i]? = some s ∧ s.data = some r ∧ s.ended = false ∧ s.ctx.isSampled = true ∧ e ∈ mid.exporters ∧
      r.makeSpanData order = .ok (r', sd0) ∧ sd = finalData sd0 mid.now := by
  induction ops using List.reverseRecOn generalizing st with
  | nil => cases h; simp [State.init] at hx
  | append_singleton ops op ih =>
    obtain ⟨mid, h1, h2⟩ := run_snoc_ok h
    have old : (e, i, sd) ∈ mid.exported → ∃ a order b mid s r r' sd0, ops ++ [op] = a ++ .endSpan (some i) order :: b ∧
        run (State.init t) a = .ok mid ∧
        mid.spans[i]? = some s ∧ s.data = some r ∧ s.ended = false ∧ s.ctx.isSampled = true ∧ e ∈ mid.exporters ∧
        r.makeSpanData order = .ok (r', sd0) ∧ sd = finalData sd0 mid.now := by
      intro hx
      obtain ⟨a, order, b, mid', s, r, r', sd0, e1, e2⟩ := ih h1 hx
      exact ⟨a, order, b ++ [op], mid', s, r, r', sd0, by rw [e1]; simp, e2⟩
    cases step_kind h2 with
    | quiet k1 k2 k3 => rw [k2] at hx; exact old hx
    | start v k1 k2 k3 k4 k5 => rw [k3] at hx; exact old hx
    | ended j order s r k1 k2 k3 k4 k5 =>
      cases k5 with
      | quiet _ _ => exact old hx
      | full r' sd0 hm stores hst =>
        rcases List.mem_append.mp hx with hx | hx
        · exact old hx
        · split at hx
          · next hs =>
            obtain ⟨e', he', heq⟩ := List.mem_map.mp hx
            simp only [Prod.mk.injEq] at heq
            obtain ⟨rfl, rfl, rfl⟩ := heq
            exact ⟨ops, order, [], mid, s, r, r', sd0, by rw [k1], h1, k2, k3, k4, hs, he', hm, rfl⟩
          · simp at hx

theorem run_split {st st' : State} {a b : List Op} {op : Op} (h : run st (a ++ op :: b) = .ok st') :
    ∃ mid mid', run st a = .ok mid ∧ step mid op = .ok mid' ∧ run mid' b = .ok st' := by
  rw [run_append] at h
  obtain ⟨mid, h1, h2⟩ := Res_bind_ok h
  simp only [run] at h2
  obtain ⟨mid', h3, h4⟩ := Res_bind_ok h2
  exact ⟨mid, mid', h1, h3, h4⟩

theorem run_snoc {st mid st' : State} {a : List Op} {op : Op} (h1 : run st a = .ok mid) (h2 : step mid op = .ok st') :
    run st (a ++ [op]) = .ok st' := by
  rw [run_append, h1]
  simp [Res.bind, run, h2]

theorem started_length {t : Int} {ops : List Op} {st : State} (h : run (State.init t) ops = .ok st) :
    (startedBy ops).length = st.spans.length := by
  have := (run_keeps h).2
  simp [State.init] at this
  exact this.symm

/-! ## C27 -/

/-- A span on which `End` was never called has not been exported. -/
theorem not_ended_not_exported {t : Int} {ops : List Op} {st : State} (h : run (State.init t) ops = .ok st)
    {i : Nat} (hn : ∀ order, Op.endSpan (some i) order ∉ ops) : ∀ e sd, (e, i, sd) ∉ st.exported := by
  intro e sd hx
  obtain ⟨a, order, b, _, _, _, _, _, e1, _⟩ := exported_from h hx
  exact hn order (by rw [e1]; simp)

/-- Exactly one export to every exporter registered when the first `End` of a sampled span runs, with
the same data, however often `End` is called before or after whatever else happens, and no export of an
unsampled span. `a` is what happens before the first `End`, `b` what happens after. -/
theorem exported_exactly_once {t : Int} {a b : List Op} {order : List Bytes} {i : Nat} {st : State}
    (h : run (State.init t) (a ++ .endSpan (some i) order :: b) = .ok st)
    (hfirst : ∀ o, Op.endSpan (some i) o ∉ a) :
    ∃ s, st.spans[i]? = some s ∧
      (∀ e, st.exported.countP (fun x => decide (x.1 = e ∧ x.2.1 = i)) =
        if s.ctx.isSampled ∧ registered e a = true then 1 else 0) ∧
      ∃ sd, ∀ e sd', (e, i, sd') ∈ st.exported → sd' = sd := by
  obtain ⟨mid, mid', h1, h2, h3⟩ := run_split h
  have hx := xinv_run h1
  have hno := not_ended_not_exported h1 hfirst
  obtain ⟨hnd, hreg⟩ := exporters_run h1
  have hkeep := (run_keeps h3).1
  have hnone : mid.exported.filter (fun x => decide (x.2.1 = i)) = [] := by
    apply List.filter_eq_nil_iff.mpr
    rintro ⟨e, j, sd⟩ hm
    simp only [decide_eq_true_eq]
    rintro rfl
    exact hno e sd hm
  -- the exports of span `i` at the end
  have hfin : ∃ s sd, mid'.spans[i]? = some s ∧ st.exported.filter (fun x => decide (x.2.1 = i)) =
      if s.ctx.isSampled then mid.exporters.map (fun e => (e, i, sd)) else [] := by
    cases step_kind h2 with
    | start v k1 k2 k3 k4 k5 => exact absurd rfl (k5 i order)
    | quiet k1 k2 k3 =>
      have hlt := (xinv_run (run_snoc h1 h2)).refs i order (by simp)
      obtain ⟨s, hs, hv⟩ := views_some (List.getElem?_eq_getElem hlt)
      have hs0 : (views mid)[i]? = some s.view := by rw [← k1]; simp [views, hs]
      obtain ⟨s0, hs0', hv0⟩ := views_some hs0
      have hdead : s.view.start = none := by
        rcases k3 i order s0 rfl hs0' with hd | he
        · rw [← hv0]; simp [Span.view, hd]
        · have hend : s.view.ended = true := by rw [← hv0]; exact he
          obtain ⟨_, o, ho⟩ := (hx.ended i _ hs0).mp hend
          exact absurd ho (hfirst o)
      have hus := hx.unrecorded i _ hs0 hdead
      have hus' : s.ctx.isSampled = false := hus
      refine ⟨s, newSpanData .zero 0 0 [] false false .zero, hs, ?_⟩
      rw [if_neg (by simp [hus'])]
      have hx2 := xinv_run h
      apply List.filter_eq_nil_iff.mpr
      rintro ⟨e, j, sd⟩ hm
      simp only [decide_eq_true_eq]
      rintro rfl
      obtain ⟨a', o', b', m', s', r', _, _, _, e2, e3, e4, _, e6, _⟩ := exported_from h hm
      -- the context never changes
      obtain ⟨w, hw, hwe⟩ := hx2.log _ hm
      obtain ⟨sf, hsf, rfl⟩ := views_some hw
      obtain ⟨sf', hsf', hsame⟩ := hkeep _ _ hs
      rw [hsf'] at hsf; cases hsf
      have hst := ((hx2.ended _ _ hw).mp hwe).1
      simp only [Span.view, Option.isSome_map] at hst
      rw [hsame.2.1] at hst
      simp only [Span.view, Option.map_eq_none_iff] at hdead
      rw [hdead] at hst
      cases hst
    | ended j o s r k1 k2 k3 k4 k5 =>
      cases k1
      obtain ⟨sd, he⟩ := k5.exported
      have hvw := k5.views k3
      have hlt : i < (views mid).length := by have := getElem?_lt k2; simpa [views] using this
      have hget : (views mid')[i]? = some { s.view with ended := true } := by
        rw [hvw, List.getElem?_set_self hlt]
      obtain ⟨s', hs', hv'⟩ := views_some hget
      refine ⟨s', sd, hs', ?_⟩
      rw [ended_stays_run hget rfl h3, he, List.filter_append, hnone, List.nil_append]
      have hc : s'.ctx = s.ctx := by
        have := congrArg View.ctx hv'; exact this
      rw [hc]
      split
      · apply List.filter_eq_self.mpr
        intro x hx
        obtain ⟨e, _, rfl⟩ := List.mem_map.mp hx
        simp
      · rfl
  obtain ⟨s1, sd, hs1, hf⟩ := hfin
  obtain ⟨s, hs, hsame⟩ := hkeep _ _ hs1
  refine ⟨s, hs, ?_, sd, ?_⟩
  · intro e
    rw [hsame.1]
    have hcount : st.exported.countP (fun x => decide (x.1 = e ∧ x.2.1 = i)) =
        (st.exported.filter (fun x => decide (x.2.1 = i))).countP (fun x => decide (x.1 = e)) := by
      rw [List.countP_filter]
      apply List.countP_congr
      intro x _
      simp
    rw [hcount, hf]
    cases hsm : s1.ctx.isSampled with
    | false => simp
    | true =>
      simp only [if_true, true_and]
      rw [List.countP_map]
      have : (fun x : Exporter × Nat × SpanData => decide (x.1 = e)) ∘ (fun e => (e, i, sd)) = fun x => x == e := by
        funext x; simp [beq_eq_decide]
      rw [this]
      show mid.exporters.count e = _
      by_cases he : e ∈ mid.exporters
      · rw [List.count_eq_one_of_mem hnd he, if_pos ((hreg e).mp he)]
      · rw [List.count_eq_zero_of_not_mem he, if_neg (fun hc => he ((hreg e).mpr hc))]
  · intro e sd' hm
    have : (e, i, sd') ∈ st.exported.filter (fun x => decide (x.2.1 = i)) := by
      rw [List.mem_filter]; exact ⟨hm, by simp⟩
    rw [hf] at this
    split at this
    · obtain ⟨_, _, heq⟩ := List.mem_map.mp this
      simp only [Prod.mk.injEq] at heq
      exact heq.2.2.symm
    · simp at this

/-! ## C30 -/

/-- The configurations applied by a program, in order. -/
def applied (ops : List Op) : List Config :=
  ops.filterMap fun op => match op with
    | .applyConfig c => some c
    | _ => none

/-- The last positive value of a limit, its default if there is none. -/
def limit (f : Config → Int) (dflt : Int) (ops : List Op) : Int :=
  (((applied ops).map f).filter (fun x => decide (0 < x))).getLastD dflt

/-- The last non-nil value of a field, its default if there is none. -/
def lastSome {α : Type} (f : Config → Option α) (dflt : Option α) (ops : List Op) : Option α :=
  (((applied ops).map f).filter Option.isSome).getLastD dflt

theorem step_cfg {st st' : State} {op : Op} (h : step st op = .ok st') : st'.cfg =
    match op with
    | .applyConfig c => st.cfg.apply c
    | _ => st.cfg := by
  have mod : ∀ (s : Option Nat) (f : Rec → Res Rec), KeepsData f →
      (onSpan st s fun i => modifyRec st i f) = .ok st' → st'.cfg = st.cfg := by
    intro s f hf hm
    cases s with
    | none => cases hm; rfl
    | some i => rw [(modifyRec_ok hf hm).2.2]
  have int : ∀ (st0 : State) (name : Bytes) (hp : Bool) (parent : SpanContext) (remote : Bool) (o : StartOptions) (tid sid : Bytes),
      startSpanInternal st0 name hp parent remote o tid sid = .ok st' → st'.cfg = st0.cfg := by
    intro st0 name hp parent remote o tid sid hs
    unfold startSpanInternal at hs
    split at hs
    · simp at hs
    · split at hs
      · simp at hs
      · simp only at hs
        split at hs
        · cases hs; rfl
        · split at hs <;> (cases hs; rfl)
  cases op with
  | start p name opts tid sid =>
    cases p with
    | none => exact int _ _ _ _ _ _ _ _ h
    | some p =>
      simp only [step, startSpan] at h
      cases hp : st.spans[p]? with
      | none => rw [hp] at h; simp at h
      | some ps =>
        rw [hp] at h
        simp only at h
        obtain ⟨st1, hm, h⟩ := Res_bind_ok h
        simp only
        rw [int _ _ _ _ _ _ _ _ h, (modifyRec_ok keeps_addChild hm).2.2]
  | startRemote sc name opts tid sid => exact int _ _ _ _ _ _ _ _ h
  | setName s name => exact mod s _ (keeps_setName _) h
  | setStatus s x => exact mod s _ (keeps_setStatus _) h
  | addAttributes s l => exact mod s _ (keeps_addAttributes _) h
  | annotate s l m => exact mod s _ (keeps_annotate _ _ _) h
  | addMessageEvent s t a b c => exact mod s _ (keeps_addMessageEvent _ _ _ _ _) h
  | addLink s l => exact mod s _ (keeps_addLink _) h
  | endSpan s order =>
    cases s with
    | none => cases h; rfl
    | some i =>
      obtain ⟨s, hi, ⟨rfl, _⟩ | ⟨r, hd, he, hE⟩⟩ := endSpan_cases h
      · rfl
      · cases hE <;> rfl
  | registerExporter e => cases h; rfl
  | unregisterExporter e => cases h; rfl
  | applyConfig c => cases h; rfl
  | configure bcs => obtain ⟨stores, _, h⟩ := Res_bind_ok h; cases h; rfl
  | reportActive name orders =>
    obtain ⟨⟨st1, out⟩, h1, h⟩ := Res_bind_ok h
    cases h
    unfold reportActive at h1
    split at h1
    · cases h1; rfl
    · simp only; rw [(reportActiveLoop_spans h1).2.2]
  | enableStore => cases h; rfl
  | tick d => cases h; rfl

theorem limit_snoc (f : Config → Int) (d : Int) (ops : List Op) (c : Config) :
    limit f d (ops ++ [.applyConfig c]) = if 0 < f c then f c else limit f d ops := by
  simp only [limit, applied, List.filterMap_append, List.map_append, List.filter_append, List.filterMap_cons,
    List.filterMap_nil, List.map_cons, List.map_nil, List.filter_cons, List.filter_nil]
  by_cases h : 0 < f c <;> simp [h]

theorem lastSome_snoc {α : Type} (f : Config → Option α) (d : Option α) (ops : List Op) (c : Config) :
    lastSome f d (ops ++ [.applyConfig c]) = if (f c).isSome then f c else lastSome f d ops := by
  simp only [lastSome, applied, List.filterMap_append, List.map_append, List.filter_append, List.filterMap_cons,
    List.filterMap_nil, List.map_cons, List.map_nil, List.filter_cons, List.filter_nil]
  by_cases h : (f c).isSome <;> simp [h]

/-- Every field of the configuration is the last usable value it was given, else its default. -/
theorem config_values {t : Int} {ops : List Op} {st : State} (h : run (State.init t) ops = .ok st) :
    st.cfg.maxAnnotations = limit Config.maxAnnotations 32 ops ∧
    st.cfg.maxMessageEvents = limit Config.maxMessageEvents 128 ops ∧
    st.cfg.maxAttributes = limit Config.maxAttributes 32 ops ∧
    st.cfg.maxLinks = limit Config.maxLinks 32 ops ∧
    st.cfg.sampler = lastSome Config.sampler Config.initial.sampler ops ∧
    st.cfg.idGenerator = lastSome Config.idGenerator (some 0) ops := by
  induction ops using List.reverseRecOn generalizing st with
  | nil => cases h; simp [limit, lastSome, applied, State.init, Config.initial]
  | append_singleton ops op ih =>
    obtain ⟨mid, h1, h2⟩ := run_snoc_ok h
    have hc := step_cfg h2
    have hi := ih h1
    cases op with
    | applyConfig c =>
      simp only at hc
      simp only [limit_snoc, lastSome_snoc, hc, Config.apply]
      obtain ⟨e1, e2, e3, e4, e5, e6⟩ := hi
      rw [e1, e2, e3, e4, e5, e6]
      exact ⟨rfl, rfl, rfl, rfl, rfl, rfl⟩
    | _ =>
      simp only at hc
      rw [hc]
      simpa [limit, lastSome, applied] using hi

/-- After any program the configuration has a sampler, an ID generator and positive limits. -/
theorem config_usable {t : Int} {ops : List Op} {st : State} (h : run (State.init t) ops = .ok st) :
    st.cfg.sampler.isSome ∧ st.cfg.idGenerator.isSome ∧ 0 < st.cfg.maxAnnotations ∧
      0 < st.cfg.maxMessageEvents ∧ 0 < st.cfg.maxAttributes ∧ 0 < st.cfg.maxLinks := by
  obtain ⟨h1, h2, h3, h4, h5, h6⟩ := (hinv_run h).cfg
  exact ⟨h1, h2, h3, h4, h5, h6⟩

/-- No program panics, whatever it does with spans, configurations, exporters and the span store. -/
theorem never_panics (t : Int) (ops : List Op) : run (State.init t) ops ≠ .panic :=
  run_not_panic_from (hinv_init t) (good_init t) ops

/-- Without the guards of `ApplyConfig` a zero limit would panic: the property is not vacuous. -/
example : (EvictedQueue.new 0 : EvictedQueue Nat).add 1 = .panic := by decide

/-! ## C31 -/

/-- The span a method is called on, if the operation is a method call on a span. -/
def target : Op → Option (Option Nat)
  | .setName s _ => some s
  | .setStatus s _ => some s
  | .addAttributes s _ => some s
  | .annotate s _ _ => some s
  | .addMessageEvent s _ _ _ _ => some s
  | .addLink s _ => some s
  | .endSpan s _ => some s
  | _ => none

/-- Every method on a nil span does nothing. -/
theorem nil_noop (st : State) {op : Op} (h : target op = some none) : step st op = .ok st := by
  cases op <;> simp [target] at h <;> subst h <;> rfl

/-- Every method on a span that is not recording events does nothing. -/
theorem unrecorded_noop {st : State} {op : Op} {i : Nat} (h : target op = some (some i)) {s : Span}
    (hs : st.spans[i]? = some s) (hd : s.data = none) : step st op = .ok st := by
  have hm : ∀ f, modifyRec st i f = .ok st := by intro f; simp [modifyRec, hs, hd]
  cases op <;> simp [target] at h <;> subst h <;> first | exact hm _ | simp [step, onSpan, endSpan, hs, hd]

/-- `End` on a span that has ended does nothing. -/
theorem ended_noop {t : Int} {ops : List Op} {st : State} (h : run (State.init t) ops = .ok st) {i : Nat}
    {order : List Bytes} (he : Op.endSpan (some i) order ∈ ops) (order' : List Bytes) :
    step st (.endSpan (some i) order') = .ok st := by
  have hx := xinv_run h
  have hlt := hx.refs i order he
  obtain ⟨s, hs, hv⟩ := views_some (List.getElem?_eq_getElem hlt)
  cases hd : s.data with
  | none => simp [step, onSpan, endSpan, hs, hd]
  | some r =>
    have hend : s.ended = true := by
      have := (hx.ended i s.view (view_get hs)).mpr ⟨by simp [Span.view, hd], order, he⟩
      exact this
    simp [step, onSpan, endSpan, hs, hd, hend]

/-- Nothing is exported for spans that are not recording, not sampled or not ended. -/
theorem exported_only_recorded {t : Int} {ops : List Op} {st : State} (h : run (State.init t) ops = .ok st)
    {e : Exporter} {i : Nat} {sd : SpanData} (hx : (e, i, sd) ∈ st.exported) :
    ∃ s, st.spans[i]? = some s ∧ s.data.isSome ∧ s.ctx.isSampled = true ∧ s.ended = true := by
  obtain ⟨v, hv, he⟩ := (xinv_run h).log _ hx
  obtain ⟨s, hs, rfl⟩ := views_some hv
  have hst := ((xinv_run h).ended _ _ hv).mp he
  obtain ⟨a, order, b, mid, s0, r, _, _, e1, e2, e3, e4, _, e6, _⟩ := exported_from h hx
  rw [e1] at h
  obtain ⟨mid1, mid2, h1, h2, h3⟩ := run_split h
  rw [e2] at h1; cases h1
  have hk : Keeps mid.spans st.spans := by
    have h12 := (step_other h2 rfl).1
    exact Keeps.trans h12 (run_keeps h3).1
  obtain ⟨s', hs', hsame⟩ := hk _ _ e3
  simp only at hs
  rw [hs] at hs'; cases hs'
  refine ⟨s, hs, by simpa [Span.view] using hst.1, by rw [hsame.1]; exact e6, he⟩

/-! ## C28 -/

/-- The last `n` elements of a list. -/
theorem lastN_eq {α : Type} (n : Nat) (l : List α) : lastN n l = l.drop (l.length - n) := rfl

/-- Program, start and first `End` of an exported span. -/
theorem export_history {t : Int} {ops : List Op} {st : State} (h : run (State.init t) ops = .ok st)
    {e : Exporter} {i : Nat} {sd : SpanData} (hx : (e, i, sd) ∈ st.exported) :
    ∃ c op d order b x mid0 mid s r r' sd0, ops = (c ++ op :: d) ++ .endSpan (some i) order :: b ∧
      started op = [x] ∧ (startedBy c).length = i ∧ (∀ o, Op.endSpan (some i) o ∉ c ++ op :: d) ∧
      (startedBy (c ++ op :: d))[i]? = some x ∧
      run (State.init t) c = .ok mid0 ∧ run (State.init t) (c ++ op :: d) = .ok mid ∧ mid.spans[i]? = some s ∧
      s.data = some r ∧ IsStarted { mid0 with spans := mid.spans } x s ∧ e ∈ mid.exporters ∧
      r.makeSpanData order = .ok (r', sd0) ∧ sd = finalData sd0 mid.now ∧
      RecInv r (adds i t (c ++ op :: d)) ∧
      ((∀ name orders, Op.reportActive name orders ∉ c ++ op :: d) → AStrong r.attrs (adds i t (c ++ op :: d)).attrs) := by
  obtain ⟨a, order, b, mid, s, r, r', sd0, e1, e2, e3, e4, e5, e6, e7, e8, e9⟩ := exported_from h hx
  have hlen := started_length e2
  have hlt : i < (startedBy a).length := by have := getElem?_lt e3; omega
  obtain ⟨s', mid0, h1, h2, ⟨c, op, d, k1, k2, k3, k4⟩, _⟩ := run_init e2 (List.getElem?_eq_getElem hlt)
  rw [e3] at h1; cases h1
  have hinv := hinv_run e2
  have hne : ∀ o, Op.endSpan (some i) o ∉ a := by
    intro o ho
    have := ((xinv_run e2).ended i s.view (view_get e3)).mpr ⟨by simp [Span.view, e4], o, ho⟩
    simp [Span.view, e5] at this
  refine ⟨c, op, d, order, b, _, mid0, mid, s, r, r', sd0, by rw [← k1]; exact e1, k2, ?_, by rw [← k1]; exact hne,
    by rw [← k1]; exact List.getElem?_eq_getElem hlt, k3, by rw [← k1]; exact e2, e3, e4, h2, e7, e8, e9, ?_, ?_⟩
  · rw [started_length k3, k4]
  · rw [← k1]; exact hinv.recs i s r e3 e4
  · rw [← k1]; exact fun hn => hinv.strong hn i s r e3 e4 e5

theorem queue_export {α : Type} {q : EvictedQueue α} {hist : List α} (h : QInv q hist) :
    (if q.queue.length > 0 then q.queue else []) = lastN q.capacity.toNat hist ∧
    (if q.queue.length > 0 then q.droppedCount else 0) + (lastN q.capacity.toNat hist).length = hist.length := by
  have hq := h.queue
  have hd := h.dropped
  have hc := h.cap
  rw [← hq]
  by_cases h0 : q.queue.length > 0
  · rw [if_pos h0, if_pos h0]; exact ⟨rfl, hd⟩
  · rw [if_neg h0, if_neg h0]
    have he : q.queue = [] := List.length_eq_zero_iff.mp (by omega)
    have hl := lastN_length q.capacity.toNat hist
    rw [← hq, he] at hl
    simp only [List.length_nil] at hl
    rw [he]
    refine ⟨rfl, ?_⟩
    simp only [List.length_nil]
    have : hist.length = 0 := by omega
    omega

theorem makeSpanData_events {r r' : Rec} {order : List Bytes} {sd : SpanData}
    (h0 : Blank r.data)
    (h : r.makeSpanData order = .ok (r', sd)) :
    sd.annotations = (if r.annotations.queue.length > 0 then r.annotations.queue else []) ∧
    sd.droppedAnnotations = (if r.annotations.queue.length > 0 then r.annotations.droppedCount else 0) ∧
    sd.messageEvents = (if r.messageEvents.queue.length > 0 then r.messageEvents.queue else []) ∧
    sd.droppedMessageEvents = (if r.messageEvents.queue.length > 0 then r.messageEvents.droppedCount else 0) ∧
    sd.links = (if r.links.queue.length > 0 then r.links.queue else []) ∧
    sd.droppedLinks = (if r.links.queue.length > 0 then r.links.droppedCount else 0) := by
  obtain ⟨a0, a1, a2, a3, a4, a5, a6, a7⟩ := h0
  unfold Rec.makeSpanData at h
  split at h
  · simp at h
  · simp only [Res.ok.injEq, Prod.mk.injEq] at h
    obtain ⟨_, rfl⟩ := h
    by_cases h1 : r.attrs.len > 0 <;> by_cases h2 : r.annotations.queue.length > 0 <;>
      by_cases h3 : r.messageEvents.queue.length > 0 <;> by_cases h4 : r.links.queue.length > 0 <;>
      simp only [h1, h2, h3, h4, if_true, if_false, a1, a2, a3, a5, a6, a7, and_self]

/-- The newest `n` elements, in order. -/
def newest {α : Type} (n : Int) (l : List α) : List α := l.drop (l.length - n.toNat)

/-- Annotations, message events and links of every exported span are the most recent ones added before
its first `End`, in order, as many as the limits in force when it was started allow; kept and dropped
make up the number added. `c` is what happens before the span is started, `c ++ op :: d` what happens
before its first `End`. -/
theorem exported_events {t : Int} {ops : List Op} {st : State} (h : run (State.init t) ops = .ok st)
    {e : Exporter} {i : Nat} {sd : SpanData} (hx : (e, i, sd) ∈ st.exported) :
    ∃ c op d order b x, ops = (c ++ op :: d) ++ .endSpan (some i) order :: b ∧ started op = [x] ∧
      (startedBy c).length = i ∧ (∀ o, Op.endSpan (some i) o ∉ c ++ op :: d) ∧
      ∃ H, H = adds i t (c ++ op :: d) ∧
      sd.annotations = newest (limit Config.maxAnnotations 32 c) H.anns ∧
      sd.droppedAnnotations + sd.annotations.length = H.anns.length ∧
      sd.messageEvents = newest (limit Config.maxMessageEvents 128 c) H.msgs ∧
      sd.droppedMessageEvents + sd.messageEvents.length = H.msgs.length ∧
      sd.links = newest (limit Config.maxLinks 32 c) H.links ∧
      sd.droppedLinks + sd.links.length = H.links.length := by
  obtain ⟨c, op, d, order, b, x, mid0, mid, s, r, r', sd0, e1, e2, e3, e4, e5, e6, e7, e8, e9, e10, e11, e12, e13, e14, e15⟩ :=
    export_history h hx
  refine ⟨c, op, d, order, b, x, e1, e2, e3, e4, _, rfl, ?_⟩
  obtain ⟨g1, g2, g3, g4, g5, g6⟩ := makeSpanData_events (e10.fixed r e9).2.2.2.2 e12
  obtain ⟨c1, c2, c3, c4⟩ := e10.caps r e9
  obtain ⟨v1, v2, v3, v4, _, _⟩ := config_values e6
  simp only at c1 c2 c3
  have A := queue_export e14.anns
  have M := queue_export e14.msgs
  have L := queue_export e14.links
  rw [c1, v1, ← g1, ← g2] at A
  rw [c2, v2, ← g3, ← g4] at M
  rw [c3, v4, ← g5, ← g6] at L
  rw [e13]
  simp only [finalData]
  refine ⟨A.1, ?_, M.1, ?_, L.1, ?_⟩
  · rw [A.1]; exact A.2
  · rw [M.1]; exact M.2
  · rw [L.1]; exact L.2

/-! ## C29 -/

theorem makeSpanData_attrs {r r' : Rec} {order : List Bytes} {sd : SpanData} {hist : List (Bytes × AttrVal)}
    (hi : AInv r.attrs hist) (h0 : Blank r.data) (h : r.makeSpanData order = .ok (r', sd)) :
    (∀ k, GoMap.get sd.attributes k = GoMap.get r.attrs.entries k) ∧
      sd.droppedAttributes = if r.attrs.len > 0 then r.attrs.droppedCount else 0 := by
  have hp := (makeSpanData_ok h).2.2.2.2
  obtain ⟨_, q2, q3, q4⟩ := hi.read hp
  obtain ⟨a0, a1, a2, a3, a4, a5, a6, a7⟩ := h0
  unfold Rec.makeSpanData at h
  split at h
  · simp at h
  · simp only [Res.ok.injEq, Prod.mk.injEq] at h
    obtain ⟨_, rfl⟩ := h
    have hd : (r.attrs.toAttributeMap order).1.droppedCount = r.attrs.droppedCount := by rw [q2]
    by_cases h1 : r.attrs.len > 0
    · by_cases h2 : r.annotations.queue.length > 0 <;>
      by_cases h3 : r.messageEvents.queue.length > 0 <;> by_cases h4 : r.links.queue.length > 0 <;>
      simp only [h1, h2, h3, h4, if_true, if_false] <;> exact ⟨q4, hd⟩
    · have he : r.attrs.entries = [] := List.length_eq_zero_iff.mp (by unfold LruMap.len at h1; omega)
      by_cases h2 : r.annotations.queue.length > 0 <;>
      by_cases h3 : r.messageEvents.queue.length > 0 <;> by_cases h4 : r.links.queue.length > 0 <;>
      simp [h1, h2, h3, h4, a0, a4, he]

/-- Without reports of active spans: the attributes of an exported span are, of the keys set before its
first `End`, the most recently set ones up to the limit in force when it was started, each with the
value last set; the dropped count is the number of additions of a key that was not kept, less those
still kept, which is the number of evictions. -/
theorem exported_attributes {t : Int} {ops : List Op} {st : State} (h : run (State.init t) ops = .ok st)
    {e : Exporter} {i : Nat} {sd : SpanData} (hx : (e, i, sd) ∈ st.exported)
    (hr : ∀ name orders, Op.reportActive name orders ∉ ops) :
    ∃ c op d order b x, ops = (c ++ op :: d) ++ .endSpan (some i) order :: b ∧ started op = [x] ∧
      (startedBy c).length = i ∧ (∀ o, Op.endSpan (some i) o ∉ c ++ op :: d) ∧
      ∃ H n kept, H = (adds i t (c ++ op :: d)).attrs ∧ n = (limit Config.maxAttributes 32 c).toNat ∧
      kept = (recent H).take n ∧
      (∀ k, GoMap.get sd.attributes k = if k ∈ kept then lastVal H k else none) ∧
      sd.droppedAttributes + kept.length = misses n H := by
  obtain ⟨c, op, d, order, b, x, mid0, mid, s, r, r', sd0, e1, e2, e3, e4, e5, e6, e7, e8, e9, e10, e11, e12, e13, e14, e15⟩ :=
    export_history h hx
  refine ⟨c, op, d, order, b, x, e1, e2, e3, e4, _, _, _, rfl, rfl, rfl, ?_⟩
  have hs := e15 (fun n o hm => hr n o (by rw [e1]; exact List.mem_append_left _ hm))
  obtain ⟨q1, q2⟩ := makeSpanData_attrs e14.attrs (e10.fixed r e9).2.2.2.2 e12
  obtain ⟨c1, c2, c3, c4⟩ := e10.caps r e9
  obtain ⟨v1, v2, v3, v4, _, _⟩ := config_values e6
  simp only at c4
  have hk := hs.kept
  have hd := hs.dropped
  rw [c4, v3] at hk hd
  rw [← hk, e13]
  simp only [finalData]
  refine ⟨?_, ?_⟩
  · intro k
    rw [q1]
    by_cases hkm : k ∈ r.attrs.entries.map Prod.fst
    · rw [if_pos hkm]
      obtain ⟨en, hen, rfl⟩ := List.mem_map.mp hkm
      rw [e14.attrs.val en hen]
      exact (get_mem_iff e14.attrs.nodup).mpr hen
    · rw [if_neg hkm]; exact get_none_iff.mpr hkm
  · rw [q2, List.length_map]
    by_cases h0 : r.attrs.len > 0
    · rw [if_pos h0]; exact hd
    · rw [if_neg h0]
      have he : r.attrs.entries = [] := List.length_eq_zero_iff.mp (by unfold LruMap.len at h0; omega)
      rw [he, List.map_nil] at hk
      rw [he]
      -- nothing kept means nothing was added
      have hpos := e14.attrs.cap
      rw [c4, v3] at hpos
      have hrec : recent (adds i t (c ++ op :: d)).attrs = [] := by
        cases hrc : recent (adds i t (c ++ op :: d)).attrs with
        | nil => rfl
        | cons a l =>
          rw [hrc] at hk
          obtain ⟨m, hm⟩ : ∃ m, (limit Config.maxAttributes 32 c).toNat = m + 1 :=
            ⟨(limit Config.maxAttributes 32 c).toNat - 1, by omega⟩
          rw [hm] at hk; simp at hk
      have hnil : (adds i t (c ++ op :: d)).attrs = [] := by
        cases hh : (adds i t (c ++ op :: d)).attrs using List.reverseRecOn with
        | nil => rfl
        | append_singleton l a => rw [hh, recent_snoc] at hrec; simp at hrec
      rw [hnil]; simp [misses]

/-- With reports of active spans in between: still as many of the keys set as the limit allows, and each
key kept carries the value last set for it; the dropped count is no less than the number of keys missing,
and when no more keys were set than the limit, nothing is dropped. What is missing with respect to C29 is which keys are kept: see
`report_changes_eviction`. -/
theorem exported_attributes_partial {t : Int} {ops : List Op} {st : State} (h : run (State.init t) ops = .ok st)
    {e : Exporter} {i : Nat} {sd : SpanData} (hx : (e, i, sd) ∈ st.exported) :
    ∃ c op d order b x, ops = (c ++ op :: d) ++ .endSpan (some i) order :: b ∧ started op = [x] ∧
      (startedBy c).length = i ∧ (∀ o, Op.endSpan (some i) o ∉ c ++ op :: d) ∧
      ∃ H, H = (adds i t (c ++ op :: d)).attrs ∧
      (∀ k v, GoMap.get sd.attributes k = some v → lastVal H k = some v) ∧
      (∃ kept : List Bytes, kept.Nodup ∧ (kept.length : Int) ≤ limit Config.maxAttributes 32 c ∧
        kept.length = min (recent H).length (limit Config.maxAttributes 32 c).toNat ∧
        (recent H).length ≤ sd.droppedAttributes + kept.length ∧
        ∀ k, k ∈ kept ↔ (GoMap.get sd.attributes k).isSome) ∧
      ((recent H).length ≤ limit Config.maxAttributes 32 c →
        (∀ k, GoMap.get sd.attributes k = lastVal H k) ∧ sd.droppedAttributes = 0) := by
  obtain ⟨c, op, d, order, b, x, mid0, mid, s, r, r', sd0, e1, e2, e3, e4, e5, e6, e7, e8, e9, e10, e11, e12, e13, e14, e15⟩ :=
    export_history h hx
  refine ⟨c, op, d, order, b, x, e1, e2, e3, e4, _, rfl, ?_⟩
  obtain ⟨q1, q2⟩ := makeSpanData_attrs e14.attrs (e10.fixed r e9).2.2.2.2 e12
  obtain ⟨c1, c2, c3, c4⟩ := e10.caps r e9
  obtain ⟨v1, v2, v3, v4, _, _⟩ := config_values e6
  simp only at c4
  rw [e13]
  simp only [finalData]
  have hcount := e14.attrs.count
  have hlost := e14.attrs.lost
  have hcap := e14.attrs.cap
  refine ⟨?_, ⟨r.attrs.entries.map Prod.fst, e14.attrs.nodup, ?_, ?_, ?_, ?_⟩, ?_⟩
  · intro k v hkv
    rw [q1] at hkv
    exact e14.attrs.val (k, v) ((get_mem_iff e14.attrs.nodup).mp hkv)
  · rw [← v3, ← c4, List.length_map]; exact e14.attrs.len
  · rw [← v3, ← c4, List.length_map]; exact hcount
  · rw [q2, List.length_map]
    split
    · exact hlost
    · rename_i h0; unfold LruMap.len at h0; omega
  · intro k
    rw [q1]
    cases hg : GoMap.get r.attrs.entries k with
    | none => simpa using get_none_iff.mp hg
    | some v =>
      have := (get_mem_iff e14.attrs.nodup).mp hg
      simp only [Option.isSome_some, iff_true]
      exact List.mem_map.mpr ⟨_, this, rfl⟩
  · rw [← v3, ← c4]
    intro hf
    refine ⟨?_, by rw [q2, e14.attrs.few hf]; simp⟩
    intro k
    rw [q1]
    by_cases hk : k ∈ recent (adds i t (c ++ op :: d)).attrs
    · obtain ⟨en, hen, rfl⟩ := List.mem_map.mp (e14.attrs.all hf hk)
      rw [e14.attrs.val en hen]; exact (get_mem_iff e14.attrs.nodup).mpr hen
    · rw [get_none_iff.mpr (fun hc => hk (e14.attrs.sub hc))]
      cases hv : lastVal (adds i t (c ++ op :: d)).attrs k with
      | none => rfl
      | some v => exact absurd (mem_recent.mpr ⟨v, hv⟩) hk

/-- A program with a report between two additions. -/
def reportProgram : List Op :=
  [.enableStore, .registerExporter 7, .applyConfig ⟨none, none, 0, 0, 2, 0⟩,
   .start none [1] [.sampler (some alwaysSample)] (List.replicate 16 1) (List.replicate 8 1),
   .addAttributes (some 0) [⟨[97], [1]⟩], .addAttributes (some 0) [⟨[98], [2]⟩],
   .reportActive [1] [[[98], [97]]],
   .addAttributes (some 0) [⟨[99], [3]⟩],
   .endSpan (some 0) [[97], [99]]]

/-- C29 does not hold when active spans are reported (ReportActiveSpans, as the zpages do): reading the
attributes counts as using them. With limit 2, after setting a and b, a report, and setting c, the span
keeps a and c although b was set after a. -/
theorem report_changes_eviction : ∃ st e i sd, run (State.init 0) reportProgram = .ok st ∧
    (e, i, sd) ∈ st.exported ∧ limit Config.maxAttributes 32 reportProgram = 2 ∧
    [98] ∈ (recent (adds i 0 reportProgram).attrs).take 2 ∧ GoMap.get sd.attributes [98] = none ∧
    (GoMap.get sd.attributes [97]).isSome := by
  have h : (match run (State.init 0) reportProgram with
      | .ok st => st.exported.any fun x => decide (x.2.1 = 0) && decide (GoMap.get x.2.2.attributes [98] = none) &&
          (GoMap.get x.2.2.attributes [97]).isSome
      | _ => false) = true := by decide +kernel
  cases hr : run (State.init 0) reportProgram with
  | err => rw [hr] at h; simp at h
  | panic => rw [hr] at h; simp at h
  | ok st =>
    rw [hr] at h
    obtain ⟨⟨e, i, sd⟩, hx, hb⟩ := List.any_eq_true.mp h
    simp only [Bool.and_eq_true, decide_eq_true_eq] at hb
    obtain ⟨⟨rfl, h3⟩, h4⟩ := hb
    exact ⟨st, e, _, sd, rfl, hx, by decide, by decide, h3, h4⟩

/-! ## C55 -/

/-- The names given to span `i`, in order. -/
def names (i : Nat) (ops : List Op) : List Bytes :=
  ops.filterMap fun op => match op with
    | .setName s n => if s = some i then some n else none
    | _ => none

def statuses (i : Nat) (ops : List Op) : List Status :=
  ops.filterMap fun op => match op with
    | .setStatus s x => if s = some i then some x else none
    | _ => none

/-- The number of children started with span `i` in the context. -/
def children (i : Nat) (ops : List Op) : Nat :=
  ops.countP fun op => match op with
    | .start p _ _ _ _ => decide (p = some i)
    | _ => false

def kindOf (l : List StartOption) : Int :=
  (l.filterMap fun o => match o with
    | .kind k => some k
    | .sampler _ => none).getLastD 0

theorem applyOptions_kind (l : List StartOption) : (applyOptions l).spanKind = kindOf l := by
  unfold applyOptions kindOf
  induction l using List.reverseRecOn with
  | nil => rfl
  | append_singleton l o ih =>
    simp only [List.foldl_append, List.foldl_cons, List.foldl_nil, List.filterMap_append]
    cases o <;> simp [StartOption.apply, ih]

theorem wrap64_succ (x : Int) : wrap64 (wrap64 x + 1) = wrap64 (x + 1) := by
  unfold wrap64; omega

theorem fold_core (i : Nat) (ops : List Op) (c : Core) :
    ops.foldl (coreStep i) c = ⟨(names i ops).getLastD c.name, (statuses i ops).getLastD c.status,
      if children i ops = 0 then c.children else wrap64 (c.children + children i ops)⟩ := by
  induction ops using List.reverseRecOn with
  | nil => rfl
  | append_singleton ops op ih =>
    rw [List.foldl_append, List.foldl_cons, List.foldl_nil, ih]
    have hn : names i (ops ++ [op]) = names i ops ++ names i [op] := by simp [names]
    have hs : statuses i (ops ++ [op]) = statuses i ops ++ statuses i [op] := by simp [statuses]
    have hc : children i (ops ++ [op]) = children i ops + children i [op] := by simp [children]
    rw [hn, hs, hc]
    cases op with
    | setName s n => by_cases h : s = some i <;> simp [coreStep, names, statuses, children, h]
    | setStatus s x => by_cases h : s = some i <;> simp [coreStep, names, statuses, children, h]
    | start p n o a b =>
      by_cases h : p = some i
      · subst h
        simp only [coreStep, if_true]
        have e1 : names i [Op.start (some i) n o a b] = [] := rfl
        have e2 : statuses i [Op.start (some i) n o a b] = [] := rfl
        have e3 : children i [Op.start (some i) n o a b] = 1 := by simp [children]
        rw [e1, e2, e3, List.append_nil, List.append_nil]
        congr 1
        rw [if_neg (show ¬ (children i ops + 1 = 0) by omega)]
        split
        · next h0 => rw [h0]; rfl
        · rw [wrap64_succ]; exact congrArg wrap64 (by push_cast; omega)
      · simp [coreStep, names, statuses, children, h]
    | _ => simp [coreStep, names, statuses, children]

theorem core_run {t : Int} {ops : List Op} {st : State} (h : run (State.init t) ops = .ok st) :
    (∀ (i : Nat) (s : Span) (r : Rec), st.spans[i]? = some s → s.data = some r → ∃ x,
      (startedBy ops)[i]? = some x ∧ r.core = ops.foldl (coreStep i) ⟨x.name, ⟨0, []⟩, 0⟩) ∧
    (∀ i : Nat, st.spans.length ≤ i → ∀ c, ops.foldl (coreStep i) c = c) := by
  induction ops using List.reverseRecOn generalizing st with
  | nil => cases h; simp [State.init]
  | append_singleton ops op ih =>
    obtain ⟨mid, h1, h2⟩ := run_snoc_ok h
    obtain ⟨i1, i2⟩ := ih h1
    obtain ⟨c1, c2, c3⟩ := step_core h2
    have hk : Keeps mid.spans st.spans ∧ mid.spans.length ≤ st.spans.length := by
      rcases started_cases op with ho | ⟨x, ho⟩
      · exact ⟨(step_other h2 ho).1, by rw [(step_other h2 ho).2]⟩
      · exact ⟨(step_start h2 ho).1, by rw [(step_start h2 ho).2.1]; omega⟩
    refine ⟨?_, ?_⟩
    · intro i s r hs hr
      by_cases hi : i < mid.spans.length
      · have h0 := List.getElem?_eq_getElem hi
        obtain ⟨s', hs', hsame⟩ := hk.1 _ _ h0
        rw [hs] at hs'; cases hs'
        have : (mid.spans[i]).data.isSome := by rw [← hsame.2.1, hr]; rfl
        obtain ⟨r0, hr0⟩ := Option.isSome_iff_exists.mp this
        obtain ⟨x, hx, hc⟩ := i1 i _ r0 h0 hr0
        refine ⟨x, ?_, ?_⟩
        · have := getElem?_lt hx
          unfold startedBy at hx this ⊢
          rw [List.flatMap_append, List.getElem?_append_left this]; exact hx
        · rw [List.foldl_append, List.foldl_cons, List.foldl_nil, ← hc]
          exact c1 i _ r0 h0 hr0 s r hs hr
      · obtain ⟨q1, q2, q3⟩ := c3 i s r (by omega) hs hr
        have hlen := started_length h1
        have hx : ∃ x, started op = [x] ∧ x.name = r.data.name := by
          rcases q3 with ⟨p, o, a, b, rfl⟩ | ⟨p, o, a, b, rfl⟩
          · cases p <;> exact ⟨_, rfl, rfl⟩
          · exact ⟨_, rfl, rfl⟩
        obtain ⟨x, hx, hn⟩ := hx
        have hi' : i = mid.spans.length := by
          have := getElem?_lt hs
          have h3 := (step_start h2 hx).2.1
          omega
        refine ⟨x, ?_, ?_⟩
        · rw [startedBy, List.flatMap_append, List.getElem?_append_right (by
            show (startedBy ops).length ≤ i; omega)]
          have : i - (ops.flatMap started).length = 0 := by
            have : (ops.flatMap started).length = mid.spans.length := hlen
            omega
          rw [this]; simp [hx]
        · rw [List.foldl_append, i2 i (by omega), List.foldl_cons, List.foldl_nil, c2 i (by omega), hn, ← q1, ← q2]
          rfl
    · intro i hi c
      rw [List.foldl_append, i2 i (by omega), List.foldl_cons, List.foldl_nil, c2 i (by omega)]

/-- What an exporter is told about a span: its name is the last one it was given, its status the last
one set, its kind the last one asked for; start and end times are the times of its start and of its
first `End`; the number of children is the number of `StartSpan` calls with this span as the parent (as
long as it fits an `int`). -/
theorem exported_data {t : Int} {ops : List Op} {st : State} (h : run (State.init t) ops = .ok st)
    {e : Exporter} {i : Nat} {sd : SpanData} (hx : (e, i, sd) ∈ st.exported) :
    ∃ c op d order b x s, ops = (c ++ op :: d) ++ .endSpan (some i) order :: b ∧ started op = [x] ∧
      (startedBy c).length = i ∧ (∀ o, Op.endSpan (some i) o ∉ c ++ op :: d) ∧
      st.spans[i]? = some s ∧ sd.ctx = s.ctx ∧
      sd.name = (names i (c ++ op :: d)).getLastD x.name ∧
      sd.status = (statuses i (c ++ op :: d)).getLastD ⟨0, []⟩ ∧
      sd.kind = kindOf x.opts ∧ sd.hasRemoteParent = isRemote x.origin ∧
      sd.startTime = clockAfter t c ∧ sd.endTime = clockAfter t (c ++ op :: d) ∧
      (children i (c ++ op :: d) < 2 ^ 63 → sd.childSpanCount = children i (c ++ op :: d)) := by
  obtain ⟨c, op, d, order, b, x, mid0, mid, s, r, r', sd0, e1, e2, e3, e4, e5, e6, e7, e8, e9, e10, e11, e12, e13, e14, e15⟩ :=
    export_history h hx
  obtain ⟨f1, f2, f3, f4, f5, f6, f7, f8⟩ := makeSpanData_fields e12
  obtain ⟨x', hx', hc⟩ := (core_run e7).1 i s r e8 e9
  rw [e5] at hx'; cases hx'
  rw [fold_core] at hc
  obtain ⟨g1, g2, g3, g4, _⟩ := e10.fixed r e9
  have hk : Keeps mid.spans st.spans := by
    rw [e1] at h
    obtain ⟨m1, m2, k1, k2, k3⟩ := run_split h
    rw [e7] at k1; cases k1
    exact Keeps.trans (step_other k2 rfl).1 (run_keeps k3).1
  obtain ⟨s', hs', hsame⟩ := hk _ _ e8
  refine ⟨c, op, d, order, b, x, s', e1, e2, e3, e4, hs', ?_⟩
  rw [e13]
  simp only [finalData]
  refine ⟨by rw [f1, g4, hsame.1], ?_, ?_, ?_, by rw [f8, g3], ?_, ?_, ?_⟩
  · rw [f5]; exact congrArg Core.name hc
  · rw [f3]; exact congrArg Core.status hc
  · rw [f6, g2, applyOptions_kind]
  · rw [f2, g1]; exact (hinv_run e6).now
  · rw [← (hinv_run e7).now]; unfold monotonicEndTime; omega
  · intro hlt
    have := congrArg Core.children hc
    rw [f7]
    refine this.trans ?_
    simp only
    split
    · next h0 => rw [h0]; rfl
    · unfold wrap64; omega

/-! ## A program that meets the hypotheses

Two exporters, one unregistered before the end, limits of one, two annotations, a rename, a child, two
calls of `End`. -/

def demo : List Op :=
  [.registerExporter 1, .registerExporter 2, .registerExporter 3, .unregisterExporter 2,
   .applyConfig ⟨none, none, 1, 0, -5, 0⟩,
   .start none [1] [.sampler (some alwaysSample), .kind 2] (List.replicate 16 1) (List.replicate 8 1),
   .tick 5, .annotate (some 0) [] [65], .tick 5, .annotate (some 0) [⟨[97], [1]⟩] [66],
   .addAttributes (some 0) [⟨[97], [1]⟩, ⟨[98], [2]⟩, ⟨[97], [3]⟩], .setName (some 0) [9],
   .start (some 0) [2] [] (List.replicate 16 2) (List.replicate 8 2),
   .endSpan (some 0) [[97], [98]], .unregisterExporter 1, .endSpan (some 0) []]

example : (match run (State.init 100) demo with
    | .ok st => decide (st.exported.map (fun x => (x.1, x.2.1)) = [(1, 0), (3, 0)]) &&
        st.exported.all fun x => decide (x.2.2.annotations.map Annotation.message = [[66]] ∧
          x.2.2.droppedAnnotations = 1 ∧ x.2.2.name = [9] ∧ x.2.2.kind = 2 ∧ x.2.2.startTime = 100 ∧
          x.2.2.endTime = 110 ∧ x.2.2.childSpanCount = 1 ∧ GoMap.get x.2.2.attributes [97] = some [3])
    | _ => false) = true := by decide +kernel

example : (∀ name orders, Op.reportActive name orders ∉ demo) ∧ registered 1 (demo.take 13) = true ∧
    registered 2 (demo.take 13) = false ∧ limit Config.maxAnnotations 32 demo = 1 ∧
    limit Config.maxAttributes 32 demo = 32 := by
  refine ⟨by simp [demo], by decide, by decide, by decide, by decide⟩

end Verif.Props.Spans
