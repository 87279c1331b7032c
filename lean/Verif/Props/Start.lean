import Verif.Trace.SpanLemmas
import Verif.Rounding
import Mathlib.Logic.Relation
import Mathlib.Data.Finset.Card
import Mathlib.Data.Finset.Range

/-!
# C24, C25, C26: trace continuity, inherited sampling, probability sampling
-/

namespace Verif.Props.Start
open Verif Verif.Trace

/-! ## Which spans a program starts -/

/-- How a span was started, read off the program. -/
inductive Origin where
  | root                          -- StartSpan without a span in the context
  | child (p : Nat)               -- StartSpan with span `p` in the context
  | remote (sc : SpanContext)     -- StartSpanWithRemoteParent
  deriving DecidableEq

/-- A started span: how, with which options and name, and the IDs the generator returned. -/
structure Started where
  origin : Origin
  opts : List StartOption
  name : Bytes
  tid : Bytes
  sid : Bytes

/-- The spans an operation starts. -/
def started : Op → List Started
  | .start none name opts tid sid => [⟨.root, opts, name, tid, sid⟩]
  | .start (some p) name opts tid sid => [⟨.child p, opts, name, tid, sid⟩]
  | .startRemote sc name opts tid sid => [⟨.remote sc, opts, name, tid, sid⟩]
  | _ => []

/-- All spans a program starts, in order: the `i`-th is span `i`. -/
def startedBy (ops : List Op) : List Started := ops.flatMap started

/-- The sampler the options ask for: the last one given, if it is not nil. -/
def explicitSampler (l : List StartOption) : Option Sampler :=
  (l.reverse.findSome? fun o => match o with
    | .sampler s => some s
    | .kind _ => none).getD none

/-- The context of the parent, `none` when there is none: a parent whose context is all zero counts as
none, as in the code. `l` are the spans so far. -/
def parentCtx (l : List Span) : Origin → Option SpanContext
  | .root => none
  | .child p => (l[p]?).bind fun s => if s.ctx = .zero then none else some s.ctx
  | .remote sc => if sc = .zero then none else some sc

def isRemote : Origin → Bool
  | .remote _ => true
  | _ => false

/-! ## Helper lemmas -/

theorem applyOptions_sampler (l : List StartOption) : (applyOptions l).sampler = explicitSampler l := by
  unfold applyOptions explicitSampler
  rw [← List.foldr_reverse]
  induction l.reverse with
  | nil => rfl
  | cons o l ih =>
    cases o with
    | kind k => simpa [StartOption.apply] using ih
    | sampler s => simp [StartOption.apply]

theorem step_other {st st' : State} {op : Op} (h : step st op = .ok st') (ho : started op = []) :
    Keeps st.spans st'.spans ∧ st'.spans.length = st.spans.length := by
  have mod : ∀ (s : Option Nat) (f : Rec → Res Rec), KeepsData f →
      (onSpan st s fun i => modifyRec st i f) = .ok st' →
      Keeps st.spans st'.spans ∧ st'.spans.length = st.spans.length := by
    intro s f hf h
    cases s with
    | none => cases h; exact ⟨Keeps.refl _, rfl⟩
    | some i => exact ⟨(modifyRec_ok hf h).1, (modifyRec_ok hf h).2.1⟩
  cases op with
  | start p name opts tid sid => cases p <;> simp [started] at ho
  | startRemote sc name opts tid sid => simp [started] at ho
  | setName s name => exact mod s _ (keeps_setName _) h
  | setStatus s x => exact mod s _ (keeps_setStatus _) h
  | addAttributes s l => exact mod s _ (keeps_addAttributes _) h
  | annotate s l m => exact mod s _ (keeps_annotate _ _ _) h
  | addMessageEvent s t a b c => exact mod s _ (keeps_addMessageEvent _ _ _ _ _) h
  | addLink s l => exact mod s _ (keeps_addLink _) h
  | endSpan s order =>
    cases s with
    | none => cases h; exact ⟨Keeps.refl _, rfl⟩
    | some i => exact endSpan_spans h
  | registerExporter e => cases h; exact ⟨Keeps.refl _, rfl⟩
  | unregisterExporter e => cases h; exact ⟨Keeps.refl _, rfl⟩
  | applyConfig c => cases h; exact ⟨Keeps.refl _, rfl⟩
  | configure bcs =>
    obtain ⟨stores, _, h⟩ := Res_bind_ok h
    cases h; exact ⟨Keeps.refl _, rfl⟩
  | reportActive name orders =>
    obtain ⟨⟨st1, out⟩, h1, h⟩ := Res_bind_ok h
    cases h
    unfold reportActive at h1
    split at h1
    · cases h1; exact ⟨Keeps.refl _, rfl⟩
    · exact ⟨(reportActiveLoop_spans h1).1, (reportActiveLoop_spans h1).2.1⟩
  | enableStore => cases h; exact ⟨Keeps.refl _, rfl⟩
  | tick d => cases h; exact ⟨Keeps.refl _, rfl⟩

/-- Nothing was recorded yet in the fields filled from the containers. -/
def Blank (d : SpanData) : Prop :=
  d.attributes = [] ∧ d.annotations = [] ∧ d.messageEvents = [] ∧ d.links = [] ∧ d.droppedAttributes = 0 ∧
    d.droppedAnnotations = 0 ∧ d.droppedMessageEvents = 0 ∧ d.droppedLinks = 0

theorem blank_new (sc : SpanContext) (now kind : Int) (name : Bytes) (remote hasParent : Bool) (parent : SpanContext) :
    Blank (newSpanData sc now kind name remote hasParent parent) := ⟨rfl, rfl, rfl, rfl, rfl, rfl, rfl, rfl⟩

/-- What a started span looks like, in terms of the state before. -/
structure IsStarted (st : State) (x : Started) (s : Span) : Prop where
  ctx : s.ctx = newCtx st x.name (parentCtx st.spans x.origin).isSome
    ((parentCtx st.spans x.origin).getD .zero) (isRemote x.origin) (applyOptions x.opts) x.tid x.sid
  parent : ∀ r, s.data = some r → r.data.parentSpanID =
    match parentCtx st.spans x.origin with
    | some p => p.spanID
    | none => List.replicate 8 0
  recording : s.data.isSome = (st.localStore || s.ctx.isSampled)
  caps : ∀ r, s.data = some r → r.annotations.capacity = st.cfg.maxAnnotations ∧
    r.messageEvents.capacity = st.cfg.maxMessageEvents ∧ r.links.capacity = st.cfg.maxLinks ∧
    r.attrs.maxEntries = st.cfg.maxAttributes
  exists_parent : ∀ p, x.origin = .child p → p < st.spans.length
  fixed : ∀ r, s.data = some r → r.data.startTime = st.now ∧ r.data.kind = (applyOptions x.opts).spanKind ∧
    r.data.hasRemoteParent = isRemote x.origin ∧ r.data.ctx = s.ctx ∧ Blank r.data
  store : s.store = if st.localStore then some x.name else none

theorem step_start {st st' : State} {op : Op} (h : step st op = .ok st') {x : Started}
    (ho : started op = [x]) :
    Keeps st.spans st'.spans ∧ st'.spans.length = st.spans.length + 1 ∧
      ∃ s, st'.spans[st.spans.length]? = some s ∧ IsStarted st x s := by
  have zeroP : ∀ (st1 : State) (name : Bytes) (remote : Bool) (o : StartOptions) (tid sid : Bytes)
      (parent : SpanContext), newCtx st1 name (decide (parent ≠ .zero)) parent remote o tid sid =
        newCtx st1 name (if parent = .zero then none else some parent).isSome
          ((if parent = .zero then none else some parent).getD .zero) remote o tid sid := by
    intro st1 name remote o tid sid parent
    by_cases hz : parent = .zero
    · subst hz; rfl
    · simp [hz]
  cases op with
  | start p name opts tid sid =>
    cases p with
    | none =>
      simp only [started, List.cons.injEq, and_true] at ho
      subst ho
      obtain ⟨s, h1, h2, h3, h4, h5, h6⟩ := startSpanInternal_ok h
      refine ⟨by rw [h1]; exact Keeps.snoc _ _, by simp [h1], s, by simp [h1], h2, ?_, h4, ?_, by simp, ?_, h5⟩
      · intro r hr
        rw [h6 r hr]; rfl
      · intro r hr
        rw [h6 r hr]; exact ⟨rfl, rfl, rfl, rfl⟩
      · intro r hr
        rw [h6 r hr]; exact ⟨rfl, rfl, rfl, rfl, blank_new _ _ _ _ _ _ _⟩
    | some p =>
      simp only [started, List.cons.injEq, and_true] at ho
      subst ho
      simp only [step, startSpan] at h
      cases hp : st.spans[p]? with
      | none => rw [hp] at h; simp at h
      | some ps =>
        rw [hp] at h
        simp only at h
        obtain ⟨st1, hm, h⟩ := Res_bind_ok h
        obtain ⟨k1, k2, k3⟩ := modifyRec_ok keeps_addChild hm
        obtain ⟨s, h1, h2, h3, h4, h5, h6⟩ := startSpanInternal_ok h
        have hlen : st'.spans.length = st.spans.length + 1 := by simp [h1, k2]
        have hpc : parentCtx st.spans (.child p) = if ps.ctx = .zero then none else some ps.ctx := by
          simp [parentCtx, hp]
        refine ⟨by rw [h1]; exact Keeps.trans k1 (Keeps.snoc _ _), hlen, s, by rw [h1, ← k2]; simp, ?_, ?_, ?_, ?_, ?_, ?_, ?_⟩
        · rw [h2, zeroP, hpc, k3]; rfl
        · intro r hr
          rw [h6 r hr, hpc]
          by_cases hz : ps.ctx = .zero <;> simp [newSpanData, hz]
        · rw [h4, k3]
        · intro r hr
          rw [h6 r hr, k3]; exact ⟨rfl, rfl, rfl, rfl⟩
        · intro q hq
          cases hq
          by_contra hc
          rw [List.getElem?_eq_none (by omega)] at hp; cases hp
        · intro r hr
          rw [h6 r hr, k3]; exact ⟨rfl, rfl, rfl, rfl, blank_new _ _ _ _ _ _ _⟩
        · rw [h5, k3]
  | startRemote sc name opts tid sid =>
    simp only [started, List.cons.injEq, and_true] at ho
    subst ho
    obtain ⟨s, h1, h2, h3, h4, h5, h6⟩ := startSpanInternal_ok h
    refine ⟨by rw [h1]; exact Keeps.snoc _ _, by simp [h1], s, by simp [h1], ?_, ?_, h4, ?_, by simp, ?_, h5⟩
    · rw [h2, zeroP]; rfl
    · intro r hr
      rw [h6 r hr]
      by_cases hz : sc = .zero <;> simp [newSpanData, parentCtx, hz]
    · intro r hr
      rw [h6 r hr]; exact ⟨rfl, rfl, rfl, rfl⟩
    · intro r hr
      rw [h6 r hr]; exact ⟨rfl, rfl, rfl, rfl, blank_new _ _ _ _ _ _ _⟩
  | _ => simp [started] at ho

theorem started_cases (op : Op) : started op = [] ∨ ∃ x, started op = [x] := by
  cases op with
  | start p name opts tid sid => cases p <;> exact .inr ⟨_, rfl⟩
  | startRemote sc name opts tid sid => exact .inr ⟨_, rfl⟩
  | _ => exact .inl rfl

theorem run_keeps {st st' : State} {ops : List Op} (h : run st ops = .ok st') :
    Keeps st.spans st'.spans ∧ st'.spans.length = st.spans.length + (startedBy ops).length := by
  induction ops generalizing st with
  | nil => cases h; exact ⟨Keeps.refl _, rfl⟩
  | cons op ops ih =>
    obtain ⟨st1, h1, h2⟩ := Res_bind_ok h
    obtain ⟨k1, k2⟩ := ih h2
    rcases started_cases op with ho | ⟨x, ho⟩
    · obtain ⟨a, b⟩ := step_other h1 ho
      exact ⟨Keeps.trans a k1, by rw [k2, b]; simp [startedBy, ho]⟩
    · obtain ⟨a, b, _⟩ := step_start h1 ho
      exact ⟨Keeps.trans a k1, by rw [k2, b]; simp [startedBy, ho]; omega⟩

theorem Keeps.parentCtx {l l' : List Span} (h : Keeps l l') {o : Origin}
    (ho : ∀ p, o = .child p → p < l.length) : Start.parentCtx l' o = Start.parentCtx l o := by
  cases o with
  | root => rfl
  | remote sc => rfl
  | child p =>
    have hp := ho p rfl
    obtain ⟨s', h1, h2⟩ := h p l[p] (List.getElem?_eq_getElem hp)
    have hctx : s'.ctx = l[p].ctx := h2.1
    simp [Start.parentCtx, h1, hp, hctx]

/-- Every started span, seen from the end of the run. -/
theorem run_started {st st' : State} {ops : List Op} (h : run st ops = .ok st') {i : Nat} {x : Started}
    (hx : (startedBy ops)[i]? = some x) :
    ∃ s mid, st'.spans[st.spans.length + i]? = some s ∧ IsStarted { mid with spans := st'.spans } x s ∧
      (∃ a op b, ops = a ++ op :: b ∧ started op = [x] ∧ run st a = .ok mid ∧
        mid.spans.length = st.spans.length + i) ∧
      (∀ p, x.origin = .child p → p < st.spans.length + i) := by
  induction ops generalizing st i with
  | nil => simp [startedBy] at hx
  | cons op ops ih =>
    obtain ⟨st1, h1, h2⟩ := Res_bind_ok h
    have wrap : ∀ j, (startedBy ops)[j]? = some x → st1.spans.length + j = st.spans.length + i →
        ∃ s mid, st'.spans[st.spans.length + i]? = some s ∧ IsStarted { mid with spans := st'.spans } x s ∧
      (∃ a op' b, op :: ops = a ++ op' :: b ∧ started op' = [x] ∧ run st a = .ok mid ∧
        mid.spans.length = st.spans.length + i) ∧
      (∀ p, x.origin = .child p → p < st.spans.length + i) := by
      intro j hj he
      obtain ⟨s, mid, e1, e2, ⟨a, op', b, e3, e3', e4, e5⟩, e6⟩ := ih h2 hj
      rw [he] at e1 e5 e6
      refine ⟨s, mid, e1, e2, ⟨op :: a, op', b, by rw [e3]; rfl, e3', ?_, e5⟩, e6⟩
      simp [run, h1, Res.bind, e4]
    rcases started_cases op with ho | ⟨y, ho⟩
    · obtain ⟨_, b⟩ := step_other h1 ho
      exact wrap i (by simpa [startedBy, ho] using hx) (by omega)
    · obtain ⟨a, b, s, hs, hst⟩ := step_start h1 ho
      cases i with
      | succ i => exact wrap i (by simpa [startedBy, ho] using hx) (by omega)
      | zero =>
        have hxy : y = x := by simpa [startedBy, ho] using hx
        subst hxy
        obtain ⟨k1, _⟩ := run_keeps h2
        obtain ⟨s', hs', e1, e2, e3, e4⟩ := k1 _ _ hs
        have hpc := Keeps.parentCtx (Keeps.trans a k1) hst.exists_parent
        refine ⟨s', st, by simpa using hs', ⟨?_, ?_, ?_, ?_, ?_, ?_, ?_⟩, ⟨[], op, ops, rfl, ho, rfl, by simp⟩, by simpa using hst.exists_parent⟩
        · rw [e1, hst.ctx]; simp only [hpc]; rfl
        · intro r hr
          simp only [hpc]
          have : s.data.isSome := by rw [← e2, hr]; rfl
          obtain ⟨r0, hr0⟩ := Option.isSome_iff_exists.mp this
          rw [(e4 r0 r hr0 hr).parent, hst.parent r0 hr0]
        · rw [e2, e1]; exact hst.recording
        · intro r hr
          have : s.data.isSome := by rw [← e2, hr]; rfl
          obtain ⟨r0, hr0⟩ := Option.isSome_iff_exists.mp this
          have hf := e4 r0 r hr0 hr
          rw [hf.capA, hf.capM, hf.capL, hf.capT]
          exact hst.caps r0 hr0
        · intro p hp
          have h3 := hst.exists_parent p hp
          have h4 := (run_keeps h2).2
          simp only
          omega
        · intro r hr
          have : s.data.isSome := by rw [← e2, hr]; rfl
          obtain ⟨r0, hr0⟩ := Option.isSome_iff_exists.mp this
          have hf := e4 r0 r hr0 hr
          have hb : Blank r0.data → Blank r.data := by
            intro hb; rw [hf.raw]; exact hb
          obtain ⟨g1, g2, g3, g4, g5⟩ := hst.fixed r0 hr0
          rw [hf.start, hf.kind, hf.remote, hf.ctx, e1]
          exact ⟨g1, g2, g3, g4, hb g5⟩
        · rw [e3, hst.store]

theorem run_init {t : Int} {st : State} {ops : List Op} (h : run (State.init t) ops = .ok st) {i : Nat}
    {x : Started} (hx : (startedBy ops)[i]? = some x) :
    ∃ s mid, st.spans[i]? = some s ∧ IsStarted { mid with spans := st.spans } x s ∧
      (∃ a op b, ops = a ++ op :: b ∧ started op = [x] ∧ run (State.init t) a = .ok mid ∧ mid.spans.length = i) ∧
      (∀ p, x.origin = .child p → p < i) := by
  have := run_started h hx
  simpa [State.init] using this

/-- The four facts about `startContext`. -/
theorem newCtx_ids (st : State) (name : Bytes) (hasParent : Bool) (parent : SpanContext) (remote : Bool)
    (o : StartOptions) (tid sid : Bytes) :
    (newCtx st name hasParent parent remote o tid sid).spanID = sid ∧
    (newCtx st name hasParent parent remote o tid sid).traceID = if hasParent then parent.traceID else tid := by
  have hset : ∀ (sc : SpanContext) (b : Bool), (sc.setIsSampled b).spanID = sc.spanID ∧
      (sc.setIsSampled b).traceID = sc.traceID := by
    intro sc b; cases b <;> exact ⟨rfl, rfl⟩
  unfold newCtx startContext
  cases hasParent <;> cases remote <;> cases o.sampler <;> simp [hset]

/-! ## C24 -/

/-- A span started with a parent has the parent's trace ID and records the parent's span ID; a span
without a parent has the generated trace ID and a zero parent span ID; its span ID is the generated one. -/
theorem trace_continuity {t : Int} {st : State} {ops : List Op} (h : run (State.init t) ops = .ok st)
    {i : Nat} {x : Started} (hx : (startedBy ops)[i]? = some x) :
    ∃ s, st.spans[i]? = some s ∧ s.ctx.spanID = x.sid ∧
      match parentCtx st.spans x.origin with
      | some p => s.ctx.traceID = p.traceID ∧ ∀ r, s.data = some r → r.data.parentSpanID = p.spanID
      | none => s.ctx.traceID = x.tid ∧ ∀ r, s.data = some r → r.data.parentSpanID = List.replicate 8 0 := by
  obtain ⟨s, mid, h1, h2, _, _⟩ := run_init h hx
  have hid := newCtx_ids { mid with spans := st.spans } x.name (parentCtx st.spans x.origin).isSome
    ((parentCtx st.spans x.origin).getD .zero) (isRemote x.origin) (applyOptions x.opts) x.tid x.sid
  rw [← h2.ctx] at hid
  refine ⟨s, h1, hid.1, ?_⟩
  have hp := h2.parent
  simp only at hp
  cases hc : parentCtx st.spans x.origin with
  | none => rw [hc] at hid hp; exact ⟨hid.2, hp⟩
  | some p => rw [hc] at hid hp; exact ⟨hid.2, hp⟩

/-- Span `c` was started as a child of span `p`. -/
def ChildOf (ops : List Op) (p c : Nat) : Prop := ∃ x, (startedBy ops)[c]? = some x ∧ x.origin = .child p

/-- Along any chain of `StartSpan` calls there is one trace ID, provided the ID generator returns no zero
span ID (the default one does not, `Verif.Props.Ids.spanID_nonzero`). -/
theorem chain_one_trace {t : Int} {st : State} {ops : List Op} (h : run (State.init t) ops = .ok st)
    (hz : ∀ x ∈ startedBy ops, x.sid ≠ List.replicate 8 0) {a b : Nat}
    (hc : Relation.ReflTransGen (ChildOf ops) a b) {sa sb : Span} (ha : st.spans[a]? = some sa)
    (hb : st.spans[b]? = some sb) : sb.ctx.traceID = sa.ctx.traceID := by
  induction hc generalizing sb with
  | refl => rw [ha] at hb; cases hb; rfl
  | @tail p c _ hpc ih =>
    obtain ⟨x, hx, ho⟩ := hpc
    obtain ⟨s, hs, _, hm⟩ := trace_continuity h hx
    rw [hb] at hs; cases hs
    obtain ⟨s, mid, h1, h2, _, hlt⟩ := run_init h hx
    have hpi := hlt p ho
    have hlen := (run_keeps h).2
    have hil : c < st.spans.length := by
      by_contra hcn
      rw [List.getElem?_eq_none (by omega)] at hb; cases hb
    have hp : st.spans[p]? = some st.spans[p] := List.getElem?_eq_getElem (by omega)
    have hps : p < (startedBy ops).length := by
      simp only [State.init, List.length_nil] at hlen; omega
    obtain ⟨sp, hsp, hspid, _⟩ := trace_continuity h (List.getElem?_eq_getElem hps)
    have hne : sp.ctx ≠ .zero := by
      intro hcz
      apply hz _ (List.getElem_mem hps)
      rw [← hspid, hcz]; rfl
    rw [ho] at hm
    simp only [parentCtx, hsp, Option.bind_some, hne, if_false] at hm
    rw [hm.1]
    exact ih hsp

/-! ## C25 -/

/-- The sampled bit says what was decided, and no other trace option bit changes. -/
theorem sampled_bit (sc : SpanContext) (b : Bool) :
    (sc.setIsSampled b).isSampled = b ∧
      ∀ i : Nat, i ≠ 0 → (sc.setIsSampled b).opts.getLsbD i = sc.opts.getLsbD i := by
  have key : ∀ x : BitVec 32, (x &&& 1#32 == 1#32) = x.getLsbD 0 := by
    intro x
    rw [Bool.eq_iff_iff, beq_iff_eq]
    constructor
    · intro h
      have := congrArg (fun y => y.getLsbD 0) h
      simpa using this
    · intro h
      apply BitVec.eq_of_getLsbD_eq
      intro i hi
      rw [BitVec.getLsbD_and]
      by_cases h0 : i = 0
      · subst h0; simp [h]
      · simp [BitVec.getLsbD_one, h0]
  cases b with
  | true =>
    refine ⟨?_, ?_⟩
    · simp [SpanContext.setIsSampled, SpanContext.isSampled, key]
    · intro i hi
      simp [SpanContext.setIsSampled, BitVec.getLsbD_one, hi]
  | false =>
    refine ⟨?_, ?_⟩
    · simp [SpanContext.setIsSampled, SpanContext.isSampled, key]
    · intro i hi
      simp only [SpanContext.setIsSampled, Bool.false_eq_true, if_false, BitVec.getLsbD_and, BitVec.getLsbD_not,
        BitVec.getLsbD_one]
      by_cases h32 : i < 32
      · simp [h32, hi]
      · rw [BitVec.getLsbD_of_ge _ _ (by omega)]; simp

/-- Which sampler decides about a span: the explicit one if given, none for a local child, the
configured one otherwise. -/
def decider (cfg : Option Sampler) (hasParent remote : Bool) (opts : List StartOption) : Option Sampler :=
  match explicitSampler opts with
  | some s => some s
  | none => if hasParent && !remote then none else cfg

/-- The sampling decision of every span of every program: a span without a deciding sampler has its
parent's trace options; for another one the deciding sampler is asked, with the right parameters, its
answer is the sampled bit and the other bits are the parent's. `cfg` is the configured sampler when the
span was started. -/
theorem sampling_decision {t : Int} {st : State} {ops : List Op} (h : run (State.init t) ops = .ok st)
    {i : Nat} {x : Started} (hx : (startedBy ops)[i]? = some x) :
    ∃ s mid a op b, st.spans[i]? = some s ∧ ops = a ++ op :: b ∧ started op = [x] ∧
      run (State.init t) a = .ok mid ∧ mid.spans.length = i ∧
      ∃ parent, parent = (parentCtx st.spans x.origin).getD .zero ∧
      (s.data.isSome = (mid.localStore || s.ctx.isSampled)) ∧
      (∀ k : Nat, k ≠ 0 → s.ctx.opts.getLsbD k = parent.opts.getLsbD k) ∧
      (s.ctx.isSampled = match decider (some (mid.cfg.sampler.getD neverSample))
          (parentCtx st.spans x.origin).isSome (isRemote x.origin) x.opts with
        | none => parent.isSampled
        | some sampler => sampler ⟨parent, s.ctx.traceID, x.sid, x.name, isRemote x.origin⟩) := by
  obtain ⟨s, mid, h1, h2, ⟨a, op, b, e1, e2, e3, e4⟩, _⟩ := run_init h hx
  refine ⟨s, mid, a, op, b, h1, e1, e2, e3, e4, _, rfl, h2.recording, ?_⟩
  have hc := h2.ctx
  have hid := newCtx_ids { mid with spans := st.spans } x.name (parentCtx st.spans x.origin).isSome
    ((parentCtx st.spans x.origin).getD .zero) (isRemote x.origin) (applyOptions x.opts) x.tid x.sid
  rw [← hc] at hid
  obtain ⟨hsid, htid⟩ := hid
  rw [htid]
  generalize (parentCtx st.spans x.origin).isSome = hp at *
  generalize (parentCtx st.spans x.origin).getD SpanContext.zero = par at *
  generalize hr : isRemote x.origin = rem at *
  simp only [newCtx, startContext, applyOptions_sampler] at hc
  unfold decider
  cases hs : explicitSampler x.opts with
  | some smp =>
    simp only [hs, Option.isSome_some, Bool.or_true, if_true] at hc
    rw [hc]
    refine ⟨fun k hk => ?_, ?_⟩
    · rw [(sampled_bit _ _).2 k hk]; cases hp <;> rfl
    · rw [(sampled_bit _ _).1]; cases hp <;> rfl
  | none =>
    simp only [hs, Option.isSome_none, Bool.or_false] at hc
    cases hp <;> cases rem <;>
      simp only [Bool.not_false, Bool.not_true, Bool.or_false, Bool.or_true, Bool.false_eq_true, if_true, if_false,
        Bool.and_self, Bool.and_true, Bool.and_false] at hc ⊢
    · rw [hc]; exact ⟨fun k hk => by rw [(sampled_bit _ _).2 k hk], by rw [(sampled_bit _ _).1]⟩
    · rw [hc]; exact ⟨fun k hk => by rw [(sampled_bit _ _).2 k hk], by rw [(sampled_bit _ _).1]⟩
    · rw [hc]; exact ⟨fun k hk => rfl, rfl⟩
    · rw [hc]; exact ⟨fun k hk => by rw [(sampled_bit _ _).2 k hk], by rw [(sampled_bit _ _).1]⟩

/-- A local child without a sampler option is sampled exactly when its parent is, all trace options and
the tracestate being the parent's. -/
theorem child_inherits {t : Int} {st : State} {ops : List Op} (h : run (State.init t) ops = .ok st)
    {i p : Nat} {x : Started} (hx : (startedBy ops)[i]? = some x) (ho : x.origin = .child p)
    (hs : explicitSampler x.opts = none) {s ps : Span} (hi : st.spans[i]? = some s)
    (hp : st.spans[p]? = some ps) (hz : ps.ctx ≠ .zero) :
    s.ctx.opts = ps.ctx.opts ∧ s.ctx.isSampled = ps.ctx.isSampled ∧ s.ctx.tracestate = ps.ctx.tracestate := by
  obtain ⟨s', mid, h1, h2, _, _⟩ := run_init h hx
  rw [hi] at h1; cases h1
  have hc := h2.ctx
  simp only [ho, parentCtx, hp, Option.bind_some, hz, if_false, Option.isSome_some, Option.getD_some, isRemote,
    newCtx, startContext, applyOptions_sampler, hs, Bool.not_true, Option.isSome_none, Bool.or_self,
    Bool.false_eq_true] at hc
  rw [hc]
  exact ⟨rfl, rfl, rfl⟩

/-- The samplers are called exactly when the property says: at most one call, of the explicit sampler if
there is one, else of the configured one for spans without a local parent. -/
theorem sampler_calls (name : Bytes) (hasParent : Bool) (parent : SpanContext) (remote : Bool)
    (opts : List StartOption) (cfg : Sampler) (tid sid : Bytes) :
    (startContext name hasParent parent remote (applyOptions opts) cfg tid sid).2.map Prod.fst =
      if (explicitSampler opts).isSome then [.option]
      else if hasParent && !remote then [] else [.default] := by
  simp only [startContext, applyOptions_sampler]
  cases hs : explicitSampler opts <;> cases hasParent <;> cases remote <;> simp

/-! ## C26 -/

/-- The order of numbers as the program sees it. -/
def Le (x y : F64) : Prop := F64.lt y x = false ∧ x ≠ .nan ∧ y ≠ .nan

/-- A float64 value. -/
def IsFloat : F64 → Prop
  | .fin q => F64.Valid q
  | _ => True

/-- The decision depends only on the trace ID (its first eight bytes) and the parent's sampled bit. -/
theorem depends_only (f : F64) (p p' : SamplingParameters)
    (h : p.parentContext.isSampled = p'.parentContext.isSampled)
    (h' : p.traceID.take 8 = p'.traceID.take 8) : probabilitySampler f p = probabilitySampler f p' := by
  unfold probabilitySampler
  simp only
  split
  · simp [h, h']
  · split
    · rfl
    · simp [h, h']

theorem sampled_parent (f : F64) (p : SamplingParameters) (h : p.parentContext.isSampled = true) :
    probabilitySampler f p = true := by
  unfold probabilitySampler
  simp only
  split
  · simp [h]
  · split
    · rfl
    · simp [h]

/-- The number of accepted 63-bit values. -/
def threshold (q : Rat) : Nat := ⌊q * 2 ^ 63⌋.toNat

theorem F64_mul_exact {q : Rat} (hv : F64.Valid q) (h0 : 0 ≤ q) (h1 : q < 1) :
    F64.mul (.fin q) (.fin (2 ^ 63)) = .fin (q * 2 ^ 63) := by
  apply F64.Valid.scale hv h0
  have : q * 2 ^ 63 < 1 * 2 ^ 63 := mul_lt_mul_of_pos_right h1 (by positivity)
  refine this.trans ?_
  rw [one_mul]
  exact pow_lt_pow_right₀ (by norm_num) (by norm_num)

/-- For `0 ≤ f < 1` a trace is sampled iff the upper 63 bits of its first word are below
`floor (f * 2^63)`. -/
theorem threshold_exact {q : Rat} (hv : F64.Valid q) (h0 : 0 ≤ q) (h1 : q < 1) (p : SamplingParameters)
    (h : p.parentContext.isSampled = false) :
    probabilitySampler (.fin q) p = decide (beNat (p.traceID.take 8) / 2 < threshold q) := by
  have hm := F64_mul_exact hv h0 h1
  unfold probabilitySampler
  simp only
  rw [if_neg (by simp [F64.lt, h0]), if_neg (by simp [F64.lt, h1])]
  simp [h, hm, truncF64, threshold]

/-- Fractions that are at most zero, or NaN, never sample on their own. -/
theorem never (f : F64) (hf : f = .nan ∨ Le f (.fin 0)) (p : SamplingParameters)
    (h : p.parentContext.isSampled = false) : probabilitySampler f p = false := by
  have hz : F64.mul (.fin 0) (.fin (2 ^ 63)) = .fin 0 := by simp [F64.mul, F64.rnd]
  have key : ∀ p : SamplingParameters, p.parentContext.isSampled = false →
      probabilitySampler (.fin 0) p = false := by
    intro p hp
    unfold probabilitySampler
    simp only
    rw [if_neg (by simp [F64.lt]), if_neg (by simp [F64.lt])]
    simp [hp, hz, truncF64]
  rcases hf with rfl | ⟨h1, h2, _⟩
  · simpa [probabilitySampler, F64.lt, hz, truncF64] using h
  · cases f with
    | nan => exact absurd rfl h2
    | pinf => simp [F64.lt] at h1
    | ninf => simpa [probabilitySampler, F64.lt, hz, truncF64] using h
    | fin q =>
      have hq : q ≤ 0 := by simpa [F64.lt] using h1
      rcases lt_or_eq_of_le hq with h3 | h3
      · have : F64.lt (.fin q) (.fin 0) = true := by simp [F64.lt, h3]
        simpa [probabilitySampler, this, hz, truncF64] using h
      · subst h3; exact key p h

/-- Fractions of at least one always sample. -/
theorem always (f : F64) (hf : Le (.fin 1) f) (p : SamplingParameters) : probabilitySampler f p = true := by
  obtain ⟨h1, _, h2⟩ := hf
  cases f with
  | nan => exact absurd rfl h2
  | ninf => simp [F64.lt] at h1
  | pinf => simp [probabilitySampler, F64.lt, alwaysSample]
  | fin q =>
    have hq : 1 ≤ q := by simpa [F64.lt] using h1
    have h3 : F64.lt (.fin q) (.fin 0) = false := by simp [F64.lt]; linarith
    simp [probabilitySampler, h3, h1, alwaysSample]

theorem threshold_mono {q q' : Rat} (h : q ≤ q') : threshold q ≤ threshold q' := by
  unfold threshold
  apply Int.toNat_le_toNat
  apply Int.floor_mono
  exact mul_le_mul_of_nonneg_right h (by positivity)

/-- A trace sampled at `f` is sampled at every larger fraction. -/
theorem monotone {f g : F64} (hf : IsFloat f) (hg : IsFloat g) (h : Le f g) (p : SamplingParameters)
    (hs : probabilitySampler f p = true) : probabilitySampler g p = true := by
  by_cases hp : p.parentContext.isSampled = true
  · exact sampled_parent g p hp
  · have hp : p.parentContext.isSampled = false := by simpa using hp
    by_cases h1 : Le (.fin 1) g
    · exact always g h1 p
    · by_cases h2 : Le f (.fin 0)
      · rw [never f (.inr h2) p hp] at hs; cases hs
      · obtain ⟨a1, a2, a3⟩ := h
        cases f with
        | nan => exact absurd rfl a2
        | ninf => exact absurd ⟨rfl, by simp, by simp⟩ h2
        | pinf =>
          cases g with
          | nan => exact absurd rfl a3
          | ninf => simp [F64.lt] at a1
          | pinf => exact absurd ⟨rfl, by simp, by simp⟩ h1
          | fin b => simp [F64.lt] at a1
        | fin a =>
          cases g with
          | nan => exact absurd rfl a3
          | ninf => simp [F64.lt] at a1
          | pinf => exact absurd ⟨rfl, by simp, by simp⟩ h1
          | fin b =>
            have hab : a ≤ b := by simpa [F64.lt] using a1
            have hb : b < 1 := by
              by_contra hc
              exact h1 ⟨by simp [F64.lt]; linarith, by simp, by simp⟩
            have ha : 0 < a := by
              by_contra hc
              exact h2 ⟨by simp [F64.lt]; linarith, by simp, by simp⟩
            rw [threshold_exact hf ha.le (by linarith) p hp] at hs
            rw [threshold_exact hg (by linarith) hb p hp]
            have hm := threshold_mono hab
            have := of_decide_eq_true hs
            exact decide_eq_true (by omega)

/-- The accepted share of the space of first words: `2 * floor (f * 2^63)` out of `2^64`. -/
theorem accepted_count {q : Rat} (h1 : q < 1) :
    ((Finset.range (2 ^ 64)).filter fun w => w / 2 < threshold q).card = 2 * threshold q := by
  have hT : threshold q ≤ 2 ^ 63 := by
    have h2 : ⌊q * 2 ^ 63⌋ ≤ 2 ^ 63 := by
      have h3 : q * 2 ^ 63 ≤ ((2 ^ 63 : Int) : Rat) := by
        push_cast
        have := mul_lt_mul_of_pos_right h1 (show (0 : Rat) < 2 ^ 63 by positivity)
        linarith
      have := Int.floor_mono h3
      rwa [Int.floor_intCast] at this
    unfold threshold
    omega
  generalize threshold q = T at hT ⊢
  have hN : 2 * T ≤ 2 ^ 64 := by omega
  generalize 2 ^ 64 = N at hN ⊢
  have : (Finset.range N).filter (fun w => w / 2 < T) = Finset.range (2 * T) := by
    ext w
    simp only [Finset.mem_filter, Finset.mem_range]
    omega
  rw [this, Finset.card_range]

theorem beNat_append (a : Bytes) (x : UInt8) : beNat (a ++ [x]) = beNat a * 256 + x.toNat := by
  simp [beNat]

/-- Each first word is one eight-byte string: the words are the trace-ID space. -/
theorem word_bijective (n : Nat) (w : Nat) (hw : w < 256 ^ n) :
    ∃ b : Bytes, (b.length = n ∧ beNat b = w) ∧ ∀ b' : Bytes, b'.length = n ∧ beNat b' = w → b' = b := by
  induction n generalizing w with
  | zero =>
    have : w = 0 := by simpa using hw
    subst this
    exact ⟨[], ⟨rfl, rfl⟩, fun b' h => List.length_eq_zero_iff.mp h.1⟩
  | succ n ih =>
    obtain ⟨b, ⟨h1, h2⟩, h3⟩ := ih (w / 256) (by rw [pow_succ] at hw; exact Nat.div_lt_of_lt_mul (by omega))
    refine ⟨b ++ [UInt8.ofNat (w % 256)], ⟨by simp [h1], ?_⟩, ?_⟩
    · rw [beNat_append, h2]
      have : (UInt8.ofNat (w % 256)).toNat = w % 256 := by
        simp
      rw [this]; omega
    · intro b' ⟨hl, hb⟩
      rcases List.eq_nil_or_concat b' with rfl | ⟨c, x, rfl⟩
      · simp at hl
      · rw [List.concat_eq_append] at hb hl ⊢
        rw [beNat_append] at hb
        have hx := x.toNat_lt
        have e1 : beNat c = w / 256 := by omega
        have e2 : x.toNat = w % 256 := by omega
        rw [h3 c ⟨by simpa using hl, e1⟩]
        congr 2
        apply UInt8.toNat_inj.mp
        simp [e2]

/-! ## Concrete cases -/

def tidA : Bytes := List.replicate 16 1
def sidA : Bytes := List.replicate 8 2
def sidB : Bytes := List.replicate 8 3

/-- A sampled root with a local child. -/
def prog : List Op :=
  [.start none (str "a") [.sampler (some alwaysSample)] tidA sidA, .start (some 0) (str "b") [] tidA sidB]

example : (run (State.init 0) prog).isOk = true := by decide +kernel
example : ChildOf prog 0 1 := ⟨_, rfl, rfl⟩
example : ∀ x ∈ startedBy prog, x.sid ≠ List.replicate 8 0 := by decide +kernel
example : F64.Valid (1 / 4) := by unfold F64.Valid; decide +kernel
example : threshold (1 / 4) = 2 ^ 61 := by unfold threshold; decide +kernel
example : Le (.fin (1 / 4)) (.fin (1 / 2)) := ⟨by decide +kernel, by simp, by simp⟩

end Verif.Props.Start
