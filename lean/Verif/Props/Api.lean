import Verif.Trace.Api
import Verif.Trace.SpanInv
import Verif.Props.Start
import Mathlib.Data.List.Induction

/-!
# C94: spans in contexts, spans of other implementations, and execution tracer tasks
-/

namespace Verif.Props.Api
open Verif Verif.Trace Verif.Trace.Api

/-! ## Specification -/

/-- A call of `End` on span `i`. -/
def isEnd (i : Nat) : Api.Op → Bool
  | .call (.of (.own j)) .finish _ => j == i
  | _ => false

/-- How often the program ended span `i`. -/
def endCalls (i : Nat) (ops : List Api.Op) : Nat := ops.countP (isEnd i)

/-- The methods that change a span, `End` apart. -/
def changes : Method → Bool
  | .isRecordingEvents => false
  | .finish => false
  | .spanContext => false
  | .string => false
  | _ => true

/-- The methods the program called on spans around object `k` of another implementation. -/
def made (k : Nat) (ops : List Api.Op) : List Method :=
  ops.filterMap fun op => match op with
    | .call (.of (.foreign j)) m _ => if j = k then some m else none
    | _ => none

/-- The calls object `k` has had. -/
def had (k : Nat) (calls : List (Nat × Method)) : List Method :=
  calls.filterMap fun c => if c.1 = k then some c.2 else none

/-- The span context of the span in the context, as its implementation gives it; none if there is no
span or the span's context is all zero. -/
def parentOf (E : Env) (w : World) (c : Ctx) : Option SpanContext :=
  match c.fromContext with
  | .of (.own p) => (w.st.spans[p]?).bind fun s => if s.ctx = .zero then none else some s.ctx
  | .of (.foreign k) =>
    let sc := E.context (w.calls ++ [(k, .spanContext)]) k
    if sc = .zero then none else some sc
  | _ => none

/-- Span `s`, started with these options and this name, continues the trace of a parent with context
`q`, or begins trace `tid`. -/
def Continues (q : Option SpanContext) (opts : List StartOption) (name tid : Bytes) (s : Span) : Prop :=
  (∀ r, s.data = some r → r.data.name = name ∧ r.data.hasRemoteParent = false) ∧
  match q with
  | some q => s.ctx.traceID = q.traceID ∧ s.ctx.tracestate = q.tracestate ∧
      (Start.explicitSampler opts = none → s.ctx.opts = q.opts) ∧
      ∀ r, s.data = some r → r.data.parentSpanID = q.spanID
  | none => s.ctx.traceID = tid ∧ ∀ r, s.data = some r → r.data.parentSpanID = List.replicate 8 0

/-- The calls of `Verif.Trace.Op` a call through `*Span` and contexts comes down to. -/
def project (E : Env) : Api.Op → List Trace.Op
  | .start c name opts tid sid => match c.fromContext with
    | .of (.own p) => [.start (some p) name opts tid sid]
    | _ => [.start none name opts tid sid]
  | .startRemote _ name parent opts tid sid => [.startRemote parent name opts tid sid]
  | .call (.of (.own i)) m order => match m with
    | .finish => [.endSpan (some i) order]
    | .setName name => [.setName (some i) name]
    | .setStatus s => [.setStatus (some i) s]
    | .addAttributes l => [.addAttributes (some i) l]
    | .annotate l msg => [.annotate (some i) l msg]
    | .annotatef l format args => [.annotate (some i) l (E.sprintf format args)]
    | .addMessageSendEvent id un co => [.addMessageEvent (some i) .sent id un co]
    | .addMessageReceiveEvent id un co => [.addMessageEvent (some i) .recv id un co]
    | .addLink l => [.addLink (some i) l]
    | _ => []
  | .call _ _ _ => []
  | .env op => [op]
  | .setTracing _ => []

/-- A start below a span of another implementation. -/
def belowForeign : Api.Op → Bool
  | .start c _ _ _ _ => match c.fromContext with
    | .of (.foreign _) => true
    | _ => false
  | _ => false

/-- The task an event is about. -/
def about : TaskEv → Nat
  | .start t _ _ => t
  | .finish t => t

def isStart (t : Nat) : TaskEv → Bool
  | .start u _ _ => u == t
  | .finish _ => false

/-- Whether the execution tracer is on after a program. -/
def tracingAfter (ops : List Api.Op) : Bool :=
  (ops.reverse.findSome? fun op => match op with
    | .setTracing on => some on
    | _ => none).getD false

/-! ## Lemmas -/

theorem run_append (E : Env) (w : World) (a b : List Api.Op) :
    Api.run E w (a ++ b) = (Api.run E w a).bind fun w => Api.run E w b := by
  induction a generalizing w with
  | nil => rfl
  | cons op a ih =>
    simp only [List.cons_append, Api.run]
    cases Api.step E w op with
    | ok w1 => simp only [Res.bind]; exact ih w1
    | err => rfl
    | panic => rfl

/-- One step does one of three things to the spans and the tasks. -/
inductive Effect (w w' : World) : Api.Op → Prop
  | quiet (op : Api.Op) (h1 : w'.events = w.events) (h2 : w'.nextTask = w.nextTask) (h3 : w'.taskEnd = w.taskEnd)
      (h4 : w'.st.spans.length = w.st.spans.length) (h5 : ∀ i, isEnd i op = false) : Effect w w' op
  | ended (i : Nat) (order : List Bytes) (hi : i < w.st.spans.length) (h1 : w'.events = (endTask w i).events)
      (h2 : w'.nextTask = w.nextTask) (h3 : w'.taskEnd = w.taskEnd)
      (h4 : w'.st.spans.length = w.st.spans.length) : Effect w w' (.call (.of (.own i)) .finish order)
  | started (op : Api.Op) (c : Ctx) (name : Bytes) (w1 : World)
      (e : w' = (finishStart w1 c name w.st.spans.length).1)
      (h1 : w1.events = w.events) (h2 : w1.nextTask = w.nextTask) (h3 : w1.taskEnd = w.taskEnd)
      (h4 : w1.st.spans.length = w.st.spans.length + 1) (h5 : ∀ i, isEnd i op = false) : Effect w w' op

theorem endTask_same (w : World) (i : Nat) : (endTask w i).st = w.st ∧ (endTask w i).nextTask = w.nextTask ∧
    (endTask w i).taskEnd = w.taskEnd ∧ (endTask w i).calls = w.calls ∧ (endTask w i).tracing = w.tracing := by
  unfold endTask
  split <;> simp

theorem finishStart_same (w : World) (c : Ctx) (name : Bytes) (i : Nat) :
    (finishStart w c name i).1.st = w.st ∧ (finishStart w c name i).1.calls = w.calls ∧
      (finishStart w c name i).1.tracing = w.tracing ∧ (finishStart w c name i).2.2 = .of (.own i) := by
  unfold finishStart
  split <;> simp

/-- A method of a span of the package that is not `End`. -/
theorem callOwn_quiet {E : Env} {w w' : World} {i : Nat} {order : List Bytes} {m : Method} {r : Reply}
    (hm : m ≠ .finish) (h : callOwn E w i order m = .ok (w', r)) :
    w' = { w with st := w'.st } ∧ w'.st.spans.length = w.st.spans.length := by
  cases m <;> simp only [callOwn] at h <;> first
    | exact absurd rfl hm
    | (split at h
       · cases h
       · cases h; exact ⟨rfl, rfl⟩)
    | (obtain ⟨st, h1, h2⟩ := Res_bind_ok h
       cases h2
       exact ⟨rfl, (Start.step_other h1 rfl).2⟩)

theorem callForeign_same (E : Env) (w : World) (k : Nat) (m : Method) :
    (callForeign E w k m).1 = { w with calls := w.calls ++ [(k, m)] } := rfl

theorem startSpanInternal_length {st st' : State} {name : Bytes} {b : Bool} {p : SpanContext} {r : Bool}
    {o : StartOptions} {tid sid : Bytes} (h : startSpanInternal st name b p r o tid sid = .ok st') :
    st'.spans.length = st.spans.length + 1 := by
  obtain ⟨s, h1, _⟩ := startSpanInternal_ok h
  simp [h1]

/-- The methods of a `*Span` that is not nil. -/
theorem method_of {E : Env} {w : World} {order : List Bytes} {m : Method} {o : Obj} :
    method E w order m (.of o) = if changes m then guarded E w order m o else callObj E w order m o := by
  cases m <;> rfl

theorem step_effect {E : Env} {w w' : World} {op : Api.Op} (h : Api.step E w op = .ok w') : Effect w w' op := by
  cases op with
  | setTracing on => cases h; exact .quiet _ rfl rfl rfl rfl fun _ => rfl
  | env op =>
    simp only [Api.step] at h
    split at h
    · rename_i he
      obtain ⟨st, h1, h2⟩ := Res_bind_ok h
      cases h2
      refine .quiet _ rfl rfl rfl (Start.step_other h1 ?_).2 fun _ => rfl
      cases op <;> first | rfl | simp [isEnv] at he
    · cases h
  | startRemote c name parent opts tid sid =>
    simp only [Api.step, startSpanWithRemoteParent] at h
    obtain ⟨x, h1, h2⟩ := Res_bind_ok h
    obtain ⟨st, h3, h4⟩ := Res_bind_ok h1
    cases h4
    cases h2
    exact .started _ c name { w with st := st } rfl rfl rfl rfl (startSpanInternal_length h3) fun _ => rfl
  | start c name opts tid sid =>
    simp only [Api.step] at h
    obtain ⟨x, h1, h2⟩ := Res_bind_ok h
    cases h2
    simp only [Api.startSpan] at h1
    split at h1
    · obtain ⟨st, h3, h4⟩ := Res_bind_ok h1
      cases h4
      exact .started _ c name { w with st := st } rfl rfl rfl rfl (startSpanInternal_length h3) fun _ => rfl
    · cases h1
    · obtain ⟨st, h3, h4⟩ := Res_bind_ok h1
      cases h4
      exact .started _ c name { w with st := st } rfl rfl rfl rfl
        (Start.step_start (op := .start (some _) name opts tid sid) h3 rfl).2.1 fun _ => rfl
    · obtain ⟨st, h3, h4⟩ := Res_bind_ok h1
      cases h4
      exact .started _ c name { w with st := st, calls := _ } rfl rfl rfl rfl (startSpanInternal_length h3) fun _ => rfl
  | call p m order =>
    simp only [Api.step] at h
    obtain ⟨⟨w1, r⟩, h1, h2⟩ := Res_bind_ok h
    cases h2
    cases p with
    | nil => cases h1; exact .quiet _ rfl rfl rfl rfl fun _ => rfl
    | empty => cases h1
    | of o =>
      rw [method_of] at h1
      cases o with
      | foreign k =>
        split at h1
        · simp only [guarded, callObj, Res.bind] at h1
          split at h1
          · cases h1; exact .quiet _ rfl rfl rfl rfl fun _ => rfl
          · cases h1; exact .quiet _ rfl rfl rfl rfl fun _ => rfl
        · cases h1; exact .quiet _ rfl rfl rfl rfl fun _ => rfl
      | own i =>
        by_cases hm : m = .finish
        · subst hm
          simp only [changes, Bool.false_eq_true, if_false, callObj, callOwn] at h1
          obtain ⟨st, h3, h4⟩ := Res_bind_ok h1
          cases h4
          obtain ⟨e1, e2, e3, e4, e5⟩ := endTask_same w i
          have hl := (Start.step_other h3 rfl).2
          rw [e1] at hl
          refine .ended i order ?_ rfl e2 e3 hl
          rw [e1] at h3
          simp only [Trace.step, onSpan, Trace.endSpan] at h3
          split at h3
          · cases h3
          · rename_i hs; exact getElem?_lt hs
        · have hq : ∀ j, isEnd j (.call (.of (.own i)) m order) = false := by
            intro j; cases m <;> first | rfl | exact absurd rfl hm
          split at h1
          · simp only [guarded] at h1
            obtain ⟨⟨w2, r2⟩, h3, h4⟩ := Res_bind_ok h1
            simp only [callObj] at h3 h4
            obtain ⟨q1, q2⟩ := callOwn_quiet (by simp) h3
            split at h4
            · obtain ⟨q3, q4⟩ := callOwn_quiet hm h4
              rw [q1] at q3 q4
              rw [q3]
              exact .quiet _ rfl rfl rfl (q4.trans q2) hq
            · cases h4
              rw [q1]
              exact .quiet _ rfl rfl rfl q2 hq
          · simp only [callObj] at h1
            obtain ⟨q1, q2⟩ := callOwn_quiet hm h1
            rw [q1]
            exact .quiet _ rfl rfl rfl q2 hq

/-! ## Tasks of the execution tracer -/

/-- What holds of the tasks after a program. -/
structure TaskInv (w : World) (ops : List Api.Op) : Prop where
  len : w.taskEnd.length = w.st.spans.length
  lt : ∀ (i t : Nat), w.taskEnd[i]? = some (some t) → t < w.nextTask
  inj : ∀ (i j t : Nat), w.taskEnd[i]? = some (some t) → w.taskEnd[j]? = some (some t) → i = j
  cover : ∀ t : Nat, t < w.nextTask → ∃ i : Nat, w.taskEnd[i]? = some (some t)
  starts : ∀ t, w.events.countP (isStart t) = if t < w.nextTask then 1 else 0
  ends : ∀ (i t : Nat), w.taskEnd[i]? = some (some t) → w.events.count (.finish t) = endCalls i ops
  known : ∀ e ∈ w.events, about e < w.nextTask
  order : ∀ pre post t p n, w.events = pre ++ .start t p n :: post → .finish t ∉ pre
  fresh : ∀ i, w.st.spans.length ≤ i → endCalls i ops = 0

theorem TaskInv.init (now : Int) : TaskInv (.init now) [] := by
  constructor <;> simp [World.init, State.init, endCalls]

theorem endCalls_snoc (i : Nat) (ops : List Api.Op) (op : Api.Op) :
    endCalls i (ops ++ [op]) = endCalls i ops + if isEnd i op then 1 else 0 := by
  simp [endCalls, List.countP_append, List.countP_cons]

theorem snoc_split {α : Type} {l pre post : List α} {x y : α} (h : l ++ [x] = pre ++ y :: post) :
    (post = [] ∧ l = pre ∧ x = y) ∨ ∃ post', post = post' ++ [x] ∧ l = pre ++ y :: post' := by
  rcases List.eq_nil_or_concat post with rfl | ⟨p', z, rfl⟩
  · left
    have := List.append_inj' h rfl
    simp_all
  · right
    rw [List.concat_eq_append] at h ⊢
    have h' : l ++ [x] = (pre ++ y :: p') ++ [z] := by simpa using h
    have := List.append_inj' h' rfl
    simp only [List.cons.injEq, and_true] at this
    exact ⟨p', by rw [this.2], this.1⟩

theorem TaskInv.step {E : Env} {w w' : World} {ops : List Api.Op} {op : Api.Op} (hi : TaskInv w ops)
    (h : Api.step E w op = .ok w') : TaskInv w' (ops ++ [op]) := by
  obtain ⟨a1, a2, a3, a4, a5, a6, a7, a8, a9⟩ := hi
  cases step_effect h with
  | quiet _ h1 h2 h3 h4 h5 =>
    have he : ∀ i, endCalls i (ops ++ [op]) = endCalls i ops := by
      intro i; rw [endCalls_snoc, h5 i]; simp
    constructor <;> simp only [h1, h2, h3, h4, he] <;> assumption
  | ended i order hl h1 h2 h3 h4 =>
    have he : ∀ j, endCalls j (ops ++ [.call (.of (.own i)) .finish order]) =
        endCalls j ops + if i = j then 1 else 0 := by
      intro j; rw [endCalls_snoc]; simp [isEnd]
    have hex : ∃ o, w.taskEnd[i]? = some o := ⟨_, List.getElem?_eq_getElem (by omega)⟩
    obtain ⟨o, ho⟩ := hex
    cases o with
    | none =>
      have hev : (endTask w i).events = w.events := by simp [endTask, ho]
      rw [hev] at h1
      refine ⟨by rw [h3, h4]; exact a1, by rw [h2, h3]; exact a2, by rw [h3]; exact a3, by rw [h2, h3]; exact a4,
        by rw [h1, h2]; exact a5, ?_, by rw [h1, h2]; exact a7, by rw [h1]; exact a8, ?_⟩
      · intro j t hj
        rw [h3] at hj
        rw [h1, a6 j t hj, he]
        have : i ≠ j := by rintro rfl; rw [ho] at hj; cases hj
        simp [this]
      · intro j hj
        rw [he, a9 j (by omega)]
        have : i ≠ j := by omega
        simp [this]
    | some u =>
      have hev : (endTask w i).events = w.events ++ [.finish u] := by simp [endTask, ho]
      rw [hev] at h1
      refine ⟨by rw [h3, h4]; exact a1, by rw [h2, h3]; exact a2, by rw [h3]; exact a3, by rw [h2, h3]; exact a4,
        ?_, ?_, ?_, ?_, ?_⟩
      · intro t
        rw [h1, h2, List.countP_append, a5 t]
        simp [isStart]
      · intro j t hj
        rw [h3] at hj
        rw [h1, List.count_append, a6 j t hj, he]
        by_cases hij : i = j
        · subst hij
          rw [ho] at hj; cases hj
          simp
        · have : u ≠ t := by rintro rfl; exact hij (a3 i j u ho hj)
          simp [hij, this]
      · intro e hm
        rw [h1] at hm
        rw [h2]
        rcases List.mem_append.mp hm with hm | hm
        · exact a7 e hm
        · rw [List.mem_singleton.mp hm]; exact a2 i u ho
      · intro pre post t p n hs
        rw [h1] at hs
        rcases snoc_split hs with ⟨_, _, hc⟩ | ⟨post', _, hc⟩
        · cases hc
        · exact a8 pre post' t p n hc
      · intro j hj
        rw [he, a9 j (by omega)]
        have : i ≠ j := by omega
        simp [this]
  | started _ c name w1 e h1 h2 h3 h4 h5 =>
    have he : ∀ i, endCalls i (ops ++ [op]) = endCalls i ops := by
      intro i; rw [endCalls_snoc, h5 i]; simp
    subst e
    have hsame := finishStart_same w1 c name w.st.spans.length
    cases ht : w1.tracing with
    | false =>
      have e1 : (finishStart w1 c name w.st.spans.length).1 = { w1 with taskEnd := w1.taskEnd ++ [none] } := by
        simp [finishStart, ht]
      rw [e1]
      have old : ∀ (i t : Nat), (w1.taskEnd ++ [none])[i]? = some (some t) → w.taskEnd[i]? = some (some t) := by
        intro i t h
        rw [h3] at h
        rcases Nat.lt_trichotomy i w.taskEnd.length with hl | hl | hl
        · rwa [List.getElem?_append_left hl] at h
        · subst hl; simp at h
        · rw [List.getElem?_eq_none (by simp; omega)] at h; cases h
      constructor <;> simp only [h1, h2, h4, he]
      · simp [h3, a1]
      · intro i t h; exact a2 i t (old i t h)
      · intro i j t h h'; exact a3 i j t (old i t h) (old j t h')
      · intro t hlt
        obtain ⟨i, hi⟩ := a4 t hlt
        exact ⟨i, by rw [h3, List.getElem?_append_left (getElem?_lt hi), hi]⟩
      · exact a5
      · intro i t h; exact a6 i t (old i t h)
      · exact a7
      · exact a8
      · intro i hi; exact a9 i (by omega)
    | true =>
      have e1 : (finishStart w1 c name w.st.spans.length).1 = { w1 with
          nextTask := w1.nextTask + 1, events := w1.events ++ [.start w1.nextTask c.taskOf name],
          taskEnd := w1.taskEnd ++ [some w1.nextTask] } := by
        simp [finishStart, ht]
      rw [e1]
      have old : ∀ (i t : Nat), (w1.taskEnd ++ [some w1.nextTask])[i]? = some (some t) →
          w.taskEnd[i]? = some (some t) ∨ (i = w.taskEnd.length ∧ t = w.nextTask) := by
        intro i t h
        rw [h3] at h
        rcases Nat.lt_trichotomy i w.taskEnd.length with hl | hl | hl
        · rw [List.getElem?_append_left hl] at h; exact .inl h
        · subst hl; simp at h; exact .inr ⟨rfl, by omega⟩
        · rw [List.getElem?_eq_none (by simp; omega)] at h; cases h
      have hfin : w.events.count (.finish w.nextTask) = 0 := by
        rw [List.count_eq_zero]
        intro hm; have := a7 _ hm; simp [about] at this
      constructor <;> simp only [h1, h2, h4, he]
      · simp [h3, a1]
      · intro i t h
        rw [h2] at old
        rcases old i t h with h | ⟨_, h⟩
        · have := a2 i t h; omega
        · omega
      · intro i j t h h'
        rw [h2] at old
        rcases old i t h with h | ⟨hi, h⟩ <;> rcases old j t h' with h' | ⟨hj, h'⟩
        · exact a3 i j t h h'
        · have := a2 i t h; omega
        · have := a2 j t h'; omega
        · omega
      · intro t hlt
        by_cases hc : t = w.nextTask
        · exact ⟨w.taskEnd.length, by rw [h3, hc]; simp⟩
        · obtain ⟨i, hi⟩ := a4 t (by omega)
          exact ⟨i, by rw [h3, List.getElem?_append_left (getElem?_lt hi), hi]⟩
      · intro t
        rw [List.countP_append, a5 t]
        by_cases hc : t = w.nextTask
        · subst hc; simp [isStart]
        · have hc' : w.nextTask ≠ t := fun h => hc h.symm
          simp only [List.countP_cons, List.countP_nil, isStart, beq_iff_eq, hc', if_false, Nat.add_zero]
          by_cases hl : t < w.nextTask
          · rw [if_pos hl, if_pos (by omega)]
          · rw [if_neg hl, if_neg (by omega)]
      · intro i t h
        rw [h2] at old
        rw [List.count_append]
        rcases old i t h with h | ⟨hi, h⟩
        · simp [a6 i t h]
        · subst h; subst hi
          rw [hfin, a9 _ (by omega)]; simp
      · intro e hm
        rcases List.mem_append.mp hm with hm | hm
        · have := a7 e hm; omega
        · rw [List.mem_singleton.mp hm]; simp [about]
      · intro pre post t p n hs
        rcases snoc_split hs with ⟨_, h6, hc⟩ | ⟨post', _, hc⟩
        · cases hc
          rw [← h6]
          exact List.count_eq_zero.mp hfin
        · exact a8 pre post' t p n hc
      · intro i hi; exact a9 i (by omega)

theorem TaskInv.run {E : Env} {w w' : World} {done ops : List Api.Op} (hi : TaskInv w done)
    (h : Api.run E w ops = .ok w') : TaskInv w' (done ++ ops) := by
  induction ops generalizing w done with
  | nil => cases h; simpa using hi
  | cons op ops ih =>
    obtain ⟨w1, h1, h2⟩ := Res_bind_ok h
    have := ih (hi.step h1) h2
    simpa using this

/-- Every event of the execution trace is about the task of one span; the task of a span begins once,
before anything else, and is ended as often as the program ends the span. -/
theorem task_ends {E : Env} {now : Int} {ops : List Api.Op} {w : World}
    (h : Api.run E (.init now) ops = .ok w) :
    (∀ (i t : Nat), w.taskEnd[i]? = some (some t) →
      w.events.countP (isStart t) = 1 ∧ w.events.count (.finish t) = endCalls i ops) ∧
    (∀ e ∈ w.events, ∃ i : Nat, w.taskEnd[i]? = some (some (about e)) ∧
      ∀ j : Nat, w.taskEnd[j]? = some (some (about e)) → j = i) ∧
    (∀ pre post t p n, w.events = pre ++ .start t p n :: post → .finish t ∉ pre) := by
  have hi := (TaskInv.init now).run h
  rw [List.nil_append] at hi
  refine ⟨fun i t ht => ⟨?_, hi.ends i t ht⟩, fun e he => ?_, hi.order⟩
  · rw [hi.starts t, if_pos (hi.lt i t ht)]
  · obtain ⟨i, h1⟩ := hi.cover _ (hi.known e he)
    exact ⟨i, h1, fun j hj => hi.inj j i _ hj h1⟩

/-- The full claim is that a task is ended once. It is, when the program ends the span once; a second
call of `End` writes a second end of the task (`ends_twice`). -/
theorem task_once_partial {E : Env} {now : Int} {ops : List Api.Op} {w : World}
    (h : Api.run E (.init now) ops = .ok w) {i t : Nat} (ht : w.taskEnd[i]? = some (some t))
    (hone : endCalls i ops = 1) : w.events.count (.finish t) = 1 := by
  rw [((task_ends h).1 i t ht).2, hone]

theorem step_tracing {E : Env} {w w' : World} {op : Api.Op} (h : Api.step E w op = .ok w')
    (hn : ∀ on, op ≠ .setTracing on) : w'.tracing = w.tracing := by
  cases op with
  | setTracing on => exact absurd rfl (hn on)
  | env op =>
    simp only [Api.step] at h
    split at h
    · obtain ⟨st, h1, h2⟩ := Res_bind_ok h
      cases h2; rfl
    · cases h
  | startRemote c name parent opts tid sid =>
    simp only [Api.step, startSpanWithRemoteParent] at h
    obtain ⟨x, h1, h2⟩ := Res_bind_ok h
    obtain ⟨st, h3, h4⟩ := Res_bind_ok h1
    cases h4
    cases h2
    exact (finishStart_same _ _ _ _).2.2.1
  | start c name opts tid sid =>
    simp only [Api.step] at h
    obtain ⟨x, h1, h2⟩ := Res_bind_ok h
    cases h2
    simp only [Api.startSpan] at h1
    split at h1
    · obtain ⟨st, h3, h4⟩ := Res_bind_ok h1
      cases h4
      exact (finishStart_same _ _ _ _).2.2.1
    · cases h1
    · obtain ⟨st, h3, h4⟩ := Res_bind_ok h1
      cases h4
      exact (finishStart_same _ _ _ _).2.2.1
    · obtain ⟨st, h3, h4⟩ := Res_bind_ok h1
      cases h4
      exact (finishStart_same _ _ _ _).2.2.1
  | call p m order =>
    simp only [Api.step] at h
    obtain ⟨⟨w1, r⟩, h1, h2⟩ := Res_bind_ok h
    cases h2
    cases p with
    | nil => cases h1; rfl
    | empty => cases h1
    | of o =>
      rw [method_of] at h1
      cases o with
      | foreign k =>
        split at h1
        · simp only [guarded, callObj, Res.bind] at h1
          split at h1 <;> (cases h1; rfl)
        · cases h1; rfl
      | own i =>
        have hc : ∀ {w w' : World} {m : Method} {r : Reply}, callOwn E w i order m = .ok (w', r) →
            w'.tracing = w.tracing := by
          intro w w' m r h
          by_cases hm : m = .finish
          · subst hm
            simp only [callOwn] at h
            obtain ⟨st, _, h4⟩ := Res_bind_ok h
            cases h4
            exact (endTask_same w i).2.2.2.2
          · rw [(callOwn_quiet hm h).1]
        split at h1
        · simp only [guarded] at h1
          obtain ⟨⟨w2, r2⟩, h3, h4⟩ := Res_bind_ok h1
          simp only [callObj] at h3 h4
          split at h4
          · exact (hc h4).trans (hc h3)
          · cases h4; exact hc h3
        · exact hc h1

theorem tracingAfter_snoc (ops : List Api.Op) (op : Api.Op) :
    tracingAfter (ops ++ [op]) = match op with
      | .setTracing on => on
      | _ => tracingAfter ops := by
  cases op <;> simp [tracingAfter]

theorem run_tracing {E : Env} {now : Int} {ops : List Api.Op} {w : World}
    (h : Api.run E (.init now) ops = .ok w) : w.tracing = tracingAfter ops := by
  induction ops using List.reverseRecOn generalizing w with
  | nil => cases h; rfl
  | append_singleton ops op ih =>
    rw [run_append] at h
    obtain ⟨w1, h1, h2⟩ := Res_bind_ok h
    obtain ⟨w2, h3, h4⟩ := Res_bind_ok h2
    cases h4
    rw [tracingAfter_snoc]
    cases op with
    | setTracing on => cases h3; rfl
    | _ => rw [step_tracing h3 (by simp)]; exact ih h1

/-- The events of the execution trace and the tasks given out stay. -/
theorem step_grows {E : Env} {w w' : World} {op : Api.Op} (h : Api.step E w op = .ok w') :
    (∃ l, w'.events = w.events ++ l) ∧ ∃ l, w'.taskEnd = w.taskEnd ++ l := by
  cases step_effect h with
  | quiet _ h1 h2 h3 h4 h5 => exact ⟨⟨[], by simp [h1]⟩, ⟨[], by simp [h3]⟩⟩
  | ended i order hl h1 h2 h3 h4 =>
    refine ⟨?_, ⟨[], by simp [h3]⟩⟩
    rw [h1]
    unfold endTask
    split
    · exact ⟨_, rfl⟩
    · exact ⟨[], by simp⟩
  | started _ c name w1 e h1 h2 h3 h4 h5 =>
    subst e
    rw [← h1, ← h3]
    unfold finishStart
    split
    · exact ⟨⟨_, rfl⟩, ⟨_, rfl⟩⟩
    · exact ⟨⟨[], by simp⟩, ⟨_, rfl⟩⟩

theorem run_grows {E : Env} {w w' : World} {ops : List Api.Op} (h : Api.run E w ops = .ok w') :
    (∃ l, w'.events = w.events ++ l) ∧ ∃ l, w'.taskEnd = w.taskEnd ++ l := by
  induction ops generalizing w with
  | nil => cases h; exact ⟨⟨[], by simp⟩, ⟨[], by simp⟩⟩
  | cons op ops ih =>
    obtain ⟨w1, h1, h2⟩ := Res_bind_ok h
    obtain ⟨⟨a, ha⟩, ⟨b, hb⟩⟩ := step_grows h1
    obtain ⟨⟨a', ha'⟩, ⟨b', hb'⟩⟩ := ih h2
    exact ⟨⟨a ++ a', by rw [ha', ha, List.append_assoc]⟩, ⟨b ++ b', by rw [hb', hb, List.append_assoc]⟩⟩

/-- The spans a program starts, with context and name. -/
def startOf : Api.Op → Option (Ctx × Bytes)
  | .start c name _ _ _ => some (c, name)
  | .startRemote c name _ _ _ _ => some (c, name)
  | _ => none

/-- A started span has a task if, and only if, the execution tracer is on at that moment. The task has
the name of the span, and its parent is the task of the context the span was started in. -/
theorem started_task {E : Env} {now : Int} {a b : List Api.Op} {op : Api.Op} {c : Ctx} {name : Bytes}
    {mid w : World} (ho : startOf op = some (c, name)) (hm : Api.run E (.init now) a = .ok mid)
    (h : Api.run E (.init now) (a ++ op :: b) = .ok w) :
    if tracingAfter a then ∃ t, w.taskEnd[mid.st.spans.length]? = some (some t) ∧
      .start t c.taskOf name ∈ w.events
    else w.taskEnd[mid.st.spans.length]? = some none := by
  rw [run_append, hm] at h
  obtain ⟨w1, h1, h2⟩ := Res_bind_ok (show (Api.step E mid op).bind _ = _ from h)
  obtain ⟨⟨l, hl⟩, ⟨l', hl'⟩⟩ := run_grows h2
  have hlen := ((TaskInv.init now).run hm).len
  have key : ∃ w0 : World, w0.tracing = mid.tracing ∧ w0.taskEnd = mid.taskEnd ∧
      w1 = (finishStart w0 c name mid.st.spans.length).1 := by
    cases op with
    | start c' name' opts tid sid =>
      cases ho
      simp only [Api.step] at h1
      obtain ⟨x, h3, h4⟩ := Res_bind_ok h1
      cases h4
      simp only [Api.startSpan] at h3
      split at h3
      · obtain ⟨st, h5, h6⟩ := Res_bind_ok h3
        cases h6; exact ⟨{ mid with st := st }, rfl, rfl, rfl⟩
      · cases h3
      · obtain ⟨st, h5, h6⟩ := Res_bind_ok h3
        cases h6; exact ⟨{ mid with st := st }, rfl, rfl, rfl⟩
      · obtain ⟨st, h5, h6⟩ := Res_bind_ok h3
        cases h6; exact ⟨{ mid with st := st, calls := _ }, rfl, rfl, rfl⟩
    | startRemote c' name' parent opts tid sid =>
      cases ho
      simp only [Api.step, startSpanWithRemoteParent] at h1
      obtain ⟨x, h3, h4⟩ := Res_bind_ok h1
      obtain ⟨st, h5, h6⟩ := Res_bind_ok h3
      cases h6
      cases h4
      exact ⟨{ mid with st := st }, rfl, rfl, rfl⟩
    | _ => cases ho
  obtain ⟨w0, k1, k2, k3⟩ := key
  rw [← run_tracing hm, ← k1]
  unfold finishStart at k3
  split
  · rename_i ht
    rw [if_pos ht] at k3
    subst k3
    refine ⟨w0.nextTask, ?_, ?_⟩
    · rw [hl', ← hlen, ← k2]; simp
    · rw [hl]; simp
  · rename_i ht
    rw [if_neg ht] at k3
    subst k3
    rw [hl', ← hlen, ← k2]; simp

/-- A context made from `c` by attaching spans and values of other packages. -/
inductive Derived (c : Ctx) : Ctx → Prop
  | same : Derived c c
  | span {d : Ctx} (s : Ptr) : Derived c d → Derived c (newContext d s)
  | other {d : Ctx} (key : Nat) : Derived c d → Derived c (.other d key)

/-- Whatever is attached to a context, spans started in it become subtasks of the task it had. -/
theorem derived_task {c d : Ctx} (h : Derived c d) : d.taskOf = c.taskOf := by
  induction h with
  | same => rfl
  | span s _ ih => exact ih
  | other k _ ih => exact ih

/-! ## Contexts -/

/-- What both ways to start a span return: the new span, in the new context, whose task is that of the
span if it has one and that of the old context otherwise. -/
theorem returned {E : Env} {now : Int} {ops : List Api.Op} {w : World} (hr : Api.run E (.init now) ops = .ok w)
    {w' : World} {c c' : Ctx} {name : Bytes} {opts : List StartOption} {tid sid : Bytes} {p : Ptr}
    (h : Api.startSpan E w c name opts tid sid = .ok (w', c', p) ∨
      ∃ parent, startSpanWithRemoteParent w c name parent opts tid sid = .ok (w', c', p)) :
    p = .of (.own w.st.spans.length) ∧ c'.fromContext = p ∧ w'.st.spans.length = w.st.spans.length + 1 ∧
    (∀ t, w'.taskEnd[w.st.spans.length]? = some (some t) → c'.taskOf = some t) ∧
    (w'.taskEnd[w.st.spans.length]? = some none → c'.taskOf = c.taskOf) := by
  have hlen := ((TaskInv.init now).run hr).len
  have key : ∃ w0 : World, w0.taskEnd = w.taskEnd ∧ w0.st.spans.length = w.st.spans.length + 1 ∧
      (w', c', p) = finishStart w0 c name w.st.spans.length := by
    rcases h with h | ⟨parent, h⟩
    · simp only [Api.startSpan] at h
      split at h
      · obtain ⟨st, h5, h6⟩ := Res_bind_ok h
        exact ⟨{ w with st := st }, rfl, startSpanInternal_length h5, by injection h6 with h6; exact h6.symm⟩
      · cases h
      · obtain ⟨st, h5, h6⟩ := Res_bind_ok h
        exact ⟨{ w with st := st }, rfl,
          (Start.step_start (op := .start (some _) name opts tid sid) h5 rfl).2.1,
          by injection h6 with h6; exact h6.symm⟩
      · obtain ⟨st, h5, h6⟩ := Res_bind_ok h
        exact ⟨{ w with st := st, calls := _ }, rfl, startSpanInternal_length h5,
          by injection h6 with h6; exact h6.symm⟩
    · simp only [startSpanWithRemoteParent] at h
      obtain ⟨st, h5, h6⟩ := Res_bind_ok h
      exact ⟨{ w with st := st }, rfl, startSpanInternal_length h5, by injection h6 with h6; exact h6.symm⟩
  obtain ⟨w0, k1, k2, k3⟩ := key
  unfold finishStart at k3
  split at k3
  · cases k3
    refine ⟨rfl, rfl, k2, ?_, ?_⟩
    · intro t ht
      simp only [k1, ← hlen] at ht
      simpa [newContext, Ctx.taskOf] using ht
    · intro ht
      simp only [k1, ← hlen] at ht
      simp at ht
  · cases k3
    refine ⟨rfl, rfl, k2, ?_, fun _ => rfl⟩
    intro t ht
    simp only [k1, ← hlen] at ht
    simp at ht

/-- `FromContext` gives the span attached last, also a nil one, through contexts of other packages. -/
theorem from_context (c d : Ctx) (s : Ptr) (key : Nat) :
    Ctx.background.fromContext = .nil ∧ (newContext c s).fromContext = s ∧
    (Ctx.other d key).fromContext = d.fromContext := ⟨rfl, rfl, rfl⟩

theorem internal_continues {st st' : State} {name : Bytes} {parent : SpanContext} {opts : List StartOption}
    {tid sid : Bytes} {q : Option SpanContext} (hq : q = if parent = .zero then none else some parent)
    (h : startSpanInternal st name (decide (parent ≠ .zero)) parent false (applyOptions opts) tid sid = .ok st') :
    ∃ s, st'.spans = st.spans ++ [s] ∧ s.ctx.spanID = sid ∧ Continues q opts name tid s := by
  obtain ⟨s, h1, h2, _, _, _, h6⟩ := startSpanInternal_ok h
  obtain ⟨i1, i2⟩ := Start.newCtx_ids st name (decide (parent ≠ .zero)) parent false (applyOptions opts) tid sid
  rw [← h2] at i1 i2
  refine ⟨s, h1, i1, fun r hr => ?_, ?_⟩
  · rw [h6 r hr]; exact ⟨rfl, rfl⟩
  · subst hq
    by_cases hz : parent = .zero
    · simp only [hz, if_true, ne_eq, not_true_eq_false, decide_false, Bool.false_eq_true, if_false] at i2 ⊢
      refine ⟨i2, fun r hr => ?_⟩
      rw [h6 r hr]; simp [newSpanData, hz]
    · simp only [hz, if_false, ne_eq, not_false_eq_true, decide_true, if_true] at i2 ⊢
      refine ⟨i2, ?_, ?_, fun r hr => ?_⟩
      · rw [h2]
        simp only [newCtx, startContext, SpanContext.setIsSampled]
        repeat' split
        all_goals rfl
      · intro hs
        rw [h2]
        simp [newCtx, startContext, Start.applyOptions_sampler, hs, hz]
      · rw [h6 r hr]; simp [newSpanData, hz]

/-- A new span continues the trace of the span in the context, whatever implementation that is of, and
inherits whether it is sampled unless an option says otherwise; without one, or with one whose context is
all zero, it begins a trace. Nothing but its span context is asked of a span of another implementation. -/
theorem continues {E : Env} {w w' : World} {c c' : Ctx} {name : Bytes} {opts : List StartOption}
    {tid sid : Bytes} {p : Ptr} (h : Api.startSpan E w c name opts tid sid = .ok (w', c', p)) :
    (∃ s, w'.st.spans[w.st.spans.length]? = some s ∧ s.ctx.spanID = sid ∧
      Continues (parentOf E w c) opts name tid s) ∧
    (∀ k, c.fromContext = .of (.foreign k) →
      w'.calls = w.calls ++ [(k, .spanContext)] ∧ w'.st.spans.take w.st.spans.length = w.st.spans) ∧
    ((∀ k, c.fromContext ≠ .of (.foreign k)) → w'.calls = w.calls) := by
  simp only [Api.startSpan] at h
  split at h
  · rename_i hc
    obtain ⟨st, h5, h6⟩ := Res_bind_ok h
    injection h6 with h6
    have e := finishStart_same { w with st := st } c name w.st.spans.length
    rw [h6] at e
    obtain ⟨s, g1, g2, g3⟩ := internal_continues (parent := .zero) (q := none) (by simp)
      (by simpa [Trace.startSpan] using h5)
    refine ⟨⟨s, by rw [e.1]; simp [g1], g2, by simpa [parentOf, hc] using g3⟩, ?_, fun _ => e.2.1⟩
    intro k hk; rw [hc] at hk; cases hk
  · cases h
  · rename_i q hc
    obtain ⟨st, h5, h6⟩ := Res_bind_ok h
    injection h6 with h6
    have e := finishStart_same { w with st := st } c name w.st.spans.length
    rw [h6] at e
    have hl := (Start.step_start (op := .start (some q) name opts tid sid) h5 rfl).2.1
    simp only [Trace.startSpan] at h5
    split at h5
    · cases h5
    · rename_i ps hps
      obtain ⟨st1, h7, h8⟩ := Res_bind_ok h5
      obtain ⟨s, g1, g2, g3⟩ := internal_continues (q := parentOf E w c) (by simp [parentOf, hc, hps]) h8
      refine ⟨⟨s, ?_, g2, g3⟩, ?_, fun _ => e.2.1⟩
      · rw [e.1]
        have : st1.spans.length = w.st.spans.length := by
          have := congrArg List.length g1
          simp at this; omega
        simp [g1, ← this]
      · intro k hk; rw [hc] at hk; cases hk
  · rename_i k hc
    obtain ⟨st, h5, h6⟩ := Res_bind_ok h
    injection h6 with h6
    have e := finishStart_same { w with st := st, calls := w.calls ++ [(k, .spanContext)] } c name w.st.spans.length
    rw [h6] at e
    obtain ⟨s, g1, g2, g3⟩ := internal_continues (q := parentOf E w c) (by simp [parentOf, hc]) h5
    refine ⟨⟨s, by rw [e.1]; simp [g1], g2, g3⟩, ?_, fun hn => absurd hc (hn k)⟩
    intro k' hk
    rw [hc] at hk; cases hk
    exact ⟨e.2.1, by rw [e.1]; simp [g1]⟩

/-! ## Methods of `*Span` -/

/-- On a nil `*Span` every method does nothing and returns the zero value; `String` says so. -/
theorem nil_safe (E : Env) (w : World) (order : List Bytes) (m : Method) :
    ∃ r, method E w order m .nil = .ok (w, r) ∧ (m = .isRecordingEvents → r = .bool false) ∧
      (m = .spanContext → r = .ctx .zero) ∧ (m = .string → r = .text (str "<nil>")) := by
  refine ⟨nilReply m, rfl, ?_, ?_, ?_⟩ <;> (rintro rfl; rfl)

/-- The full claim is that no method of a `*Span` panics. None does on nil or on a span somebody made;
all do on a `Span` around a nil interface, and `Internal` does on nil. -/
theorem empty_panics (E : Env) (w : World) (order : List Bytes) (m : Method) :
    method E w order m .empty = .panic ∧ internal .nil = .panic := ⟨rfl, rfl⟩

/-- What an object of another implementation answers is what the caller gets; nothing of this package is
touched; and it alone gets calls. -/
theorem foreign_call {E : Env} {w : World} {order : List Bytes} {m : Method} {k : Nat} :
    ∃ w' r, method E w order m (.of (.foreign k)) = .ok (w', r) ∧
      w'.st = w.st ∧ w'.events = w.events ∧ w'.taskEnd = w.taskEnd ∧
      (m = .isRecordingEvents → r = .bool (E.recording w'.calls k)) ∧
      (m = .spanContext → r = .ctx (E.context w'.calls k)) ∧
      (m = .string → r = .text (E.text w'.calls k)) ∧
      (changes m = false → w'.calls = w.calls ++ [(k, m)]) ∧
      (changes m = true → w'.calls = w.calls ++ [(k, .isRecordingEvents)] ++
        if E.recording (w.calls ++ [(k, .isRecordingEvents)]) k then [(k, m)] else []) := by
  rw [method_of]
  by_cases hm : changes m = true
  · rw [if_pos hm]
    simp only [guarded, callObj, Res.bind, callForeign]
    by_cases hr : E.recording (w.calls ++ [(k, .isRecordingEvents)]) k = true
    · rw [if_pos (by rw [hr])]
      refine ⟨_, _, rfl, rfl, rfl, rfl, ?_, ?_, ?_, ?_, ?_⟩
      · rintro rfl; cases hm
      · rintro rfl; cases hm
      · rintro rfl; cases hm
      · intro hf; rw [hm] at hf; cases hf
      · intro _; simp [hr]
    · rw [if_neg (by simpa using hr)]
      refine ⟨_, _, rfl, rfl, rfl, rfl, ?_, ?_, ?_, ?_, ?_⟩
      · rintro rfl; cases hm
      · rintro rfl; cases hm
      · rintro rfl; cases hm
      · intro hf; rw [hm] at hf; cases hf
      · intro _; simp [hr]
  · rw [if_neg hm]
    refine ⟨_, _, rfl, rfl, rfl, rfl, ?_, ?_, ?_, ?_, ?_⟩
    · rintro rfl; rfl
    · rintro rfl; rfl
    · rintro rfl; rfl
    · intro _; rfl
    · intro h; exact absurd h hm

/-- `End` and the methods that change a span. -/
def acts (m : Method) : Bool := changes m || decide (m = .finish)

/-- What object `k` had during one or more calls, given what was called on spans around it. -/
structure Passed (E : Env) (k : Nat) (had made : List Method) : Prop where
  order : (had.filter acts).Sublist (made.filter acts)
  ends : had.count .finish = made.count .finish
  all : (∀ h, E.recording h k = true) → had.filter acts = made.filter acts
  none : (∀ h, E.recording h k = false) → had.filter changes = []

theorem Passed.append {E : Env} {k : Nat} {a b c d : List Method} (h : Passed E k a b) (h' : Passed E k c d) :
    Passed E k (a ++ c) (b ++ d) where
  order := by rw [List.filter_append, List.filter_append]; exact h.order.append h'.order
  ends := by rw [List.count_append, List.count_append, h.ends, h'.ends]
  all := fun hr => by rw [List.filter_append, List.filter_append, h.all hr, h'.all hr]
  none := fun hr => by rw [List.filter_append, h.none hr, h'.none hr]; rfl

theorem Passed.nil (E : Env) (k : Nat) : Passed E k [] [] := ⟨.refl _, rfl, fun _ => rfl, fun _ => rfl⟩

/-- Questions do not count. -/
theorem Passed.asked (E : Env) (k : Nat) {m : Method} (h : acts m = false) : Passed E k [m] [] := by
  have h1 : changes m = false := by simp [acts] at h; exact h.1
  have h2 : m ≠ .finish := by simp [acts] at h; exact h.2
  exact ⟨by simp [h], by simp [h2], fun _ => by simp [h], fun _ => by simp [h1]⟩

theorem had_append (k : Nat) (a b : List (Nat × Method)) : had k (a ++ b) = had k a ++ had k b := by
  simp [had]

theorem made_append (k : Nat) (a b : List Api.Op) : made k (a ++ b) = made k a ++ made k b := by
  simp [made]

theorem step_foreign {E : Env} {w w' : World} {op : Api.Op} (h : Api.step E w op = .ok w') :
    ∃ l, w'.calls = w.calls ++ l ∧ ∀ k, Passed E k (had k l) (made k [op]) := by
  cases op with
  | setTracing on => cases h; exact ⟨[], by simp, fun k => .nil E k⟩
  | env op =>
    simp only [Api.step] at h
    split at h
    · obtain ⟨st, h1, h2⟩ := Res_bind_ok h
      cases h2; exact ⟨[], by simp, fun k => .nil E k⟩
    · cases h
  | startRemote c name parent opts tid sid =>
    simp only [Api.step, startSpanWithRemoteParent] at h
    obtain ⟨x, h1, h2⟩ := Res_bind_ok h
    obtain ⟨st, h3, h4⟩ := Res_bind_ok h1
    cases h4
    cases h2
    exact ⟨[], by rw [(finishStart_same _ _ _ _).2.1]; simp, fun k => .nil E k⟩
  | start c name opts tid sid =>
    simp only [Api.step] at h
    obtain ⟨x, h1, h2⟩ := Res_bind_ok h
    cases h2
    obtain ⟨_, c1, c2⟩ := continues (w' := x.1) (c' := x.2.1) (p := x.2.2) h1
    by_cases hf : ∃ k, c.fromContext = .of (.foreign k)
    · obtain ⟨j, hj⟩ := hf
      refine ⟨_, (c1 j hj).1, fun k => ?_⟩
      by_cases hk : j = k
      · subst hk
        simpa [had, made] using Passed.asked E j (m := .spanContext) rfl
      · simpa [had, made, hk] using Passed.nil E k
    · exact ⟨[], by rw [c2 (fun k hk => hf ⟨k, hk⟩)]; simp, fun k => .nil E k⟩
  | call p m order =>
    simp only [Api.step] at h
    obtain ⟨⟨w1, r⟩, h1, h2⟩ := Res_bind_ok h
    cases h2
    cases p with
    | nil => cases h1; exact ⟨[], by simp, fun k => .nil E k⟩
    | empty => cases h1
    | of o =>
      cases o with
      | foreign j =>
        obtain ⟨w2, r2, e, _, _, _, _, _, _, f1, f2⟩ := foreign_call (E := E) (w := w) (order := order) (m := m) (k := j)
        rw [h1] at e
        cases e
        by_cases hm : changes m = true
        · have ha : acts m = true := by simp [acts, hm]
          have hmf : m ≠ .finish := by rintro rfl; cases hm
          refine ⟨_, by rw [f2 hm, List.append_assoc], fun k => ?_⟩
          by_cases hk : j = k
          · subst hk
            rw [had_append]
            refine (Passed.asked E j (m := .isRecordingEvents) rfl |> fun h => ?_)
            have e1 : had j [(j, Method.isRecordingEvents)] = [.isRecordingEvents] := by simp [had]
            have e2 : made j [.call (.of (.foreign j)) m order] = [m] := by simp [made]
            rw [e1, e2]
            refine Passed.append (b := []) (d := [m]) h ?_
            cases hr : E.recording (w.calls ++ [(j, .isRecordingEvents)]) j with
            | true =>
              have e3 : had j (if true = true then [(j, m)] else []) = [m] := by simp [had]
              rw [e3]
              exact ⟨.refl _, rfl, fun _ => rfl, fun hn => by rw [hn] at hr; cases hr⟩
            | false =>
              have e3 : had j (if false = true then [(j, m)] else []) = [] := by simp [had]
              rw [e3]
              exact ⟨by simp, by simp [hmf], fun hn => (by rw [hn] at hr; cases hr), fun _ => rfl⟩
          · have : had k ([(j, Method.isRecordingEvents)] ++
              if E.recording (w.calls ++ [(j, .isRecordingEvents)]) j then [(j, m)] else []) = [] := by
              rw [had_append]
              split <;> simp [had, hk]
            rw [this]
            simpa [made, hk] using Passed.nil E k
        · refine ⟨_, f1 (by simpa using hm), fun k => ?_⟩
          by_cases hk : j = k
          · subst hk
            have e1 : had j [(j, m)] = [m] := by simp [had]
            have e2 : made j [.call (.of (.foreign j)) m order] = [m] := by simp [made]
            rw [e1, e2]
            exact ⟨.refl _, rfl, fun _ => rfl, fun _ => by simp [hm]⟩
          · simpa [had, made, hk] using Passed.nil E k
      | own i =>
        refine ⟨[], ?_, fun k => .nil E k⟩
        have hc : ∀ {w w' : World} {m : Method} {r : Reply}, callOwn E w i order m = .ok (w', r) →
            w'.calls = w.calls := by
          intro w w' m r h
          by_cases hm : m = .finish
          · subst hm
            simp only [callOwn] at h
            obtain ⟨st, _, h4⟩ := Res_bind_ok h
            cases h4
            exact (endTask_same w i).2.2.2.1
          · rw [(callOwn_quiet hm h).1]
        rw [method_of] at h1
        rw [List.append_nil]
        split at h1
        · simp only [guarded] at h1
          obtain ⟨⟨w2, r2⟩, h3, h4⟩ := Res_bind_ok h1
          simp only [callObj] at h3 h4
          split at h4
          · exact (hc h4).trans (hc h3)
          · cases h4; exact hc h3
        · exact hc h1

/-- A span of another implementation gets every `End`, and of the other calls that change it those, in
their order, that are made while it says that it is recording. -/
theorem foreign_run {E : Env} {w w' : World} {ops : List Api.Op} (h : Api.run E w ops = .ok w') :
    ∃ l, w'.calls = w.calls ++ l ∧ ∀ k, Passed E k (had k l) (made k ops) := by
  induction ops generalizing w with
  | nil => cases h; exact ⟨[], by simp, fun k => .nil E k⟩
  | cons op ops ih =>
    obtain ⟨w1, h1, h2⟩ := Res_bind_ok h
    obtain ⟨a, ha, pa⟩ := step_foreign h1
    obtain ⟨b, hb, pb⟩ := ih h2
    refine ⟨a ++ b, by rw [hb, ha, List.append_assoc], fun k => ?_⟩
    rw [had_append, show op :: ops = [op] ++ ops from rfl, made_append]
    exact (pa k).append (pb k)

/-! ## The layer below -/

/-- A method that does not record anything comes to nothing. -/
theorem modifyRec_none {st : State} {i : Nat} {s : Span} {f : Rec → Res Rec} (hs : st.spans[i]? = some s)
    (hd : s.data = none) : modifyRec st i f = .ok st := by
  simp [modifyRec, hs, hd]

theorem step_refines {E : Env} {w w' : World} {op : Api.Op} (hb : belowForeign op = false)
    (h : Api.step E w op = .ok w') : Trace.run w.st (project E op) = .ok w'.st := by
  have one : ∀ (o : Trace.Op) (st : State), Trace.step w.st o = .ok st → Trace.run w.st [o] = .ok st := by
    intro o st h; simp [Trace.run, h, Res.bind]
  cases op with
  | setTracing on => cases h; rfl
  | env op =>
    simp only [Api.step] at h
    split at h
    · obtain ⟨st, h1, h2⟩ := Res_bind_ok h
      cases h2; exact one _ _ h1
    · cases h
  | startRemote c name parent opts tid sid =>
    simp only [Api.step, startSpanWithRemoteParent] at h
    obtain ⟨x, h1, h2⟩ := Res_bind_ok h
    obtain ⟨st, h3, h4⟩ := Res_bind_ok h1
    cases h4
    cases h2
    rw [(finishStart_same _ _ _ _).1]
    exact one _ _ h3
  | start c name opts tid sid =>
    simp only [Api.step] at h
    obtain ⟨x, h1, h2⟩ := Res_bind_ok h
    cases h2
    simp only [Api.startSpan] at h1
    split at h1
    · rename_i hc
      obtain ⟨st, h3, h4⟩ := Res_bind_ok h1
      cases h4
      rw [(finishStart_same _ _ _ _).1]
      simp only [project, hc]
      exact one _ _ h3
    · cases h1
    · rename_i q hc
      obtain ⟨st, h3, h4⟩ := Res_bind_ok h1
      cases h4
      rw [(finishStart_same _ _ _ _).1]
      simp only [project, hc]
      exact one _ _ h3
    · rename_i k hc
      simp [belowForeign, hc] at hb
  | call p m order =>
    simp only [Api.step] at h
    obtain ⟨⟨w1, r⟩, h1, h2⟩ := Res_bind_ok h
    cases h2
    cases p with
    | nil => cases h1; rfl
    | empty => cases h1
    | of o =>
      cases o with
      | foreign j =>
        obtain ⟨w2, r2, e, e1, _⟩ := foreign_call (E := E) (w := w) (order := order) (m := m) (k := j)
        rw [h1] at e
        cases e
        rw [e1]; rfl
      | own i =>
        by_cases hm : m = .finish
        · subst hm
          simp only [method, callObj, callOwn] at h1
          obtain ⟨st, h3, h4⟩ := Res_bind_ok h1
          cases h4
          rw [(endTask_same w i).1] at h3
          exact one _ _ h3
        · rw [method_of] at h1
          split at h1
          · rename_i hch
            simp only [guarded] at h1
            obtain ⟨⟨w2, r2⟩, h3, h4⟩ := Res_bind_ok h1
            simp only [callObj, callOwn] at h3
            split at h3
            · cases h3
            · rename_i s hs
              cases h3
              cases hd : s.data with
              | none =>
                rw [if_neg (by simp [hd])] at h4
                cases h4
                have hn : ∀ f, modifyRec w.st i f = .ok w.st := fun f => modifyRec_none hs hd
                cases m <;> first
                  | exact absurd rfl hm
                  | exact one _ _ (by simp [Trace.step, onSpan, hn])
                  | cases hch
              | some rc =>
                rw [if_pos (by simp [hd])] at h4
                simp only [callObj] at h4
                cases m <;> first
                  | (simp only [callOwn] at h4
                     obtain ⟨st, h5, h6⟩ := Res_bind_ok h4
                     cases h6
                     exact one _ _ h5)
                  | cases hch
          · rename_i hch
            simp only [callObj] at h1
            cases m <;> first
              | exact absurd rfl hm
              | exact absurd rfl hch
              | (simp only [callOwn] at h1
                 split at h1
                 · cases h1
                 · cases h1; rfl)

/-- A program that keeps to spans of this package does to the spans, the exporters and the span store
what the calls below do: everything proved of those holds of programs that go through contexts and
`*Span`. -/
theorem refines {E : Env} {w w' : World} {ops : List Api.Op} (hb : ∀ op ∈ ops, belowForeign op = false)
    (h : Api.run E w ops = .ok w') : Trace.run w.st (ops.flatMap (project E)) = .ok w'.st := by
  induction ops generalizing w with
  | nil => cases h; rfl
  | cons op ops ih =>
    obtain ⟨w1, h1, h2⟩ := Res_bind_ok h
    rw [List.flatMap_cons, Trace.run_append, step_refines (hb op (by simp)) h1]
    exact ih (fun o ho => hb o (by simp [ho])) h2

/-! ## Examples -/

/-- Another implementation that records until it is ended. -/
def demoEnv : Env where
  recording := fun h k => decide ((k, Method.finish) ∉ h)
  context := fun _ _ => ⟨List.replicate 16 7, List.replicate 8 9, 1, none⟩
  text := fun _ _ => []
  sprintf := fun f _ => f
  quote := id

/-- A program with two spans of this package below one of another implementation, the second started
while the execution tracer is on, and ended twice. -/
def demo : List Api.Op :=
  let c := newContext .background (.of (.foreign 3))
  [ .start c [65] [] (List.replicate 16 1) (List.replicate 8 2),
    .setTracing true,
    .start (newContext c (.of (.own 0))) [66] [] (List.replicate 16 1) (List.replicate 8 3),
    .call (.of (.foreign 3)) (.setName [67]) [],
    .call (.of (.foreign 3)) .finish [],
    .call (.of (.foreign 3)) (.setName [68]) [],
    .call (.of (.own 1)) .finish [],
    .call .nil .finish [],
    .call (.of (.own 1)) .finish [],
    .call (.of (.own 0)) .finish [] ]

/-- The program runs, and the world it ends in is as `f` says. -/
def runsTo (E : Env) (ops : List Api.Op) (f : World → Bool) : Bool :=
  match Api.run E (.init 0) ops with
  | .ok w => f w
  | _ => false

theorem runsTo_ok {E : Env} {ops : List Api.Op} {f : World → Bool} (h : runsTo E ops f = true) :
    ∃ w, Api.run E (.init 0) ops = .ok w ∧ f w = true := by
  unfold runsTo at h
  split at h
  · exact ⟨_, by assumption, h⟩
  · cases h

/-- The second `End` of a span ends its task again. -/
theorem ends_twice : ∃ (E : Env) (ops : List Api.Op) (w : World) (t : Nat),
    Api.run E (.init 0) ops = .ok w ∧ w.taskEnd[1]? = some (some t) ∧ w.events.count (.finish t) = 2 := by
  obtain ⟨w, h1, h2⟩ := runsTo_ok (E := demoEnv) (ops := demo)
    (f := fun w => decide (w.taskEnd[1]? = some (some 0) ∧ w.events.count (.finish 0) = 2)) (by decide +kernel)
  exact ⟨demoEnv, demo, w, 0, h1, of_decide_eq_true h2⟩

/-- The hypotheses of the theorems above are met by `demo`: the spans are of the trace of the other
implementation, sampled as it is, and that implementation got one of the two changes of name. -/
example : runsTo demoEnv demo (fun w => decide (
    w.st.spans.map (fun s => (s.ctx.traceID, s.ctx.isSampled)) =
        [(List.replicate 16 7, true), (List.replicate 16 7, true)] ∧
      had 3 w.calls = [.spanContext, .isRecordingEvents, .setName [67], .finish, .isRecordingEvents] ∧
      w.events = [.start 0 none [66], .finish 0, .finish 0])) = true := by decide +kernel

/-- Attaching a nil span hides the one above: the next span begins a trace. -/
example : runsTo demoEnv
    [.start (newContext (newContext .background (.of (.foreign 3))) .nil) [65] [.sampler (some alwaysSample)]
      (List.replicate 16 1) (List.replicate 8 2)]
    (fun w => decide (w.st.spans.map (fun s => s.ctx.traceID) = [List.replicate 16 1] ∧ w.calls = [])) = true := by
  decide +kernel

/-- A program for `refines` and `task_once_partial`. -/
example : runsTo demoEnv
    [.setTracing true, .start .background [65] [.sampler (some alwaysSample)] (List.replicate 16 1)
      (List.replicate 8 2), .call (.of (.own 0)) (.setName [66]) [], .call (.of (.own 0)) .finish []]
    (fun w => decide (w.events = [.start 0 none [65], .finish 0] ∧ w.st.spans.length = 1)) = true := by
  decide +kernel

end Verif.Props.Api
