import Verif.Props.HttpClient

/-!
# C44 with several goroutines using the body, and with the trace model
-/

namespace Verif.Props.HttpClient
open Verif Verif.Http Verif.Trace

/-! ## Specification -/

/-- A call that finishes the request and has got past the recording. -/
def finPC : PC → Bool
  | .finished => true
  | .spanEnded => true
  | .done (.close _) => true
  | .done (.read _ e) => decide (e = .eof)
  | _ => false

/-- A call that has ended the span. -/
def endPC : PC → Bool
  | .traced _ e => decide (e = .eof)
  | .counted _ e => decide (e = .eof)
  | .done (.read _ e) => decide (e = .eof)
  | .spanEnded => true
  | .done (.close _) => true
  | _ => false

/-- The bytes of a call that have been counted. -/
def bytesPC : PC → Int
  | .counted n _ => n
  | .done (.read n _) => n
  | _ => 0

/-- The bytes counted so far. -/
def bytes (l : List PC) : Int := (l.map bytesPC).sum

/-- The bytes a call has been given by the base. -/
def gotPC : PC → Int
  | .gotRead n _ => n
  | .traced n _ => n
  | .counted n _ => n
  | .done (.read n _) => n
  | _ => 0

def isEnd (i : Nat) : Op → Bool
  | .endSpan s _ => decide (s = some i)
  | _ => false

/-! ## Helper lemmas -/

theorem sum_set {l : List PC} {i : Nat} {pc pc' : PC} (h : l[i]? = some pc) :
    bytes (l.set i pc') = bytes l - bytesPC pc + bytesPC pc' := by
  induction l generalizing i with
  | nil => simp at h
  | cons x l ih =>
    cases i with
    | zero => simp at h; subst h; simp [bytes]; omega
    | succ i =>
      have := ih (i := i) (by simpa using h)
      simp [bytes] at this ⊢; omega

theorem count_set {f : PC → Bool} {l : List PC} {i : Nat} {pc pc' : PC} (h : l[i]? = some pc) :
    (l.set i pc').countP f + (if f pc then 1 else 0) = l.countP f + (if f pc' then 1 else 0) := by
  induction l generalizing i with
  | nil => simp at h
  | cons x l ih =>
    cases i with
    | zero => simp at h; subst h; simp [List.countP_cons]; omega
    | succ i =>
      have := ih (i := i) (by simpa using h)
      simp [List.countP_cons] at this ⊢; omega

/-- What every schedule keeps. -/
structure Inv (b0 : Body) (s : Conc) : Prop where
  same : Same b0 s.body
  size : s.body.respSize = wrap64 (bytes s.calls)
  nonneg : ∀ pc ∈ s.calls, 0 ≤ gotPC pc
  fin : s.body.ended = decide (0 < s.calls.countP finPC)
  ends : (traceOps s.body.log).countP (isEnd b0.span) =
    (traceOps b0.log).countP (isEnd b0.span) + s.calls.countP endPC
  none : s.body.ended = false → records s.body.log = records b0.log
  one : s.body.ended = true → ∃ t k, records s.body.log = records b0.log ++
      [(t, { b0 with respSize := wrap64 k }.measurements)] ∧ 0 ≤ k ∧ k ≤ bytes s.calls ∧
    GoMap.get t (str "http.status") = some (itoa b0.statusCode) ∧
    GoMap.get t (str "http_client_status") = some (itoa b0.statusCode) ∧
    ∀ key, key ≠ str "http.status" → key ≠ str "http_client_status" → GoMap.get t key = GoMap.get b0.tags key

theorem bytes_nonneg {l : List PC} (h : ∀ pc ∈ l, 0 ≤ gotPC pc) : 0 ≤ bytes l := by
  induction l with
  | nil => simp [bytes]
  | cons x l ih =>
    have h1 := h x (by simp)
    have h2 := ih (fun pc hpc => h pc (by simp [hpc]))
    have : 0 ≤ bytesPC x := by
      cases x with
      | counted n e => exact h1
      | done r => cases r with
        | read n e => exact h1
        | close e => simp [bytesPC]
      | _ => simp [bytesPC]
    simp [bytes] at h2 ⊢; omega

/-- A step that only adds to the log, not recording. -/
theorem Inv.emit {b0 : Body} {s : Conc} (h : Inv b0 s) {i : Nat} {pc pc' : PC} (hi : s.calls[i]? = some pc)
    {l : List Ev} (hl : records l = [])
    (he : (traceOps l).countP (isEnd b0.span) + (if endPC pc then 1 else 0) = if endPC pc' then 1 else 0)
    (hf : finPC pc' = finPC pc) (hb : bytesPC pc' = bytesPC pc) (hg : 0 ≤ gotPC pc') :
    Inv b0 ⟨s.body.emit l, s.calls.set i pc'⟩ := by
  have hbytes : bytes (s.calls.set i pc') = bytes s.calls := by rw [sum_set hi, hb]; omega
  have hcf : (s.calls.set i pc').countP finPC = s.calls.countP finPC := by
    have := count_set (f := finPC) (pc' := pc') hi
    rw [hf] at this; omega
  have hce := count_set (f := endPC) (pc' := pc') hi
  refine ⟨h.same, ?_, ?_, ?_, ?_, ?_, ?_⟩
  · rw [hbytes]; exact h.size
  · intro q hq
    rcases List.mem_or_eq_of_mem_set hq with hq | rfl
    · exact h.nonneg q hq
    · exact hg
  · rw [hcf]; exact h.fin
  · show (traceOps (s.body.log ++ l)).countP _ = _
    rw [traceOps_append, List.countP_append, h.ends]
    show _ = _ + (s.calls.set i pc').countP endPC
    omega
  · intro hn
    show records (s.body.log ++ l) = _
    rw [records_append, hl, List.append_nil]; exact h.none hn
  · intro hn
    obtain ⟨t, k, h1, h2, h3, h4⟩ := h.one hn
    refine ⟨t, k, ?_, h2, by rw [hbytes]; exact h3, h4⟩
    show records (s.body.log ++ l) = _
    rw [records_append, hl, List.append_nil]; exact h1

/-- The step through `endOnce.Do`. -/
theorem Inv.finish {b0 : Body} {s : Conc} (h : Inv b0 s) {i : Nat} {pc pc' : PC} (hi : s.calls[i]? = some pc)
    (he : endPC pc' = endPC pc) (hf : finPC pc' = true) (hf' : finPC pc = false) (hb : bytesPC pc' = bytesPC pc)
    (hg : 0 ≤ gotPC pc') : Inv b0 ⟨s.body.finish, s.calls.set i pc'⟩ := by
  have hbytes : bytes (s.calls.set i pc') = bytes s.calls := by rw [sum_set hi, hb]; omega
  have hcf : (s.calls.set i pc').countP finPC = s.calls.countP finPC + 1 := by
    have := count_set (f := finPC) (pc' := pc') hi
    rw [hf, hf'] at this; simpa using this
  have hce : (s.calls.set i pc').countP endPC = s.calls.countP endPC := by
    have := count_set (f := endPC) (pc' := pc') hi
    rw [he] at this; omega
  obtain ⟨f1, f2, f3, f4, f5, f6⟩ := finish_rest s.body
  refine ⟨h.same.trans f1, ?_, ?_, ?_, ?_, ?_, ?_⟩
  · rw [hbytes, f2]; exact h.size
  · intro q hq
    rcases List.mem_or_eq_of_mem_set hq with hq | rfl
    · exact h.nonneg q hq
    · exact hg
  · rw [hcf, f3]; simp
  · rw [hce, f4]; exact h.ends
  · intro hn
    rw [f3] at hn; exact absurd hn (by decide)
  · intro _
    rw [hbytes]
    cases hend : s.body.ended with
    | true => rw [f6 hend]; exact h.one hend
    | false =>
      obtain ⟨t, g1, g2, g3, g4⟩ := finish_records hend
      refine ⟨t, bytes s.calls, ?_, bytes_nonneg h.nonneg, Int.le_refl _, ?_, ?_, ?_⟩
      · rw [g1, h.none hend]
        have := measurements_congr h.same (wrap64 (bytes s.calls))
        rw [← this, ← h.size]
      · rw [g2, h.same.2.2.2.1]
      · rw [g3, h.same.2.2.2.1]
      · rw [← h.same.1]; exact g4

theorem inv_step {b0 : Body} {s s' : Conc} (h : Inv b0 s) {a : Act}
    (ha : ∀ i n e, a = .step i n e → 0 ≤ n) (hs : s.step a = some s') : Inv b0 s' := by
  have hnew : ∀ pc, bytesPC pc = 0 → gotPC pc = 0 → finPC pc = false → endPC pc = false →
      Inv b0 { s with calls := s.calls ++ [pc] } := by
    intro pc h1 h2 h3 h4
    have hb : bytes (s.calls ++ [pc]) = bytes s.calls := by simp [bytes, h1]
    refine ⟨h.same, by rw [hb]; exact h.size, ?_, ?_, ?_, h.none, by rw [hb]; exact h.one⟩
    · intro q hq
      rcases List.mem_append.mp hq with hq | hq
      · exact h.nonneg q hq
      · simp only [List.mem_singleton] at hq; subst hq; omega
    · have : (s.calls ++ [pc]).countP finPC = s.calls.countP finPC := by simp [List.countP_append, h3]
      rw [this]; exact h.fin
    · have : (s.calls ++ [pc]).countP endPC = s.calls.countP endPC := by simp [List.countP_append, h4]
      rw [this]; exact h.ends
  cases a with
  | newRead => cases hs; exact hnew _ rfl rfl rfl rfl
  | newClose => cases hs; exact hnew _ rfl rfl rfl rfl
  | step i n e =>
    have hn := ha i n e rfl
    simp only [Conc.step] at hs
    cases hi : s.calls[i]? with
    | none => rw [hi] at hs; simp at hs
    | some pc =>
      rw [hi] at hs
      simp only at hs
      have hg0 := h.nonneg pc (List.mem_of_getElem? hi)
      have hspan : s.body.span = b0.span := h.same.2.2.2.2.1
      cases pc with
      | reading => cases hs; exact h.emit hi rfl rfl rfl rfl hn
      | gotRead n e =>
        cases hs
        cases e with
        | nil =>
          have := h.emit (l := []) (pc' := .traced n .nil) hi rfl rfl rfl rfl hg0
          simpa [Body.emit, Body.traceRead] using this
        | eof =>
          refine h.emit hi rfl ?_ rfl rfl hg0
          simp [traceOps, isEnd, hspan, endPC]
        | other msg => exact h.emit hi rfl rfl rfl rfl hg0
      | traced n e =>
        cases hs
        have hb : bytes (s.calls.set i (.counted n e)) = bytes s.calls + n := by
          rw [sum_set hi]; simp [bytesPC]
        have hcf : (s.calls.set i (.counted n e)).countP finPC = s.calls.countP finPC := by
          have := count_set (f := finPC) (pc' := .counted n e) hi
          simpa [finPC] using this
        have hce : (s.calls.set i (.counted n e)).countP endPC = s.calls.countP endPC := by
          have := count_set (f := endPC) (pc' := .counted n e) hi
          have e1 : endPC (.traced n e) = endPC (.counted n e) := rfl
          rw [e1] at this; omega
        refine ⟨h.same, ?_, ?_, by rw [hcf]; exact h.fin, by rw [hce]; exact h.ends, h.none, ?_⟩
        · show wrap64 (s.body.respSize + n) = _
          rw [h.size, wrap64_add, hb]
        · intro q hq
          rcases List.mem_or_eq_of_mem_set hq with hq | rfl
          · exact h.nonneg q hq
          · exact hg0
        · intro hend
          obtain ⟨t, k, h1, h2, h3, h4⟩ := h.one hend
          have : 0 ≤ n := hg0
          exact ⟨t, k, h1, h2, by rw [hb]; omega, h4⟩
      | counted n e =>
        cases hs
        by_cases he : e = .eof
        · subst he
          simp only [Body.statsRead, if_true]
          exact h.finish hi rfl rfl rfl rfl hg0
        · have := h.emit (l := []) (pc' := .done (.read n e)) hi rfl (by simp [traceOps, endPC])
            (by simp [finPC, he]) rfl hg0
          simpa [Body.emit, Body.statsRead, he] using this
      | closing => cases hs; exact h.finish hi rfl rfl rfl rfl (by simp [gotPC])
      | finished =>
        cases hs
        refine h.emit hi rfl ?_ rfl rfl (by simp [gotPC])
        simp [traceOps, isEnd, hspan, endPC]
      | spanEnded => cases hs; exact h.emit hi rfl (by simp [traceOps, endPC]) rfl rfl (by simp [gotPC])
      | done r => simp [PC.next] at hs

theorem inv_run {b0 : Body} {s : Conc} (h : Inv b0 s) (as : List Act)
    (ha : ∀ i n e, Act.step i n e ∈ as → 0 ≤ n) : Inv b0 (s.run as) := by
  induction as generalizing s with
  | nil => exact h
  | cons a as ih =>
    refine ih ?_ (fun i n e hm => ha i n e (by simp [hm]))
    cases hs : s.step a with
    | none => exact h
    | some s' => exact inv_step h (fun i n e he => ha i n e (by simp [he])) hs

/-! ## C44, any schedule -/

/-- With any number of goroutines reading and closing the body in any interleaving: the end of the
request is recorded once as soon as one finishing call has got past it, and never again; the byte count
recorded is a count of bytes really delivered; the span has been ended by every finishing call that is
that far, and by nothing else. -/
theorem stats_once_concurrent (env : Env) (req : Request) (r : Response) (as : List Act)
    (ha : ∀ i n e, Act.step i n e ∈ as → 0 ≤ n) :
    let s := Conc.run ⟨(roundTrip env req (.resp r)).1, []⟩ as
    (traceOps s.body.log).countP (isEnd env.span) = s.calls.countP endPC ∧
    ∃ x0 : Tags × List Meas, x0.2 = [⟨.clientRequestCount, some 1⟩] ∧
      (s.calls.any finPC = false → records s.body.log = [x0]) ∧
      (s.calls.any finPC = true → ∃ x k, records s.body.log = [x0, x] ∧ 0 ≤ k ∧ k ≤ bytes s.calls ∧
        EndRecord env req r.statusCode (wrap64 k) (if req.method = str "HEAD" then 0 else r.contentLength) x) := by
  intro s
  have hi : Inv (roundTrip env req (.resp r)).1 s := by
    have h0 : Inv (roundTrip env req (.resp r)).1 ⟨(roundTrip env req (.resp r)).1, []⟩ :=
      ⟨⟨rfl, rfl, rfl, rfl, rfl, rfl, rfl⟩, rfl, (fun _ h => nomatch h), rfl, rfl, fun _ => rfl,
        fun h => by cases h⟩
    exact inv_run h0 as ha
  refine ⟨?_, (startTags env req, [⟨.clientRequestCount, some 1⟩]), rfl, ?_, ?_⟩
  · have := hi.ends
    have h0 : (traceOps (roundTrip env req (.resp r)).1.log).countP (isEnd env.span) = 0 := rfl
    have hsp : (roundTrip env req (.resp r)).1.span = env.span := rfl
    rw [hsp, h0] at this
    omega
  · intro h
    have : s.body.ended = false := by
      rw [hi.fin, decide_eq_false_iff_not, Nat.not_lt, Nat.le_zero, List.countP_eq_zero]
      intro pc hpc hf
      exact absurd (List.any_eq_true.mpr ⟨pc, hpc, hf⟩) (by simp [h])
    rw [hi.none this]; rfl
  · intro h
    obtain ⟨pc, hpc, hf⟩ := List.any_eq_true.mp h
    have : s.body.ended = true := by
      rw [hi.fin, decide_eq_true_eq]
      exact List.countP_pos_iff.mpr ⟨pc, hpc, hf⟩
    obtain ⟨t, k, g1, g2, g3, g4, g5, g6⟩ := hi.one this
    refine ⟨_, k, g1, g2, g3, endRecord_of rfl ?_ rfl g4 g5 (requestTags_of g6)⟩
    simp only [roundTrip]
    by_cases hm : req.method = str "HEAD"
    · simp [hm]
    · simp [hm]

/-- No call is ever stuck: a call that has not returned can take a step. -/
theorem calls_progress (s : Conc) (i : Nat) (pc : PC) (h : s.calls[i]? = some pc) (n : Int) (e : IoErr) :
    (∃ r, pc = .done r) ∨ (s.step (.step i n e)).isSome := by
  cases pc with
  | done r => exact Or.inl ⟨r, rfl⟩
  | _ => right; simp only [Conc.step, h, PC.next]; rfl

/-- Two goroutines: one reads io.EOF, the other closes in between. -/
def demo : List Act :=
  [.newRead, .step 0 5 .nil, .step 0 0 .nil, .step 0 0 .nil, .step 0 0 .nil, .newRead, .newClose, .step 1 3 .eof,
   .step 2 0 .nil, .step 1 0 .nil, .step 2 0 .nil, .step 1 0 .nil, .step 1 0 .nil, .step 2 0 .nil]

example : (Conc.run ⟨(roundTrip env0 req0 (.resp resp0)).1, []⟩ demo).calls =
    [.done (.read 5 .nil), .done (.read 3 .eof), .done (.close .nil)] := by decide

/-! ## With the trace model -/

/-- The errors other than io.EOF among the calls. -/
def readErrors (cs : List Call) : List Bytes :=
  cs.filterMap fun c => match c with
    | .read _ (.other msg) => some msg
    | _ => none

theorem split_first {i : Nat} {l : List Op} (h : ∃ o, Op.endSpan (some i) o ∈ l) :
    ∃ a o b, l = a ++ .endSpan (some i) o :: b ∧ ∀ o, Op.endSpan (some i) o ∉ a := by
  induction l with
  | nil => obtain ⟨o, h⟩ := h; simp at h
  | cons x l ih =>
    by_cases hx : ∃ o, x = .endSpan (some i) o
    · obtain ⟨o, rfl⟩ := hx
      exact ⟨[], o, l, rfl, by simp⟩
    · obtain ⟨o, h⟩ := h
      have : Op.endSpan (some i) o ∈ l := by
        rcases List.mem_cons.mp h with h | h
        · exact absurd ⟨o, h.symm⟩ hx
        · exact h
      obtain ⟨a, o', b, h1, h2⟩ := ih ⟨o, this⟩
      refine ⟨x :: a, o', b, by rw [h1]; rfl, ?_⟩
      intro o'' hm
      rcases List.mem_cons.mp hm with hm | hm
      · exact hx ⟨o'', hm.symm⟩
      · exact h2 o'' hm

/-- The operations on span `i`. -/
def onIt (i : Nat) (op : Op) : Bool := decide (Spans.target op = some (some i))

theorem statuses_filter (i : Nat) (l : List Op) : Spans.statuses i (l.filter (onIt i)) = Spans.statuses i l := by
  induction l with
  | nil => rfl
  | cons op l ih =>
    by_cases h : onIt i op = true
    · rw [List.filter_cons_of_pos h]
      simp only [Spans.statuses, List.filterMap_cons] at ih ⊢
      rw [ih]
    · rw [List.filter_cons_of_neg h, ih]
      unfold Spans.statuses
      rw [List.filterMap_cons]
      cases op with
      | setStatus s x =>
        have : s ≠ some i := by
          rintro rfl
          exact h (by simp [onIt, Spans.target])
        simp [this]
      | _ => rfl

theorem prefix_unique {i : Nat} {a b a' b' : List Op} {o o' : List Bytes}
    (h : a ++ Op.endSpan (some i) o :: b = a' ++ .endSpan (some i) o' :: b')
    (ha : ∀ o, Op.endSpan (some i) o ∉ a) (ha' : ∀ o, Op.endSpan (some i) o ∉ a') : a = a' := by
  induction a generalizing a' with
  | nil => cases a' with
    | nil => rfl
    | cons y a' =>
      simp only [List.nil_append, List.cons_append, List.cons.injEq] at h
      exact absurd (by rw [h.1]; simp) (ha' o)
  | cons x a ih => cases a' with
    | nil =>
      simp only [List.nil_append, List.cons_append, List.cons.injEq] at h
      exact absurd (by rw [h.1]; simp) (ha o')
    | cons y a' =>
      simp only [List.cons_append, List.cons.injEq] at h
      rw [h.1, ih h.2 (fun o hm => ha o (by simp [hm])) (fun o hm => ha' o (by simp [hm]))]

theorem calls_split (i : Nat) (order : List Bytes) (cs : List Call) (h : cs.any finishing = true) :
    ∃ a b, cs.flatMap (spanOps i order) = a ++ .endSpan (some i) order :: b ∧
      (∀ o, Op.endSpan (some i) o ∉ a) ∧
      Spans.statuses i a = (readErrors (untilFinished cs)).map fun msg => ⟨2, msg⟩ := by
  induction cs with
  | nil => simp at h
  | cons c cs ih =>
    by_cases hf : finishing c = true
    · cases c with
      | close e => exact ⟨[], cs.flatMap (spanOps i order), rfl, by simp, by simp [untilFinished, finishing, readErrors, Spans.statuses]⟩
      | read n e =>
        have : e = .eof := by simpa [finishing] using hf
        subst this
        exact ⟨[], cs.flatMap (spanOps i order), rfl, by simp, by simp [untilFinished, finishing, readErrors, Spans.statuses]⟩
    · obtain ⟨a, b, h1, h2, h3⟩ := ih (by simpa [hf] using h)
      cases c with
      | close e => simp [finishing] at hf
      | read n e =>
        cases e with
        | eof => simp [finishing] at hf
        | nil =>
          refine ⟨a, b, by simpa [spanOps] using h1, h2, ?_⟩
          rw [h3]; simp [untilFinished, finishing, readErrors]
        | other msg =>
          refine ⟨.setStatus (some i) ⟨2, msg⟩ :: a, b, by simp [spanOps, h1], by simpa using h2, ?_⟩
          have : Spans.statuses i (.setStatus (some i) ⟨2, msg⟩ :: a) = ⟨2, msg⟩ :: Spans.statuses i a := by
            simp [Spans.statuses]
          rw [this, h3]; simp [untilFinished, finishing, readErrors]

/-- The client span in the trace model. Take any program (any other spans, exporters, configuration and
schedule) in which the operations on span `env.span` after its start are the ones the transport makes for
a response, and let the body have been read to io.EOF or closed. Then the span is exported exactly once
to every exporter registered at the first finishing call (if it is sampled), and its status is the last
read error before that call, or else the one that stands for the HTTP status. -/
theorem client_span_exported (env : Env) (req : Request) (r : Response) (hb : r.bodyNil = false) (cs : List Call)
    (hfin : cs.any finishing = true) {b' : Body} {rets : List Ret}
    (hcalls : (roundTrip env req (.resp r)).1.calls cs = .ok (b', rets))
    {t : Int} {H : List Op} {st : State} (hrun : run (State.init t) H = .ok st)
    (hown : H.filter (onIt env.span) = (traceOps b'.log).tail) :
    ∃ a o b s, H = a ++ .endSpan (some env.span) o :: b ∧ (∀ o, Op.endSpan (some env.span) o ∉ a) ∧
      st.spans[env.span]? = some s ∧
      (∀ e, st.exported.countP (fun x => decide (x.1 = e ∧ x.2.1 = env.span)) =
        if s.ctx.isSampled ∧ Trace.registered e a = true then 1 else 0) ∧
      ∀ e sd, (e, env.span, sd) ∈ st.exported →
        sd.status = match (readErrors (untilFinished cs)).getLast? with
          | some msg => ⟨2, msg⟩
          | none => traceStatus r.statusCode := by
  obtain ⟨b1, rets1, h1, h2⟩ := span_operations env req r hb cs
  rw [hcalls] at h1
  cases h1
  rw [h2] at hown
  simp only [List.cons_append, List.nil_append, List.tail_cons] at hown
  obtain ⟨ca, cb, k1, k2, k3⟩ := calls_split env.span env.order cs hfin
  rw [k1] at hown
  have hmem : Op.endSpan (some env.span) env.order ∈ H := by
    have : Op.endSpan (some env.span) env.order ∈ H.filter (onIt env.span) := by rw [hown]; simp
    exact (List.mem_filter.mp this).1
  obtain ⟨a, o, b, s1, s2⟩ := split_first ⟨_, hmem⟩
  have hrun' := hrun
  rw [s1] at hrun'
  obtain ⟨s, e1, e2, e3⟩ := Spans.exported_exactly_once hrun' s2
  refine ⟨a, o, b, s, s1, s2, e1, e2, ?_⟩
  intro e sd hx
  obtain ⟨c, op, d, order, b2, x, s', g1, g2, g3, g4, g5, g6, g7, g8, _⟩ := Spans.exported_data hrun hx
  rw [g8]
  -- the operations on the span before the first End
  have hp : (c ++ op :: d).filter (onIt env.span) =
      [.addAttributes (some env.span) (requestAttrs req),
       .addAttributes (some env.span) [⟨str "http.status_code", itoa r.statusCode⟩],
       .setStatus (some env.span) (traceStatus r.statusCode)] ++ ca := by
    have : (c ++ op :: d).filter (onIt env.span) ++ .endSpan (some env.span) order :: b2.filter (onIt env.span) =
        ([.addAttributes (some env.span) (requestAttrs req),
         .addAttributes (some env.span) [⟨str "http.status_code", itoa r.statusCode⟩],
         .setStatus (some env.span) (traceStatus r.statusCode)] ++ ca) ++ .endSpan (some env.span) env.order :: cb := by
      have h := hown
      rw [g1, List.filter_append, List.filter_cons_of_pos (by simp [onIt, Spans.target])] at h
      simpa using h
    refine prefix_unique this ?_ ?_
    · intro o hm
      exact g4 o (List.mem_filter.mp hm).1
    · intro o hm
      simp only [List.cons_append, List.nil_append, List.mem_cons, reduceCtorEq, false_or] at hm
      exact k2 o hm
  have hst : Spans.statuses env.span (c ++ op :: d) =
      traceStatus r.statusCode :: (readErrors (untilFinished cs)).map fun msg => ⟨2, msg⟩ := by
    rw [← statuses_filter, hp, ← k3]
    simp [Spans.statuses]
  rw [hst]
  cases hl : (readErrors (untilFinished cs)).getLast? with
  | none =>
    rw [List.getLast?_eq_none_iff] at hl
    rw [hl]; rfl
  | some msg =>
    have hne : (readErrors (untilFinished cs)) ≠ [] := by
      intro h0; rw [h0] at hl; simp at hl
    simp only
    rw [List.getLastD_eq_getLast?]
    rw [List.getLast?_cons, List.getLast?_map, hl]
    rfl

/-- The hypotheses can be met: a sampled request whose body is read with an error and closed, among
operations on another span. -/
def demoEnv : Env := ⟨[], none, some (fun _ => true), str "/x", List.replicate 16 1, List.replicate 8 2, 1,
  [str "http.host", str "http.path", str "http.url", str "http.method", str "http.status_code"]⟩

def demoCalls : List Call := [.read 3 (.other (str "timeout")), .close .nil, .close .nil]

def demoOps : List Op :=
  match (roundTrip demoEnv req0 (.resp resp0)).1.calls demoCalls with
  | .ok (b, _) => [.registerExporter 7, .start none (str "other") [.sampler (some fun _ => false)] (List.replicate 16 9) (List.replicate 8 9)] ++
      traceOps b.log ++ [.endSpan (some 0) []]
  | _ => []

example : (match run (State.init 0) demoOps with
    | .ok st => st.exported.map (fun x => (x.1, x.2.1, x.2.2.status))
    | _ => []) = [(7, 1, ⟨2, str "timeout"⟩)] := by decide +kernel

example : ∃ b rets, (roundTrip demoEnv req0 (.resp resp0)).1.calls demoCalls = .ok (b, rets) ∧
    demoCalls.any finishing = true ∧ demoOps.filter (onIt 1) = (traceOps b.log).tail :=
  ⟨_, _, rfl, rfl, rfl⟩

end Verif.Props.HttpClient
