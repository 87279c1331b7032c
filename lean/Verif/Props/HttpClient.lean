import Verif.Http.Lemmas
import Verif.Props.Spans

/-!
# C44: HTTP client spans and stats finish exactly once
-/

namespace Verif.Props.HttpClient
open Verif Verif.Http Verif.Trace

/-! ## Specification -/

/-- The calls that finish a request: a `Read` that returns io.EOF and any `Close`. -/
def finishing : Call → Bool
  | .read _ e => decide (e = .eof)
  | .close _ => true

/-- The bytes handed to the caller by all calls. -/
def delivered : List Call → Int
  | [] => 0
  | .read n _ :: cs => n + delivered cs
  | .close _ :: cs => delivered cs

/-- The calls up to and including the first finishing one. -/
def untilFinished : List Call → List Call
  | [] => []
  | c :: cs => if finishing c then [c] else c :: untilFinished cs

/-- What the body below answers to a call. -/
def answer : Call → Ret
  | .read n e => .read n e
  | .close e => .close e

/-- The call as it arrives at the body below. -/
def forwarded : Call → Ev
  | .read .. => .read
  | .close _ => .close

/-- What a call does to the span. -/
def spanOps (i : Nat) (order : List Bytes) : Call → List Op
  | .read _ .nil => []
  | .read _ .eof => [.endSpan (some i) order]
  | .read _ (.other msg) => [.setStatus (some i) ⟨2, msg⟩]
  | .close _ => [.endSpan (some i) order]

/-- The value recorded for a measure. -/
def valueOf (ms : List Meas) (m : Measure) : Option (Option Int) :=
  (ms.find? fun x => decide (x.measure = m)).map Meas.value

/-- The tags a request gives its measurements: none of them if one of the values is not a valid tag
value. -/
def requestTags (env : Env) (req : Request) (t : Tags) : Prop :=
  if Tag.checkValue req.host ∧ Tag.checkValue req.path ∧ Tag.checkValue req.method then
    GoMap.get t (str "http.host") = some req.host ∧ GoMap.get t (str "http_client_host") = some req.host ∧
    GoMap.get t (str "http.path") = some req.path ∧ GoMap.get t (str "http_client_path") = some req.path ∧
    GoMap.get t (str "http.method") = some req.method ∧ GoMap.get t (str "http_client_method") = some req.method
  else ∀ k, k ≠ str "http.status" → k ≠ str "http_client_status" → GoMap.get t k = GoMap.get env.tags k

/-- The size of the request body as far as it is known: −1 without a body, 0 when unknown. -/
def requestSize (req : Request) : Int :=
  if req.bodyNil then -1 else if req.contentLength > 0 then req.contentLength else 0

/-- What a finished request records. `n` are the bytes delivered until then, `cl` the announced content
length (0 if not used). -/
structure EndRecord (env : Env) (req : Request) (status n cl : Int) (x : Tags × List Meas) : Prop where
  tags : requestTags env req x.1
  status1 : GoMap.get x.1 (str "http.status") = some (itoa status)
  status2 : GoMap.get x.1 (str "http_client_status") = some (itoa status)
  sent : valueOf x.2 .clientSentBytes = some (some (requestSize req))
  received : valueOf x.2 .clientReceivedBytes = some (some (if n = 0 ∧ cl > 0 then cl else n))
  response : valueOf x.2 .clientResponseBytes = some (some n)
  latency : valueOf x.2 .clientRoundtripLatency = some none ∧ valueOf x.2 .clientLatency = some none
  request : valueOf x.2 .clientRequestBytes = if requestSize req ≥ 0 then some (some (requestSize req)) else none
  count : valueOf x.2 .clientRequestCount = none

/-! ## Helper lemmas -/

theorem wrap64_add (a b : Int) : wrap64 (wrap64 a + b) = wrap64 (a + b) := by
  unfold wrap64; omega

theorem finish_records {b : Body} (h : b.ended = false) :
    ∃ t, records b.finish.log = records b.log ++ [(t, b.measurements)] ∧
      GoMap.get t (str "http.status") = some (itoa b.statusCode) ∧
      GoMap.get t (str "http_client_status") = some (itoa b.statusCode) ∧
      ∀ k, k ≠ str "http.status" → k ≠ str "http_client_status" → GoMap.get t k = GoMap.get b.tags k := by
  have hne : str "http.status" ≠ str "http_client_status" := by decide
  refine ⟨GoMap.set (GoMap.set b.tags (str "http.status") (itoa b.statusCode)) (str "http_client_status")
    (itoa b.statusCode), ?_, ?_, ?_, ?_⟩
  · unfold Body.finish
    rw [if_neg (by simp [h])]
    simp [Body.emit, recordWithTags, tagNew, checkValue_itoa, record, records]
  · rw [GoMap.get_set_other _ _ hne, GoMap.get_set_same]
  · rw [GoMap.get_set_same]
  · intro k h1 h2
    rw [GoMap.get_set_other _ _ h2, GoMap.get_set_other _ _ h1]


/-- The parts of a body that calls do not change. -/
def Same (b b' : Body) : Prop :=
  b'.tags = b.tags ∧ b'.reqSize = b.reqSize ∧ b'.respContentLength = b.respContentLength ∧
  b'.statusCode = b.statusCode ∧ b'.span = b.span ∧ b'.order = b.order ∧ b'.bodyNil = b.bodyNil

theorem traceOps_recordWithTags (t : Tags) (kvs : List (Bytes × Bytes)) (ms : List Meas) :
    traceOps (recordWithTags t kvs ms) = [] ∧ below (recordWithTags t kvs ms) = [] := by
  unfold recordWithTags
  cases tagNew t kvs <;> exact ⟨rfl, rfl⟩

theorem finish_rest (b : Body) : Same b b.finish ∧ b.finish.respSize = b.respSize ∧ b.finish.ended = true ∧
    traceOps b.finish.log = traceOps b.log ∧ below b.finish.log = below b.log ∧
    (b.ended = true → b.finish = b) := by
  unfold Body.finish Same
  by_cases h : b.ended = true
  · simp [h]
  · rw [if_neg h]
    refine ⟨⟨rfl, rfl, rfl, rfl, rfl, rfl, rfl⟩, rfl, rfl, ?_, ?_, fun h' => absurd h' h⟩
    · simp [Body.emit, traceOps_recordWithTags]
    · simp [Body.emit, traceOps_recordWithTags]

theorem call_spec (b : Body) (hb : b.bodyNil = false) (c : Call) : ∃ b', b.call c = .ok (b', answer c) ∧
    Same b b' ∧ traceOps b'.log = traceOps b.log ++ spanOps b.span b.order c ∧
    below b'.log = below b.log ++ [forwarded c] ∧ b'.ended = (b.ended || finishing c) ∧
    b'.respSize = (match c with | .read n _ => wrap64 (b.respSize + n) | .close _ => b.respSize) ∧
    (b.ended || !finishing c → records b'.log = records b.log) ∧
    (b.ended = false → finishing c → ∃ t, records b'.log = records b.log ++
        [(t, { b with respSize := b'.respSize }.measurements)] ∧
      GoMap.get t (str "http.status") = some (itoa b.statusCode) ∧
      GoMap.get t (str "http_client_status") = some (itoa b.statusCode) ∧
      ∀ k, k ≠ str "http.status" → k ≠ str "http_client_status" → GoMap.get t k = GoMap.get b.tags k) := by
  cases c with
  | close e =>
    refine ⟨(b.finish.endSpan).emit [.close], by simp [Body.call, Body.close, hb, Res.bind, answer], ?_⟩
    obtain ⟨f1, f2, f3, f4, f5, f6⟩ := finish_rest b
    refine ⟨f1, ?_, ?_, by simp [Body.endSpan, Body.emit, f3, finishing], f2, ?_, ?_⟩
    · simp only [Body.endSpan, Body.emit, traceOps_append, f4, f1.2.2.2.2.1, f1.2.2.2.2.2.1]
      simp [traceOps, spanOps]
    · simp only [Body.endSpan, Body.emit, below_append, f5]
      simp [below, forwarded]
    · intro h
      have : b.ended = true := by simpa [finishing] using h
      rw [f6 this]; simp [Body.endSpan, Body.emit, records]
    · intro h _
      obtain ⟨t, h1, h2⟩ := finish_records h
      refine ⟨t, ?_, h2⟩
      have e1 : ((b.finish.endSpan).emit [.close]).respSize = b.respSize := f2
      rw [e1]
      simp only [Body.endSpan, Body.emit, records_append, h1]
      simp [records]
  | read n e =>
    refine ⟨(((b.emit [.read]).traceRead e).count n).statsRead e,
      by simp [Body.call, Body.read, hb, Res.bind, answer], ?_⟩
    have ht : ∃ l, (((b.emit [.read]).traceRead e).count n) =
        { b with log := b.log ++ l, respSize := wrap64 (b.respSize + n) } ∧
        traceOps l = spanOps b.span b.order (.read n e) ∧ below l = [.read] ∧ records l = [] := by
      cases e with
      | nil => exact ⟨_, rfl, rfl, rfl, rfl⟩
      | eof => exact ⟨[.read, .trace (.endSpan (some b.span) b.order)],
          by simp [Body.emit, Body.traceRead, Body.endSpan, Body.count], rfl, rfl, rfl⟩
      | other msg => exact ⟨[.read, .trace (.setStatus (some b.span) ⟨2, msg⟩)],
          by simp [Body.emit, Body.traceRead, Body.count], rfl, rfl, rfl⟩
    obtain ⟨l, hl, hl1, hl2, hl3⟩ := ht
    rw [hl]
    by_cases he : e = .eof
    · subst he
      obtain ⟨f1, f2, f3, f4, f5, f6⟩ := finish_rest { b with log := b.log ++ l, respSize := wrap64 (b.respSize + n) }
      simp only [Body.statsRead, if_true]
      refine ⟨f1, by rw [f4]; simp [hl1], by rw [f5]; simp [hl2, forwarded], by simp [f3, finishing], f2, ?_, ?_⟩
      · intro h
        have : b.ended = true := by simpa [finishing] using h
        rw [f6 this]; simp [hl3]
      · intro h _
        obtain ⟨t, h1, h2⟩ := finish_records (b := { b with log := b.log ++ l, respSize := wrap64 (b.respSize + n) }) h
        refine ⟨t, ?_, h2⟩
        rw [h1, f2]; simp [hl3]; rfl
    · simp only [Body.statsRead, if_neg he]
      exact ⟨⟨rfl, rfl, rfl, rfl, rfl, rfl, rfl⟩, by simp [hl1], by simp [hl2, forwarded], by simp [finishing, he],
        trivial, by intro _; simp [hl3], by simp [finishing, he]⟩

theorem measurements_congr {b b' : Body} (h : Same b b') (n : Int) :
    { b' with respSize := n }.measurements = { b with respSize := n }.measurements := by
  obtain ⟨_, h2, h3, _⟩ := h
  simp [Body.measurements, h2, h3]

theorem Same.trans {a b c : Body} (h : Same a b) (h' : Same b c) : Same a c := by
  obtain ⟨h1, h2, h3, h4, h5, h6, h7⟩ := h
  obtain ⟨g1, g2, g3, g4, g5, g6, g7⟩ := h'
  exact ⟨g1.trans h1, g2.trans h2, g3.trans h3, g4.trans h4, g5.trans h5, g6.trans h6, g7.trans h7⟩

theorem calls_spec (b : Body) (hb : b.bodyNil = false) (hw : wrap64 b.respSize = b.respSize) (cs : List Call) :
    ∃ b', b.calls cs = .ok (b', cs.map answer) ∧
    traceOps b'.log = traceOps b.log ++ cs.flatMap (spanOps b.span b.order) ∧
    below b'.log = below b.log ++ cs.map forwarded ∧
    (b.ended = true ∨ cs.any finishing = false → records b'.log = records b.log) ∧
    (b.ended = false → cs.any finishing = true → ∃ t, records b'.log = records b.log ++
        [(t, { b with respSize := wrap64 (b.respSize + delivered (untilFinished cs)) }.measurements)] ∧
      GoMap.get t (str "http.status") = some (itoa b.statusCode) ∧
      GoMap.get t (str "http_client_status") = some (itoa b.statusCode) ∧
      ∀ k, k ≠ str "http.status" → k ≠ str "http_client_status" → GoMap.get t k = GoMap.get b.tags k) := by
  induction cs generalizing b with
  | nil => exact ⟨b, rfl, by simp, by simp, fun _ => rfl, by simp⟩
  | cons c cs ih =>
    obtain ⟨b1, h1, h2, h3, h4, h5, h6, h7, h8⟩ := call_spec b hb c
    have hw1 : wrap64 b1.respSize = b1.respSize := by
      rw [h6]; cases c with
      | read n e => simp only; unfold wrap64; omega
      | close e => exact hw
    obtain ⟨b', g1, g2, g3, g4, g5⟩ := ih b1 (h2.2.2.2.2.2.2.trans hb) hw1
    refine ⟨b', ?_, ?_, ?_, ?_, ?_⟩
    · simp [Body.calls, h1, Res.bind, g1]
    · rw [g2, h3, h2.2.2.2.2.1, h2.2.2.2.2.2.1]; simp
    · rw [g3, h4]; simp
    · intro h
      cases hf : finishing c with
      | true =>
        have he : b.ended = true := by simpa [hf] using h
        rw [g4 (Or.inl (by rw [h5, he]; rfl)), h7 (by rw [he]; rfl)]
      | false =>
        rw [g4 (by simpa [hf, h5] using h), h7 (by simp [hf])]
    · intro he hany
      cases hf : finishing c with
      | true =>
        obtain ⟨t, r1, r2⟩ := h8 he hf
        refine ⟨t, ?_, r2⟩
        rw [g4 (Or.inl (by rw [h5, hf]; simp)), r1, h6]
        cases c with
        | read n e => simp [untilFinished, hf, delivered]
        | close e => simp only [untilFinished, hf, if_true, delivered, Int.add_zero, hw]
      | false =>
        have he1 : b1.ended = false := by rw [h5, he, hf]; rfl
        obtain ⟨t, r1, r2, r3, r4⟩ := g5 he1 (by simpa [hf] using hany)
        refine ⟨t, ?_, by rw [r2, h2.2.2.2.1], by rw [r3, h2.2.2.2.1], by rw [← h2.1]; exact r4⟩
        rw [r1, h7 (by simp [hf]), measurements_congr h2]
        cases c with
        | close e => simp [finishing] at hf
        | read n e =>
          simp only at h6
          rw [h6, wrap64_add]
          simp [untilFinished, hf, delivered, Int.add_assoc]

/-- The tags of the context the measurements are recorded with. -/
def startTags (env : Env) (req : Request) : Tags :=
  (tagNew env.tags [(str "http_client_host", req.host), (str "http.host", req.host),
    (str "http_client_path", req.path), (str "http.path", req.path),
    (str "http_client_method", req.method), (str "http.method", req.method)]).getD env.tags

theorem requestTags_of {env : Env} {req : Request} {t : Tags}
    (h : ∀ k, k ≠ str "http.status" → k ≠ str "http_client_status" → GoMap.get t k = GoMap.get (startTags env req) k) :
    requestTags env req t := by
  unfold requestTags
  by_cases hv : Tag.checkValue req.host = true ∧ Tag.checkValue req.path = true ∧ Tag.checkValue req.method = true
  · rw [if_pos hv]
    have hs : startTags env req = [(str "http_client_host", req.host), (str "http.host", req.host),
        (str "http_client_path", req.path), (str "http.path", req.path),
        (str "http_client_method", req.method), (str "http.method", req.method)].foldl
        (fun m kv => GoMap.set m kv.1 kv.2) env.tags := by
      unfold startTags
      rw [tagNew_some, if_pos (by simp [hv])]
      rfl
    rw [hs] at h
    simp only [List.foldl_cons, List.foldl_nil] at h
    refine ⟨?_, ?_, ?_, ?_, ?_, ?_⟩
    all_goals
      rw [h _ (by decide) (by decide)]
      repeat first
        | rw [GoMap.get_set_same]
        | rw [GoMap.get_set_other _ _ (by decide)]
  · rw [if_neg hv]
    have hs : startTags env req = env.tags := by
      unfold startTags
      rw [tagNew_some, if_neg]
      · rfl
      · intro hall
        simp only [List.all_cons, List.all_nil, Bool.and_true, Bool.and_eq_true] at hall
        exact hv ⟨hall.1, hall.2.2.1, hall.2.2.2.2.1⟩
    rw [hs] at h
    exact h

theorem endRecord_of {env : Env} {req : Request} {status n cl : Int} {b : Body} {t : Tags}
    (hr : b.reqSize = requestSize req) (hc : b.respContentLength = cl) (hn : b.respSize = n)
    (h1 : GoMap.get t (str "http.status") = some (itoa status))
    (h2 : GoMap.get t (str "http_client_status") = some (itoa status)) (h3 : requestTags env req t) :
    EndRecord env req status n cl (t, b.measurements) := by
  refine ⟨h3, h1, h2, ?_, ?_, ?_, ?_, ?_, ?_⟩
  all_goals simp only [Body.measurements, hr, hc, hn]
  · rfl
  · rfl
  · rfl
  · exact ⟨rfl, rfl⟩
  · by_cases hq : requestSize req ≥ 0
    · simp only [if_pos hq]; rfl
    · simp only [if_neg hq]; rfl
  · by_cases hq : requestSize req ≥ 0
    · simp only [if_pos hq]; rfl
    · simp only [if_neg hq]; rfl

/-! ## C44 -/

/-- A response whose body is read and closed in any way records nothing more until the first `Close` or
io.EOF, and then exactly one set of measurements: status, request size, and the bytes delivered until
then. Every call gets the answer of the body below. -/
theorem stats_once (env : Env) (req : Request) (r : Response) (hb : r.bodyNil = false) (cs : List Call)
    (hn : 0 ≤ delivered (untilFinished cs) ∧ delivered (untilFinished cs) < 2 ^ 63) :
    ∃ b' x0, (roundTrip env req (.resp r)).1.calls cs = .ok (b', cs.map answer) ∧
      x0.2 = [⟨.clientRequestCount, some 1⟩] ∧
      (cs.any finishing = false → records b'.log = [x0]) ∧
      (cs.any finishing = true → ∃ x, records b'.log = [x0, x] ∧
        EndRecord env req r.statusCode (delivered (untilFinished cs))
          (if req.method = str "HEAD" then 0 else r.contentLength) x) := by
  obtain ⟨b', h1, h2, h3, h4, h5⟩ := calls_spec (roundTrip env req (.resp r)).1 hb rfl cs
  refine ⟨b', (startTags env req, [⟨.clientRequestCount, some 1⟩]), h1, rfl, ?_, ?_⟩
  · intro h
    rw [h4 (Or.inr h)]; rfl
  · intro h
    obtain ⟨t, g1, g2, g3, g4⟩ := h5 rfl h
    refine ⟨_, g1, endRecord_of rfl ?_ ?_ g2 g3 (requestTags_of g4)⟩
    · simp only [roundTrip]
      by_cases hm : req.method = str "HEAD" <;> simp [hm]
    · show wrap64 (0 + delivered (untilFinished cs)) = _
      unfold wrap64; omega

/-- When the base fails, the measurements are recorded at once, with status 500 and no response bytes,
and the span ends with the error. -/
theorem error_once (env : Env) (req : Request) (msg : Bytes) :
    ∃ x0 x, records (roundTrip env req (.err msg)).1.log = [x0, x] ∧
      x0.2 = [⟨.clientRequestCount, some 1⟩] ∧ EndRecord env req 500 0 0 x ∧
      traceOps (roundTrip env req (.err msg)).1.log =
        [.start env.ctxSpan env.name [.sampler env.sampler, .kind 2] env.tid env.sid,
         .addAttributes (some env.span) (requestAttrs req),
         .setStatus (some env.span) ⟨2, msg⟩, .endSpan (some env.span) env.order] := by
  obtain ⟨t, g1, g2, g3, g4⟩ := finish_records (b := { ((((⟨startTags env req, requestSize req, 0, 0, 0, false,
    env.span, env.order, false, []⟩ : Body).emit (record (startTags env req) [⟨.clientRequestCount, some 1⟩])).emit
    [.trace (.start env.ctxSpan env.name [.sampler env.sampler, .kind 2] env.tid env.sid),
     .trace (.addAttributes (some env.span) (requestAttrs req)), .roundTrip]).emit
    [.trace (.setStatus (some env.span) ⟨2, msg⟩)]).endSpan with statusCode := 500 }) rfl
  refine ⟨(startTags env req, [⟨.clientRequestCount, some 1⟩]), _, g1, rfl,
    endRecord_of rfl rfl rfl g2 g3 (requestTags_of g4), ?_⟩
  exact (finish_rest _).2.2.2.1

/-- Exactly what happens to the span of a response: it is started as a client span, gets the request's
and the response's attributes and the status of the response's code, and then, for each call, is ended
(io.EOF, `Close`) or gets the error as its status. -/
theorem span_operations (env : Env) (req : Request) (r : Response) (hb : r.bodyNil = false) (cs : List Call) :
    ∃ b' rets, (roundTrip env req (.resp r)).1.calls cs = .ok (b', rets) ∧
      traceOps b'.log =
        [.start env.ctxSpan env.name [.sampler env.sampler, .kind 2] env.tid env.sid,
         .addAttributes (some env.span) (requestAttrs req),
         .addAttributes (some env.span) [⟨str "http.status_code", itoa r.statusCode⟩],
         .setStatus (some env.span) (traceStatus r.statusCode)] ++
        cs.flatMap (spanOps env.span env.order) := by
  obtain ⟨b', h1, h2, _⟩ := calls_spec (roundTrip env req (.resp r)).1 hb rfl cs
  exact ⟨b', _, h1, h2⟩

/-- Every call is made once on the body below, in the same order, and returns what the body below
returns. -/
theorem passed_through (env : Env) (req : Request) (r : Response) (hb : r.bodyNil = false) (cs : List Call) :
    ∃ b', (roundTrip env req (.resp r)).1.calls cs = .ok (b', cs.map answer) ∧
      below b'.log = .roundTrip :: cs.map forwarded := by
  obtain ⟨b', h1, _, h3, _⟩ := calls_spec (roundTrip env req (.resp r)).1 hb rfl cs
  exact ⟨b', h1, h3⟩

/-- The body also implements io.Writer exactly when the one below does. -/
theorem body_writer (i : Bool) : wrappedBody i = i := by cases i <;> rfl

/-- Requests for the health endpoints go to the base directly; all others are instrumented. -/
theorem health_untouched (env : Env) (req : Request) (res : BaseResult) :
    (transport env req res = none ↔ req.path = str "/healthz" ∨ req.path = str "/_ah/health") ∧
    ∀ x, transport env req res = some x → x = roundTrip env req res := by
  unfold transport isHealthEndpoint
  by_cases h : req.path = str "/healthz" ∨ req.path = str "/_ah/health"
  · simp [h]
  · simp only [h, if_false]
    simp

/-- The recorded received bytes are the bytes delivered to the caller if something was delivered or no
content length was announced, and nothing is read after the end.

Missing for the claim as stated: `content_length_recorded` and `late_bytes_lost` below. -/
theorem received_bytes_partial (env : Env) (req : Request) (r : Response) (hb : r.bodyNil = false) (cs : List Call)
    (hn : 0 ≤ delivered cs ∧ delivered cs < 2 ^ 63) (hfin : cs.any finishing = true)
    (hlate : delivered cs = delivered (untilFinished cs))
    (hcl : delivered cs ≠ 0 ∨ r.contentLength ≤ 0 ∨ req.method = str "HEAD") :
    ∃ b' rets x0 x, (roundTrip env req (.resp r)).1.calls cs = .ok (b', rets) ∧ records b'.log = [x0, x] ∧
      valueOf x.2 .clientReceivedBytes = some (some (delivered cs)) ∧
      valueOf x.2 .clientResponseBytes = some (some (delivered cs)) := by
  obtain ⟨b', x0, h1, h2, _, h4⟩ := stats_once env req r hb cs (by rw [← hlate]; exact hn)
  obtain ⟨x, g1, g2⟩ := h4 hfin
  refine ⟨b', _, x0, x, h1, g1, ?_, by rw [g2.response, hlate]⟩
  rw [g2.received, ← hlate]
  by_cases hm : req.method = str "HEAD"
  · simp [hm]
  · rw [if_neg hm, if_neg]
    rintro ⟨h5, h6⟩
    rcases hcl with h | h | h
    · exact h h5
    · omega
    · exact hm h

/-! ### Disagreements -/

def env0 : Env := ⟨[], none, none, str "/x", [], [], 0, []⟩
def req0 : Request := ⟨str "h", str "/x", str "http://h/x", str "GET", [], true, 0⟩
def resp0 : Response := ⟨200, 10, false⟩

/-- What a sequence of calls makes the transport record for a measure at the end of the request. -/
def recorded (r : Response) (cs : List Call) (m : Measure) : Option (Option Int) :=
  match (roundTrip env0 req0 (.resp r)).1.calls cs with
  | .ok (b, _) => match records b.log with
    | [_, x] => valueOf x.2 m
    | _ => none
  | _ => none

/-- A body closed without reading: no byte was delivered, the announced content length is recorded as
received. -/
theorem content_length_recorded : delivered [.close .nil] = 0 ∧
    recorded resp0 [.close .nil] .clientReceivedBytes = some (some 10) := by decide

/-- Bytes read after the first io.EOF are delivered and not recorded. -/
theorem late_bytes_lost : delivered [.read 3 .eof, .read 4 .nil] = 7 ∧
    recorded resp0 [.read 3 .eof, .read 4 .nil] .clientReceivedBytes = some (some 3) := by decide

/-- A request without a body records −1 bytes sent. -/
theorem sent_minus_one : req0.bodyNil = true ∧ recorded resp0 [.close .nil] .clientSentBytes = some (some (-1)) := by
  decide

/-- A base transport that returns a response with a nil body: the caller gets a body all of whose calls
panic, and the request is never finished. -/
theorem nil_body_panics (env : Env) (req : Request) (r : Response) (hb : r.bodyNil = true) (c : Call) (cs : List Call) :
    (roundTrip env req (.resp r)).1.calls (c :: cs) = .panic ∧
    (records (roundTrip env req (.resp r)).1.log).length = 1 := by
  have : (roundTrip env req (.resp r)).1.bodyNil = true := hb
  refine ⟨?_, rfl⟩
  cases c <;> simp [Body.calls, Body.call, Body.read, Body.close, this, Res.bind]

/-- One value that is not a valid tag value (here a path with a non-ASCII byte) removes host and method
too. -/
theorem bad_path_drops_tags : ∃ x0 x, records (roundTrip env0 { req0 with path := [47, 195] } (.err [])).1.log = [x0, x] ∧
    GoMap.get x.1 (str "http.host") = none ∧ GoMap.get x.1 (str "http.method") = none ∧
    GoMap.get x.1 (str "http.status") = some (str "500") := by
  refine ⟨_, _, rfl, ?_, ?_, ?_⟩ <;> decide

/-! ### Examples -/

/-- Three reads with an error between and two closes. -/
example : recorded resp0 [.read 5 .nil, .read 0 (.other (str "timeout")), .read 5 .eof, .close .nil, .close (.other [])]
    .clientReceivedBytes = some (some 10) := by decide

example : requestTags env0 req0 [(str "http.host", str "h"), (str "http_client_host", str "h"),
    (str "http.path", str "/x"), (str "http_client_path", str "/x"), (str "http.method", str "GET"),
    (str "http_client_method", str "GET")] := by
  unfold requestTags
  rw [if_pos (by decide)]
  decide

end Verif.Props.HttpClient
