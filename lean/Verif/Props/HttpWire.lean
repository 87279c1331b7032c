import Verif.Http.Propagate
import Verif.Props.HttpServer
import Verif.Props.Headers
import Verif.Props.TraceContext

/-!
# C62: the trace across an HTTP request

What `Transport` puts into the headers of a request, read by `Handler`.
-/

namespace Verif.Props.HttpWire
open Verif Verif.Http Verif.Trace Verif.Wire

/-! ## Specification -/

/-- The header names a format uses, as they are spelled in an `http.Header`. -/
def carried : Format → List Bytes
  | .b3 => [str "X-B3-Traceid", str "X-B3-Spanid", str "X-B3-Sampled"]
  | .tracecontext => [str "Traceparent", str "Tracestate"]
  | .stackdriver => [str "X-Cloud-Trace-Context"]

/-- IDs have the lengths of their Go types. -/
def LenOK (sc : SpanContext) : Prop := sc.traceID.length = 16 ∧ sc.spanID.length = 8

/-- Neither ID is all zero. -/
def IDsSet (sc : SpanContext) : Prop := sc.traceID ≠ List.replicate 16 0 ∧ sc.spanID ≠ List.replicate 8 0

/-- The span the transport starts. -/
def clientStarted (env : Env) : Start.Started where
  origin := match env.ctxSpan with
    | none => .root
    | some p => .child p
  opts := [.sampler env.sampler, .kind 2]
  name := env.name
  tid := env.tid
  sid := env.sid

/-- The request has arrived: the server sees the format's headers as the client's base was given them. -/
def Arrived (f : Format) (sent received : Header) : Prop := ∀ n ∈ carried f, GoMap.get received n = GoMap.get sent n

/-- The format both ends use. -/
def formatOf (propagation : Option Format) : Format := propagation.getD .b3

/-- A tracestate that fits its header. -/
def StateFits (m : Mem) (sc : SpanContext) : Prop := ∀ p, sc.tracestate = some p →
  ∃ l, m.states[p]? = some l ∧ l ≠ [] ∧ Tracestate.Valid l ∧ (join 44 (l.map pairText)).length ≤ 512

/-! ## Helper lemmas -/

theorem orDefault_eq (p : Option Format) : Format.orDefault p = formatOf p := by cases p <;> rfl

theorem get_fold (l : List (Bytes × List Bytes)) (h : Header) (hw : GoMap.WF l) (k : Bytes) :
    GoMap.get (l.foldl (fun (h : Header) kv => GoMap.set h kv.1 kv.2) h) k = (GoMap.get l k).or (GoMap.get h k) := by
  induction l generalizing h with
  | nil => rfl
  | cons kv l ih =>
    have hw' : GoMap.WF l := (List.nodup_cons.mp hw).2
    have hn : kv.1 ∉ GoMap.keys l := (List.nodup_cons.mp hw).1
    rw [List.foldl_cons, ih _ hw', GoMap.get_set]
    obtain ⟨k0, v0⟩ := kv
    by_cases hk : k0 = k
    · subst hk
      rw [(GoMap.get_eq_none_iff l k0).mpr hn]
      simp [GoMap.get]
    · rw [if_neg (Ne.symm hk)]
      simp [GoMap.get, hk]

theorem put_get (h : Header) (name v n : Bytes) (hn : n ≠ canonicalKey name) :
    GoMap.get (h.put name v) n = GoMap.get h n := GoMap.get_set_other _ _ hn

theorem inject_other (f : Format) (sc : Ctx) (h : Header) (n : Bytes) (hn : n ∉ carried f) :
    GoMap.get (f.inject sc h) n = GoMap.get h n := by
  cases f with
  | b3 =>
    simp only [carried, List.mem_cons, List.not_mem_nil, or_false, not_or] at hn
    simp only [Format.inject, b3ToRequest]
    rw [put_get _ _ _ _ (by rw [show canonicalKey b3Sampled = str "X-B3-Sampled" by decide]; exact hn.2.2),
      put_get _ _ _ _ (by rw [show canonicalKey b3SpanID = str "X-B3-Spanid" by decide]; exact hn.2.1),
      put_get _ _ _ _ (by rw [show canonicalKey b3TraceID = str "X-B3-Traceid" by decide]; exact hn.1)]
  | tracecontext =>
    simp only [carried, List.mem_cons, List.not_mem_nil, or_false, not_or] at hn
    have h1 : n ≠ canonicalKey traceparentHeader := by
      rw [show canonicalKey traceparentHeader = str "Traceparent" by decide]; exact hn.1
    have h2 : n ≠ canonicalKey tracestateHeader := by
      rw [show canonicalKey tracestateHeader = str "Tracestate" by decide]; exact hn.2
    simp only [Format.inject, tcToRequest]
    split
    · rw [put_get _ _ _ _ h2, put_get _ _ _ _ h1]
    · rw [put_get _ _ _ _ h1]
  | stackdriver =>
    simp only [carried, List.mem_cons, List.not_mem_nil, or_false] at hn
    simp only [Format.inject, sdToRequest]
    rw [put_get _ _ _ _ (by rw [show canonicalKey cloudHeader = str "X-Cloud-Trace-Context" by decide]; exact hn)]

theorem extract_congr (f : Format) {h h' : Header} (ha : Arrived f h h') : f.extract h' = f.extract h := by
  unfold Arrived at ha
  cases f with
  | b3 =>
    simp only [carried, List.mem_cons, List.not_mem_nil, or_false, forall_eq_or_imp, forall_eq] at ha
    have e1 : canonicalKey b3TraceID = str "X-B3-Traceid" := by decide
    have e2 : canonicalKey b3SpanID = str "X-B3-Spanid" := by decide
    have e3 : canonicalKey b3Sampled = str "X-B3-Sampled" := by decide
    simp only [Format.extract, b3FromRequest, Header.first, Header.values, e1, e2, e3, ha.1, ha.2.1, ha.2.2]
  | tracecontext =>
    simp only [carried, List.mem_cons, List.not_mem_nil, or_false, forall_eq_or_imp, forall_eq] at ha
    have e1 : canonicalKey traceparentHeader = str "Traceparent" := by decide
    have e2 : canonicalKey tracestateHeader = str "Tracestate" := by decide
    simp only [Format.extract, tcFromRequest, getRequestHeader, Header.values, e1, e2, ha.1, ha.2]
  | stackdriver =>
    simp only [carried, List.mem_cons, List.not_mem_nil, or_false, forall_eq] at ha
    have e1 : canonicalKey cloudHeader = str "X-Cloud-Trace-Context" := by decide
    simp only [Format.extract, sdFromRequest, Header.first, Header.values, e1, ha]

/-- The low bit. -/
theorem and_one (x : BitVec 32) : (x &&& 1#32 == 1#32) = decide (x.toNat % 2 = 1) := by
  rw [Bool.eq_iff_iff, beq_iff_eq, decide_eq_true_eq]
  constructor
  · intro h
    have := congrArg BitVec.toNat h
    simpa [BitVec.toNat_and, Nat.and_one_is_mod] using this
  · intro h
    apply BitVec.eq_of_toNat_eq
    simpa [BitVec.toNat_and, Nat.and_one_is_mod] using h

/-- What a format gives back of a context it wrote: both IDs and the sampled bit. -/
theorem inject_extract (f : Format) (sc : Ctx) (hw : sc.WF)
    (hz : f = .tracecontext → sc.traceID ≠ List.replicate 16 0 ∧ sc.spanID ≠ List.replicate 8 0) (h : Header) :
    ∃ sc', f.extract (f.inject sc h) = .ok sc' ∧ sc'.traceID = sc.traceID ∧ sc'.spanID = sc.spanID ∧
      sc'.opts.toNat % 2 = sc.opts.toNat % 2 := by
  cases f with
  | b3 =>
    refine ⟨_, Headers.b3_roundtrip sc hw h, rfl, rfl, ?_⟩
    have hs : sc.isSampled = decide (sc.opts.toNat % 2 = 1) := and_one sc.opts
    by_cases hb : sc.opts.toNat % 2 = 1
    · rw [hs, if_pos (by simp [hb])]; simp [hb]
    · rw [hs, if_neg (by simp [hb])]; simp; omega
  | tracecontext =>
    obtain ⟨h1, h2⟩ := hz rfl
    have htp : getRequestHeader (tcToRequest sc h) traceparentHeader = (toHeaders sc).1 := by
      have k : canonicalKey traceparentHeader ≠ canonicalKey tracestateHeader := by decide
      unfold getRequestHeader tcToRequest
      simp only
      by_cases hne : (toHeaders sc).2 = []
      · simp [hne, Header.values_put]
      · simp [hne, Header.values_put, k]
    have e := TraceContext.traceparent_roundtrip sc hw h1 h2 (getRequestHeader (tcToRequest sc h) tracestateHeader)
    rw [← htp] at e
    refine ⟨_, e, rfl, rfl, ?_⟩
    simp [lowByte]
  | stackdriver =>
    refine ⟨{ sc with tracestate := none }, ?_, rfl, rfl, rfl⟩
    simp only [Format.extract, Format.inject, Headers.stackdriver_roundtrip sc hw h]

theorem modify_last {α : Type} (l : List α) (x : α) (g : α → α) : (l ++ [x]).modify l.length g = l ++ [g x] := by
  induction l with
  | nil => rfl
  | cons a l ih => simp [ih]

/-- What is sent. -/
theorem sent_eq (f : Format) (m : Mem) (order : List (Bytes × List Bytes)) (sc : SpanContext) :
    sendHeader f m order sc = ({ m with headers := m.headers ++
      [f.inject (m.toWire sc) (copyHeader order)] }, some m.headers.length) := by
  simp only [sendHeader]
  rw [modify_last]
  rfl

theorem copy_get {order h : Header} (hwf : GoMap.WF h) (hperm : order.Perm h) (n : Bytes) :
    GoMap.get (copyHeader order) n = GoMap.get h n := by
  unfold copyHeader
  have hwf' : GoMap.WF order := (hperm.map Prod.fst).nodup_iff.mpr hwf
  rw [get_fold _ _ hwf', GoMap.get_perm hperm hwf']
  cases GoMap.get h n <;> rfl

theorem sampled_eq {a b : SpanContext} (h : a.opts.toNat % 2 = b.opts.toNat % 2) : a.isSampled = b.isSampled := by
  show (a.opts &&& 1#32 == 1#32) = (b.opts &&& 1#32 == 1#32)
  rw [and_one, and_one, h]

theorem newCtx_tracestate (st : State) (name : Bytes) (hasParent : Bool) (parent : SpanContext) (remote : Bool)
    (o : StartOptions) (tid sid : Bytes) :
    (newCtx st name hasParent parent remote o tid sid).tracestate = parent.tracestate := by
  unfold newCtx startContext SpanContext.setIsSampled
  cases hasParent <;> cases remote <;> cases o.sampler <;> simp <;> split <;> rfl

/-! ## The caller's request -/

/-- **C62.** Sending a request changes no header the program had, the caller's least of all, and no
tracestate. What is sent is a new header, with the caller's values under all names but the format's. For a
health check the caller's header is sent as it is. `order` is the order the map is copied in. -/
theorem caller_untouched (propagation : Option Format) (m : Mem) (req : Request) (hdr : Option Nat)
    (hwf : GoMap.WF (m.header hdr)) (order : List (Bytes × List Bytes)) (hperm : order.Perm (m.header hdr))
    (sc : SpanContext) {m' : Mem} {sent : Option Nat}
    (h : transportHeader propagation m req hdr order sc = (m', sent)) :
    (∀ (a : Nat) x, m.headers[a]? = some x → m'.headers[a]? = some x) ∧ m'.states = m.states ∧
    (isHealthEndpoint req.path = true → m'.headers = m.headers ∧ sent = hdr) ∧
    (isHealthEndpoint req.path = false → (∃ a, sent = some a ∧ m.headers.length ≤ a ∧ a < m'.headers.length) ∧
      ∀ n, n ∉ carried (formatOf propagation) → GoMap.get (m'.header sent) n = GoMap.get (m.header hdr) n) := by
  unfold transportHeader at h
  cases hh : isHealthEndpoint req.path with
  | true =>
    rw [hh, if_pos rfl] at h
    cases h
    exact ⟨fun a x hx => hx, rfl, fun _ => ⟨rfl, rfl⟩, fun h => by cases h⟩
  | false =>
    rw [hh, if_neg (by simp), sent_eq, orDefault_eq] at h
    cases h
    refine ⟨?_, rfl, (fun h => by cases h), fun _ => ⟨⟨_, rfl, le_refl _, by simp⟩, ?_⟩⟩
    · intro a x hx
      obtain ⟨ha, _⟩ := List.getElem?_eq_some_iff.mp hx
      simp only
      rw [List.getElem?_append_left ha]; exact hx
    · intro n hn
      simp only [Mem.header, List.getElem?_concat_length, Option.getD_some]
      rw [inject_other _ _ _ _ hn, copy_get hwf hperm]
      rfl

/-! ## The context -/

/-- Whatever the headers of a request are, reading them does not panic, and makes no change to a header or
a tracestate the program had. -/
theorem extract_total (propagation : Option Format) (m : Mem) (h : Header) :
    ∃ m' ex, extractSpanContext propagation m h = .ok (m', ex) ∧ m'.headers = m.headers ∧
      ∀ (a : Nat) x, m.states[a]? = some x → m'.states[a]? = some x := by
  unfold extractSpanContext
  cases hx : (Format.orDefault propagation).extract h with
  | ok sc =>
    refine ⟨_, _, rfl, ?_, ?_⟩
    · unfold Mem.ofWire; split <;> rfl
    · intro a x ha
      unfold Mem.ofWire
      split
      · exact ha
      · simp only
        rw [List.getElem?_append_left (List.getElem?_eq_some_iff.mp ha).1]; exact ha
  | err => exact ⟨_, _, rfl, rfl, fun a x ha => ha⟩
  | panic =>
    exfalso
    cases hf : Format.orDefault propagation <;> rw [hf] at hx
    · exact (Headers.b3_accepts_partial h).1 hx
    · exact TraceContext.tracecontext_no_panic h hx
    · simp only [Format.extract] at hx
      split at hx <;> cases hx

/-- A request with none of the format's headers has no remote parent. -/
theorem no_headers_no_parent (propagation : Option Format) (m : Mem) (h : Header)
    (hn : ∀ n ∈ carried (formatOf propagation), GoMap.get h n = none) :
    extractSpanContext propagation m h = .ok (m, none) := by
  have ha : Arrived (formatOf propagation) [] h := fun n hc => hn n hc
  unfold extractSpanContext
  rw [orDefault_eq, extract_congr _ ha]
  cases formatOf propagation <;> rfl

/-- Headers about other things do not matter. -/
example : extractSpanContext none ⟨[], []⟩ [(str "Traceparent", [str "00-01"])] = .ok (⟨[], []⟩, none) :=
  no_headers_no_parent _ _ _ (by simp [formatOf, carried, GoMap.get]; decide)

/-- A remote parent is what the format reads in the headers: there is none when the format reads nothing. -/
theorem parent_is_read (propagation : Option Format) (m m' : Mem) (h : Header) (ex : Option SpanContext)
    (hx : extractSpanContext propagation m h = .ok (m', ex)) :
    match ex with
    | none => (formatOf propagation).extract h = .err
    | some sc => (formatOf propagation).extract h = .ok (m'.toWire sc) := by
  unfold extractSpanContext at hx
  rw [orDefault_eq] at hx
  cases hr : (formatOf propagation).extract h with
  | panic => rw [hr] at hx; cases hx
  | err => rw [hr] at hx; cases hx; rfl
  | ok c =>
    rw [hr] at hx
    cases hx
    obtain ⟨t, sp, o, ts⟩ := c
    cases ts with
    | none => rfl
    | some l => simp [Mem.ofWire, Mem.toWire]

/-- **C62.** The handler reads from the headers the transport sent the context of the transport's span: its
trace ID, its span ID and its sampled bit, whatever headers the caller had set. -/
theorem context_read_back (propagation : Option Format) (m : Mem) (req : Request)
    (hh : isHealthEndpoint req.path = false) (hdr : Option Nat) (order : List (Bytes × List Bytes)) (sc : SpanContext)
    (hw : LenOK sc) (hz : formatOf propagation = .tracecontext → IDsSet sc) {m' : Mem} {sent : Option Nat}
    (h : transportHeader propagation m req hdr order sc = (m', sent))
    {received : Header} (ha : Arrived (formatOf propagation) (m'.header sent) received) (m2 : Mem) :
    ∃ m2' sc', extractSpanContext propagation m2 received = .ok (m2', some sc') ∧ sc'.traceID = sc.traceID ∧
      sc'.spanID = sc.spanID ∧ sc'.isSampled = sc.isSampled := by
  unfold transportHeader at h
  rw [hh, if_neg (by simp), sent_eq, orDefault_eq] at h
  cases h
  simp only [Mem.header, List.getElem?_concat_length, Option.getD_some] at ha
  obtain ⟨c, e1, e2, e3, e4⟩ := inject_extract (formatOf propagation) (m.toWire sc) hw hz (copyHeader order)
  unfold extractSpanContext
  rw [orDefault_eq, extract_congr _ ha, e1]
  refine ⟨_, _, rfl, ?_, ?_, sampled_eq ?_⟩
  · unfold Mem.ofWire; split <;> exact e2
  · unfold Mem.ofWire; split <;> exact e3
  · unfold Mem.ofWire; split <;> exact e4

/-! ## The trace -/

/-- The transport starts one client span, as a child of the span in the context, before it sends the
request. -/
theorem client_starts (env : Env) (req : Request) (res : BaseResult) :
    Start.startedBy (traceOps (roundTrip env req res).1.log) = [clientStarted env] ∧
    Spans.kindOf (clientStarted env).opts = 2 ∧
    ∃ a b, (roundTrip env req res).1.log = a ++ .roundTrip :: b ∧ Start.startedBy (traceOps a) = [clientStarted env] ∧
      Ev.roundTrip ∉ a ∧ Ev.roundTrip ∉ b := by
  have hrt : ∀ t kvs ms, Ev.roundTrip ∉ recordWithTags t kvs ms := by
    intro t kvs ms
    unfold recordWithTags record
    split <;> simp
  have key : ∃ x rest, (roundTrip env req res).1.log = [x, .trace (.start env.ctxSpan env.name
      [.sampler env.sampler, .kind 2] env.tid env.sid), .trace (.addAttributes (some env.span) (requestAttrs req)),
      .roundTrip] ++ rest ∧ (∃ t ms, x = .record t ms) ∧ Start.startedBy (traceOps rest) = [] ∧ Ev.roundTrip ∉ rest := by
    cases res with
    | err msg =>
      refine ⟨_, _, rfl, ⟨_, _, rfl⟩, ?_, ?_⟩
      · simp only [traceOps_append, HttpClient.traceOps_recordWithTags]
        rfl
      · simp [hrt]
    | resp r => exact ⟨_, _, rfl, ⟨_, _, rfl⟩, rfl, by simp⟩
  obtain ⟨x, rest, hlog, ⟨t, ms, rfl⟩, hr1, hr2⟩ := key
  have hstart : Start.startedBy (traceOps [.record t ms, .trace (.start env.ctxSpan env.name
      [.sampler env.sampler, .kind 2] env.tid env.sid), .trace (.addAttributes (some env.span) (requestAttrs req))]) =
      [clientStarted env] := by
    unfold clientStarted
    cases env.ctxSpan <;> rfl
  refine ⟨?_, rfl, [.record t ms, .trace (.start env.ctxSpan env.name [.sampler env.sampler, .kind 2] env.tid env.sid),
    .trace (.addAttributes (some env.span) (requestAttrs req))], rest, by rw [hlog]; rfl, hstart, by simp, hr2⟩
  rw [hlog, traceOps_append]
  have : ∀ a b, Start.startedBy (a ++ b) = Start.startedBy a ++ Start.startedBy b := by simp [Start.startedBy]
  rw [this, hr1, List.append_nil]
  exact hstart

/-- **C62.** End to end: `csp` is the transport's span in any program, whose request has arrived. In any
program of a handler that is not a public endpoint, the span the handler starts for the request is in the
transport's trace and has the transport's span as its remote parent. -/
theorem trace_continues {t1 : Int} {H1 : List Op} {st1 : State} (hrun1 : run (State.init t1) H1 = .ok st1)
    {cenv : Env} (hx1 : (Start.startedBy H1)[cenv.span]? = some (clientStarted cenv))
    {csp : Span} (hs : st1.spans[cenv.span]? = some csp) (hw : LenOK csp.ctx) (hz : IDsSet csp.ctx)
    (propagation : Option Format) {m m' : Mem} {req : Request} (hh : isHealthEndpoint req.path = false)
    {hdr sent : Option Nat} {order : List (Bytes × List Bytes)}
    (h : transportHeader propagation m req hdr order csp.ctx = (m', sent))
    {received : Header} (ha : Arrived (formatOf propagation) (m'.header sent) received)
    {m2 m2' : Mem} {ex : Option SpanContext} (hex : extractSpanContext propagation m2 received = .ok (m2', ex))
    {cfg : HandlerConfig} (hpub : cfg.isPublic = false) {senv : Env}
    {t2 : Int} {H2 : List Op} {st2 : State} (hrun2 : run (State.init t2) H2 = .ok st2)
    (hx2 : (Start.startedBy H2)[senv.span]? = some (HttpServer.serverStart cfg senv ex)) :
    csp.ctx.spanID = cenv.sid ∧
    ∃ ssp, st2.spans[senv.span]? = some ssp ∧ ssp.ctx.traceID = csp.ctx.traceID ∧ ssp.ctx.spanID = senv.sid ∧
      ∀ r, ssp.data = some r → r.data.parentSpanID = cenv.sid := by
  obtain ⟨s0, h1, h2, _⟩ := Start.trace_continuity hrun1 hx1
  rw [hs] at h1; cases h1
  obtain ⟨_, sc', e1, e2, e3, _⟩ := context_read_back propagation m req hh hdr order csp.ctx hw (fun _ => hz) h ha m2
  rw [hex] at e1; cases e1
  have hnz : sc' ≠ .zero := by
    intro h0
    apply hz.2
    rw [← e3, h0]; rfl
  obtain ⟨s, k1, k2, k3, k4⟩ := HttpServer.incoming_is_parent cfg senv sc' hpub hnz hrun2 hx2
  exact ⟨h2, s, k1, k2.trans e2, k3, fun r hr => ((k4 r hr).trans e3).trans h2⟩

/-- **C62.** A handler without a sampler of its own, in a program whose configured sampler was made by
`ProbabilitySampler` (the default is), samples the requests whose client span is sampled. -/
theorem sampled_continues {csp : SpanContext} (hw : LenOK csp) (hz : IDsSet csp) (hsam : csp.isSampled = true)
    (propagation : Option Format) {m m' : Mem} {req : Request} (hh : isHealthEndpoint req.path = false)
    {hdr sent : Option Nat} {order : List (Bytes × List Bytes)}
    (h : transportHeader propagation m req hdr order csp = (m', sent))
    {received : Header} (ha : Arrived (formatOf propagation) (m'.header sent) received)
    {m2 m2' : Mem} {ex : Option SpanContext} (hex : extractSpanContext propagation m2 received = .ok (m2', ex))
    {cfg : HandlerConfig} (hpub : cfg.isPublic = false) {senv : Env} (hnone : senv.sampler = none)
    {t2 : Int} {H2 : List Op} {st2 : State} (hrun2 : run (State.init t2) H2 = .ok st2)
    (hcfg : ∀ a op b mid, H2 = a ++ op :: b → Start.started op = [HttpServer.serverStart cfg senv ex] →
      run (State.init t2) a = .ok mid → ∃ f, mid.cfg.sampler = some (probabilitySampler f))
    (hx2 : (Start.startedBy H2)[senv.span]? = some (HttpServer.serverStart cfg senv ex)) :
    ∃ ssp, st2.spans[senv.span]? = some ssp ∧ ssp.ctx.isSampled = true ∧ ssp.data.isSome = true := by
  obtain ⟨_, sc', e1, e2, e3, e4⟩ := context_read_back propagation m req hh hdr order csp hw (fun _ => hz) h ha m2
  rw [hex] at e1; cases e1
  have hnz : sc' ≠ .zero := by
    intro h0
    apply hz.2
    rw [← e3, h0]; rfl
  have ho : (HttpServer.serverStart cfg senv (some sc')).origin = .remote sc' := by simp [HttpServer.serverStart, hpub]
  obtain ⟨s, mid, a, op, b, k1, k2, k3, k4, _, parent, kp, kd, _, ks⟩ := Start.sampling_decision hrun2 hx2
  obtain ⟨f, hf⟩ := hcfg a op b mid k2 k3 k4
  rw [ho] at kp ks
  simp only [Start.parentCtx, if_neg hnz, Option.getD_some] at kp
  have hdec : Start.decider (some (mid.cfg.sampler.getD neverSample)) (Start.parentCtx st2.spans (.remote sc')).isSome
      (Start.isRemote (.remote sc')) (HttpServer.serverStart cfg senv (some sc')).opts = some (probabilitySampler f) := by
    rw [hf]
    simp [Start.decider, Start.explicitSampler, HttpServer.serverStart, hnone, Start.isRemote]
  rw [hdec] at ks
  simp only at ks
  rw [Start.sampled_parent f _ (by rw [kp, e4]; exact hsam)] at ks
  exact ⟨s, k1, ks, by rw [kd, ks, Bool.or_true]⟩

/-- **C62.** A public endpoint does not continue the trace: the span it starts is linked to the transport's
span. -/
theorem public_links {csp : SpanContext} (hw : LenOK csp) (hz : IDsSet csp)
    (propagation : Option Format) {m m' : Mem} {req : Request} (hh : isHealthEndpoint req.path = false)
    {hdr sent : Option Nat} {order : List (Bytes × List Bytes)}
    (h : transportHeader propagation m req hdr order csp = (m', sent))
    {received : Header} (ha : Arrived (formatOf propagation) (m'.header sent) received)
    {m2 m2' : Mem} {ex : Option SpanContext} (hex : extractSpanContext propagation m2 received = .ok (m2', ex))
    {cfg : HandlerConfig} (hpub : cfg.isPublic = true) {senv : Env} {sreq : Request} (hsh : ¬ HttpServer.isHealth cfg sreq) :
    (HttpServer.serverStart cfg senv ex).origin = (match senv.ctxSpan with | none => .root | some p => .child p) ∧
    (startTrace cfg senv sreq ex).1[1]? = some (.addLink (some senv.span) ⟨csp.traceID, csp.spanID, 2, none⟩) := by
  obtain ⟨_, sc', e1, e2, e3, e4⟩ := context_read_back propagation m req hh hdr order csp hw (fun _ => hz) h ha m2
  rw [hex] at e1; cases e1
  constructor
  · simp only [HttpServer.serverStart, hpub]
    cases senv.ctxSpan <;> rfl
  · rw [HttpServer.startTrace_other hsh, hpub]
    simp [e2, e3]

/-! ## The tracestate -/

theorem tc_state (sc : Ctx) (hw : sc.WF) (h1 : sc.traceID ≠ List.replicate 16 0) (h2 : sc.spanID ≠ List.replicate 8 0)
    (h4 : ∀ l, sc.tracestate = some l → l ≠ [] ∧ Tracestate.Valid l ∧ (join 44 (l.map pairText)).length ≤ 512)
    (req : Header) (hreq : sc.tracestate = none → req.values tracestateHeader = []) :
    ∃ sc', tcFromRequest (tcToRequest sc req) = .ok sc' ∧ sc'.spanID = sc.spanID ∧ sc'.tracestate = sc.tracestate := by
  have k : canonicalKey traceparentHeader ≠ canonicalKey tracestateHeader := by decide
  have htp : getRequestHeader (tcToRequest sc req) traceparentHeader = (toHeaders sc).1 := by
    unfold getRequestHeader tcToRequest
    simp only
    by_cases hne : (toHeaders sc).2 = []
    · simp [hne, Header.values_put]
    · simp [hne, Header.values_put, k]
  have htr : tracestateFromHeader (tracestateToHeader sc.tracestate) = sc.tracestate := by
    cases ht : sc.tracestate with
    | none => rfl
    | some l =>
      obtain ⟨a, b, c⟩ := h4 l ht
      exact TraceContext.tracestate_roundtrip l a b c
  have hts : getRequestHeader (tcToRequest sc req) tracestateHeader = (toHeaders sc).2 := by
    unfold getRequestHeader tcToRequest
    simp only
    by_cases hne : (toHeaders sc).2 = []
    · have hn : sc.tracestate = none := by
        rw [← htr]
        have : tracestateToHeader sc.tracestate = [] := hne
        rw [this]; rfl
      simp [hne, Header.values_put, k.symm, hreq hn]
    · simp [hne, Header.values_put]
  have e := TraceContext.traceparent_roundtrip sc hw h1 h2 (getRequestHeader (tcToRequest sc req) tracestateHeader)
  rw [← htp] at e
  refine ⟨_, e, rfl, ?_⟩
  simp only
  rw [hts]; exact htr

/-- **C62.** With the trace-context format the span of the handler has the entries of the client's
tracestate, in their order, if they fit the header and the caller's request had no tracestate of its own
where the client has none. -/
theorem tracestate_continues_partial {csp : SpanContext} (hw : LenOK csp) (hz : IDsSet csp) {m m' : Mem} (hfit : StateFits m csp)
    {req : Request} (hh : isHealthEndpoint req.path = false) {hdr sent : Option Nat}
    (hwf : GoMap.WF (m.header hdr)) {order : List (Bytes × List Bytes)} (hperm : order.Perm (m.header hdr))
    (hstale : csp.tracestate = none → GoMap.get (m.header hdr) (str "Tracestate") = none)
    (h : transportHeader (some .tracecontext) m req hdr order csp = (m', sent))
    {received : Header} (ha : Arrived .tracecontext (m'.header sent) received)
    {m2 m2' : Mem} {ex : Option SpanContext} (hex : extractSpanContext (some .tracecontext) m2 received = .ok (m2', ex))
    {cfg : HandlerConfig} (hpub : cfg.isPublic = false) {senv : Env}
    {t2 : Int} {H2 : List Op} {st2 : State} (hrun2 : run (State.init t2) H2 = .ok st2)
    (hx2 : (Start.startedBy H2)[senv.span]? = some (HttpServer.serverStart cfg senv ex)) :
    ∃ ssp, st2.spans[senv.span]? = some ssp ∧
      (ssp.ctx.tracestate.bind fun p => m2'.states[p]?) = csp.tracestate.bind fun p => m.states[p]? := by
  unfold transportHeader at h
  rw [hh, if_neg (by simp), sent_eq] at h
  cases h
  simp only [Mem.header, List.getElem?_concat_length, Option.getD_some, Format.orDefault] at ha
  have hnone : (m.toWire csp).tracestate = none → csp.tracestate = none := by
    intro h0
    cases hc : csp.tracestate with
    | none => rfl
    | some p =>
      obtain ⟨l, hl, _⟩ := hfit p hc
      simp [Mem.toWire, hc, hl] at h0
  obtain ⟨c, e1, e2, e3⟩ := tc_state (m.toWire csp) hw hz.1 hz.2 (by
      intro l hl
      cases hc : csp.tracestate with
      | none => simp [Mem.toWire, hc] at hl
      | some p =>
        obtain ⟨l', hl', hrest⟩ := hfit p hc
        have : l' = l := by simpa [Mem.toWire, hc, hl'] using hl
        exact this ▸ hrest) (copyHeader order) (by
      intro h0
      unfold Header.values
      rw [show canonicalKey tracestateHeader = str "Tracestate" by decide, copy_get hwf hperm, hstale (hnone h0)]
      rfl)
  unfold extractSpanContext at hex
  have hx : (Format.orDefault (some .tracecontext)).extract received = .ok c := (extract_congr _ ha).trans e1
  rw [hx] at hex
  simp only [Res.ok.injEq, Prod.mk.injEq] at hex
  obtain ⟨rfl, rfl⟩ := hex
  obtain ⟨s, mid, k1, k2, _⟩ := Start.run_init hrun2 hx2
  refine ⟨s, k1, ?_⟩
  have hspan : (m2.ofWire c).2.spanID = csp.spanID := by unfold Mem.ofWire; split <;> exact e2
  have hnz : (m2.ofWire c).2 ≠ .zero := by
    intro h0
    apply hz.2
    rw [← hspan, h0]; rfl
  have ho : (HttpServer.serverStart cfg senv (some (m2.ofWire c).2)).origin = .remote (m2.ofWire c).2 := by
    simp [HttpServer.serverStart, hpub]
  have hp : (Start.parentCtx st2.spans (HttpServer.serverStart cfg senv (some (m2.ofWire c).2)).origin).getD .zero =
      (m2.ofWire c).2 := by
    rw [ho]; simp [Start.parentCtx, hnz]
  rw [k2.ctx, newCtx_tracestate, hp]
  have e3' : c.tracestate = csp.tracestate.bind fun p => m.states[p]? := e3
  rw [← e3']
  unfold Mem.ofWire
  cases hc : c.tracestate with
  | none => rfl
  | some l => simp

/-! ## Where the code differs -/

/-- A tracestate the caller's request already has is taken for the client's when the client has none. -/
theorem stale_tracestate_sent : ∃ (m m' m2' : Mem) (sent : Option Nat) (req : Request) (csp sc : SpanContext),
    LenOK csp ∧ IDsSet csp ∧ csp.tracestate = none ∧ isHealthEndpoint req.path = false ∧
    transportHeader (some .tracecontext) m req (some 0) (m.header (some 0)) csp = (m', sent) ∧
    extractSpanContext (some .tracecontext) ⟨[], []⟩ (m'.header sent) = .ok (m2', some sc) ∧
    (sc.tracestate.bind fun p => m2'.states[p]?) = some [⟨str "a", str "1"⟩] :=
  ⟨⟨[[(str "Tracestate", [str "a=1"])]], []⟩, _, _, _, HttpClient.req0, ⟨List.replicate 16 1, List.replicate 8 1, 1, none⟩, _,
    ⟨rfl, rfl⟩, ⟨by decide, by decide⟩, rfl, by decide, rfl, rfl, rfl⟩

/-! ## The hypotheses can be met -/

def demoClient : Env := ⟨[], none, some (fun _ => true), str "/x", List.replicate 16 1, List.replicate 8 2, 0, []⟩
def demoServer : Env := ⟨[], none, some (fun _ => true), str "/x", List.replicate 16 8, List.replicate 8 9, 0, []⟩

/-- The caller's header: values under a name of their own, and old values under the format's names. -/
def demoMem : Mem := ⟨[[(str "Accept", [str "a", str "b"]), (str "X-B3-Traceid", [str "00"]), (str "Traceparent", [str "old"])]], []⟩

/-- The context of the transport's span. -/
def demoCtx : Option SpanContext :=
  match run (State.init 0) (traceOps (roundTrip demoClient HttpClient.req0 (.resp HttpClient.resp0)).1.log) with
  | .ok st => (st.spans[0]?).map (·.ctx)
  | _ => none

example : demoCtx = some ⟨List.replicate 16 1, List.replicate 8 2, 1, none⟩ := by decide +kernel

/-- What is sent of the caller's header, and what the caller's header is afterwards. -/
def demoSent (f : Option Format) (name : String) : Option (Option (List Bytes) × Nat) :=
  demoCtx.map fun sc =>
    let r := transportHeader f demoMem HttpClient.req0 (some 0) (demoMem.header (some 0)).reverse sc
    (GoMap.get (r.1.header r.2) (str name), (r.1.header (some 0)).length)

example : demoSent none "Accept" = some (some [str "a", str "b"], 3) := by decide +kernel
example : demoSent none "X-B3-Traceid" = some (some [str "01010101010101010101010101010101"], 3) := by decide +kernel
example : demoSent (some .stackdriver) "X-B3-Traceid" = some (some [str "00"], 3) := by decide +kernel
example : demoSent (some .tracecontext) "Traceparent" =
    some (some [str "00-01010101010101010101010101010101-0202020202020202-01"], 3) := by decide +kernel
example : demoSent (some .b3) "Traceparent" = some (some [str "old"], 3) := by decide +kernel

/-- The server span: trace ID, span ID, parent, links. -/
def demoReceived (f : Option Format) (isPublic : Bool) : Option (List (List Bytes)) :=
  demoCtx.bind fun sc =>
    let r := transportHeader f demoMem HttpClient.req0 (some 0) (demoMem.header (some 0)) sc
    match extractSpanContext f ⟨[], []⟩ (r.1.header r.2) with
    | .ok (_, ex) => match run (State.init 0) (startTrace ⟨isPublic, none⟩ demoServer HttpClient.req0 ex).1 with
      | .ok st => some (st.spans.map fun s => [s.ctx.traceID, s.ctx.spanID] ++ (match s.data with
          | some r => r.data.parentSpanID :: r.links.queue.flatMap fun l => [l.traceID, l.spanID]
          | none => []))
      | _ => none
    | _ => none

example : ∀ f ∈ [none, some Format.b3, some .tracecontext, some .stackdriver],
    demoReceived f false = some [[List.replicate 16 1, List.replicate 8 9, List.replicate 8 2]] := by
  decide +kernel

example : ∀ f ∈ [none, some Format.b3, some .tracecontext, some .stackdriver],
    demoReceived f true = some [[List.replicate 16 8, List.replicate 8 9, List.replicate 8 0, List.replicate 16 1,
      List.replicate 8 2]] := by
  decide +kernel

/-- The sampler of the configuration a program starts with. -/
example (cfg : HandlerConfig) (senv : Env) (sc : SpanContext) (hpub : cfg.isPublic = false) (t : Int) :
    ∀ a op b mid, [Op.startRemote sc senv.name [.sampler senv.sampler, .kind 1] senv.tid senv.sid] = a ++ op :: b →
      Start.started op = [HttpServer.serverStart cfg senv (some sc)] →
      run (State.init t) a = .ok mid → ∃ f, mid.cfg.sampler = some (probabilitySampler f) := by
  intro a op b mid h _ hrun
  cases a with
  | nil => cases hrun; exact ⟨_, rfl⟩
  | cons x a => simp at h

example : StateFits ⟨[], [[Tracestate.ea, ⟨str "t@v", str "x y"⟩]]⟩ ⟨List.replicate 16 1, List.replicate 8 1, 1, some 0⟩ := by
  intro p hp
  cases hp
  exact ⟨_, rfl, by simp, TraceContext.sample_valid, by decide⟩

end Verif.Props.HttpWire
