import Verif.Net
import Verif.Props.HttpWire
import Verif.Props.GrpcWire
import Mathlib.Logic.Relation

/-!
# C82: traces across processes
-/

namespace Verif.Props.Net
open Verif Verif.Trace Verif.Net
open Verif.Props.HttpWire (LenOK IDsSet formatOf)

/-! ## Specification -/

/-- A span: its process, and its index there. -/
abbrev At := Nat × Nat

/-- The span itself. -/
def spanAt (w : World) (a : At) : Option Span := (w[a.1]?).bind fun pr => pr.st.spans[a.2]?

/-- Its trace. -/
def traceOf (w : World) (a : At) : Option Bytes := (spanAt w a).map fun s => s.ctx.traceID

/-- Whether it is sampled. -/
def sampledAt (w : World) (a : At) : Option Bool := (spanAt w a).map fun s => s.ctx.isSampled

/-- A call was made from span `a`, and span `b` was started for it: over gRPC, or over HTTP by a request
that neither end takes for a health check, both ends using the same format. The server is not a public
endpoint. -/
inductive Calls (acts : List Act) : At → At → Prop where
  | rpc {p q : Nat} {c : Rpc} : Act.rpc p q c ∈ acts → c.isPublic = false →
      Calls acts (p, c.client.span) (q, c.server.span)
  | http {p q : Nat} {c : Call} : Act.http p q c ∈ acts → c.handler.isPublic = false →
      c.req.path ≠ str "/healthz" → c.req.path ≠ str "/_ah/health" →
      ¬ HttpServer.isHealth c.handler c.serverReq → formatOf c.serverFormat = formatOf c.clientFormat →
      Calls acts (p, c.client.span) (q, c.server.span)

/-- Span `b` was started from span `a`: in the same process with `a` in the context, or by a call. -/
inductive Parent (acts : List Act) (w : World) : At → At → Prop where
  | child {p i j : Nat} {pr : Proc} : w[p]? = some pr → Start.ChildOf pr.log i j → Parent acts w (p, i) (p, j)
  | call {a b : At} : Calls acts a b → Parent acts w a b

/-- All spans have IDs: of the right lengths, and not zero. -/
def Sound (w : World) : Prop := ∀ pr ∈ w, ∀ s ∈ pr.st.spans, LenOK s.ctx ∧ IDsSet s.ctx

/-- No span is started with a sampler of its own. -/
def NoOwnSamplers (w : World) : Prop := ∀ pr ∈ w, ∀ x ∈ Start.startedBy pr.log, Start.explicitSampler x.opts = none

/-- Whenever a span is started, the sampler configured in its process satisfies `P`. -/
def Configured (P : Sampler → Prop) (w : World) : Prop := ∀ pr ∈ w, ∀ a op b, pr.log = a ++ op :: b →
  Start.started op ≠ [] → ∃ s, Spans.lastSome Config.sampler Config.initial.sampler a = some s ∧ P s

/-! ## Processes only go on -/

/-- A process later on. -/
def Grows (pr pr' : Proc) : Prop := ∃ more, pr'.log = pr.log ++ more ∧ Trace.run pr.st more = .ok pr'.st

theorem Grows.refl (pr : Proc) : Grows pr pr := ⟨[], by simp, rfl⟩

theorem Grows.trans {a b c : Proc} (h : Grows a b) (h' : Grows b c) : Grows a c := by
  obtain ⟨m1, e1, e2⟩ := h
  obtain ⟨m2, f1, f2⟩ := h'
  exact ⟨m1 ++ m2, by rw [f1, e1, List.append_assoc], by rw [run_append, e2]; exact f2⟩

theorem does_ok {pr pr' : Proc} {ops : List Op} (h : pr.does ops = .ok pr') :
    pr'.log = pr.log ++ ops ∧ Trace.run pr.st ops = .ok pr'.st ∧ pr'.mem = pr.mem := by
  unfold Proc.does at h
  obtain ⟨st, h1, h2⟩ := Res_bind_ok h
  cases h2
  exact ⟨rfl, h1, rfl⟩

theorem does_grows {pr pr' : Proc} {ops : List Op} (h : pr.does ops = .ok pr') : Grows pr pr' :=
  ⟨ops, (does_ok h).1, (does_ok h).2.1⟩

/-- All processes later on. -/
def WGrows (w w' : World) : Prop :=
  w'.length = w.length ∧ ∀ (p : Nat) (pr : Proc), w[p]? = some pr → ∃ pr', w'[p]? = some pr' ∧ Grows pr pr'

theorem WGrows.refl (w : World) : WGrows w w := ⟨rfl, fun _ pr h => ⟨pr, h, Grows.refl pr⟩⟩

theorem WGrows.trans {a b c : World} (h : WGrows a b) (h' : WGrows b c) : WGrows a c := by
  refine ⟨h'.1.trans h.1, fun p pr hp => ?_⟩
  obtain ⟨p1, e1, e2⟩ := h.2 p pr hp
  obtain ⟨p2, f1, f2⟩ := h'.2 p p1 e1
  exact ⟨p2, f1, e2.trans f2⟩

theorem set_grows {w : World} {p : Nat} {pr pr' : Proc} (hp : w[p]? = some pr) (hg : Grows pr pr') :
    WGrows w (w.set p pr') := by
  refine ⟨by simp, fun q qr hq => ?_⟩
  by_cases h : p = q
  · subst h
    rw [hp] at hq; cases hq
    exact ⟨pr', by rw [List.getElem?_set_self (by exact (List.getElem?_eq_some_iff.mp hp).1)], hg⟩
  · exact ⟨qr, by rw [List.getElem?_set_ne h]; exact hq, Grows.refl qr⟩

theorem at_ok {w w' : World} {p : Nat} {f : Proc → Res Proc} (h : w.at p f = .ok w') :
    ∃ pr pr', w[p]? = some pr ∧ f pr = .ok pr' ∧ w' = w.set p pr' := by
  unfold World.at at h
  cases hp : w[p]? with
  | none => rw [hp] at h; cases h
  | some pr =>
    rw [hp] at h
    obtain ⟨pr', h1, h2⟩ := Res_bind_ok h
    cases h2
    exact ⟨pr, pr', rfl, h1, rfl⟩

theorem set_self {w : World} {p : Nat} {pr pr' : Proc} (hp : w[p]? = some pr) : (w.set p pr')[p]? = some pr' := by
  rw [List.getElem?_set_self (List.getElem?_eq_some_iff.mp hp).1]

theorem next_ok {w : World} {p i : Nat} (h : w.next p i = true) :
    ∃ pr, w[p]? = some pr ∧ pr.st.spans.length = i := by
  unfold World.next at h
  cases hp : w[p]? with
  | none => rw [hp] at h; cases h
  | some pr => rw [hp] at h; exact ⟨pr, rfl, of_decide_eq_true h⟩

/-- The pieces of a gRPC call. -/
theorem rpc_ok {w w' : World} {p q : Nat} {c : Rpc} (h : w.rpc p q c = .ok w') :
    ∃ pr pr1 qr qr1 ops, w[p]? = some pr ∧ pr.st.spans.length = c.client.span ∧
      pr.does (Grpc.clientStart c.client c.method) = .ok pr1 ∧
      (w.set p pr1)[q]? = some qr ∧ qr.st.spans.length = c.server.span ∧
      Grpc.serverStart c.isPublic c.server
        (Grpc.clientMetadata [] (World.ctx (w.set p pr1) p c.client.span)) c.method = .ok ops ∧
      qr.does ops = .ok qr1 ∧ w' = (w.set p pr1).set q qr1 := by
  unfold World.rpc at h
  by_cases h1 : w.next p c.client.span = true
  · rw [h1] at h
    simp only [Bool.not_true, Bool.false_eq_true, if_false] at h
    obtain ⟨w1, e1, h⟩ := Res_bind_ok h
    obtain ⟨pr, pr1, f1, f2, rfl⟩ := at_ok e1
    by_cases h2 : World.next (w.set p pr1) q c.server.span = true
    · rw [h2] at h
      simp only [Bool.not_true, Bool.false_eq_true, if_false] at h
      obtain ⟨ops, g1, h⟩ := Res_bind_ok h
      obtain ⟨qr, qr1, k1, k2, rfl⟩ := at_ok h
      obtain ⟨pr', n1, n2⟩ := next_ok h1
      obtain ⟨qr', n3, n4⟩ := next_ok h2
      rw [f1] at n1; cases n1
      rw [k1] at n3; cases n3
      exact ⟨pr, pr1, qr, qr1, ops, f1, n2, f2, k1, n4, g1, k2, rfl⟩
    · rw [Bool.not_eq_true] at h2
      rw [h2] at h; simp at h
  · rw [Bool.not_eq_true] at h1
    rw [h1] at h; simp at h

/-- The pieces of an HTTP request. -/
theorem http_ok {w w' : World} {p q : Nat} {c : Call} (h : w.http p q c = .ok w') :
    ∃ pr pr1 hd qr qr1, w[p]? = some pr ∧ pr.st.spans.length = c.client.span ∧ pr.send c = .ok (pr1, hd) ∧
      delivered hd c.received = true ∧ (w.set p pr1)[q]? = some qr ∧ qr.st.spans.length = c.server.span ∧
      qr.receive c = .ok qr1 ∧ w' = (w.set p pr1).set q qr1 := by
  unfold World.http at h
  by_cases h1 : w.next p c.client.span = true
  · rw [h1] at h
    simp only [Bool.not_true, Bool.false_eq_true, if_false] at h
    obtain ⟨pr, n1, n2⟩ := next_ok h1
    rw [n1] at h
    simp only at h
    obtain ⟨⟨pr1, hd⟩, e1, h⟩ := Res_bind_ok h
    simp only at h
    by_cases hd1 : delivered hd c.received = true
    · rw [hd1] at h
      simp only [Bool.not_true, Bool.false_eq_true, if_false] at h
      by_cases h2 : World.next (w.set p pr1) q c.server.span = true
      · rw [h2] at h
        simp only [Bool.not_true, Bool.false_eq_true, if_false] at h
        obtain ⟨qr, qr1, k1, k2, rfl⟩ := at_ok h
        obtain ⟨qr', n3, n4⟩ := next_ok h2
        rw [k1] at n3; cases n3
        exact ⟨pr, pr1, hd, qr, qr1, n1, n2, e1, hd1, k1, n4, k2, rfl⟩
      · rw [Bool.not_eq_true] at h2
        rw [h2] at h; simp at h
    · rw [Bool.not_eq_true] at hd1
      rw [hd1] at h; simp at h
  · rw [Bool.not_eq_true] at h1
    rw [h1] at h; simp at h

theorem send_ok {pr pr1 : Proc} {c : Call} {hd : Wire.Header} (h : pr.send c = .ok (pr1, hd)) :
    ∃ pr0, pr.does (transportOps c.client c.req) = .ok pr0 ∧ pr1.log = pr0.log ∧ pr1.st = pr0.st ∧
      ∀ s, pr0.st.spans[c.client.span]? = some s → ∃ a,
        Http.transportHeader c.clientFormat pr0.mem c.req c.hdr c.order s.ctx = (pr1.mem, a) ∧ hd = pr1.mem.header a := by
  unfold Proc.send at h
  obtain ⟨pr0, h1, h2⟩ := Res_bind_ok h
  refine ⟨pr0, h1, ?_⟩
  simp only [Res.ok.injEq, Prod.mk.injEq] at h2
  obtain ⟨e1, e2⟩ := h2
  rw [← e1, ← e2]
  refine ⟨rfl, rfl, fun s hs => ?_⟩
  rw [hs]
  exact ⟨_, rfl, rfl⟩

theorem send_grows {pr pr1 : Proc} {c : Call} {hd : Wire.Header} (h : pr.send c = .ok (pr1, hd)) : Grows pr pr1 := by
  obtain ⟨pr0, h1, h2, h3, _⟩ := send_ok h
  obtain ⟨more, e1, e2⟩ := does_grows h1
  exact ⟨more, h2.trans e1, by rw [h3]; exact e2⟩

theorem receive_ok {pr pr1 : Proc} {c : Call} (h : pr.receive c = .ok pr1) :
    ∃ m ex, Http.extractSpanContext c.serverFormat pr.mem c.received = .ok (m, ex) ∧
      pr1.log = pr.log ++ (Http.startTrace c.handler c.server c.serverReq ex).1 ∧
      Trace.run pr.st (Http.startTrace c.handler c.server c.serverReq ex).1 = .ok pr1.st := by
  unfold Proc.receive at h
  obtain ⟨⟨m, ex⟩, h1, h2⟩ := Res_bind_ok h
  exact ⟨m, ex, h1, (does_ok h2).1, (does_ok h2).2.1⟩

theorem receive_grows {pr pr1 : Proc} {c : Call} (h : pr.receive c = .ok pr1) : Grows pr pr1 := by
  obtain ⟨m, ex, _, h2, h3⟩ := receive_ok h
  exact ⟨_, h2, h3⟩

theorem step_grows {w w' : World} {a : Act} (h : w.step a = .ok w') : WGrows w w' := by
  cases a with
  | own p op =>
    obtain ⟨pr, pr', h1, h2, rfl⟩ := at_ok h
    exact set_grows h1 (does_grows h2)
  | rpc p q c =>
    obtain ⟨pr, pr1, qr, qr1, ops, h1, _, h2, h3, _, _, h4, rfl⟩ := rpc_ok h
    exact (set_grows h1 (does_grows h2)).trans (set_grows h3 (does_grows h4))
  | http p q c =>
    obtain ⟨pr, pr1, hd, qr, qr1, h1, _, h2, _, h3, _, h4, rfl⟩ := http_ok h
    exact (set_grows h1 (send_grows h2)).trans (set_grows h3 (receive_grows h4))

theorem run_grows {w w' : World} {acts : List Act} (h : w.run acts = .ok w') : WGrows w w' := by
  induction acts generalizing w with
  | nil => cases h; exact WGrows.refl _
  | cons a as ih =>
    obtain ⟨w1, h1, h2⟩ := Res_bind_ok h
    exact (step_grows h1).trans (ih h2)

/-- Every process has run its log. -/
def Ran (w : World) : Prop := ∀ (p : Nat) (pr : Proc), w[p]? = some pr → ∃ t, Trace.run (State.init t) pr.log = .ok pr.st

theorem Ran.grows {w w' : World} (h : Ran w) (hg : WGrows w w') : Ran w' := by
  intro p pr' hp
  have hlt : p < w.length := by
    rw [← hg.1]; exact (List.getElem?_eq_some_iff.mp hp).1
  obtain ⟨pr1, e1, more, e2, e3⟩ := hg.2 p _ (List.getElem?_eq_getElem hlt)
  rw [hp] at e1; cases e1
  obtain ⟨t, ht⟩ := h p _ (List.getElem?_eq_getElem hlt)
  exact ⟨t, by rw [e2, run_append, ht]; exact e3⟩

theorem ran_init (ts : List Int) : Ran (World.init ts) := by
  intro p pr hp
  simp only [World.init, List.getElem?_map, Option.map_eq_some_iff] at hp
  obtain ⟨t, _, rfl⟩ := hp
  exact ⟨t, rfl⟩

theorem ran_run {ts : List Int} {acts : List Act} {w : World} (h : World.run (World.init ts) acts = .ok w) : Ran w :=
  (ran_init ts).grows (run_grows h)

theorem run_mem {w w' : World} {acts : List Act} (h : w.run acts = .ok w') {a : Act} (ha : a ∈ acts) :
    ∃ w1 w2, WGrows w w1 ∧ w1.step a = .ok w2 ∧ WGrows w2 w' := by
  induction acts generalizing w with
  | nil => cases ha
  | cons b bs ih =>
    obtain ⟨w1, h1, h2⟩ := Res_bind_ok h
    rcases List.mem_cons.mp ha with rfl | ha
    · exact ⟨w, w1, WGrows.refl _, h1, run_grows h2⟩
    · obtain ⟨v1, v2, e1, e2, e3⟩ := ih h2 ha
      exact ⟨v1, v2, (step_grows h1).trans e1, e2, e3⟩

/-! ## What a call does -/

/-- Span `b` was started with a remote parent that is the context of span `a`, if that has IDs. -/
def Linked (w : World) (a b : At) : Prop :=
  ∃ pa pb sa x, w[a.1]? = some pa ∧ w[b.1]? = some pb ∧ pa.st.spans[a.2]? = some sa ∧
    (Start.startedBy pb.log)[b.2]? = some x ∧
    (LenOK sa.ctx → IDsSet sa.ctx → ∃ sc, x.origin = .remote sc ∧ sc.traceID = sa.ctx.traceID ∧
      sc.spanID = sa.ctx.spanID ∧ sc.isSampled = sa.ctx.isSampled)

theorem startedBy_append (a b : List Op) : Start.startedBy (a ++ b) = Start.startedBy a ++ Start.startedBy b := by
  simp [Start.startedBy]

theorem Linked.grows {w w' : World} {a b : At} (hg : WGrows w w') (h : Linked w a b) : Linked w' a b := by
  obtain ⟨pa, pb, sa, x, h1, h2, h3, h4, h5⟩ := h
  obtain ⟨pa', e1, m1, _, e3⟩ := hg.2 _ _ h1
  obtain ⟨pb', f1, m2, f2, _⟩ := hg.2 _ _ h2
  obtain ⟨sa', k1, k2⟩ := (Start.run_keeps e3).1 _ _ h3
  refine ⟨pa', pb', sa', x, e1, f1, k1, ?_, ?_⟩
  · rw [f2, startedBy_append, List.getElem?_append_left (List.getElem?_eq_some_iff.mp h4).1]
    exact h4
  · rw [k2.1]; exact h5

/-- The span a process starts next is the next in its log. -/
theorem started_next {pr pr' : Proc} {t : Int} (hr : Trace.run (State.init t) pr.log = .ok pr.st) {more : List Op}
    (hl : pr'.log = pr.log ++ more) {x : Start.Started} (hx : Start.startedBy more = [x]) :
    (Start.startedBy pr'.log)[pr.st.spans.length]? = some x := by
  have hlen := Spans.started_length hr
  rw [hl, startedBy_append, hx, ← hlen]
  simp

theorem span_exists {t : Int} {st : State} {ops : List Op} (h : Trace.run (State.init t) ops = .ok st) {i : Nat}
    {x : Start.Started} (hx : (Start.startedBy ops)[i]? = some x) : ∃ s, st.spans[i]? = some s := by
  obtain ⟨s, hs, _⟩ := Start.trace_continuity h hx
  exact ⟨s, hs⟩

theorem idsSet_ne {sc : SpanContext} (h : IDsSet sc) : sc ≠ .zero := by
  rintro rfl
  exact h.2 rfl

theorem rpc_links {w w' : World} (hw : Ran w) {p q : Nat} {c : Rpc} (hp : c.isPublic = false)
    (h : w.step (.rpc p q c) = .ok w') : Linked w' (p, c.client.span) (q, c.server.span) := by
  obtain ⟨pr, pr1, qr, qr1, ops, h1, h2, h3, h4, h5, h6, h7, rfl⟩ := rpc_ok h
  have hg1 := set_grows h1 (does_grows h3)
  have hg2 := set_grows h4 (does_grows h7)
  obtain ⟨t, ht⟩ := hw p pr h1
  obtain ⟨l1, r1, _⟩ := does_ok h3
  have hx1 : (Start.startedBy pr1.log)[c.client.span]? = some (Grpc.clientStarted c.client c.method) := by
    rw [← h2]
    exact started_next ht l1 (Grpc.client_starts c.client c.method).1
  have ht1 : Trace.run (State.init t) pr1.log = .ok pr1.st := by rw [l1, run_append, ht]; exact r1
  obtain ⟨sa, hsa⟩ := span_exists ht1 hx1
  have hctx : World.ctx (w.set p pr1) p c.client.span = sa.ctx := by
    simp only [World.ctx, set_self h1, hsa]
  rw [hctx, hp] at h6
  obtain ⟨t2, ht2⟩ := (hw.grows hg1) q qr h4
  obtain ⟨parent, ops', g1, g2, g3, _⟩ := Grpc.server_starts false c.server (Grpc.clientMetadata [] sa.ctx) c.method
  rw [h6] at g2; cases g2
  have hx2 := started_next ht2 (does_ok h7).1 g3
  rw [h5] at hx2
  obtain ⟨pr2, k1, more, k2, k3⟩ := hg2.2 p pr1 (set_self h1)
  obtain ⟨sa', k4, k5⟩ := (Start.run_keeps k3).1 _ _ hsa
  refine ⟨pr2, qr1, sa', _, k1, set_self h4, k4, hx2, ?_⟩
  rw [k5.1]
  intro hl hz
  obtain ⟨⟨pp, e1, e2⟩, e3⟩ := Grpc.trace_read_back_partial (sc := sa.ctx) hl (idsSet_ne hz)
  rw [g1] at e1; cases e1
  refine ⟨Grpc.sent sa.ctx, ?_, rfl, rfl, e3⟩
  simp [Grpc.serverStarted, e2]

theorem path_health {p : Bytes} (h1 : p ≠ str "/healthz") (h2 : p ≠ str "/_ah/health") :
    Http.isHealthEndpoint p = false := by
  simp [Http.isHealthEndpoint, h1, h2]

theorem delivered_arrived {sent received : Wire.Header} (h : delivered sent received = true) (f : Http.Format) :
    HttpWire.Arrived f sent received := by
  intro n hn
  have hall := List.all_eq_true.mp h
  have : n ∈ traceHeaders := by
    have hsub : ∀ f, HttpWire.carried f ⊆ traceHeaders := by
      intro f; cases f <;> decide
    exact hsub f hn
  exact of_decide_eq_true (hall n this)

theorem startTrace_started {cfg : Http.HandlerConfig} {env : Http.Env} {req : Http.Request}
    (hh : ¬ HttpServer.isHealth cfg req) (ex : Option SpanContext) :
    Start.startedBy (Http.startTrace cfg env req ex).1 = [HttpServer.serverStart cfg env ex] := by
  rw [HttpServer.startTrace_other hh]
  have hmsg : Start.startedBy (if req.bodyNil then []
      else if req.contentLength > 0 then [Op.addMessageEvent (some env.span) .recv 0 req.contentLength (-1)]
      else []) = [] := by
    split
    · rfl
    · split <;> rfl
  rw [startedBy_append, startedBy_append, hmsg]
  unfold HttpServer.serverStart
  cases ex with
  | none => cases env.ctxSpan <;> rfl
  | some sc => cases cfg.isPublic <;> cases env.ctxSpan <;> rfl

theorem http_links {w w' : World} (hw : Ran w) {p q : Nat} {c : Call} (hp : c.handler.isPublic = false)
    (hc1 : c.req.path ≠ str "/healthz") (hc2 : c.req.path ≠ str "/_ah/health")
    (hs : ¬ HttpServer.isHealth c.handler c.serverReq) (hf : formatOf c.serverFormat = formatOf c.clientFormat)
    (h : w.step (.http p q c) = .ok w') : Linked w' (p, c.client.span) (q, c.server.span) := by
  obtain ⟨pr, pr1, hd, qr, qr1, h1, h2, h3, h4, h5, h6, h7, rfl⟩ := http_ok h
  have hg1 := set_grows h1 (send_grows h3)
  have hg2 := set_grows h5 (receive_grows h7)
  obtain ⟨t, ht⟩ := hw p pr h1
  obtain ⟨pr0, d1, d2, d3, d4⟩ := send_ok h3
  obtain ⟨l1, r1, _⟩ := does_ok d1
  have hst : Start.startedBy (transportOps c.client c.req) = [HttpWire.clientStarted c.client] := by
    unfold transportOps HttpWire.clientStarted
    rw [path_health hc1 hc2]
    cases c.client.ctxSpan <;> rfl
  have hx1 : (Start.startedBy pr0.log)[c.client.span]? = some (HttpWire.clientStarted c.client) := by
    rw [← h2]; exact started_next ht l1 hst
  have ht0 : Trace.run (State.init t) pr0.log = .ok pr0.st := by rw [l1, run_append, ht]; exact r1
  obtain ⟨sa, hsa⟩ := span_exists ht0 hx1
  obtain ⟨adr, hsend, rfl⟩ := d4 sa hsa
  obtain ⟨m, ex, k1, k2, k3⟩ := receive_ok h7
  obtain ⟨t2, ht2⟩ := (hw.grows hg1) q qr h5
  have hx2 := started_next ht2 k2 (startTrace_started hs ex)
  rw [h6] at hx2
  obtain ⟨pr2, f1, more, f2, f3⟩ := hg2.2 p pr1 (set_self h1)
  obtain ⟨sa', f4, f5⟩ := (Start.run_keeps f3).1 _ _ (by rw [d3]; exact hsa)
  refine ⟨pr2, qr1, sa', _, f1, set_self h5, f4, hx2, ?_⟩
  rw [f5.1]
  intro hl hz
  have ha := delivered_arrived h4 (formatOf c.clientFormat)
  obtain ⟨m2, sc, e1, e2, e3, e4⟩ := HttpWire.context_read_back c.clientFormat pr0.mem c.req (path_health hc1 hc2)
    c.hdr c.order sa.ctx hl (fun _ => hz) hsend ha qr.mem
  have heq : Http.extractSpanContext c.serverFormat qr.mem c.received =
      Http.extractSpanContext c.clientFormat qr.mem c.received := by
    unfold Http.extractSpanContext
    rw [HttpWire.orDefault_eq, HttpWire.orDefault_eq, hf]
  rw [heq, e1] at k1
  cases k1
  exact ⟨sc, by simp [HttpServer.serverStart, hp], e2, e3, e4⟩

theorem calls_linked {ts : List Int} {acts : List Act} {w : World} (h : World.run (World.init ts) acts = .ok w)
    {a b : At} (hc : Calls acts a b) : Linked w a b := by
  cases hc with
  | rpc hm hp =>
    obtain ⟨w1, w2, e1, e2, e3⟩ := run_mem h hm
    exact (rpc_links ((ran_init ts).grows e1) hp e2).grows e3
  | http hm hp h1 h2 h3 h4 =>
    obtain ⟨w1, w2, e1, e2, e3⟩ := run_mem h hm
    exact (http_links ((ran_init ts).grows e1) hp h1 h2 h3 h4 e2).grows e3

/-! ## One step of a trace -/

/-- How `b` was started from `a`, as its process sees it. -/
structure Edge (w : World) (a b : At) (sa sb : Span) (pb : Proc) (x : Start.Started) (sc : SpanContext) : Prop where
  atA : spanAt w a = some sa
  atB : spanAt w b = some sb
  proc : w[b.1]? = some pb
  started : (Start.startedBy pb.log)[b.2]? = some x
  parent : Start.parentCtx pb.st.spans x.origin = some sc
  trace : sc.traceID = sa.ctx.traceID
  span : sc.spanID = sa.ctx.spanID
  sampled : sc.isSampled = sa.ctx.isSampled
  same : Start.isRemote x.origin = false → sc = sa.ctx

theorem sound_at {w : World} (hs : Sound w) {a : At} {s : Span} (h : spanAt w a = some s) : LenOK s.ctx ∧ IDsSet s.ctx := by
  unfold spanAt at h
  cases hp : w[a.1]? with
  | none => rw [hp] at h; cases h
  | some pr =>
    rw [hp] at h
    exact hs pr (List.mem_of_getElem? hp) s (List.mem_of_getElem? h)

theorem edge {ts : List Int} {acts : List Act} {w : World} (h : World.run (World.init ts) acts = .ok w)
    (hs : Sound w) {a b : At} (hp : Parent acts w a b) : ∃ sa sb pb x sc, Edge w a b sa sb pb x sc := by
  cases hp with
  | @child p i j pr hpr hc =>
    obtain ⟨x, hx, ho⟩ := hc
    obtain ⟨t, ht⟩ := ran_run h p pr hpr
    obtain ⟨sb, mid, h1, _, _, h4⟩ := Start.run_init ht hx
    have hlt := h4 i ho
    have hi : i < pr.st.spans.length := by have := (List.getElem?_eq_some_iff.mp h1).1; omega
    have ha : spanAt w (p, i) = some pr.st.spans[i] := by
      simp [spanAt, hpr, hi]
    refine ⟨_, sb, pr, x, (pr.st.spans[i]).ctx, ha, by simp [spanAt, hpr, h1], hpr, hx, ?_, rfl, rfl, rfl, fun _ => rfl⟩
    have hne := idsSet_ne (sound_at hs ha).2
    simp [ho, Start.parentCtx, hi, hne]
  | call hc =>
    obtain ⟨pa, pb, sa, x, h1, h2, h3, h4, h5⟩ := calls_linked h hc
    have ha : spanAt w a = some sa := by simp [spanAt, h1, h3]
    obtain ⟨k1, k2⟩ := sound_at hs ha
    obtain ⟨sc, e1, e2, e3, e4⟩ := h5 k1 k2
    obtain ⟨t, ht⟩ := ran_run h _ pb h2
    obtain ⟨sb, hsb⟩ := span_exists ht h4
    refine ⟨sa, sb, pb, x, sc, ha, by simp [spanAt, h2, hsb], h2, h4, ?_, e2, e3, e4, ?_⟩
    · have hne : sc ≠ .zero := by
        rintro rfl
        exact k2.2 (e3.symm.trans rfl)
      simp [e1, Start.parentCtx, hne]
    · rw [e1]; intro h; cases h

/-! ## C82 -/

/-- **C82.** A span started from another one, in the same process or by a call over gRPC or HTTP, is in its
trace and records its span ID as its parent's. -/
theorem parent_recorded {ts : List Int} {acts : List Act} {w : World} (h : World.run (World.init ts) acts = .ok w)
    (hs : Sound w) {a b : At} (hp : Parent acts w a b) :
    ∃ sa sb, spanAt w a = some sa ∧ spanAt w b = some sb ∧ sb.ctx.traceID = sa.ctx.traceID ∧
      ∀ r, sb.data = some r → r.data.parentSpanID = sa.ctx.spanID := by
  obtain ⟨sa, sb, pb, x, sc, he⟩ := edge h hs hp
  obtain ⟨t, ht⟩ := ran_run h _ pb he.proc
  obtain ⟨s, h1, _, h3⟩ := Start.trace_continuity ht he.started
  have hb := he.atB
  simp only [spanAt, he.proc, Option.bind_some] at hb
  rw [hb] at h1; cases h1
  rw [he.parent] at h3
  refine ⟨sa, sb, he.atA, he.atB, h3.1.trans he.trace, fun r hr => (h3.2 r hr).trans he.span⟩

/-- **C82.** All spans that hang together, through however many processes, are in one trace. -/
theorem one_trace {ts : List Int} {acts : List Act} {w : World} (h : World.run (World.init ts) acts = .ok w)
    (hs : Sound w) {a b : At} (hp : Relation.EqvGen (Parent acts w) a b) : traceOf w a = traceOf w b := by
  induction hp with
  | rel a b hab =>
    obtain ⟨sa, sb, h1, h2, h3, _⟩ := parent_recorded h hs hab
    simp [traceOf, h1, h2, h3]
  | refl => rfl
  | symm _ _ _ ih => exact ih.symm
  | trans _ _ _ _ _ ih1 ih2 => exact ih1.trans ih2

/-- What decides about a span whose sampler is configured. -/
theorem decided {w : World} (hran : Ran w) (hn : NoOwnSamplers w) {P : Sampler → Prop} (hc : Configured P w) {b : At}
    {pb : Proc} (hpb : w[b.1]? = some pb) {x : Start.Started} (hx : (Start.startedBy pb.log)[b.2]? = some x) :
    ∃ sb smp, pb.st.spans[b.2]? = some sb ∧ P smp ∧ sb.ctx.isSampled =
      match Start.parentCtx pb.st.spans x.origin, Start.isRemote x.origin with
      | some sc, false => sc.isSampled
      | some sc, true => smp ⟨sc, sb.ctx.traceID, x.sid, x.name, true⟩
      | none, r => smp ⟨.zero, sb.ctx.traceID, x.sid, x.name, r⟩ := by
  obtain ⟨t, ht⟩ := hran _ pb hpb
  obtain ⟨s, mid, a, op, c, h1, h2, h3, h4, _, parent, hpar, _, _, hdec⟩ := Start.sampling_decision ht hx
  obtain ⟨smp, k1, k2⟩ := hc pb (List.mem_of_getElem? hpb) a op c h2 (by rw [h3]; simp)
  have hcfg := (Spans.config_values h4).2.2.2.2.1
  rw [k1] at hcfg
  have hex := hn pb (List.mem_of_getElem? hpb) x (List.mem_of_getElem? hx)
  refine ⟨s, smp, h1, k2, ?_⟩
  rw [hdec, hcfg]
  unfold Start.decider
  rw [hex]
  simp only [Option.getD_some]
  subst hpar
  cases Start.parentCtx pb.st.spans x.origin <;> cases Start.isRemote x.origin <;> rfl

/-- **C82.** When no span has a sampler of its own and every process always has a sampler made by
`ProbabilitySampler`, with whatever fractions, all that is started from a sampled span is sampled. -/
theorem sampled_down {ts : List Int} {acts : List Act} {w : World} (h : World.run (World.init ts) acts = .ok w)
    (hs : Sound w) (hn : NoOwnSamplers w) (hc : Configured (fun s => ∃ f, s = probabilitySampler f) w) {a b : At}
    (hp : Relation.ReflTransGen (Parent acts w) a b) (ha : sampledAt w a = some true) : sampledAt w b = some true := by
  induction hp with
  | refl => exact ha
  | @tail b c _ hbc ih =>
    obtain ⟨sa, sb, pb, x, sc, he⟩ := edge h hs hbc
    obtain ⟨sb', smp, h1, ⟨f, rfl⟩, h3⟩ := decided (ran_run h) hn hc he.proc he.started
    have hb := he.atB
    simp only [spanAt, he.proc, Option.bind_some] at hb
    rw [hb] at h1; cases h1
    have hsam : sc.isSampled = true := by
      rw [he.sampled]
      simpa [sampledAt, he.atA] using ih
    rw [he.parent] at h3
    simp only [sampledAt, he.atB, Option.map_some, Option.some.injEq]
    rw [h3]
    cases Start.isRemote x.origin
    · exact hsam
    · exact Start.sampled_parent f _ hsam

/-- A trace that has an unsampled span is one the sampler does not choose. -/
theorem unsampled_decision {f : F64} {w : World} (hran : Ran w) (hn : NoOwnSamplers w)
    (hc : Configured (fun s => s = probabilitySampler f) w) {p : Nat} {pr : Proc} (hp : w[p]? = some pr)
    (i : Nat) : ∀ {s : Span}, pr.st.spans[i]? = some s → s.ctx.isSampled = false →
      ∀ sid name rem, probabilitySampler f ⟨.zero, s.ctx.traceID, sid, name, rem⟩ = false := by
  induction i using Nat.strong_induction_on with
  | _ i ih =>
    intro s hi hsam sid name rem
    obtain ⟨t, ht⟩ := hran p pr hp
    have hlt : i < (Start.startedBy pr.log).length := by
      rw [Spans.started_length ht]; exact (List.getElem?_eq_some_iff.mp hi).1
    obtain ⟨x, hx⟩ : ∃ x, (Start.startedBy pr.log)[i]? = some x := ⟨_, List.getElem?_eq_getElem hlt⟩
    obtain ⟨s', smp, h1, rfl, h3⟩ := decided (b := (p, i)) hran hn hc hp hx
    simp only at h1 h3
    rw [hi] at h1; cases h1
    obtain ⟨s2, k1, _, k3⟩ := Start.trace_continuity ht hx
    rw [hi] at k1; cases k1
    have hz : SpanContext.zero.isSampled = false := by decide
    cases hpar : Start.parentCtx pr.st.spans x.origin with
    | none =>
      rw [hpar] at h3
      simp only at h3
      rw [hsam] at h3
      rw [h3]
      exact Start.depends_only f _ _ rfl rfl
    | some sc =>
      rw [hpar] at h3 k3
      cases hrem : Start.isRemote x.origin with
      | true =>
        rw [hrem] at h3
        simp only at h3
        cases hsc : sc.isSampled with
        | true =>
          rw [Start.sampled_parent f _ hsc, hsam] at h3; cases h3
        | false =>
          rw [hsam] at h3
          rw [h3]
          exact Start.depends_only f _ _ (by rw [hz, hsc]) rfl
      | false =>
        rw [hrem] at h3
        simp only at h3
        cases ho : x.origin with
        | root => rw [ho] at hpar; cases hpar
        | remote sc' => rw [ho] at hrem; cases hrem
        | child j =>
          obtain ⟨_, _, _, _, _, hlt2⟩ := Start.run_init ht hx
          have hj := hlt2 j ho
          have hjl : j < pr.st.spans.length := by have := (List.getElem?_eq_some_iff.mp hi).1; omega
          rw [ho] at hpar
          simp only [Start.parentCtx, List.getElem?_eq_getElem hjl, Option.bind_some] at hpar
          split at hpar
          · cases hpar
          · cases hpar
            rw [k3.1]
            exact ih j hj (List.getElem?_eq_getElem hjl) (by rw [← h3]; exact hsam) sid name rem

/-- **C82.** When no span has a sampler of its own and every process always has the sampler
`ProbabilitySampler(f)`, with one `f`, all spans that hang together are sampled or none is. -/
theorem sampled_alike {f : F64} {ts : List Int} {acts : List Act} {w : World}
    (h : World.run (World.init ts) acts = .ok w) (hs : Sound w) (hn : NoOwnSamplers w)
    (hc : Configured (fun s => s = probabilitySampler f) w) {a b : At}
    (hp : Relation.EqvGen (Parent acts w) a b) : sampledAt w a = sampledAt w b := by
  induction hp with
  | refl => rfl
  | symm _ _ _ ih => exact ih.symm
  | trans _ _ _ _ _ ih1 ih2 => exact ih1.trans ih2
  | rel a b hab =>
    obtain ⟨sa, sb, pb, x, sc, he⟩ := edge h hs hab
    obtain ⟨sb', smp, h1, rfl, h3⟩ := decided (ran_run h) hn hc he.proc he.started
    obtain ⟨sa2, sb2, q1, q2, q3, _⟩ := parent_recorded h hs hab
    rw [he.atA] at q1; cases q1
    rw [he.atB] at q2; cases q2
    have hb := he.atB
    simp only [spanAt, he.proc, Option.bind_some] at hb
    rw [hb] at h1; cases h1
    simp only [sampledAt, he.atA, he.atB, Option.map_some, Option.some.injEq]
    rw [he.parent] at h3
    rw [h3]
    cases hr : Start.isRemote x.origin with
    | false => exact he.sampled.symm
    | true =>
      simp only
      cases hsa : sa.ctx.isSampled with
      | true => rw [Start.sampled_parent f _ (by simp only; rw [he.sampled, hsa])]
      | false =>
        have ha := he.atA
        unfold spanAt at ha
        cases hpa : w[a.1]? with
        | none => rw [hpa] at ha; cases ha
        | some pa =>
          rw [hpa] at ha
          have := unsampled_decision (ran_run h) hn hc hpa a.2 ha hsa x.sid x.name true
          rw [← this]
          apply Start.depends_only
          · simp only; rw [he.sampled, hsa]; decide
          · simp only; rw [q3]

/-- **C82.** A trace is exported whole or not at all: with one fraction everywhere, the first `End` of a span
gives it once to every exporter its process has registered then, if span `a` of the trace is sampled, and to
none if it is not. What is exported carries the trace ID of `a`. -/
theorem exported_whole {f : F64} {ts : List Int} {acts : List Act} {w : World}
    (h : World.run (World.init ts) acts = .ok w) (hs : Sound w) (hn : NoOwnSamplers w)
    (hc : Configured (fun s => s = probabilitySampler f) w) {a b : At}
    (hp : Relation.EqvGen (Parent acts w) a b) {sa : Span} (ha : spanAt w a = some sa) {pb : Proc}
    (hpb : w[b.1]? = some pb) {before after : List Op} {order : List Bytes}
    (hl : pb.log = before ++ .endSpan (some b.2) order :: after) (hfirst : ∀ o, Op.endSpan (some b.2) o ∉ before) :
    (∀ e, pb.st.exported.countP (fun x => decide (x.1 = e ∧ x.2.1 = b.2)) =
      if sa.ctx.isSampled ∧ registered e before = true then 1 else 0) ∧
    ∀ e sd, (e, b.2, sd) ∈ pb.st.exported → sd.ctx.traceID = sa.ctx.traceID := by
  obtain ⟨t, ht⟩ := ran_run h _ pb hpb
  have ht' := ht
  rw [hl] at ht'
  obtain ⟨s, h1, h2, _⟩ := Spans.exported_exactly_once ht' hfirst
  have hb : spanAt w b = some s := by simp [spanAt, hpb, h1]
  have e1 := sampled_alike h hs hn hc hp
  have e2 := one_trace h hs hp
  simp only [sampledAt, ha, hb, Option.map_some, Option.some.injEq] at e1
  simp only [traceOf, ha, hb, Option.map_some, Option.some.injEq] at e2
  refine ⟨fun e => by rw [h2 e, e1], fun e sd hx => ?_⟩
  obtain ⟨_, _, _, _, _, _, s', _, _, _, _, k1, k2, _⟩ := Spans.exported_data ht hx
  rw [h1] at k1; cases k1
  rw [k2, e2]

/-- **C82.** An exported span that was started from another one, in whatever process, names it as its
parent. -/
theorem exported_parent {ts : List Int} {acts : List Act} {w : World} (h : World.run (World.init ts) acts = .ok w)
    (hs : Sound w) {a b : At} (hp : Parent acts w a b) {pb : Proc} (hpb : w[b.1]? = some pb) {e : Exporter}
    {sd : SpanData} (hx : (e, b.2, sd) ∈ pb.st.exported) :
    ∃ sa, spanAt w a = some sa ∧ sd.parentSpanID = sa.ctx.spanID ∧ sd.ctx.traceID = sa.ctx.traceID := by
  obtain ⟨sa, sb, h1, h2, h3, h4⟩ := parent_recorded h hs hp
  obtain ⟨t, ht⟩ := ran_run h _ pb hpb
  obtain ⟨c, op, d, order, b', x, mid0, mid, s, r, r', sd0, e1, e2, e3, e4, e5, e6, e7, e8, e9, e10, e11, e12, e13, _⟩ :=
    Spans.export_history ht hx
  obtain ⟨f1, _, _, f4, _⟩ := makeSpanData_fields e12
  have hk : Keeps mid.spans pb.st.spans := by
    rw [e1] at ht
    obtain ⟨m1, m2, k1, k2, k3⟩ := Spans.run_split ht
    rw [e7] at k1; cases k1
    exact Keeps.trans (Start.step_other k2 rfl).1 (Start.run_keeps k3).1
  obtain ⟨s', hs', hsame⟩ := hk _ _ e8
  simp only [spanAt, hpb, Option.bind_some] at h2
  rw [h2] at hs'; cases hs'
  have : sb.data.isSome := by rw [hsame.2.1, e9]; rfl
  obtain ⟨r2, hr2⟩ := Option.isSome_iff_exists.mp this
  have hfix := hsame.2.2.2 r r2 e9 hr2
  refine ⟨sa, h1, ?_, ?_⟩
  · rw [e13]
    simp only [finalData]
    rw [f4, ← hfix.parent, h4 r2 hr2]
  · rw [e13]
    simp only [finalData]
    rw [f1, (e10.fixed r e9).2.2.2.1, ← hsame.1, h3]

/-! ## When spans have IDs -/

/-- Good generators, and good contexts where programs take some from elsewhere. -/
def GoodInputs (w : World) : Prop := ∀ pr ∈ w, ∀ x ∈ Start.startedBy pr.log,
  x.tid.length = 16 ∧ x.tid ≠ List.replicate 16 0 ∧ x.sid.length = 8 ∧ x.sid ≠ List.replicate 8 0 ∧
  ∀ sc, x.origin = .remote sc → sc = .zero ∨ (LenOK sc ∧ IDsSet sc)

/-- All spans have IDs when the generators only make such IDs and the remote parents that processes take from
strangers have them. -/
theorem sound_of_inputs {ts : List Int} {acts : List Act} {w : World} (h : World.run (World.init ts) acts = .ok w)
    (hg : GoodInputs w) : Sound w := by
  intro pr hpr s hs
  obtain ⟨p, hp⟩ := List.getElem?_of_mem hpr
  obtain ⟨t, ht⟩ := ran_run h p pr hp
  obtain ⟨i, hi⟩ := List.getElem?_of_mem hs
  clear hs
  induction i using Nat.strong_induction_on generalizing s with
  | _ i ih =>
    have hlt : i < (Start.startedBy pr.log).length := by
      rw [Spans.started_length ht]; exact (List.getElem?_eq_some_iff.mp hi).1
    obtain ⟨x, hx⟩ : ∃ x, (Start.startedBy pr.log)[i]? = some x := ⟨_, List.getElem?_eq_getElem hlt⟩
    obtain ⟨g1, g2, g3, g4, g5⟩ := hg pr hpr x (List.mem_of_getElem? hx)
    obtain ⟨s', k1, k2, k3⟩ := Start.trace_continuity ht hx
    rw [hi] at k1; cases k1
    have key : s.ctx.traceID.length = 16 ∧ s.ctx.traceID ≠ List.replicate 16 0 := by
      cases hpar : Start.parentCtx pr.st.spans x.origin with
      | none => rw [hpar] at k3; rw [k3.1]; exact ⟨g1, g2⟩
      | some sc =>
        rw [hpar] at k3
        rw [k3.1]
        cases ho : x.origin with
        | root => rw [ho] at hpar; cases hpar
        | remote sc' =>
          rw [ho] at hpar
          simp only [Start.parentCtx] at hpar
          split at hpar
          · cases hpar
          · next hne =>
            cases hpar
            rcases g5 sc ho with rfl | ⟨a1, a2⟩
            · exact absurd rfl hne
            · exact ⟨a1.1, a2.1⟩
        | child j =>
          obtain ⟨_, _, _, _, _, hlt2⟩ := Start.run_init ht hx
          have hj := hlt2 j ho
          have hjl : j < pr.st.spans.length := by have := (List.getElem?_eq_some_iff.mp hi).1; omega
          rw [ho] at hpar
          simp only [Start.parentCtx, List.getElem?_eq_getElem hjl, Option.bind_some] at hpar
          split at hpar
          · cases hpar
          · cases hpar
            obtain ⟨b1, b2⟩ := ih j hj _ (List.getElem?_eq_getElem hjl)
            exact ⟨b1.1, b2.1⟩
    exact ⟨⟨key.1, by rw [k2]; exact g3⟩, key.2, by rw [k2]; exact g4⟩

/-! ## The calls are those of the plugins -/

/-- What a transport does before it sends is what `transportOps` says. -/
theorem transport_ops (env : Http.Env) (req : Http.Request) (hh : Http.isHealthEndpoint req.path = false)
    (res : Http.BaseResult) : ∃ a b, (Http.roundTrip env req res).1.log = a ++ .roundTrip :: b ∧
      Http.traceOps a = transportOps env req := by
  have key : ∃ x rest, (Http.roundTrip env req res).1.log = [x, .trace (.start env.ctxSpan env.name
      [.sampler env.sampler, .kind 2] env.tid env.sid), .trace (.addAttributes (some env.span) (Http.requestAttrs req))] ++
      .roundTrip :: rest ∧ ∃ t ms, x = .record t ms := by
    cases res with
    | err msg => exact ⟨_, _, rfl, ⟨_, _, rfl⟩⟩
    | resp r => exact ⟨_, _, rfl, ⟨_, _, rfl⟩⟩
  obtain ⟨x, rest, h1, t, ms, rfl⟩ := key
  refine ⟨_, rest, h1, ?_⟩
  unfold transportOps
  rw [hh]
  rfl

example : Http.isHealthEndpoint (str "/x") = false := by decide

/-! ## No panic -/

theorem does_not_panic {pr : Proc} {t : Int} (hr : Trace.run (State.init t) pr.log = .ok pr.st) (ops : List Op) :
    pr.does ops ≠ .panic := by
  have := Spans.never_panics t (pr.log ++ ops)
  rw [run_append, hr] at this
  unfold Proc.does
  simp only [Res.bind] at this
  cases h : Trace.run pr.st ops with
  | panic => exact absurd h this
  | ok st => simp [Res.bind]
  | err => simp [Res.bind]

theorem at_not_panic {w : World} {p : Nat} {f : Proc → Res Proc} (h : ∀ pr, w[p]? = some pr → f pr ≠ .panic) :
    w.at p f ≠ .panic := by
  unfold World.at
  cases hp : w[p]? with
  | none => simp
  | some pr =>
    have := h pr hp
    simp only
    cases hf : f pr with
    | panic => exact absurd hf this
    | ok x => simp [Res.bind]
    | err => simp [Res.bind]

theorem step_not_panic {w : World} (hw : Ran w) (a : Act) : w.step a ≠ .panic := by
  cases a with
  | own p op =>
    apply at_not_panic
    intro pr hp
    obtain ⟨t, ht⟩ := hw p pr hp
    exact does_not_panic ht _
  | rpc p q c =>
    simp only [World.step, World.rpc]
    split
    · simp
    · have h1 : (w.at p fun pr => pr.does (Grpc.clientStart c.client c.method)) ≠ .panic := by
        apply at_not_panic
        intro pr hp
        obtain ⟨t, ht⟩ := hw p pr hp
        exact does_not_panic ht _
      cases h : (w.at p fun pr => pr.does (Grpc.clientStart c.client c.method)) with
      | panic => exact absurd h h1
      | err => simp [Res.bind]
      | ok w1 =>
        simp only [Res.bind]
        split
        · simp
        · obtain ⟨parent, ops, _, g2, _⟩ := Grpc.server_starts c.isPublic c.server
            (Grpc.clientMetadata [] (World.ctx w1 p c.client.span)) c.method
          rw [g2]
          apply at_not_panic
          intro qr hq
          obtain ⟨pr, pr', e1, e2, rfl⟩ := at_ok h
          obtain ⟨t, ht⟩ := hw.grows (set_grows e1 (does_grows e2)) q qr hq
          exact does_not_panic ht _
  | http p q c =>
    simp only [World.step, World.http]
    split
    · simp
    · cases hp : w[p]? with
      | none => simp
      | some pr =>
        obtain ⟨t, ht⟩ := hw p pr hp
        simp only
        cases h : pr.send c with
        | panic =>
          exfalso
          unfold Proc.send at h
          have := does_not_panic ht (transportOps c.client c.req)
          cases hd : pr.does (transportOps c.client c.req) with
          | panic => exact absurd hd this
          | err => rw [hd] at h; simp [Res.bind] at h
          | ok x => rw [hd] at h; simp [Res.bind] at h
        | err => simp [Res.bind]
        | ok r =>
          simp only [Res.bind]
          split
          · simp
          · split
            · simp
            · apply at_not_panic
              intro qr hq
              obtain ⟨t2, ht2⟩ := hw.grows (set_grows hp (send_grows (c := c) (hd := r.2) h)) q qr hq
              unfold Proc.receive
              obtain ⟨m, ex, hx, _⟩ := HttpWire.extract_total c.serverFormat qr.mem c.received
              rw [hx]
              exact does_not_panic (pr := { qr with mem := m }) ht2 _

/-- **C82.** Whatever processes do and send each other in the headers and the metadata that carry traces, none
of them panics. -/
theorem never_panics (ts : List Int) (acts : List Act) : World.run (World.init ts) acts ≠ .panic := by
  have key : ∀ (acts : List Act) (w : World), Ran w → w.run acts ≠ .panic := by
    intro acts
    induction acts with
    | nil => intro w _; simp [World.run]
    | cons a as ih =>
      intro w hw
      simp only [World.run]
      cases h : w.step a with
      | panic => exact absurd h (step_not_panic hw a)
      | err => simp [Res.bind]
      | ok w1 => exact ih w1 (hw.grows (step_grows h))
  exact key acts _ (ran_init ts)

/-! ## An execution that meets the hypotheses

Three processes, all configured with `ProbabilitySampler(1)`. Process 0 starts a span and sends process 1 an HTTP request; 1
starts a child of the server's span, calls process 2 over gRPC, and sends process 0 a request in another
format; then all spans end. -/

/-- Every process is configured first of all, and keeps the sampler. -/
theorem configured_first {P : Sampler → Prop} {c : Config} {s : Sampler} (hc : c.sampler = some s) (hP : P s) {w0 w : World}
    (h0 : ∀ pr ∈ w0, pr.log = [.applyConfig c]) (hg : WGrows w0 w) (h : ∀ pr ∈ w, Spans.applied (pr.log.drop 1) = []) :
    Configured P w := by
  intro pr hpr a op b hl hs
  obtain ⟨p, hp⟩ := List.getElem?_of_mem hpr
  have hlt : p < w0.length := by rw [← hg.1]; exact (List.getElem?_eq_some_iff.mp hp).1
  obtain ⟨pr', e1, more, e2, _⟩ := hg.2 p _ (List.getElem?_eq_getElem hlt)
  rw [hp] at e1; cases e1
  rw [h0 _ (List.getElem_mem hlt)] at e2
  have hm := h pr hpr
  rw [e2] at hl hm
  cases a with
  | nil =>
    simp only [List.cons_append, List.nil_append, List.cons.injEq] at hl
    rw [← hl.1] at hs
    exact absurd rfl hs
  | cons x a =>
    simp only [List.cons_append, List.nil_append, List.cons.injEq] at hl
    obtain ⟨rfl, rfl⟩ := hl
    simp only [List.cons_append, List.nil_append, List.drop_succ_cons, List.drop_zero, Spans.applied,
      List.filterMap_append, List.append_eq_nil_iff] at hm
    refine ⟨s, ?_, hP⟩
    simp [Spans.lastSome, Spans.applied, hm.1, hc]

def demoConfig : Config := ⟨some (probabilitySampler (.fin 1)), none, 0, 0, 0, 0⟩

def tid (x : UInt8) : Bytes := List.replicate 8 0 ++ List.replicate 8 x
def sid (x : UInt8) : Bytes := List.replicate 8 x

def henv (ctxSpan : Option Nat) (x : UInt8) (span : Nat) : Http.Env :=
  ⟨[], ctxSpan, none, str "/x", tid x, sid x, span, []⟩

def genv (ctxSpan : Option Nat) (x : UInt8) (span : Nat) : Grpc.Env := ⟨none, ctxSpan, none, tid x, sid x, span⟩

def demoReq : Http.Request := ⟨str "example.com", str "/x", str "http://example.com/x", str "GET", [], true, 0⟩

def demoCall (f : Option Http.Format) (client server : Http.Env) (received : Wire.Header) : Call :=
  ⟨f, client, demoReq, none, [(str "Accept", [str "a"])], received, f, server, ⟨false, none⟩, demoReq⟩

def demoB3 : Wire.Header :=
  [(str "X-B3-Traceid", [str "00000000000000000101010101010101"]), (str "X-B3-Spanid", [str "0202020202020202"]),
   (str "X-B3-Sampled", [str "1"]), (str "Accept-Encoding", [str "gzip"])]

def demoTC : Wire.Header :=
  [(str "Traceparent", [str "00-00000000000000000101010101010101-0707070707070707-01"])]

def demoStart : List Act :=
  [.own 0 (.applyConfig demoConfig), .own 1 (.applyConfig demoConfig), .own 2 (.applyConfig demoConfig)]

def demo : List Act := demoStart ++
  [.own 0 (.registerExporter 5), .own 1 (.registerExporter 6), .own 2 (.registerExporter 7),
   .own 0 (.start none (str "root") [] (tid 1) (sid 1)),
   .http 0 1 (demoCall none (henv (some 0) 2 1) (henv none 3 0) demoB3),
   .own 1 (.start (some 0) (str "work") [] (tid 4) (sid 4)),
   .rpc 1 2 ⟨str "/s/M", genv (some 1) 5 2, genv none 6 0, false⟩,
   .http 1 0 (demoCall (some .tracecontext) (henv (some 1) 7 3) (henv none 8 2) demoTC),
   .own 2 (.endSpan (some 0) []), .own 1 (.endSpan (some 1) []), .own 0 (.endSpan (some 2) [str "http.host", str "http.method",
     str "http.path", str "http.url"]), .own 0 (.endSpan (some 0) [])]

/-- The world after it. -/
def demoWorld : World := match World.run (World.init [10, 20, 30]) demo with
  | .ok w => w
  | _ => []

theorem demo_runs : World.run (World.init [10, 20, 30]) demo = .ok demoWorld := by
  have h : (match World.run (World.init [10, 20, 30]) demo with | .ok _ => true | _ => false) = true := by
    decide +kernel
  unfold demoWorld
  split at h
  · next w hw => rw [hw]
  · cases h

theorem demo_config : Configured (fun s => s = probabilitySampler (.fin 1)) demoWorld := by
  have hrun := demo_runs
  have hcut : ∀ (x y : List Act) (w w' : World), w.run (x ++ y) = .ok w' → ∃ w1, w.run x = .ok w1 ∧ w1.run y = .ok w' := by
    intro x
    induction x with
    | nil => intro y w w' h; exact ⟨w, rfl, h⟩
    | cons a x ih =>
      intro y w w' h
      obtain ⟨w1, h1, h2⟩ := Res_bind_ok h
      obtain ⟨w2, h3, h4⟩ := ih y w1 w' h2
      exact ⟨w2, by simp only [World.run, h1]; exact h3, h4⟩
  obtain ⟨w0, h1, h2⟩ := hcut demoStart _ _ _ hrun
  refine configured_first (P := fun s => s = probabilitySampler (.fin 1)) (c := demoConfig) rfl rfl ?_ (run_grows h2) ?_
  · cases h1
    exact List.forall_mem_cons.mpr ⟨rfl, List.forall_mem_cons.mpr ⟨rfl, List.forall_mem_cons.mpr
      ⟨rfl, List.forall_mem_nil _⟩⟩⟩
  · have h : (demoWorld.all fun pr => (Spans.applied (pr.log.drop 1)).isEmpty) = true := by decide +kernel
    intro pr hpr
    exact List.isEmpty_iff.mp (List.all_eq_true.mp h pr hpr)

theorem demo_plain : NoOwnSamplers demoWorld := by
  have h : (demoWorld.all fun pr => (Start.startedBy pr.log).all fun x => (Start.explicitSampler x.opts).isNone) = true := by
    decide +kernel
  intro pr hpr x hx
  exact Option.isNone_iff_eq_none.mp (List.all_eq_true.mp (List.all_eq_true.mp h pr hpr) x hx)

theorem demo_good : Sound demoWorld := by
  have h : (demoWorld.all fun pr => pr.st.spans.all fun s => decide (s.ctx.traceID.length = 16 ∧ s.ctx.spanID.length = 8 ∧
      s.ctx.traceID ≠ List.replicate 16 0 ∧ s.ctx.spanID ≠ List.replicate 8 0)) = true := by decide +kernel
  intro pr hpr s hs
  obtain ⟨h1, h2, h3, h4⟩ := of_decide_eq_true (List.all_eq_true.mp (List.all_eq_true.mp h pr hpr) s hs)
  exact ⟨⟨h1, h2⟩, h3, h4⟩

theorem demo_not_health : ¬ HttpServer.isHealth ⟨false, none⟩ demoReq := by
  rintro (⟨f, h, _⟩ | h | h)
  · cases h
  · revert h; decide
  · revert h; decide

/-- From the first span of process 0 to the second one of process 1, and on to process 2. -/
theorem demo_path : Relation.ReflTransGen (Parent demo demoWorld) (0, 1) (2, 0) := by
  have h1 : Parent demo demoWorld (0, 1) (1, 0) := .call (.http (c := demoCall none (henv (some 0) 2 1) (henv none 3 0) demoB3)
    (by simp [demo]) rfl (by decide) (by decide) demo_not_health rfl)
  have child : ∀ i j, (∃ pr x, demoWorld[1]? = some pr ∧ (Start.startedBy pr.log)[j]? = some x ∧ x.origin = .child i) →
      Parent demo demoWorld (1, i) (1, j) := by
    rintro i j ⟨pr, x, k1, k2, k3⟩
    exact .child k1 ⟨x, k2, k3⟩
  have ex : ∀ i j, ((demoWorld[1]?).bind fun pr => ((Start.startedBy pr.log)[j]?).map fun x => x.origin) =
      some (Start.Origin.child i) → Parent demo demoWorld (1, i) (1, j) := by
    intro i j h
    apply child
    cases hp : demoWorld[1]? with
    | none => rw [hp] at h; cases h
    | some pr =>
      rw [hp] at h
      simp only [Option.bind_some, Option.map_eq_some_iff] at h
      obtain ⟨x, e1, e2⟩ := h
      exact ⟨pr, x, rfl, e1, e2⟩
  have h2 : Parent demo demoWorld (1, 0) (1, 1) := ex 0 1 (by decide +kernel)
  have h3 : Parent demo demoWorld (1, 1) (1, 2) := ex 1 2 (by decide +kernel)
  have h4 : Parent demo demoWorld (1, 2) (2, 0) :=
    .call (.rpc (c := ⟨str "/s/M", genv (some 1) 5 2, genv none 6 0, false⟩) (by simp [demo]) rfl)
  exact .tail (.tail (.tail (.tail .refl h1) h2) h3) h4

example : sampledAt demoWorld (0, 1) = some true := by decide +kernel

example : sampledAt demoWorld (2, 0) = some true :=
  sampled_down demo_runs demo_good demo_plain (fun pr hpr a op b hl hs => by
    obtain ⟨s, h1, h2⟩ := demo_config pr hpr a op b hl hs
    exact ⟨s, h1, _, h2⟩) demo_path (by decide +kernel)

/-- What the three processes export: exporter, span, trace ID, span ID, parent. -/
example : demoWorld.map (fun pr => pr.st.exported.map fun x =>
      ((x.1, x.2.1), [x.2.2.ctx.traceID, x.2.2.ctx.spanID, x.2.2.parentSpanID])) =
    [[((5, 2), [tid 1, sid 8, sid 7]), ((5, 0), [tid 1, sid 1, List.replicate 8 0])], [((6, 1), [tid 1, sid 4, sid 3])],
     [((7, 0), [tid 1, sid 6, sid 5])]] := by decide +kernel

/-- The last theorem about exports applies to the span of process 2. -/
example : ∀ e sd, (e, 0, sd) ∈ ((demoWorld[2]?).map fun pr => pr.st.exported).getD [] → sd.parentSpanID = sid 5 := by
  intro e sd hx
  cases hp : demoWorld[2]? with
  | none => rw [hp] at hx; simp at hx
  | some pr =>
    rw [hp] at hx
    obtain ⟨sa, h1, h2, _⟩ := exported_parent demo_runs demo_good (a := (1, 2)) (b := (2, 0))
      (.call (.rpc (c := ⟨str "/s/M", genv (some 1) 5 2, genv none 6 0, false⟩) (by simp [demo]) rfl)) hp hx
    have h3 : (spanAt demoWorld (1, 2)).map (fun s => s.ctx.spanID) = some (sid 5) := by decide +kernel
    rw [h1] at h3
    rw [h2]
    simpa using h3

/-- The fractions have to be the same: a process that samples more exports traces without their beginning.
Process 0 never samples, process 1 always does. -/
def mixed : List Act :=
  [.own 0 (.applyConfig ⟨some (probabilitySampler (.fin 0)), none, 0, 0, 0, 0⟩), .own 1 (.applyConfig demoConfig),
   .rpc 0 1 ⟨str "/s/M", genv none 5 0, genv none 6 0, false⟩]

def view (ts : List Int) (acts : List Act) : List (List (Bytes × Bool)) := match World.run (World.init ts) acts with
  | .ok w => w.map fun pr => pr.st.spans.map fun s => (s.ctx.traceID, s.ctx.isSampled)
  | _ => []

theorem fractions_differ : view [0, 0] mixed = [[(tid 5, false)], [(tid 5, true)]] := by decide +kernel

end Verif.Props.Net
