import Verif.Props.GrpcSpan
import Verif.Props.Binary
import Verif.Props.Tag

/-!
# C58: trace and tags across an RPC

What the client puts on the wire, read by the server.
-/

namespace Verif.Props.Grpc
open Verif Verif.Grpc Verif.Trace Verif.Props.HttpClient

/-! ## Specification -/

/-- The span a client starts. -/
def clientStarted (env : Env) (full : Bytes) : Start.Started where
  origin := match env.ctxSpan with
    | none => .root
    | some p => .child p
  opts := [.sampler env.sampler, .kind 2]
  name := spanName full
  tid := env.tid
  sid := env.sid

/-- The span a server starts, given the parent in the metadata. -/
def serverStarted (isPublic : Bool) (env : Env) (parent : Option SpanContext) (full : Bytes) : Start.Started where
  origin := match parent, isPublic with
    | some sc, false => .remote sc
    | _, _ => match env.ctxSpan with
      | none => .root
      | some p => .child p
  opts := [.kind 1, .sampler env.sampler]
  name := spanName full
  tid := env.tid
  sid := env.sid

/-- The link of a server span: the parent in the metadata, when the endpoint is public. Its type is
`LinkTypeChild` (1). -/
def serverLinks (isPublic : Bool) (parent : Option SpanContext) : List Link :=
  match parent, isPublic with
  | some sc, true => [⟨sc.traceID, sc.spanID, 1, none⟩]
  | _, _ => []

/-- What the binary format keeps of a span context: the IDs and the low byte of the options. -/
def sent (sc : SpanContext) : SpanContext := ⟨sc.traceID, sc.spanID, BitVec.ofNat 32 (sc.opts.toNat % 256), none⟩

/-- IDs have the lengths of their Go types. -/
def LenOK (sc : SpanContext) : Prop := sc.traceID.length = 16 ∧ sc.spanID.length = 8

/-! ## Spans -/

/-- The name of the span: the method without its first slash, dots for the other slashes. -/
example : spanName (str "/pkg.Service/Method") = str "pkg.Service.Method" ∧ spanName (str "a/b/c") = str "a.b.c" ∧
    spanName (str "//x") = str ".x" := by decide

/-- The client starts one client span, as a child of the span in the context. -/
theorem client_starts (env : Env) (full : Bytes) : Start.startedBy (clientStart env full) = [clientStarted env full] ∧
    Spans.kindOf (clientStarted env full).opts = 2 ∧
    (clientStart env full).filter (onIt env.span) = linkOps env.span [] := by
  refine ⟨?_, rfl, ?_⟩
  · unfold clientStart clientStarted Start.startedBy
    cases env.ctxSpan <;> rfl
  · simp [clientStart, onIt, Spans.target, linkOps]

/-- What the server makes of the metadata, whatever it is: it never panics, and starts one server span and
links it as said. -/
theorem server_starts (isPublic : Bool) (env : Env) (md : List Bytes) (full : Bytes) :
    ∃ parent ops, serverParent md = .ok parent ∧ serverStart isPublic env md full = .ok ops ∧
      Start.startedBy ops = [serverStarted isPublic env (parent.map ofWire) full] ∧
      Spans.kindOf (serverStarted isPublic env (parent.map ofWire) full).opts = 1 ∧
      ops.filter (onIt env.span) = linkOps env.span (serverLinks isPublic (parent.map ofWire)) := by
  have hp : ∃ parent, serverParent md = .ok parent := by
    unfold serverParent
    cases md with
    | nil => exact ⟨_, rfl⟩
    | cons b md =>
      simp only
      rw [Binary.fromBinary_spec]
      split
      · next h => split at h <;> simp_all
      · exact ⟨_, rfl⟩
      · next h => split at h <;> simp_all
  obtain ⟨parent, hp⟩ := hp
  unfold serverStart
  rw [hp]
  refine ⟨parent, _, rfl, rfl, ?_, rfl, ?_⟩
  · cases parent with
    | none => unfold serverStarted Start.startedBy; cases env.ctxSpan <;> cases isPublic <;> rfl
    | some sc =>
      cases isPublic
      · rfl
      · unfold serverStarted Start.startedBy; cases env.ctxSpan <;> rfl
  · cases parent with
    | none => simp [onIt, Spans.target, linkOps, serverLinks]
    | some sc =>
      cases isPublic
      · simp [onIt, Spans.target, linkOps, serverLinks]
      · simp [onIt, Spans.target, linkOps, serverLinks, ofWire]

/-! ## The trace -/

theorem parent_of_first {sc : SpanContext} (hw : LenOK sc) (hz : sc ≠ .zero) (more : List Bytes) :
    ∃ p, serverParent ((Wire.toBinary (toWire sc)).getD [] :: more) = .ok (some p) ∧ ofWire p = sent sc := by
  have hz' : toWire sc ≠ .zero := by
    intro h
    apply hz
    obtain ⟨tid, sid, opts, ts⟩ := sc
    cases ts with
    | none => simp only [toWire, Wire.Ctx.zero, Wire.Ctx.mk.injEq, Option.map_none] at h; simp [SpanContext.zero, h]
    | some x => simp [toWire, Wire.Ctx.zero] at h
  obtain ⟨b, h1, _, h3⟩ := Binary.binary_roundtrip (toWire sc) hw hz' []
  rw [List.append_nil] at h3
  refine ⟨⟨sc.traceID, sc.spanID, BitVec.ofNat 32 (sc.opts.toNat % 256), none⟩, ?_, rfl⟩
  unfold serverParent
  rw [h1]
  simp only [Option.getD_some]
  rw [h3]; rfl

/-- **C58.** The server reads the context of the client's span from what the client sent: its trace ID, its
span ID and its sampled bit, if the caller had not already put a value under the key. -/
theorem trace_read_back_partial {sc : SpanContext} (hw : LenOK sc) (hz : sc ≠ .zero) :
    (∃ p, serverParent (clientMetadata [] sc) = .ok (some p) ∧ ofWire p = sent sc) ∧
    (sent sc).isSampled = sc.isSampled := by
  refine ⟨parent_of_first hw hz [], ?_⟩
  unfold SpanContext.isSampled sent
  have h1 := sc.opts.isLt
  have key : ∀ x : BitVec 32, (x &&& 1#32 == 1#32) = decide (x.toNat % 2 = 1) := by
    intro x
    rw [Bool.eq_iff_iff, beq_iff_eq, decide_eq_true_eq]
    constructor
    · intro h
      have := congrArg BitVec.toNat h
      simpa [BitVec.toNat_and, Nat.and_one_is_mod] using this
    · intro h
      apply BitVec.eq_of_toNat_eq
      simpa [BitVec.toNat_and, Nat.and_one_is_mod] using h
  rw [key, key, BitVec.toNat_ofNat]
  congr 1
  rw [Nat.mod_eq_of_lt (by omega : sc.opts.toNat % 256 < 2 ^ 32)]
  rw [eq_iff_iff]; omega

/-- **C58.** End to end: `sc` is the context of the client's span in any program. In any program of a server
that is not a public endpoint, the span the server starts for the call is in the client's trace and has the
client's span as its remote parent. -/
theorem trace_continues_partial {t1 : Int} {H1 : List Op} {st1 : Trace.State} (hrun1 : run (State.init t1) H1 = .ok st1)
    {cenv : Env} {full : Bytes} (hx1 : (Start.startedBy H1)[cenv.span]? = some (clientStarted cenv full))
    {csp : Span} (hs : st1.spans[cenv.span]? = some csp) (hw : LenOK csp.ctx) (hz : csp.ctx.spanID ≠ List.replicate 8 0)
    {senv : Env} {ops : List Op} (hserve : serverStart false senv (clientMetadata [] csp.ctx) full = .ok ops)
    {t2 : Int} {before after : List Op} {st2 : Trace.State} (hrun2 : run (State.init t2) (before ++ ops ++ after) = .ok st2)
    (hidx : (Start.startedBy before).length = senv.span) :
    csp.ctx.spanID = cenv.sid ∧
    ∃ ssp, st2.spans[senv.span]? = some ssp ∧ ssp.ctx.traceID = csp.ctx.traceID ∧ ssp.ctx.spanID = senv.sid ∧
      ∀ r, ssp.data = some r → r.data.parentSpanID = cenv.sid := by
  obtain ⟨s0, h1, h2, _⟩ := Start.trace_continuity hrun1 hx1
  rw [hs] at h1; cases h1
  have hz' : csp.ctx ≠ .zero := by intro h; apply hz; rw [h]; rfl
  obtain ⟨⟨p, hp, hof⟩, _⟩ := trace_read_back_partial hw hz'
  obtain ⟨p', ops', g1, g2, g3, _⟩ := server_starts false senv (clientMetadata [] csp.ctx) full
  rw [hserve] at g2; cases g2
  rw [hp] at g1; cases g1
  have hx2 : (Start.startedBy (before ++ ops ++ after))[senv.span]? =
      some (serverStarted false senv (some (sent csp.ctx)) full) := by
    have : Start.startedBy (before ++ ops ++ after) =
        Start.startedBy before ++ (Start.startedBy ops ++ Start.startedBy after) := by simp [Start.startedBy]
    rw [this, g3, List.getElem?_append_right (by omega), ← hidx]
    simp [hof]
  obtain ⟨s, k1, k2, k3⟩ := Start.trace_continuity hrun2 hx2
  have hnz : sent csp.ctx ≠ .zero := by
    intro h
    exact hz (congrArg SpanContext.spanID h)
  have ho : (serverStarted false senv (some (sent csp.ctx)) full).origin = .remote (sent csp.ctx) := rfl
  rw [ho] at k3
  simp only [Start.parentCtx, if_neg hnz] at k3
  exact ⟨h2, s, k1, k3.1, k2, fun r hr => (k3.2 r hr).trans h2⟩

/-- A value the caller already had under the key wins: the client appends, the server reads the first. The
call is then not in the client's trace. -/
theorem stale_parent_wins {old sc : SpanContext} (hw : LenOK old) (hz : old ≠ .zero) :
    ∃ p, serverParent (clientMetadata [(Wire.toBinary (toWire old)).getD []] sc) = .ok (some p) ∧ ofWire p = sent old :=
  parent_of_first hw hz _

/-! ## The tags -/

theorem decode_good {b : Bytes} (hlen : b.length < 2 ^ 63) {m : Tag.TMap} (h : Tag.decode b = .ok m) :
    GoodTags (some m) := by
  have hwf : GoMap.WF m := by
    unfold Tag.decode at h
    have gen : ∀ (l : List (Tag.Key × Bytes)) (m0 : Tag.TMap), GoMap.WF m0 →
        GoMap.WF (l.foldl (fun ts c => Tag.upsert ts c.1 c.2 (Tag.createMetadatas [.withTTL Tag.ttlUnlimited])) m0) := by
      intro l
      induction l with
      | nil => intro m0 h; exact h
      | cons c l ih => intro m0 h; exact ih _ (GoMap.WF_set h _ _)
    split at h
    · cases h; exact gen _ _ (by simp [GoMap.WF, GoMap.keys])
    · cases h
    · cases h
  intro l hl
  cases hl
  refine ⟨hwf, ?_⟩
  intro e he
  have hget := GoMap.get_of_mem hwf he
  rcases (Tag.decode_ok_iff b hlen (fun k => GoMap.get m k)).1 ⟨m, h, fun _ => rfl⟩ with ⟨_, h2⟩ | ⟨rest, es, _, _, hgood, hf⟩
  · rw [h2] at hget; cases hget
  · have := hf e.1
    rw [hget] at this
    cases hl : (es.filter fun p => p.1 == e.1.name).getLast? with
    | none => rw [hl] at this; cases this
    | some p =>
      rw [hl] at this
      have hmem := List.mem_of_getLast? hl
      obtain ⟨hm1, hm2⟩ := List.mem_filter.1 hmem
      have hg := hgood p hm1
      have hv : e.2.value = p.2 := by
        have := Option.some.inj this
        rw [this]
      have hn : p.1 = e.1.name := by simpa using hm2
      exact ⟨(Tag.checkKeyName_iff _).2 (hn ▸ hg.1), by rw [hv]; exact (Tag.checkValue_iff _).2 hg.2⟩

/-- **C58.** The tags the client sends are those of its context that are meant to be propagated (unlimited
time to live), and they are the tags of the server's context, with the method. -/
theorem tags_continue {m : Tag.TMap} (hm : Tag.ValidMap m) {full : Bytes} (hv : Tag.checkValue (methodName full) = true) :
    ∃ b, clientTags (some m) = .ok (some b) ∧ (b.length < 2 ^ 63 →
      ∃ m', serverTags (some b) full = .ok (some m') ∧
        (GoMap.get m' keyServerMethod).map (·.value) = some (methodName full) ∧
        ∀ k, k ≠ keyServerMethod → GoMap.get m' k = (GoMap.get m k).filter fun c => c.m.ttl == -1) := by
  obtain ⟨b, hb, hrest⟩ := Tag.decode_encode m m hm (List.Perm.refl _)
  refine ⟨b, by unfold clientTags; simp only; rw [hb]; rfl, ?_⟩
  intro hlen
  obtain ⟨m', hd, hget⟩ := hrest hlen
  obtain ⟨m'', h1, h2, h3⟩ := tagNew_spec (decode_good hlen hd) (kvs := [(keyServerMethod, methodName full)])
    (by intro kv hkv; simp only [List.mem_singleton] at hkv; subst hkv; exact hv) (by simp)
  have hx : extractTags (some b) = .ok (some m') := by unfold extractTags; simp only; rw [hd]
  refine ⟨m'', by unfold serverTags; rw [hx]; simp only [Res.bind]; rw [h1], h2 (keyServerMethod, methodName full) (by simp), ?_⟩
  intro k hk
  rw [h3 k (by simpa using hk)]
  exact hget k

/-- When the method is not a valid tag value, the server keeps the tags that were sent, without the method. -/
theorem bad_method_keeps_tags {m : Tag.TMap} (hm : Tag.ValidMap m) {full : Bytes} (hv : Tag.checkValue (methodName full) = false) :
    ∃ b, clientTags (some m) = .ok (some b) ∧ (b.length < 2 ^ 63 →
      ∃ m', serverTags (some b) full = .ok (some m') ∧
        ∀ k, GoMap.get m' k = (GoMap.get m k).filter fun c => c.m.ttl == -1) := by
  obtain ⟨b, hb, hrest⟩ := Tag.decode_encode m m hm (List.Perm.refl _)
  refine ⟨b, by unfold clientTags; simp only; rw [hb]; rfl, ?_⟩
  intro hlen
  obtain ⟨m', hd, hget⟩ := hrest hlen
  have hx : extractTags (some b) = .ok (some m') := by unfold extractTags; simp only; rw [hd]
  refine ⟨m', ?_, hget⟩
  have hn : tagNew (some m') [(keyServerMethod, methodName full)] = none := by
    unfold tagNew
    rcases Tag.copyAllP [] (Option.getD (some m') []) with ⟨l, _ | e⟩
    · simp [Tag.mutateAllP, Tag.mutateP, hv]
    · rfl
  unfold serverTags; rw [hx]; simp only [Res.bind]; rw [hn]

example : ∃ full, Tag.checkValue (methodName full) = false := ⟨[47, 195, 169], by decide⟩

/-- Without tags, or with tags it cannot read, the server has the method alone: also when its context had
other tags. -/
theorem server_without_tags {full : Bytes} (hv : Tag.checkValue (methodName full) = true) :
    ∃ m', serverTags none full = .ok (some m') ∧ (GoMap.get m' keyServerMethod).map (·.value) = some (methodName full) ∧
      ∀ k, k ≠ keyServerMethod → GoMap.get m' k = none := by
  obtain ⟨m'', h1, h2, h3⟩ := tagNew_spec (m := none) (fun l hl => by cases hl) (kvs := [(keyServerMethod, methodName full)])
    (by intro kv hkv; simp only [List.mem_singleton] at hkv; subst hkv; exact hv) (by simp)
  refine ⟨m'', by unfold serverTags extractTags; simp only [Res.bind]; rw [h1], h2 (keyServerMethod, methodName full) (by simp), ?_⟩
  intro k hk
  rw [h3 k (by simpa using hk)]; rfl

/-- A peer can crash the server with twelve bytes of tags: `tag.Decode` panics on them, outside of any
handler that could recover. -/
theorem tags_from_network_panic (full : Bytes) :
    serverTags (some [0, 0, 0x80, 0x80, 0x80, 0x80, 0x80, 0x80, 0x80, 0x80, 0x80, 0x01]) full = .panic := by
  unfold serverTags extractTags
  simp only
  rw [Tag.decode_can_panic]; rfl

/-! ## The hypotheses can be met -/

def demoEnv : Env := ⟨some demoTags, none, some (fun _ => true), List.replicate 16 1, List.replicate 8 2, 0⟩
def demoServer : Env := ⟨none, none, some (fun _ => true), List.replicate 16 8, List.replicate 8 9, 0⟩
def demoClientOps : List Op := clientStart demoEnv (str "/pkg.Service/Method")

/-- The client's span and what it sends. -/
def demoSent : Option (Bytes × List Bytes) :=
  match run (State.init 0) demoClientOps with
  | .ok st => (st.spans[0]?).map fun sp => (sp.ctx.spanID, clientMetadata [] sp.ctx)
  | _ => none

/-- What a server makes of it: trace ID, parent, name, kind and status of the exported span. -/
def demoReceived (isPublic : Bool) : Option (List (List Bytes × List Int)) :=
  demoSent.bind fun x =>
    match serverStart isPublic demoServer x.2 (str "/pkg.Service/Method"), (State.init ⟨none, some 0, some (str "/pkg.Service/Method")⟩ [str "Client", str "FailFast"]
        [.begin false false, .inPayload 3 4, .outPayload 5 6, .end false (.status 5 (str "nope"))]).run
        [0, 1, 2, 0, 1, 2, 1, 2, 3, 3, 3, 3, 3, 3, 3] with
    | .ok ops, some s => match run (State.init 0) (.registerExporter 7 :: ops ++ rpcOps s) with
      | .ok st => some (st.exported.map fun e => ([e.2.2.ctx.traceID, e.2.2.parentSpanID, e.2.2.name], [e.2.2.kind,
          e.2.2.status.code, e.2.2.links.length]))
      | _ => none
    | _, _ => none

example : demoReceived false =
    some [([List.replicate 16 1, List.replicate 8 2, str "pkg.Service.Method"], [1, 5, 0])] := by decide +kernel

example : demoReceived true =
    some [([List.replicate 16 8, List.replicate 8 0, str "pkg.Service.Method"], [1, 5, 1])] := by decide +kernel

example : Tag.ValidMap [(⟨str "k"⟩, ⟨str "v", ⟨-1⟩⟩), (⟨str "local"⟩, ⟨str "w", ⟨0⟩⟩)] := by
  refine ⟨by simp [GoMap.WF, GoMap.keys]; decide, ?_⟩
  intro e he
  simp only [List.mem_cons, List.not_mem_nil, or_false] at he
  rcases he with rfl | rfl
  · exact ⟨(Tag.checkKeyName_iff _).1 (by decide), (Tag.checkValue_iff _).1 (by decide)⟩
  · exact ⟨(Tag.checkKeyName_iff _).1 (by decide), (Tag.checkValue_iff _).1 (by decide)⟩

end Verif.Props.Grpc
