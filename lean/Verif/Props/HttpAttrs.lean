import Verif.Props.HttpServer
import Verif.Props.HttpClientConc

/-!
# C64: the attributes of an HTTP span describe the request and the response

The span of an HTTP request, client or server side, in the trace model: whatever else the program does,
what is exported for it are the path, URL, host, method and (if there is one) user agent of the request
and the status code of the response, each under its own key, nothing else, and nothing counted as dropped.
-/

namespace Verif.Props.HttpAttrs
open Verif Verif.Trace Verif.Http Verif.Props.HttpClient

/-! ## Specification -/

/-- The value the attribute `k` should have; `status` is the code of the response, if there was one. -/
def described (req : Request) (status : Option Int) (k : Bytes) : Option Bytes :=
  if k = str "http.path" then some req.path
  else if k = str "http.url" then some req.url
  else if k = str "http.host" then some req.host
  else if k = str "http.method" then some req.method
  else if k = str "http.user_agent" then if req.userAgent = [] then none else some req.userAgent
  else if k = str "http.status_code" then status.map itoa
  else none

/-- No configuration the program applies has room for fewer than the six attributes (zero and below
leave the limit as it was). -/
def Room (H : List Op) : Prop := ∀ c ∈ Spans.applied H, c.maxAttributes ≤ 0 ∨ 6 ≤ c.maxAttributes

/-! ## Lemmas -/

theorem recent_distinct {hist : List (Bytes × Bytes)} (h : (hist.map Prod.fst).Nodup) :
    (recent hist).length = hist.length ∧ ∀ k, k ∈ recent hist ↔ k ∈ hist.map Prod.fst := by
  induction hist using List.reverseRecOn with
  | nil => exact ⟨rfl, fun k => Iff.rfl⟩
  | append_singleton l a ih =>
    rw [List.map_append, List.nodup_append] at h
    obtain ⟨h1, _, h3⟩ := h
    obtain ⟨i1, i2⟩ := ih h1
    have hf : (recent l).filter (fun k => decide (k ≠ a.1)) = recent l := by
      rw [List.filter_eq_self]
      intro k hk
      simpa using h3 k ((i2 k).mp hk) a.1 (by simp)
    rw [recent_snoc, hf]
    refine ⟨by simp [i1], ?_⟩
    intro k
    rw [List.mem_cons, i2, List.map_append, List.mem_append, List.map_singleton, List.mem_singleton]
    exact Or.comm

theorem misses_distinct (n : Nat) {hist : List (Bytes × Bytes)} (h : (hist.map Prod.fst).Nodup) :
    misses n hist = hist.length := by
  induction hist using List.reverseRecOn with
  | nil => rfl
  | append_singleton l a ih =>
    rw [List.map_append, List.nodup_append] at h
    obtain ⟨h1, _, h3⟩ := h
    rw [misses_snoc, ih h1, if_neg, List.length_append, List.length_singleton]
    intro hm
    have := ((recent_distinct h1).2 a.1).mp (List.mem_of_mem_take hm)
    exact h3 _ this a.1 (by simp) rfl

/-- The attributes an operation sets. -/
def attrOf : Op → List (Bytes × Bytes)
  | .addAttributes _ l => l.map fun a => (a.key, a.value)
  | _ => []

theorem attrs_filter (i : Nat) (now : Int) (l : List Op) :
    (adds i now l).attrs = (l.filter (onIt i)).flatMap attrOf := by
  induction l generalizing now with
  | nil => rfl
  | cons op l ih =>
    show (opAdds now i op).attrs ++ (adds i _ l).attrs = _
    rw [ih]
    by_cases h : onIt i op = true
    · rw [List.filter_cons_of_pos h, List.flatMap_cons]
      congr 1
      cases op with
      | addAttributes s x =>
        have : s = some i := by simpa [onIt, Spans.target] using h
        subst this
        simp [opAdds, attrOf]
      | _ => simp only [opAdds, attrOf] <;> (try split) <;> rfl
    · rw [List.filter_cons_of_neg h]
      have : (opAdds now i op).attrs = [] := by
        cases op with
        | addAttributes s x =>
          have : s ≠ some i := by rintro rfl; exact h (by simp [onIt, Spans.target])
          simp [opAdds, this, Adds.none]
        | _ => simp only [opAdds]; (try split) <;> rfl
      rw [this, List.nil_append]

theorem limit_room {H : List Op} (h : Room H) : 6 ≤ Spans.limit Trace.Config.maxAttributes 32 H := by
  unfold Spans.limit
  rw [List.getLastD_eq_getLast?]
  cases hl : (((Spans.applied H).map Trace.Config.maxAttributes).filter (fun n => decide (0 < n))).getLast? with
  | none => decide
  | some x =>
    have hm := List.mem_filter.mp (List.mem_of_getLast? hl)
    obtain ⟨c, hc, rfl⟩ := List.mem_map.mp hm.1
    have h0 : 0 < c.maxAttributes := by simpa using hm.2
    have := h c hc
    simp only [Option.getD_some]
    omega

theorem exported_of {t : Int} {H : List Op} {st : State} (hrun : run (State.init t) H = .ok st) (hroom : Room H)
    (hr : ∀ name orders, Op.reportActive name orders ∉ H) {i : Nat} {pre rest : List Op} {o : List Bytes}
    (hown : H.filter (onIt i) = pre ++ .endSpan (some i) o :: rest) (hno : ∀ o, Op.endSpan (some i) o ∉ pre)
    {L : List (Bytes × Bytes)} (hL : pre.flatMap attrOf = L) (hnd : (L.map Prod.fst).Nodup) (hlen : L.length ≤ 6)
    {e : Nat} {sd : SpanData} (hx : (e, i, sd) ∈ st.exported) :
    (∀ k, GoMap.get sd.attributes k = lastVal L k) ∧ sd.droppedAttributes = 0 := by
  obtain ⟨c, op, d, order, b, x, g1, g2, g3, g4, A, n, kept, hA, hn, hk, hget, hdrop⟩ := Spans.exported_attributes hrun hx hr
  have hpre : (c ++ op :: d).filter (onIt i) = pre := by
    have h := hown
    rw [g1, List.filter_append, List.filter_cons_of_pos (by simp [onIt, Spans.target])] at h
    refine prefix_unique h ?_ hno
    intro o hm
    exact g4 o (List.mem_filter.mp hm).1
  rw [attrs_filter, hpre, hL] at hA
  subst hA
  have hc : Room c := by
    intro cf hcf
    refine hroom cf ?_
    rw [g1]
    simp only [Spans.applied, List.filterMap_append] at hcf ⊢
    exact List.mem_append_left _ (List.mem_append_left _ hcf)
  have h6 := limit_room hc
  obtain ⟨r1, r2⟩ := recent_distinct hnd
  have hkept : kept = recent A := by
    rw [hk, List.take_of_length_le]; omega
  subst hkept
  refine ⟨?_, ?_⟩
  · intro k
    rw [hget]
    by_cases hm : k ∈ recent A
    · rw [if_pos hm]
    · rw [if_neg hm]
      rw [r2] at hm
      unfold lastVal
      symm
      rw [Option.map_eq_none_iff, List.find?_eq_none]
      intro a ha
      simp only [decide_eq_true_eq]
      rintro rfl
      exact hm (List.mem_map.mpr ⟨a, List.mem_reverse.mp ha, rfl⟩)
  · rw [misses_distinct n hnd] at hdrop
    omega

/-- The attributes, in the order they are set. -/
def listed (req : Request) (status : Option Int) : List (Bytes × Bytes) :=
  (requestAttrs req).map (fun a => (a.key, a.value)) ++
    match status with
    | some c => [(str "http.status_code", itoa c)]
    | none => []

theorem listed_keys (req : Request) (status : Option Int) :
    ((listed req status).map Prod.fst).Nodup ∧ (listed req status).length ≤ 6 := by
  unfold listed requestAttrs
  by_cases hu : req.userAgent = [] <;> cases status <;> simp only [hu, ne_eq, not_true_eq_false, not_false_eq_true, if_true, if_false, List.map_cons,
      List.map_nil, List.map_append, List.cons_append, List.nil_append, List.append_nil] <;> exact ⟨by decide, by simp⟩

theorem listed_described (req : Request) (status : Option Int) (k : Bytes) :
    lastVal (listed req status) k = described req status k := by
  unfold lastVal described listed requestAttrs
  by_cases h1 : k = str "http.path"
  · subst h1
    by_cases hu : req.userAgent = [] <;> cases status <;> simp (decide := true) [hu, List.find?]
  by_cases h2 : k = str "http.url"
  · subst h2
    by_cases hu : req.userAgent = [] <;> cases status <;> simp (decide := true) [hu, List.find?]
  by_cases h3 : k = str "http.host"
  · subst h3
    by_cases hu : req.userAgent = [] <;> cases status <;> simp (decide := true) [hu, List.find?]
  by_cases h4 : k = str "http.method"
  · subst h4
    by_cases hu : req.userAgent = [] <;> cases status <;> simp (decide := true) [hu, List.find?]
  by_cases h5 : k = str "http.user_agent"
  · subst h5
    by_cases hu : req.userAgent = [] <;> cases status <;> simp (decide := true) [hu, List.find?]
  by_cases h6 : k = str "http.status_code"
  · subst h6
    by_cases hu : req.userAgent = [] <;> cases status <;> simp (decide := true) [hu, List.find?]
  by_cases hu : req.userAgent = [] <;> cases status <;>
    simp [hu, List.find?, h1, h2, h3, h4, h5, h6, Ne.symm h1, Ne.symm h2, Ne.symm h3, Ne.symm h4, Ne.symm h5, Ne.symm h6]

theorem no_attrs_calls (i : Nat) (order : List Bytes) (cs : List Call) :
    (cs.flatMap (spanOps i order)).flatMap attrOf = [] := by
  induction cs with
  | nil => rfl
  | cons c cs ih =>
    rw [List.flatMap_cons, List.flatMap_append, ih, List.append_nil]
    cases c with
    | read n e => cases e <;> rfl
    | close e => rfl

/-- The link to the incoming context. -/
def linkOps (env : Env) (ex : Option SpanContext) (isPublic : Bool) : List Op :=
  match ex, isPublic with
  | some sc, true => [.addLink (some env.span) ⟨sc.traceID, sc.spanID, 2, none⟩]
  | _, _ => []

theorem linkOps_spec (env : Env) (ex : Option SpanContext) (isPublic : Bool) :
    (linkOps env ex isPublic).flatMap attrOf = [] ∧ ∀ o, Op.endSpan (some env.span) o ∉ linkOps env ex isPublic := by
  cases ex <;> cases isPublic <;> simp [linkOps, attrOf]

/-! ## Property theorems -/

/-- A request that gets a response: whatever the caller does with the body (as long as it is read to the
end or closed, so that the span ends), the exported attributes are those of the request and the status
code of the response. -/
theorem client_attributes (env : Env) (req : Request) (r : Response) (hb : r.bodyNil = false) (cs : List Call)
    (hfin : cs.any finishing = true) {b' : Body} {rets : List Ret}
    (hcalls : (roundTrip env req (.resp r)).1.calls cs = .ok (b', rets))
    {t : Int} {H : List Op} {st : State} (hrun : run (State.init t) H = .ok st)
    (hown : H.filter (onIt env.span) = (traceOps b'.log).tail)
    (hr : ∀ name orders, Op.reportActive name orders ∉ H) (hroom : Room H)
    {e : Nat} {sd : SpanData} (hx : (e, env.span, sd) ∈ st.exported) :
    (∀ k, GoMap.get sd.attributes k = described req (some r.statusCode) k) ∧ sd.droppedAttributes = 0 := by
  obtain ⟨b1, rets1, h1, h2⟩ := span_operations env req r hb cs
  rw [hcalls] at h1
  cases h1
  rw [h2] at hown
  simp only [List.cons_append, List.nil_append, List.tail_cons] at hown
  obtain ⟨ca, cb, k1, k2, k3⟩ := calls_split env.span env.order cs hfin
  have hca : ca.flatMap attrOf = [] := by
    have := no_attrs_calls env.span env.order cs
    rw [k1, List.flatMap_append] at this
    exact (List.append_eq_nil_iff.mp this).1
  rw [k1] at hown
  obtain ⟨n1, n2⟩ := listed_keys req (some r.statusCode)
  obtain ⟨q1, q2⟩ := exported_of hrun hroom hr (pre := [.addAttributes (some env.span) (requestAttrs req),
       .addAttributes (some env.span) [⟨str "http.status_code", itoa r.statusCode⟩],
       .setStatus (some env.span) (traceStatus r.statusCode)] ++ ca) (by simpa using hown) (by
      intro o hm
      simp only [List.cons_append, List.nil_append, List.mem_cons, reduceCtorEq, false_or] at hm
      exact k2 o hm) (L := listed req (some r.statusCode)) (by
      rw [List.flatMap_append, hca]; simp [attrOf, listed]) n1 n2 hx
  exact ⟨fun k => by rw [q1, listed_described], q2⟩

/-- A request the base transport fails: the attributes of the request, and no status code. -/
theorem client_error_attributes (env : Env) (req : Request) (msg : Bytes)
    {t : Int} {H : List Op} {st : State} (hrun : run (State.init t) H = .ok st)
    (hown : H.filter (onIt env.span) = (traceOps (roundTrip env req (.err msg)).1.log).tail)
    (hr : ∀ name orders, Op.reportActive name orders ∉ H) (hroom : Room H)
    {e : Nat} {sd : SpanData} (hx : (e, env.span, sd) ∈ st.exported) :
    (∀ k, GoMap.get sd.attributes k = described req none k) ∧ sd.droppedAttributes = 0 := by
  obtain ⟨_, _, _, _, _, h2⟩ := error_once env req msg
  rw [h2] at hown
  obtain ⟨n1, n2⟩ := listed_keys req none
  obtain ⟨q1, q2⟩ := exported_of hrun hroom hr (pre := [.addAttributes (some env.span) (requestAttrs req),
       .setStatus (some env.span) ⟨2, msg⟩]) (by simpa using hown) (by simp) (L := listed req none)
       (by simp [attrOf, listed]) n1 n2 hx
  exact ⟨fun k => by rw [q1, listed_described], q2⟩

/-- A request a handler serves: the attributes of the request and the status code recorded for the
response, whether the handler returns or panics. -/
theorem server_attributes (cfg : HandlerConfig) (env : Env) (req : Request) (ex : Option SpanContext)
    (ops : List HOp) (panics : Bool) (hh : ¬ HttpServer.isHealth cfg req) {w : Writer} {rets : List HRet} {p : Bool}
    (hs : serveHTTP cfg env req ex ops panics = (w, rets, p))
    {t : Int} {H : List Op} {st : State} (hrun : run (State.init t) H = .ok st)
    (hown : H.filter (onIt env.span) = (traceOps w.log).tail)
    (hr : ∀ name orders, Op.reportActive name orders ∉ H) (hroom : Room H)
    {e : Nat} {sd : SpanData} (hx : (e, env.span, sd) ∈ st.exported) :
    (∀ k, GoMap.get sd.attributes k = described req (some (HttpServer.finalStatus ops)) k) ∧ sd.droppedAttributes = 0 := by
  obtain ⟨w', h1, _, h3, _⟩ := HttpServer.serve_spec cfg env req ex ops panics
  rw [hs] at h1
  cases h1
  have hctx : HttpServer.ctxSpan cfg env req ex = some env.span := by
    unfold HttpServer.ctxSpan; rw [HttpServer.startTrace_other hh]; rfl
  rw [hctx, HttpServer.startTrace_other hh] at h3
  simp only at h3
  obtain ⟨n1, n2⟩ := listed_keys req (some (HttpServer.finalStatus ops))
  have hsp : ∀ i : Nat, (ops.flatMap (HttpServer.spanOps (some i))).flatMap attrOf = [] ∧
      ∀ o, Op.endSpan (some i) o ∉ ops.flatMap (HttpServer.spanOps (some i)) := by
    intro i
    refine ⟨?_, ?_⟩
    · rw [List.flatMap_eq_nil_iff]
      intro op hm
      obtain ⟨c, _, hc⟩ := List.mem_flatMap.mp hm
      cases c <;> simp [HttpServer.spanOps] at hc
      subst hc; rfl
    · intro o hm
      obtain ⟨c, _, hc⟩ := List.mem_flatMap.mp hm
      cases c <;> simp [HttpServer.spanOps] at hc
  obtain ⟨s1, s2⟩ := hsp env.span
  -- the operations between the start and the end
  have hpre : ∃ pre, (traceOps w.log).tail = pre ++ [.endSpan (some env.span) env.order] ∧
      (∀ o, Op.endSpan (some env.span) o ∉ pre) ∧
      pre.flatMap attrOf = listed req (some (HttpServer.finalStatus ops)) := by
    let body : List Op := if req.bodyNil then []
      else if req.contentLength > 0 then [.addMessageEvent (some env.span) .recv 0 req.contentLength (-1)] else []
    have hbody : body.flatMap attrOf = [] ∧ ∀ o, Op.endSpan (some env.span) o ∉ body := by
      show (List.flatMap attrOf (ite _ _ _)) = [] ∧ ∀ o, _ ∉ (ite _ _ _ : List Op)
      split
      · simp
      · split <;> simp [attrOf]
    obtain ⟨l1, l2⟩ := linkOps_spec env ex cfg.isPublic
    refine ⟨linkOps env ex cfg.isPublic ++ ([.addAttributes (some env.span) (requestAttrs req)] ++ (body ++
      (ops.flatMap (HttpServer.spanOps (some env.span)) ++
      [.setStatus (some env.span) (traceStatus (HttpServer.finalStatus ops)),
       .addAttributes (some env.span) [⟨str "http.status_code", itoa (HttpServer.finalStatus ops)⟩]]))), ?_, ?_, ?_⟩
    · rw [h3]
      cases ex with
      | none => simp [linkOps, body]
      | some sc => cases hp : cfg.isPublic <;> simp [linkOps, body, hp]
    · intro o hm
      simp only [List.mem_append] at hm
      rcases hm with hm | hm | hm | hm | hm
      · exact l2 o hm
      · simp at hm
      · exact hbody.2 o hm
      · exact s2 o hm
      · simp at hm
    · simp only [List.flatMap_append, l1, hbody.1, s1]
      simp [attrOf, listed]
  obtain ⟨pre, p1, p2, p3⟩ := hpre
  rw [p1] at hown
  obtain ⟨q1, q2⟩ := exported_of hrun hroom hr hown p2 p3 n1 n2 hx
  exact ⟨fun k => by rw [q1, listed_described], q2⟩

/-! ## The hypotheses can be met -/

/-- What the exporters were handed for span `i`: the values of the given keys, how many attributes there
are, and the dropped count. -/
def out (H : List Op) (i : Nat) (ks : List String) : List (Nat × List (Option Bytes) × Nat × Int) :=
  match run (State.init 0) H with
  | .ok st => (st.exported.filter fun x => decide (x.2.1 = i)).map fun x =>
      (x.1, ks.map (fun k => GoMap.get x.2.2.attributes (str k)), x.2.2.attributes.length, x.2.2.droppedAttributes)
  | _ => []

def keys : List String := ["http.host", "http.path", "http.url", "http.method", "http.status_code", "http.user_agent"]

def demoReq : Request := { req0 with userAgent := str "curl" }

def env1 : Env := { demoEnv with order := keys.map str }

/-- A request with a user agent among operations on another span, with room for exactly six attributes. -/
def around (l : List Op) : List Op :=
  [.registerExporter 7, .applyConfig ⟨none, none, 0, 0, 6, 0⟩,
   .start none (str "other") [.sampler (some fun _ => false)] (List.replicate 16 9) (List.replicate 8 9)] ++
    l ++ [.endSpan (some 0) []]

def clientOps : List Op :=
  match (roundTrip env1 demoReq (.resp resp0)).1.calls demoCalls with
  | .ok (b, _) => around (traceOps b.log)
  | _ => []

example : out clientOps 1 keys =
    [(7, [some (str "h"), some (str "/x"), some (str "http://h/x"), some (str "GET"), some (str "200"), some (str "curl")], 6, 0)] := by
  decide +kernel

example : out (around (traceOps (roundTrip { env1 with order := ["http.host", "http.path", "http.url", "http.method"].map str } req0
    (.err (str "refused"))).1.log)) 1 keys =
    [(7, [some (str "h"), some (str "/x"), some (str "http://h/x"), some (str "GET"), none, none], 4, 0)] := by
  decide +kernel

example : out (around (traceOps (serveHTTP HttpServer.demoCfg env1 demoReq (some HttpServer.demoSc) HttpServer.demoHandler true).1.log)) 1 keys =
    [(7, [some (str "h"), some (str "/x"), some (str "http://h/x"), some (str "GET"), some (str "503"), some (str "curl")], 6, 0)] := by
  decide +kernel

example : ∃ b rets, (roundTrip env1 demoReq (.resp resp0)).1.calls demoCalls = .ok (b, rets) ∧
    clientOps.filter (onIt env1.span) = (traceOps b.log).tail := ⟨_, _, rfl, rfl⟩

example : (clientOps.all fun op => match op with | .reportActive _ _ => false | _ => true) = true := rfl

example : Room clientOps := by
  have : Spans.applied clientOps = [⟨none, none, 0, 0, 6, 0⟩] := rfl
  intro c hc
  rw [this, List.mem_singleton] at hc
  subst hc; exact Or.inr (by decide)

end Verif.Props.HttpAttrs
