import Verif.Props.HttpViews
import Verif.Props.HttpServer

/-!
# C68: the server views of the HTTP plugin count the requests
-/

namespace Verif.Props.HttpServerViews
open Verif Verif.Tag Verif.Stats Verif.View Verif.View.Spec Verif.Props.Rows Verif.Props.Worker Verif.Props.ViewCounts
open Verif.Props.HttpViews (Sent ValidTags valid_set valid_tagNew fit_sent sample_command given_tagMap samplesOf_sent itoa_ne
  inSize inBucket_size sent_map)
open Verif.Http (Env Request HandlerConfig HOp Tags Meas records itoa serveHTTP)
open Verif.Plugins.Http (measureOf measurement tagMap command)
open Verif.Props.HttpServer (routes finalStatus written)

/-! ## Specification -/

/-- A request served by the handler: the calls the user's handler makes, and whether it is over (it returned or panicked).
`before` is how many of its `stats.Record` calls the worker had handled before the view was registered. -/
structure Served where
  cfg : HandlerConfig
  env : Env
  req : Request
  remote : Option Trace.SpanContext
  ops : List HOp
  panics : Bool
  over : Bool
  before : Nat

/-- The `stats.Record` calls the model makes for a request. -/
def Served.log (x : Served) : List (Tags × List Meas) :=
  let l := records (serveHTTP x.cfg x.env x.req x.remote x.ops x.panics).1.log
  if x.over then l else l.take 1

/-- The method in the views: the request's, unless the host, path or method is not a valid tag value, when it is the
one the caller's context has. -/
def method (x : Served) : Bytes :=
  if checkValue x.req.host ∧ checkValue x.req.path ∧ checkValue x.req.method then x.req.method
  else (GoMap.get x.env.tags (str "http.method")).getD []

/-- The tags of the context are valid. -/
def Proper (x : Served) : Prop := ∀ e ∈ x.env.tags, checkValue e.2 = true

/-- The request started after the view was registered. -/
def startedSince (x : Served) : Prop := x.before = 0

/-- The request was over, and recorded so, after the view was registered. A request with a route that is not a valid
tag value is not recorded. -/
def overSince (x : Served) : Prop := x.over = true ∧ (∀ r ∈ routes x.ops, checkValue r = true) ∧ x.before ≤ 1

instance (x : Served) : Decidable (startedSince x) := by unfold startedSince; infer_instance
instance (x : Served) : Decidable (overSince x) := by unfold overSince; infer_instance

/-- The tags of a row of a view with one key: none if the value is empty. -/
def rowTag (key : String) (value : Bytes) : List (Key × Bytes) := if value = [] then [] else [(⟨str key⟩, value)]

/-! ## Helper lemmas -/

/-- The measurements of the end of a request. -/
def endMeas (x : Served) : List Meas :=
  [⟨.serverLatency, none⟩, ⟨.serverResponseBytes, some (wrap64 (written x.ops))⟩] ++
    if HttpClient.requestSize x.req ≥ 0 then [⟨.serverRequestBytes, some (HttpClient.requestSize x.req)⟩] else []

theorem log_spec (x : Served) (hx : Proper x) :
    ∃ t0 t, x.log = (t0, [⟨.serverRequestCount, some 1⟩]) ::
        (if x.over = true ∧ ∀ r ∈ routes x.ops, checkValue r = true then [(t, endMeas x)] else []) ∧
      (GoMap.get t0 (str "http.method")).getD [] = method x ∧
      GoMap.get t (str "http.status") = some (itoa (finalStatus x.ops)) ∧
      ValidTags t0 ∧ ((∀ r ∈ routes x.ops, checkValue r = true) → ValidTags t) := by
  obtain ⟨cfg, env, req, ex, ops, panics, over, before⟩ := x
  obtain ⟨w, h1, _, _, h4⟩ := HttpServer.serve_spec cfg env req ex ops panics
  have hv0 : ValidTags (HttpServer.startTags env req) := by
    unfold HttpServer.startTags
    cases ht : Http.tagNew env.tags [(str "http.host", req.host), (str "http.path", req.path), (str "http.method", req.method)] with
    | none => exact hx
    | some t => exact valid_tagNew hx ht
  refine ⟨HttpServer.startTags env req, ((routes ops).map fun r => (str "http_server_route", r)).foldl
    (fun m kv => GoMap.set m kv.1 kv.2) (GoMap.set (HttpServer.startTags env req) (str "http.status") (itoa (finalStatus ops))),
    ?_, ?_, ?_, hv0, ?_⟩
  · simp only [Served.log, h1, h4]
    by_cases hr : ∀ r ∈ routes ops, checkValue r = true
    · rw [if_pos (List.all_eq_true.mpr hr)]
      cases over
      · simp
      · have hc : true = true ∧ ∀ r ∈ routes ops, checkValue r = true := ⟨rfl, hr⟩
        rw [if_pos rfl, if_pos hc]; rfl
    · have hr' : ¬ (routes ops).all checkValue = true := by rw [List.all_eq_true]; exact hr
      have hc : ¬ (over = true ∧ ∀ r ∈ routes ops, checkValue r = true) := fun h => hr h.2
      rw [if_neg hr', if_neg hc]
      cases over <;> rfl
  · have := HttpServer.requestTags_of (env := env) (req := req) (t := HttpServer.startTags env req) (fun _ _ _ => rfl)
    unfold HttpServer.requestTags at this
    unfold method
    by_cases h : checkValue req.host = true ∧ checkValue req.path = true ∧ checkValue req.method = true
    · rw [if_pos h] at this ⊢
      rw [this.2.2]; rfl
    · rw [if_neg h] at this ⊢
      rw [this _ (by decide) (by decide)]
  · rw [HttpServer.get_foldl_route, if_neg (by decide), GoMap.get_set_same]
  · intro hr
    have hv1 := valid_set hv0 (str "http.status") (Http.checkValue_itoa (finalStatus ops))
    simp only at hr
    generalize GoMap.set (HttpServer.startTags env req) (str "http.status") (itoa (finalStatus ops)) = t at hv1
    generalize routes ops = rs at hr
    induction rs generalizing t with
    | nil => exact hv1
    | cons r rs ih => exact ih _ (valid_set hv1 _ (hr r (by simp))) (fun r h => hr r (by simp [h]))

theorem fit_cmds {cmds : List (List Cmd)} {xs : List Served}
    (hxs : List.Forall₂ (fun x cs => Proper x ∧ Sent (x.log.drop x.before) cs) xs cmds) :
    ∀ cs ∈ cmds, ∀ c ∈ cs, ∃ t r, c = .record t r ∧ TagsFit r.tags := by
  induction hxs with
  | nil => simp
  | @cons x cs xs cmds h _ ih =>
    intro cs' hcs'
    rcases List.mem_cons.mp hcs' with rfl | hcs'
    · refine fit_sent h.2 fun y hy => ?_
      obtain ⟨t0, t, hl, _, _, hv0, hv⟩ := log_spec x h.1
      have hy := List.mem_of_mem_drop hy
      rw [hl] at hy
      rcases List.mem_cons.mp hy with rfl | hy
      · exact hv0
      · split at hy
        · next hc => rw [List.mem_singleton.mp hy]; exact hv hc.2
        · simp at hy
    · exact ih cs' hcs'

theorem specTags_one {tm : Option TMap} {k : String} {v : Bytes} (h : given tm ⟨str k⟩ = v) :
    specTags [⟨str k⟩] tm = rowTag k v := by
  simp only [specTags, List.map_cons, List.map_nil, h, rowTag]
  by_cases hv : v = [] <;> simp [hv]

theorem rowTag_inj {k : String} {v v' : Bytes} : rowTag k v = rowTag k v' ↔ v = v' := by
  unfold rowTag
  by_cases h : v = [] <;> by_cases h' : v' = [] <;> simp [h, h']

/-- What a request gives a view on the start count. -/
theorem start_samples {x : Served} (hx : Proper x) {cs : List Cmd} (hs : Sent (x.log.drop x.before) cs) :
    (¬ startedSince x → samplesOf (measureOf .serverRequestCount).name cs = []) ∧
    (startedSince x → ∃ tm s, samplesOf (measureOf .serverRequestCount).name cs = [(tm, s)] ∧
      given tm Plugins.Http.keyMethod = method x) := by
  obtain ⟨t0, t, hl, h1, _⟩ := log_spec x hx
  rw [hl] at hs
  have htail : ∀ y ∈ (if x.over = true ∧ ∀ r ∈ routes x.ops, checkValue r = true then [(t, endMeas x)] else []),
      (y.2.filter fun m => decide (m.measure = .serverRequestCount)) = [] := by
    intro y hy
    split at hy
    · rw [List.mem_singleton.mp hy]
      unfold endMeas
      by_cases h : HttpClient.requestSize x.req ≥ 0
      · simp only [if_pos h]; rfl
      · simp only [if_neg h]; rfl
    · simp at hy
  unfold startedSince
  cases hb : x.before with
  | zero =>
    refine ⟨fun h => absurd rfl h, fun _ => ?_⟩
    rw [hb] at hs
    cases hs with
    | @cons _ c0 _ cs' hc0 hs =>
      obtain ⟨now, md, lat, rfl⟩ := hc0
      rw [samplesOf_cons, sample_command, samplesOf_sent hs _ htail]
      exact ⟨some (tagMap md t0), ⟨(measurement lat ⟨.serverRequestCount, some 1⟩).v, [], now⟩, rfl, (given_tagMap md t0 _).trans h1⟩
  | succ k =>
    refine ⟨fun _ => ?_, fun h => absurd h (by omega)⟩
    rw [hb, List.drop_succ_cons] at hs
    exact samplesOf_sent hs _ fun y hy => htail y (List.mem_of_mem_drop hy)

/-- What a request gives a view on a measure recorded at the end. -/
theorem end_samples {x : Served} (hx : Proper x) {cs : List Cmd} (hs : Sent (x.log.drop x.before) cs)
    {M : Http.Measure} {v : Option Int} (hM : M ≠ .serverRequestCount)
    (hv : ((endMeas x).filter fun m => decide (m.measure = M)) = [⟨M, v⟩]) :
    (¬ overSince x → samplesOf (measureOf M).name cs = []) ∧
    (overSince x → ∃ tm s, samplesOf (measureOf M).name cs = [(tm, s)] ∧
      given tm Plugins.Http.keyStatus = itoa (finalStatus x.ops) ∧ ∀ k, v = some k → s.v = F64.rnd k) := by
  obtain ⟨t0, t, hl, _, h2, _⟩ := log_spec x hx
  have h0 : (([⟨.serverRequestCount, some 1⟩] : List Meas).filter fun m => decide (m.measure = M)) = [] := by
    simp [Ne.symm hM]
  rw [hl] at hs
  by_cases ho : x.over = true ∧ ∀ r ∈ routes x.ops, checkValue r = true
  swap
  · refine ⟨fun _ => ?_, fun h => absurd ⟨h.1, h.2.1⟩ ho⟩
    rw [if_neg ho] at hs
    refine samplesOf_sent hs M ?_
    intro y hy
    rw [List.mem_singleton.mp (List.mem_of_mem_drop hy)]
    exact h0
  rw [if_pos ho] at hs
  by_cases hb : x.before ≤ 1
  swap
  · refine ⟨fun _ => ?_, fun h => absurd h.2.2 hb⟩
    rw [List.drop_eq_nil_of_le (by simp; omega)] at hs
    exact samplesOf_sent hs M (by simp)
  refine ⟨fun h => absurd ⟨ho.1, ho.2, hb⟩ h, fun _ => ?_⟩
  have last : ∀ {c : Cmd}, (∃ now md lat, c = command now md lat (t, endMeas x)) →
      ∃ tm s, samplesOf (measureOf M).name [c] = [(tm, s)] ∧
      given tm Plugins.Http.keyStatus = itoa (finalStatus x.ops) ∧ ∀ k, v = some k → s.v = F64.rnd k := by
    rintro c ⟨now, md, lat, rfl⟩
    refine ⟨some (tagMap md t), ⟨(measurement lat ⟨M, v⟩).v, [], now⟩, ?_, ?_, ?_⟩
    · rw [sample_command]
      simp only [hv]
      rfl
    · refine (given_tagMap md t _).trans ?_
      rw [h2]; rfl
    · rintro k rfl
      rfl
  rcases Nat.le_one_iff_eq_zero_or_eq_one.mp hb with hb | hb
  · rw [hb] at hs
    cases hs with
    | @cons _ c0 _ cs' hc0 hs =>
      cases hs with
      | @cons _ c1 _ cs'' hc1 hs =>
        cases hs
        obtain ⟨now, md, lat, rfl⟩ := hc0
        obtain ⟨tm, s, g1, g2⟩ := last hc1
        refine ⟨tm, s, ?_, g2⟩
        rw [samplesOf_cons, sample_command, h0, g1]
        rfl
  · rw [hb] at hs
    cases hs with
    | @cons _ c1 _ cs'' hc1 hs =>
      cases hs
      exact last hc1

theorem filter_latency (x : Served) :
    ((endMeas x).filter fun m => decide (m.measure = .serverLatency)) = [⟨.serverLatency, none⟩] := by
  unfold endMeas
  by_cases h : HttpClient.requestSize x.req ≥ 0
  · rw [if_pos h]; rfl
  · rw [if_neg h]; rfl

theorem filter_response (x : Served) :
    ((endMeas x).filter fun m => decide (m.measure = .serverResponseBytes)) =
      [⟨.serverResponseBytes, some (wrap64 (written x.ops))⟩] := by
  unfold endMeas
  by_cases h : HttpClient.requestSize x.req ≥ 0
  · rw [if_pos h]; rfl
  · rw [if_neg h]; rfl

/-- Each part has at most one sample, and a predicate says which have one that satisfies `P`. -/
theorem one_each {α : Type} {others mid : List Cmd} {cmds : List (List Cmd)} {xs : List α} {R : α → List Cmd → Prop}
    (hxs : List.Forall₂ R xs cmds) {measure : Bytes} (hmid : Inter (others :: cmds) mid)
    (ho : ∀ c ∈ others, Foreign measure c) (P : Option TMap × Sample F64 → Bool) (A Q : α → Prop)
    [DecidablePred A] [DecidablePred Q]
    (h : ∀ x cs, R x cs → (¬ A x → samplesOf measure cs = [] ∧ ¬ Q x) ∧
      (A x → ∃ r, samplesOf measure cs = [r] ∧ (P r = true ↔ Q x))) :
    (samplesOf measure mid).length ≤ xs.length ∧ (samplesOf measure mid).countP P = xs.countP fun x => decide (Q x) := by
  refine ⟨length_parts hmid ho (hxs.imp ?_), count_parts hmid ho _ _ (hxs.imp ?_)⟩
  · intro x cs hR
    obtain ⟨e1, e2⟩ := h x cs hR
    by_cases hA : A x
    · obtain ⟨r, hr, _⟩ := e2 hA
      rw [hr]; simp
    · rw [(e1 hA).1]; simp
  · intro x cs hR
    obtain ⟨e1, e2⟩ := h x cs hR
    by_cases hA : A x
    · obtain ⟨r, hr, hq⟩ := e2 hA
      rw [hr, List.countP_singleton]
      simp only [hq, decide_eq_true_eq]
    · rw [(e1 hA).1]
      simp [(e1 hA).2]

/-! ## Property theorems -/

/-- **C68.** The view `ServerRequestCountView` shows the number of requests started since the view was registered. -/
theorem request_count (p : Program Plugins.Http.serverRequestCountView) (xs : List Served) (hlen : xs.length < 2 ^ 63)
    (hxs : List.Forall₂ (fun x cs => Proper x ∧ Sent (x.log.drop x.before) cs) xs p.cmds) :
    ∃ rows, p.Shows rows ∧ countShown rows [] = (xs.countP fun x => decide (startedSince x) : Int) := by
  obtain ⟨rows, h1, h2⟩ := p.collected (fit_cmds hxs) rfl rfl
  obtain ⟨e1, e2⟩ := one_each hxs p.inter (p.foreign _ rfl) (fun r => decide (specTags [] r.1 = [])) startedSince startedSince
    (fun x cs h => ⟨fun hn => ⟨(start_samples h.1 h.2).1 hn, hn⟩, fun hs => by
      obtain ⟨tm, s, h3, _⟩ := (start_samples h.1 h.2).2 hs
      exact ⟨(tm, s), h3, by simp [specTags, hs]⟩⟩)
  obtain ⟨h3, _⟩ := rows_count rfl h2 (lt_of_le_of_lt e1 hlen) []
  exact ⟨rows, h1, h3.trans (by exact_mod_cast e2)⟩

/-- **C68.** The view `ServerRequestCountByMethod` shows for every method the number of requests with it started since the
view was registered. -/
theorem request_count_by_method (p : Program Plugins.Http.serverRequestCountByMethodView) (xs : List Served)
    (hlen : xs.length < 2 ^ 63)
    (hxs : List.Forall₂ (fun x cs => Proper x ∧ Sent (x.log.drop x.before) cs) xs p.cmds) :
    ∃ rows, p.Shows rows ∧ ∀ m, countShown rows (rowTag "http.method" m) =
      (xs.countP fun x => decide (startedSince x ∧ method x = m) : Int) := by
  obtain ⟨rows, h1, h2⟩ := p.collected (fit_cmds hxs) rfl rfl
  refine ⟨rows, h1, fun m => ?_⟩
  obtain ⟨e1, e2⟩ := one_each hxs p.inter (p.foreign _ rfl)
    (fun r => decide (specTags [Plugins.Http.keyMethod] r.1 = rowTag "http.method" m)) startedSince
    (fun x => startedSince x ∧ method x = m)
    (fun x cs h => ⟨fun hn => ⟨(start_samples h.1 h.2).1 hn, fun h => hn h.1⟩, fun hs => by
      obtain ⟨tm, s, h3, h4⟩ := (start_samples h.1 h.2).2 hs
      refine ⟨(tm, s), h3, ?_⟩
      rw [decide_eq_true_eq, show specTags [Plugins.Http.keyMethod] tm = _ from specTags_one h4, rowTag_inj]
      simp [hs]⟩)
  obtain ⟨h3, _⟩ := rows_count rfl h2 (lt_of_le_of_lt e1 hlen) (rowTag "http.method" m)
  exact h3.trans (by exact_mod_cast e2)

/-- **C68.** The view `ServerResponseCountByStatusCode` shows for every status the number of requests answered with it since
the view was registered: also when the handler panicked, but not when it gave the request a route that is no tag value. -/
theorem response_count_by_status (p : Program Plugins.Http.serverResponseCountByStatusCodeView) (xs : List Served)
    (hlen : xs.length < 2 ^ 63)
    (hxs : List.Forall₂ (fun x cs => Proper x ∧ Sent (x.log.drop x.before) cs) xs p.cmds) :
    ∃ rows, p.Shows rows ∧ ∀ s, countShown rows (rowTag "http.status" s) =
      (xs.countP fun x => decide (overSince x ∧ itoa (finalStatus x.ops) = s) : Int) := by
  obtain ⟨rows, h1, h2⟩ := p.collected (fit_cmds hxs) rfl rfl
  refine ⟨rows, h1, fun s => ?_⟩
  obtain ⟨e1, e2⟩ := one_each hxs p.inter (p.foreign _ rfl)
    (fun r => decide (specTags [Plugins.Http.keyStatus] r.1 = rowTag "http.status" s)) overSince
    (fun x => overSince x ∧ itoa (finalStatus x.ops) = s)
    (fun x cs h => by
      have := end_samples h.1 h.2 (M := .serverLatency) (by decide) (filter_latency x)
      refine ⟨fun hn => ⟨this.1 hn, fun h => hn h.1⟩, fun hs => ?_⟩
      obtain ⟨tm, s', h3, h4, _⟩ := this.2 hs
      refine ⟨(tm, s'), h3, ?_⟩
      rw [decide_eq_true_eq, show specTags [Plugins.Http.keyStatus] tm = _ from specTags_one h4, rowTag_inj]
      simp [hs])
  obtain ⟨h3, _⟩ := rows_count rfl h2 (lt_of_le_of_lt e1 hlen) (rowTag "http.status" s)
  exact h3.trans (by exact_mod_cast e2)

/-- **C68.** The view `ServerResponseBytesView` shows for every bucket the number of requests answered since the view was
registered with a number of bytes in it, counting the bytes accepted from `Write`. -/
theorem response_bytes (p : Program Plugins.Http.serverResponseBytesView) (xs : List Served) (hlen : xs.length < 2 ^ 63)
    (hxs : List.Forall₂ (fun x cs => Proper x ∧ Sent (x.log.drop x.before) cs) xs p.cmds) :
    ∃ rows, p.Shows rows ∧ ∀ i ≤ 13, bucketShown rows [] i =
      (xs.countP fun x => decide (overSince x ∧ inSize i (wrap64 (written x.ops))) : Int) := by
  obtain ⟨rows, h1, h2⟩ := p.collected (fit_cmds hxs) rfl rfl
  refine ⟨rows, h1, fun i hi => ?_⟩
  obtain ⟨e1, e2⟩ := one_each hxs p.inter (p.foreign _ rfl)
    (fun r => decide (specTags [] r.1 = [] ∧ Agg.InBucket Plugins.Http.sizeDistribution.buckets i r.2.v)) overSince
    (fun x => overSince x ∧ inSize i (wrap64 (written x.ops)))
    (fun x cs h => by
      have := end_samples h.1 h.2 (M := .serverResponseBytes) (by decide) (filter_response x)
      refine ⟨fun hn => ⟨this.1 hn, fun h => hn h.1⟩, fun hs => ?_⟩
      obtain ⟨tm, s', h3, _, h4⟩ := this.2 hs
      refine ⟨(tm, s'), h3, ?_⟩
      rw [decide_eq_true_eq]
      simp only [h4 _ rfl, inBucket_size]
      simp [specTags, hs])
  obtain ⟨_, h3⟩ := rows_dist rfl (sorted_of_nice PluginViews.size_nice) h2 (lt_of_le_of_lt e1 hlen) []
  exact (h3 i hi).trans (by exact_mod_cast e2)

/-! ## Example -/

/-- A 404; a handler that panics without writing; one that is still running; one with a bad route. -/
def demoServed : List Served :=
  [⟨⟨false, none⟩, HttpClient.env0, HttpClient.req0, none, [.writeHeader 404, .write 2000 .nil], false, true, 0⟩,
   ⟨⟨false, none⟩, HttpClient.env0, HttpClient.req0, none, [], true, true, 1⟩,
   ⟨⟨false, none⟩, HttpClient.env0, { HttpClient.req0 with method := str "PUT" }, none, [], false, false, 0⟩,
   ⟨⟨false, none⟩, HttpClient.env0, HttpClient.req0, none, [.setRoute [195, 169]], false, true, 0⟩]

def demoCmds : List (List Cmd) :=
  demoServed.map fun x => (x.log.drop x.before).map (command 9 (fun _ => ⟨-1⟩) (fun _ => .fin 5))

/-- The hypotheses are met by these requests, and what the counts are. -/
example : ∃ p : Program Plugins.Http.serverResponseCountByStatusCodeView,
    List.Forall₂ (fun x cs => Proper x ∧ Sent (x.log.drop x.before) cs) demoServed p.cmds ∧
    (demoServed.countP fun x => decide (overSince x ∧ itoa (finalStatus x.ops) = str "404")) = 1 ∧
    (demoServed.countP fun x => decide (overSince x ∧ itoa (finalStatus x.ops) = str "200")) = 1 ∧
    (demoServed.countP fun x => decide (startedSince x ∧ method x = str "GET")) = 2 ∧
    (demoServed.countP fun x => decide (overSince x ∧ inSize 1 (wrap64 (written x.ops)))) = 1 := by
  refine ⟨demoProgram _ (by simp [Plugins.views, Plugins.Http.views]) demoCmds, ?_, by decide, by decide, by decide, by decide⟩
  have hp : ∀ x ∈ demoServed, Proper x := by
    intro x hx
    simp only [demoServed, List.mem_cons, List.not_mem_nil, or_false] at hx
    rcases hx with rfl | rfl | rfl | rfl <;> simp [Proper, HttpClient.env0]
  simp only [demoProgram, demoCmds]
  generalize demoServed = l at hp ⊢
  induction l with
  | nil => exact .nil
  | cons x l ih =>
    exact .cons ⟨hp x (by simp), sent_map _ _ _ _⟩ (ih fun x hx => hp x (by simp [hx]))

end Verif.Props.HttpServerViews
