import Verif.Plugins.Report
import Verif.Props.ViewCounts
import Verif.Props.HttpClient

/-!
# C67: the client views of the HTTP plugin count the requests
-/

namespace Verif.Props.HttpViews
open Verif Verif.Tag Verif.Stats Verif.View Verif.View.Spec Verif.Props.Rows Verif.Props.Worker Verif.Props.ViewCounts
open Verif.Http (Env Request Response BaseResult Call Body Tags Meas records itoa roundTrip transport)
open Verif.Plugins.Http (measureOf measurement tagMap command)

/-! ## Specification -/

/-- How a request went so far: the base transport failed, or it gave a response and the program made these calls on
the body. -/
inductive Outcome where
  | failed (msg : Bytes)
  | answered (r : Response) (calls : List Call)

/-- A request made through the transport. `before` is how many of its `stats.Record` calls the worker had handled
before the view was registered. -/
structure Exchange where
  env : Env
  req : Request
  outcome : Outcome
  before : Nat

/-- The `stats.Record` calls the model makes for a request. -/
def Exchange.log (x : Exchange) : List (Tags × List Meas) :=
  match x.outcome with
  | .failed msg => match transport x.env x.req (.err msg) with
    | none => []
    | some (b, _) => records b.log
  | .answered r cs => match transport x.env x.req (.resp r) with
    | none => []
    | some (b, _) => match b.calls cs with
      | .ok (b, _) => records b.log
      | _ => []

/-- The worker got these commands for these calls, at any time, with any latencies. -/
def Sent (l : List (Tags × List Meas)) (cs : List Cmd) : Prop :=
  List.Forall₂ (fun x c => ∃ now md lat, c = command now md lat x) l cs

/-- The transport looks at this request at all. -/
def tracked (req : Request) : Prop := ¬ (req.path = str "/healthz" ∨ req.path = str "/_ah/health")

/-- The request is over: the transport failed, or the body was closed or read to its end. -/
def over (x : Exchange) : Prop :=
  match x.outcome with
  | .failed _ => True
  | .answered _ cs => ∃ c ∈ cs, (∃ e, c = .close e) ∨ ∃ n, c = .read n .eof

/-- The status in the views: 500 when there was no response. -/
def status (x : Exchange) : Int :=
  match x.outcome with
  | .failed _ => 500
  | .answered r _ => r.statusCode

/-- The method in the views: the request's, unless the host, path or method is not a valid tag value, when it is the
one the caller's context has. -/
def method (x : Exchange) : Bytes :=
  if checkValue x.req.host ∧ checkValue x.req.path ∧ checkValue x.req.method then x.req.method
  else (GoMap.get x.env.tags (str "http_client_method")).getD []

/-- The bytes received in the views: those delivered before the end, or the announced length if there were none. -/
def received (x : Exchange) : Int :=
  match x.outcome with
  | .failed _ => 0
  | .answered r cs =>
    let n := HttpClient.delivered (HttpClient.untilFinished cs)
    let cl := if x.req.method = str "HEAD" then 0 else r.contentLength
    if n = 0 ∧ cl > 0 then cl else n

/-- What a program may do: a response has a body, less than 2⁶³ bytes are delivered, and the tags of the context are
valid. -/
def Proper (x : Exchange) : Prop :=
  (∀ e ∈ x.env.tags, checkValue e.2 = true) ∧
  match x.outcome with
  | .failed _ => True
  | .answered r cs => r.bodyNil = false ∧ 0 ≤ HttpClient.delivered (HttpClient.untilFinished cs) ∧
      HttpClient.delivered (HttpClient.untilFinished cs) < 2 ^ 63

/-- The request was over, and recorded so, after the view was registered. -/
def overSince (x : Exchange) : Prop := tracked x.req ∧ over x ∧ x.before ≤ 1

/-- The request started after the view was registered. -/
def startedSince (x : Exchange) : Prop := tracked x.req ∧ x.before = 0

instance (req : Request) : Decidable (tracked req) := by unfold tracked; infer_instance

instance (x : Exchange) : Decidable (over x) :=
  decidable_of_iff ((match x.outcome with
    | .failed _ => true
    | .answered _ cs => cs.any HttpClient.finishing) = true) (by
    unfold over
    cases x.outcome with
    | failed msg => simp
    | answered r cs =>
      simp only [List.any_eq_true]
      refine exists_congr fun c => and_congr_right fun _ => ?_
      cases c with
      | close e => simp [HttpClient.finishing]
      | read n e => cases e <;> simp [HttpClient.finishing])

instance (x : Exchange) : Decidable (overSince x) := by unfold overSince; infer_instance
instance (x : Exchange) : Decidable (startedSince x) := by unfold startedSince; infer_instance

/-- The tags of a row: keys in order, empty values left out. -/
def rowTags (method status : Bytes) : List (Key × Bytes) :=
  (if method = [] then [] else [(⟨str "http_client_method"⟩, method)]) ++ [(⟨str "http_client_status"⟩, status)]

/-- The `i`-th bucket of the size distributions: below 1 KiB, from 1 to 2 KiB, and so on; from 4 GiB up. -/
def sizeBounds : List Int :=
  [2 ^ 10, 2 ^ 11, 2 ^ 12, 2 ^ 14, 2 ^ 16, 2 ^ 18, 2 ^ 20, 2 ^ 22, 2 ^ 24, 2 ^ 26, 2 ^ 28, 2 ^ 30, 2 ^ 32]

def inSize (i : Nat) (n : Int) : Prop :=
  i ≤ 13 ∧ (∀ b, 0 < i → sizeBounds[i - 1]? = some b → b ≤ n) ∧ ∀ b, sizeBounds[i]? = some b → n < b

instance (i : Nat) (n : Int) : Decidable (inSize i n) :=
  decidable_of_iff (i ≤ 13 ∧ (0 < i → (sizeBounds[i - 1]?.all fun b => decide (b ≤ n)) = true) ∧
      (sizeBounds[i]?.all fun b => decide (n < b)) = true) (by
    unfold inSize
    refine and_congr_right fun _ => and_congr ?_ ?_
    · cases sizeBounds[i - 1]? <;> simp
    · cases sizeBounds[i]? <;> simp)

/-! ## Helper lemmas -/

theorem rnd_ne_nan (q : Rat) : F64.rnd q ≠ .nan := by
  intro h
  unfold F64.rnd at h
  simp only at h
  repeat (split at h <;> try cases h)

/-- Comparing a converted integer with a small positive one. -/
theorem rnd_lt (n b : Int) (hb : 0 < b) (hb' : b ≤ 2 ^ 53) : F64.lt (F64.rnd n) (.fin b) = decide (n < b) := by
  have eb : F64.rnd (b : Rat) = .fin b := F64.rnd_int b (by omega)
  by_cases h : n.natAbs ≤ 2 ^ 53
  · rw [F64.rnd_int n h]
    simp only [F64.lt]
    congr 1
    exact propext (by exact_mod_cast Iff.rfl)
  · rcases lt_or_ge n b with hlt | hge
    · have hn : n ≤ -2 ^ 53 := by omega
      have e : F64.rnd ((-2 ^ 53 : Int) : Rat) = .fin ((-2 ^ 53 : Int) : Rat) := F64.rnd_int _ (by decide)
      have h1 : F64.lt (F64.rnd ((-2 ^ 53 : Int) : Rat)) (F64.rnd n) = false := F64.rnd_mono (by exact_mod_cast hn)
      rw [e] at h1
      rw [decide_eq_true hlt]
      cases hr : F64.rnd (n : Rat) with
      | nan => exact absurd hr (rnd_ne_nan _)
      | pinf => rw [hr] at h1; simp [F64.lt] at h1
      | ninf => rfl
      | fin q =>
        rw [hr] at h1
        simp only [F64.lt, decide_eq_false_iff_not, not_lt, decide_eq_true_eq] at h1 ⊢
        have : (0 : Rat) < (b : Rat) := by exact_mod_cast hb
        have h2 : (((-2 ^ 53 : Int) : Rat)) < 0 := by norm_num
        linarith
    · have h1 := F64.rnd_mono (a := (b : Rat)) (b := (n : Rat)) (by exact_mod_cast hge)
      rw [eb] at h1
      rw [h1, decide_eq_false (by omega)]

theorem size_bounds : Plugins.Http.sizeDistribution.buckets = sizeBounds.map fun b : Int => F64.fin (b : Rat) := by decide +kernel

theorem sizeBounds_pos : ∀ b ∈ sizeBounds, 0 < b ∧ b ≤ 2 ^ 53 := by decide

theorem inBucket_size (i : Nat) (n : Int) :
    Agg.InBucket Plugins.Http.sizeDistribution.buckets i (F64.rnd n) ↔ inSize i n := by
  rw [size_bounds]
  unfold Agg.InBucket inSize
  refine and_congr (by rw [List.length_map]; rfl) (and_congr ?_ ?_)
  · constructor
    · intro h b hi hb
      have := h _ hi (by rw [List.getElem?_map, hb]; rfl)
      obtain ⟨h1, h2⟩ := sizeBounds_pos b (List.mem_of_getElem? hb)
      rw [rnd_lt n b h1 h2] at this
      simpa using this
    · intro h b hi hb
      rw [List.getElem?_map, Option.map_eq_some_iff] at hb
      obtain ⟨b, hb, rfl⟩ := hb
      obtain ⟨h1, h2⟩ := sizeBounds_pos b (List.mem_of_getElem? hb)
      rw [rnd_lt n b h1 h2]
      simpa using h b hi hb
  · constructor
    · intro h b hb
      have := h _ (by rw [List.getElem?_map, hb]; rfl)
      obtain ⟨h1, h2⟩ := sizeBounds_pos b (List.mem_of_getElem? hb)
      rw [rnd_lt n b h1 h2] at this
      simpa using this
    · intro h b hb
      rw [List.getElem?_map, Option.map_eq_some_iff] at hb
      obtain ⟨b, hb, rfl⟩ := hb
      obtain ⟨h1, h2⟩ := sizeBounds_pos b (List.mem_of_getElem? hb)
      rw [rnd_lt n b h1 h2]
      simpa using h b hb

theorem inSize_neg {i : Nat} (hi : i ≤ 13) : inSize i (-1) ↔ inSize i 0 := by
  have : ∀ i ≤ 13, decide (inSize i (-1)) = decide (inSize i 0) := by decide
  have := this i hi
  rwa [decide_eq_decide] at this

theorem tracked_iff (req : Request) : Http.isHealthEndpoint req.path = false ↔ tracked req := by
  unfold tracked Http.isHealthEndpoint
  simp

theorem over_iff_any {r : Response} {cs : List Call} {x : Exchange} (h : x.outcome = .answered r cs) :
    over x ↔ cs.any HttpClient.finishing = true := by
  unfold over
  rw [h]
  simp only [List.any_eq_true]
  refine exists_congr fun c => and_congr_right fun _ => ?_
  cases c with
  | close e => simp [HttpClient.finishing]
  | read n e => cases e <;> simp [HttpClient.finishing]

/-- The measurements of the end of a request. -/
def endMeas (x : Exchange) (n : Int) : List Meas :=
  [⟨.clientSentBytes, some (HttpClient.requestSize x.req)⟩, ⟨.clientReceivedBytes, some (received x)⟩,
   ⟨.clientRoundtripLatency, none⟩, ⟨.clientLatency, none⟩, ⟨.clientResponseBytes, some n⟩] ++
    if HttpClient.requestSize x.req ≥ 0 then [⟨.clientRequestBytes, some (HttpClient.requestSize x.req)⟩] else []

theorem get_startTags (env : Env) (req : Request) :
    (GoMap.get (HttpClient.startTags env req) (str "http_client_method")).getD [] = method ⟨env, req, .failed [], 0⟩ := by
  have := HttpClient.requestTags_of (env := env) (req := req) (t := HttpClient.startTags env req) (fun _ _ _ => rfl)
  unfold HttpClient.requestTags at this
  unfold method
  by_cases h : checkValue req.host = true ∧ checkValue req.path = true ∧ checkValue req.method = true
  · rw [if_pos h] at this ⊢
    rw [this.2.2.2.2.2]; rfl
  · rw [if_neg h] at this ⊢
    rw [this _ (by decide) (by decide)]

/-- The calls of `stats.Record` of a request. -/
theorem log_spec (x : Exchange) (hx : Proper x) :
    (¬ tracked x.req → x.log = []) ∧
    (tracked x.req → ∃ t n, x.log = (HttpClient.startTags x.env x.req, [⟨.clientRequestCount, some 1⟩]) ::
        (if over x then [(t, endMeas x n)] else []) ∧
      (GoMap.get t (str "http_client_method")).getD [] = method x ∧
      GoMap.get t (str "http_client_status") = some (itoa (status x))) := by
  obtain ⟨env, req, o, before⟩ := x
  simp only
  cases o with
  | failed msg =>
    refine ⟨?_, ?_⟩
    · intro h
      have h' : Http.isHealthEndpoint req.path = true := by
        rw [← tracked_iff] at h; simpa using h
      simp [Exchange.log, transport, h']
    · intro h
      have h' := (tracked_iff req).mpr h
      obtain ⟨t, g1, g2, g3, g4⟩ := HttpClient.finish_records (b := { ((((⟨HttpClient.startTags env req, HttpClient.requestSize req, 0, 0, 0, false,
        env.span, env.order, false, []⟩ : Body).emit (Http.record (HttpClient.startTags env req) [⟨.clientRequestCount, some 1⟩])).emit
        [.trace (.start env.ctxSpan env.name [.sampler env.sampler, .kind 2] env.tid env.sid),
         .trace (.addAttributes (some env.span) (Http.requestAttrs req)), .roundTrip]).emit
        [.trace (.setStatus (some env.span) ⟨2, msg⟩)]).endSpan with statusCode := 500 }) rfl
      refine ⟨t, 0, ?_, ?_, g3⟩
      · simp only [Exchange.log, transport, h', over, if_true]
        exact g1
      · rw [g4 _ (by decide) (by decide)]
        exact get_startTags env req
  | answered r cs =>
    obtain ⟨_, hb, h0, h1⟩ := hx
    refine ⟨?_, ?_⟩
    · intro h
      have h' : Http.isHealthEndpoint req.path = true := by
        rw [← tracked_iff] at h; simpa using h
      simp [Exchange.log, transport, h']
    · intro h
      have h' := (tracked_iff req).mpr h
      obtain ⟨b', g1, _, _, g4, g5⟩ := HttpClient.calls_spec (roundTrip env req (.resp r)).1 hb rfl cs
      have hl : (⟨env, req, .answered r cs, before⟩ : Exchange).log = records b'.log := by
        simp only [Exchange.log, transport, h']
        rw [show (if false = true then none else some (roundTrip env req (.resp r))) = some (roundTrip env req (.resp r)) from rfl]
        simp only [g1]
      by_cases ho : over (⟨env, req, .answered r cs, before⟩ : Exchange)
      · obtain ⟨t, k1, k2, k3, k4⟩ := g5 rfl ((over_iff_any rfl).mp ho)
        refine ⟨t, HttpClient.delivered (HttpClient.untilFinished cs), ?_, ?_, k3⟩
        · rw [hl, k1, if_pos ho]
          have hd : wrap64 (0 + HttpClient.delivered (HttpClient.untilFinished cs)) =
              HttpClient.delivered (HttpClient.untilFinished cs) := by unfold wrap64; omega
          have e1 : (roundTrip env req (.resp r)).1.respSize = 0 := rfl
          have e2 : (roundTrip env req (.resp r)).1.reqSize = HttpClient.requestSize req := rfl
          have e3 : (roundTrip env req (.resp r)).1.respContentLength =
              if req.method ≠ str "HEAD" then r.contentLength else 0 := rfl
          simp only [Body.measurements, endMeas, received, e1, e2, e3, hd, ite_not]
          rfl
        · rw [k4 _ (by decide) (by decide)]
          exact get_startTags env req
      · have ho' : cs.any HttpClient.finishing = false := by
          rw [over_iff_any rfl] at ho; simpa using ho
        refine ⟨GoMap.set (HttpClient.startTags env req) (str "http_client_status") (itoa r.statusCode), 0, ?_, ?_, ?_⟩
        · rw [hl, g4 (.inr ho'), if_neg ho]
          rfl
        · rw [GoMap.get_set_other _ _ (by decide)]
          exact get_startTags env req
        · exact GoMap.get_set_same _ _ _

/-- All the measures. -/
def allMeasures : List Http.Measure :=
  [.clientRequestCount, .clientRequestBytes, .clientResponseBytes, .clientLatency, .clientSentBytes, .clientReceivedBytes,
   .clientRoundtripLatency, .serverRequestCount, .serverRequestBytes, .serverResponseBytes, .serverLatency]

theorem measure_inj {a b : Http.Measure} : (measureOf a).name = (measureOf b).name ↔ a = b := by
  refine ⟨fun h => ?_, fun h => by rw [h]⟩
  have hn : (allMeasures.map fun a => (measureOf a).name).Nodup := by decide +kernel
  have hm : ∀ a, a ∈ allMeasures := by intro a; cases a <;> simp [allMeasures]
  exact List.inj_on_of_nodup_map hn (hm a) (hm b) h

theorem measurement_m (lat : Http.Measure → F64) (m : Meas) : (measurement lat m).m = measureOf m.measure := by
  unfold measurement
  cases m.value <;> rfl

theorem sample_command (M : Http.Measure) (now : Int) (md : Bytes → Metadatas) (lat : Http.Measure → F64)
    (x : Tags × List Meas) : samplesOf (measureOf M).name [command now md lat x] =
      (x.2.filter fun m => decide (m.measure = M)).map fun m =>
        (some (tagMap md x.1), ⟨(measurement lat m).v, [], now⟩) := by
  simp only [command, samplesOf, List.append_nil, recorded, List.filterMap_map]
  induction x.2 with
  | nil => rfl
  | cons m ms ih =>
    rw [List.filterMap_cons, ih]
    simp only [Function.comp, measurement_m, measure_inj]
    by_cases h : m.measure = M
    · simp [h]
    · simp [h]

theorem given_tagMap (md : Bytes → Metadatas) (t : Tags) (k : Bytes) :
    given (some (tagMap md t)) ⟨k⟩ = (GoMap.get t k).getD [] := by
  unfold given tagMap
  simp only [Option.getD_some]
  induction t with
  | nil => rfl
  | cons e t ih =>
    obtain ⟨k', v⟩ := e
    simp only [List.map_cons, List.find?_cons, GoMap.get, Key.mk.injEq]
    by_cases h : k' = k
    · simp [h]
    · simpa [h] using ih

theorem itoa_ne (n : Int) : itoa n ≠ [] := by
  unfold itoa
  have : ∀ f n, Http.digits f n ≠ [] := by
    intro f n
    cases f <;> simp only [Http.digits] <;> (try split) <;> simp
  split
  · simp
  · exact this _ _

theorem specTags_row {tm : Option TMap} {m s : Bytes} (hm : given tm Plugins.Http.keyClientMethod = m)
    (hs : given tm Plugins.Http.keyClientStatus = s) (hs0 : s ≠ []) :
    specTags [Plugins.Http.keyClientMethod, Plugins.Http.keyClientStatus] tm = rowTags m s := by
  simp only [specTags, List.map_cons, List.map_nil, hm, hs, rowTags]
  by_cases h : m = [] <;> simp [h, hs0, Plugins.Http.keyClientMethod, Plugins.Http.keyClientStatus]

theorem rowTags_inj {m s m' s' : Bytes} : rowTags m s = rowTags m' s' ↔ m = m' ∧ s = s' := by
  unfold rowTags
  by_cases h : m = [] <;> by_cases h' : m' = [] <;> simp [h, h']

theorem samplesOf_sent {l : List (Tags × List Meas)} {cs : List Cmd} (h : Sent l cs) (M : Http.Measure)
    (hl : ∀ x ∈ l, (x.2.filter fun m => decide (m.measure = M)) = []) : samplesOf (measureOf M).name cs = [] := by
  induction h with
  | nil => rfl
  | @cons x c l cs hx _ ih =>
    obtain ⟨now, md, lat, rfl⟩ := hx
    rw [samplesOf_cons, sample_command, hl x (by simp), ih fun x hx => hl x (by simp [hx])]
    rfl

theorem endMeas_count (x : Exchange) (n : Int) :
    ((endMeas x n).filter fun m => decide (m.measure = .clientRequestCount)) = [] := by
  unfold endMeas
  by_cases h : HttpClient.requestSize x.req ≥ 0
  · rw [if_pos h]; rfl
  · rw [if_neg h]; rfl

/-- What a request gives a view on a measure recorded at the end. -/
theorem end_samples {x : Exchange} (hx : Proper x) {cs : List Cmd} (hs : Sent (x.log.drop x.before) cs)
    {M : Http.Measure} {v : Option Int} (hM : M ≠ .clientRequestCount)
    (hv : ∀ n, ((endMeas x n).filter fun m => decide (m.measure = M)) = [⟨M, v⟩]) :
    (¬ overSince x → samplesOf (measureOf M).name cs = []) ∧
    (overSince x → ∃ tm s, samplesOf (measureOf M).name cs = [(tm, s)] ∧
      specTags [Plugins.Http.keyClientMethod, Plugins.Http.keyClientStatus] tm = rowTags (method x) (itoa (status x)) ∧
      ∀ k, v = some k → s.v = F64.rnd k) := by
  obtain ⟨hl1, hl2⟩ := log_spec x hx
  have h0 : (([⟨.clientRequestCount, some 1⟩] : List Meas).filter fun m => decide (m.measure = M)) = [] := by
    simp [Ne.symm hM]
  by_cases ht : tracked x.req
  swap
  · refine ⟨fun _ => ?_, fun h => absurd h.1 ht⟩
    rw [hl1 ht] at hs
    exact samplesOf_sent hs M (by simp)
  obtain ⟨t, n, hl, h1, h2⟩ := hl2 ht
  by_cases ho : over x
  swap
  · refine ⟨fun _ => ?_, fun h => absurd h.2.1 ho⟩
    rw [hl, if_neg ho] at hs
    refine samplesOf_sent hs M ?_
    intro y hy
    rw [List.mem_singleton.mp (List.mem_of_mem_drop hy)]
    exact h0
  rw [hl, if_pos ho] at hs
  by_cases hb : x.before ≤ 1
  swap
  · refine ⟨fun _ => ?_, fun h => absurd h.2.2 hb⟩
    rw [List.drop_eq_nil_of_le (by simp; omega)] at hs
    exact samplesOf_sent hs M (by simp)
  refine ⟨fun h => absurd ⟨ht, ho, hb⟩ h, fun _ => ?_⟩
  have last : ∀ {c : Cmd}, (∃ now md lat, c = command now md lat (t, endMeas x n)) →
      ∃ tm s, samplesOf (measureOf M).name [c] = [(tm, s)] ∧
      specTags [Plugins.Http.keyClientMethod, Plugins.Http.keyClientStatus] tm = rowTags (method x) (itoa (status x)) ∧
      ∀ k, v = some k → s.v = F64.rnd k := by
    rintro c ⟨now, md, lat, rfl⟩
    refine ⟨some (tagMap md t), ⟨(measurement lat ⟨M, v⟩).v, [], now⟩, ?_, ?_, ?_⟩
    · rw [sample_command]
      simp only [hv]
      rfl
    · refine specTags_row ?_ ?_ (itoa_ne _)
      · exact (given_tagMap md t _).trans h1
      · refine (given_tagMap md t _).trans ?_
        rw [h2]; rfl
    · rintro k rfl
      rfl
  rcases Nat.le_one_iff_eq_zero_or_eq_one.mp hb with hb | hb
  · rw [hb] at hs
    cases hs with
    | @cons _ c0 _ cs' hc0 hs =>
      cases hs with
      | @cons _ c1 _ cs'' hc1 hs =>
        cases hs
        obtain ⟨now, md, lat, rfl⟩ := hc0
        obtain ⟨tm, s, g1, g2⟩ := last hc1
        refine ⟨tm, s, ?_, g2⟩
        rw [samplesOf_cons, sample_command, h0, g1]
        rfl
  · rw [hb] at hs
    cases hs with
    | @cons _ c1 _ cs'' hc1 hs =>
      cases hs
      exact last hc1

/-- What a request gives a view on the start count. -/
theorem start_samples {x : Exchange} (hx : Proper x) {cs : List Cmd} (hs : Sent (x.log.drop x.before) cs) :
    (samplesOf (measureOf .clientRequestCount).name cs).length = if decide (startedSince x) = true then 1 else 0 := by
  obtain ⟨hl1, hl2⟩ := log_spec x hx
  by_cases ht : tracked x.req
  swap
  · rw [hl1 ht] at hs
    rw [samplesOf_sent hs _ (by simp), if_neg (by simp [startedSince, ht])]
    rfl
  obtain ⟨t, n, hl, _⟩ := hl2 ht
  rw [hl] at hs
  have htail : ∀ y ∈ (if over x then [(t, endMeas x n)] else []),
      (y.2.filter fun m => decide (m.measure = .clientRequestCount)) = [] := by
    intro y hy
    split at hy
    · rw [List.mem_singleton.mp hy]; exact endMeas_count x n
    · simp at hy
  cases hb : x.before with
  | zero =>
    rw [hb] at hs
    cases hs with
    | @cons _ c0 _ cs' hc0 hs =>
      obtain ⟨now, md, lat, rfl⟩ := hc0
      rw [samplesOf_cons, sample_command, samplesOf_sent hs _ htail, if_pos (by simp [startedSince, ht, hb])]
      rfl
  | succ k =>
    rw [hb, List.drop_succ_cons] at hs
    rw [samplesOf_sent hs _ fun y hy => htail y (List.mem_of_mem_drop hy), if_neg (by simp [startedSince, hb])]
    rfl

/-! ### The recorded tags are valid -/

def ValidTags (t : Tags) : Prop := ∀ e ∈ t, checkValue e.2 = true

def ValidLog (l : List Http.Ev) : Prop := ∀ y ∈ records l, ValidTags y.1

theorem valid_set {t : Tags} (h : ValidTags t) (k : Bytes) {v : Bytes} (hv : checkValue v = true) :
    ValidTags (GoMap.set t k v) := by
  induction t with
  | nil => intro e he; cases List.mem_singleton.mp he; exact hv
  | cons e t ih =>
    obtain ⟨k', v'⟩ := e
    unfold GoMap.set
    split
    · intro e he
      rcases List.mem_cons.mp he with rfl | he
      · exact hv
      · exact h e (by simp [he])
    · intro e he
      rcases List.mem_cons.mp he with rfl | he
      · exact h _ (by simp)
      · exact ih (fun e he => h e (by simp [he])) e he

theorem valid_tagNew {t t' : Tags} (h : ValidTags t) {kvs : List (Bytes × Bytes)} (ht : Http.tagNew t kvs = some t') :
    ValidTags t' := by
  induction kvs generalizing t with
  | nil => cases ht; exact h
  | cons kv kvs ih =>
    obtain ⟨k, v⟩ := kv
    unfold Http.tagNew at ht
    split at ht
    · next hv => exact ih (valid_set h k hv) ht
    · cases ht

theorem valid_startTags {env : Env} (h : ValidTags env.tags) (req : Request) : ValidTags (HttpClient.startTags env req) := by
  unfold HttpClient.startTags
  cases ht : Http.tagNew env.tags [(str "http_client_host", req.host), (str "http.host", req.host),
    (str "http_client_path", req.path), (str "http.path", req.path),
    (str "http_client_method", req.method), (str "http.method", req.method)] with
  | none => exact h
  | some t => exact valid_tagNew h ht

theorem valid_emit {b : Body} (h : ValidLog b.log) {l : List Http.Ev} (hl : ValidLog l) : ValidLog (b.emit l).log := by
  intro y hy
  simp only [Body.emit, records, List.filterMap_append, List.mem_append] at hy
  exact hy.elim (h y) (hl y)

theorem valid_trace {l : List Http.Ev} (h : records l = []) : ValidLog l := by
  intro y hy; rw [h] at hy; simp at hy

theorem valid_finish {b : Body} (h : ValidTags b.tags ∧ ValidLog b.log) : ValidTags b.finish.tags ∧ ValidLog b.finish.log := by
  unfold Body.finish
  split
  · exact h
  · refine ⟨h.1, ?_⟩
    refine valid_emit h.2 ?_
    unfold Http.recordWithTags
    cases ht : Http.tagNew b.tags _ with
    | none => exact valid_trace rfl
    | some t =>
      intro y hy
      cases List.mem_singleton.mp hy
      exact valid_tagNew h.1 ht

theorem valid_call {b b' : Body} {c : Call} {r : Http.Ret} (h : ValidTags b.tags ∧ ValidLog b.log)
    (hc : b.call c = .ok (b', r)) : ValidTags b'.tags ∧ ValidLog b'.log := by
  cases c with
  | close e =>
    simp only [Body.call, Body.close] at hc
    split at hc
    · cases hc
    · cases hc
      exact ⟨(valid_finish h).1, valid_emit (valid_emit (valid_finish h).2 (valid_trace rfl)) (valid_trace rfl)⟩
  | read n e =>
    simp only [Body.call, Body.read] at hc
    split at hc
    · cases hc
    · have h1 : ValidTags (((b.emit [.read]).traceRead e).count n).tags ∧
          ValidLog (((b.emit [.read]).traceRead e).count n).log := by
        cases e with
        | nil => exact ⟨h.1, valid_emit h.2 (valid_trace rfl)⟩
        | eof => exact ⟨h.1, valid_emit (valid_emit h.2 (valid_trace rfl)) (valid_trace rfl)⟩
        | other msg => exact ⟨h.1, valid_emit (valid_emit h.2 (valid_trace rfl)) (valid_trace rfl)⟩
      cases hc
      unfold Body.statsRead
      split
      · exact valid_finish h1
      · exact h1

theorem valid_calls {b b' : Body} {cs : List Call} {r : List Http.Ret} (h : ValidTags b.tags ∧ ValidLog b.log)
    (hc : b.calls cs = .ok (b', r)) : ValidLog b'.log := by
  induction cs generalizing b r with
  | nil => cases hc; exact h.2
  | cons c cs ih =>
    simp only [Body.calls] at hc
    cases h1 : b.call c with
    | ok p =>
      rw [h1] at hc
      simp only [Res.bind] at hc
      cases h2 : p.1.calls cs with
      | ok q =>
        rw [h2] at hc
        obtain ⟨q1, q2⟩ := q
        cases hc
        exact ih (valid_call h h1) h2
      | err => rw [h2] at hc; cases hc
      | panic => rw [h2] at hc; cases hc
    | err => rw [h1] at hc; cases hc
    | panic => rw [h1] at hc; cases hc

theorem valid_roundTrip {env : Env} (h : ValidTags env.tags) (req : Request) (res : BaseResult) :
    ValidTags (roundTrip env req res).1.tags ∧ ValidLog (roundTrip env req res).1.log := by
  have hs := valid_startTags h req
  have h0 : ∀ l : List Http.Ev, records l = [] → ValidLog
      ([] ++ Http.record (HttpClient.startTags env req) [⟨.clientRequestCount, some 1⟩] ++ l) := by
    intro l hl y hy
    simp only [records] at hl
    simp [records, Http.record, hl] at hy
    rw [hy]; exact hs
  cases res with
  | err msg =>
    exact valid_finish (b := { ((((⟨HttpClient.startTags env req, HttpClient.requestSize req, 0, 0, 0, false,
        env.span, env.order, false, []⟩ : Body).emit (Http.record (HttpClient.startTags env req) [⟨.clientRequestCount, some 1⟩])).emit
        [.trace (.start env.ctxSpan env.name [.sampler env.sampler, .kind 2] env.tid env.sid),
         .trace (.addAttributes (some env.span) (Http.requestAttrs req)), .roundTrip]).emit
        [.trace (.setStatus (some env.span) ⟨2, msg⟩)]).endSpan with statusCode := 500 })
      ⟨hs, valid_emit (valid_emit (valid_emit (valid_emit (valid_trace rfl) (h0 [] rfl)) (valid_trace rfl)) (valid_trace rfl))
        (valid_trace rfl)⟩
  | resp r =>
    exact ⟨hs, valid_emit (valid_emit (valid_emit (valid_trace rfl) (h0 [] rfl)) (valid_trace rfl)) (valid_trace rfl)⟩

theorem valid_log {x : Exchange} (hx : Proper x) : ∀ y ∈ x.log, ValidTags y.1 := by
  obtain ⟨env, req, o, before⟩ := x
  have hv := valid_roundTrip (env := env) hx.1 req
  unfold Exchange.log
  cases o with
  | failed msg =>
    simp only [transport]
    split
    · simp
    · next h => split at h <;> cases h; exact (hv (.err msg)).2
  | answered r cs =>
    simp only [transport]
    split
    · simp
    · next h =>
      split at h <;> cases h
      split
      · next hc => exact valid_calls (hv (.resp r)) hc
      · simp

theorem fit_sent {l : List (Tags × List Meas)} {cs : List Cmd} (h : Sent l cs) (hl : ∀ y ∈ l, ValidTags y.1) :
    ∀ c ∈ cs, ∃ t r, c = .record t r ∧ TagsFit r.tags := by
  induction h with
  | nil => simp
  | @cons x c l cs hx _ ih =>
    intro c' hc'
    rcases List.mem_cons.mp hc' with rfl | hc'
    · obtain ⟨now, md, lat, rfl⟩ := hx
      refine ⟨_, _, rfl, ?_⟩
      intro tm htm p hp
      cases htm
      obtain ⟨e, he, rfl⟩ := List.mem_map.mp hp
      have := hl x (by simp) e he
      unfold checkValue at this
      by_contra hgt
      rw [if_pos (show e.2.length > maxKeyLength from Nat.lt_of_not_le hgt)] at this
      cases this
    · exact ih (fun y hy => hl y (by simp [hy])) c' hc'

/-! ## Property theorems -/

theorem fit_cmds {cmds : List (List Cmd)} {xs : List Exchange}
    (hxs : List.Forall₂ (fun x cs => Proper x ∧ Sent (x.log.drop x.before) cs) xs cmds) :
    ∀ cs ∈ cmds, ∀ c ∈ cs, ∃ t r, c = .record t r ∧ TagsFit r.tags := by
  induction hxs with
  | nil => simp
  | @cons x cs xs cmds h _ ih =>
    intro cs' hcs'
    rcases List.mem_cons.mp hcs' with rfl | hcs'
    · exact fit_sent h.2 fun y hy => valid_log h.1 y (List.mem_of_mem_drop hy)
    · exact ih cs' hcs'

/-- The recordings of a measure recorded at the end, when the plugin makes all of them. -/
theorem end_parts {others mid : List Cmd} {cmds : List (List Cmd)} {xs : List Exchange}
    (hxs : List.Forall₂ (fun x cs => Proper x ∧ Sent (x.log.drop x.before) cs) xs cmds)
    {M : Http.Measure} (value : Exchange → Option Int) (hM : M ≠ .clientRequestCount)
    (hv : ∀ x n, ((endMeas x n).filter fun m => decide (m.measure = M)) = [⟨M, value x⟩])
    (hmid : Inter (others :: cmds) mid) (ho : ∀ c ∈ others, Foreign (measureOf M).name c) :
    (samplesOf (measureOf M).name mid).length ≤ xs.length ∧
    (∀ m s, (samplesOf (measureOf M).name mid).countP (fun r => decide (specTags [Plugins.Http.keyClientMethod,
        Plugins.Http.keyClientStatus] r.1 = rowTags m s)) =
      xs.countP fun x => decide (overSince x ∧ method x = m ∧ itoa (status x) = s)) ∧
    ∀ (f : Exchange → Int) (_ : ∀ x, value x = some (f x)) (B : F64 → Bool) (m s : Bytes),
      (samplesOf (measureOf M).name mid).countP (fun r => decide (specTags [Plugins.Http.keyClientMethod,
        Plugins.Http.keyClientStatus] r.1 = rowTags m s ∧ B r.2.v = true)) =
      xs.countP fun x => decide ((overSince x ∧ method x = m ∧ itoa (status x) = s) ∧ B (F64.rnd (f x)) = true) := by
  refine ⟨length_parts hmid ho (hxs.imp ?_), fun m s => count_parts hmid ho _ _ (hxs.imp ?_),
    fun f hf B m s => count_parts hmid ho _ _ (hxs.imp ?_)⟩
  · rintro x cs ⟨h1, h2⟩
    obtain ⟨e1, e2⟩ := end_samples h1 h2 hM (hv x)
    by_cases hso : overSince x
    · obtain ⟨tm, s, h, _⟩ := e2 hso
      rw [h]; simp
    · rw [e1 hso]; simp
  · rintro x cs ⟨h1, h2⟩
    obtain ⟨e1, e2⟩ := end_samples h1 h2 hM (hv x)
    by_cases hso : overSince x
    · obtain ⟨tm, s', h, ht, _⟩ := e2 hso
      rw [h]
      simp only [List.countP_singleton, ht, rowTags_inj, hso, true_and]
    · rw [e1 hso]
      simp [hso]
  · rintro x cs ⟨h1, h2⟩
    obtain ⟨e1, e2⟩ := end_samples h1 h2 hM (hv x)
    by_cases hso : overSince x
    · obtain ⟨tm, s', h, ht, hval⟩ := e2 hso
      rw [h]
      simp only [List.countP_singleton, ht, rowTags_inj, hso, true_and, hval _ (hf x)]
    · rw [e1 hso]
      simp [hso]

theorem filter_latency (x : Exchange) (n : Int) :
    ((endMeas x n).filter fun m => decide (m.measure = .clientRoundtripLatency)) = [⟨.clientRoundtripLatency, none⟩] := by
  unfold endMeas
  by_cases h : HttpClient.requestSize x.req ≥ 0
  · rw [if_pos h]; rfl
  · rw [if_neg h]; rfl

theorem filter_received (x : Exchange) (n : Int) :
    ((endMeas x n).filter fun m => decide (m.measure = .clientReceivedBytes)) = [⟨.clientReceivedBytes, some (received x)⟩] := by
  unfold endMeas
  by_cases h : HttpClient.requestSize x.req ≥ 0
  · rw [if_pos h]; rfl
  · rw [if_neg h]; rfl

theorem filter_sent (x : Exchange) (n : Int) :
    ((endMeas x n).filter fun m => decide (m.measure = .clientSentBytes)) =
      [⟨.clientSentBytes, some (HttpClient.requestSize x.req)⟩] := by
  unfold endMeas
  by_cases h : HttpClient.requestSize x.req ≥ 0
  · rw [if_pos h]; rfl
  · rw [if_neg h]; rfl

/-! ## Property theorems -/

/-- **C67.** The view `ClientCompletedCount` shows for every method and status the number of requests with them that were
over since the view was registered: every one once, however many goroutines made the requests and whatever else the
program did meanwhile. There is a row for exactly the pairs that occurred. -/
theorem completed_count (p : Program Plugins.Http.clientCompletedCountView) (xs : List Exchange)
    (hlen : xs.length < 2 ^ 63)
    (hxs : List.Forall₂ (fun x cs => Proper x ∧ Sent (x.log.drop x.before) cs) xs p.cmds) :
    ∃ rows, p.Shows rows ∧ ∀ m s,
      countShown rows (rowTags m s) = (xs.countP fun x => decide (overSince x ∧ method x = m ∧ itoa (status x) = s) : Int) ∧
      ((∃ row ∈ rows, row.tags = rowTags m s) ↔ ∃ x ∈ xs, overSince x ∧ method x = m ∧ itoa (status x) = s) := by
  obtain ⟨rows, h1, h2⟩ := p.collected (fit_cmds hxs) rfl rfl
  obtain ⟨e1, e2, _⟩ := end_parts hxs (M := .clientRoundtripLatency) (fun _ => none) (by decide) filter_latency p.inter
    (p.foreign _ rfl)
  refine ⟨rows, h1, fun m s => ?_⟩
  obtain ⟨h3, h4⟩ := rows_count rfl h2 (lt_of_le_of_lt e1 hlen) (rowTags m s)
  refine ⟨h3.trans (by exact_mod_cast e2 m s), h4.trans ?_⟩
  have := e2 m s
  rw [← not_iff_not]
  constructor
  · intro h
    have h0 : (samplesOf (measureOf .clientRoundtripLatency).name p.mid).countP (fun r => decide (specTags [Plugins.Http.keyClientMethod,
        Plugins.Http.keyClientStatus] r.1 = rowTags m s)) = 0 := by
      rw [List.countP_eq_zero]
      intro r hr hc
      exact h ⟨r, hr, of_decide_eq_true hc⟩
    rw [h0] at this
    rintro ⟨x, hx, hc⟩
    exact List.countP_eq_zero.mp this.symm x hx (by simpa using hc)
  · intro h
    have h0 : xs.countP (fun x => decide (overSince x ∧ method x = m ∧ itoa (status x) = s)) = 0 := by
      rw [List.countP_eq_zero]
      intro r hr hc
      exact h ⟨r, hr, by simpa using hc⟩
    rw [h0] at this
    rintro ⟨x, hx, hc⟩
    exact List.countP_eq_zero.mp this x hx (decide_eq_true hc)

/-- **C67.** The view `ClientRoundtripLatencyDistribution` counts the same requests. -/
theorem roundtrip_latency (p : Program Plugins.Http.clientRoundtripLatencyDistributionView) (xs : List Exchange)
    (hlen : xs.length < 2 ^ 63)
    (hxs : List.Forall₂ (fun x cs => Proper x ∧ Sent (x.log.drop x.before) cs) xs p.cmds) :
    ∃ rows, p.Shows rows ∧ ∀ m s, totalShown rows (rowTags m s) =
      (xs.countP fun x => decide (overSince x ∧ method x = m ∧ itoa (status x) = s) : Int) := by
  obtain ⟨rows, h1, h2⟩ := p.collected (fit_cmds hxs) rfl rfl
  obtain ⟨e1, e2, _⟩ := end_parts hxs (M := .clientRoundtripLatency) (fun _ => none) (by decide) filter_latency p.inter
    (p.foreign _ rfl)
  refine ⟨rows, h1, fun m s => ?_⟩
  obtain ⟨h3, _⟩ := rows_dist rfl (sorted_of_nice PluginViews.latency_nice) h2 (lt_of_le_of_lt e1 hlen) (rowTags m s)
  exact h3.trans (by exact_mod_cast e2 m s)

/-- **C67.** The view `ClientReceivedBytesDistribution` shows, for every method, status and bucket, the number of
requests with them that received a number of bytes in the bucket. -/
theorem received_bytes (p : Program Plugins.Http.clientReceivedBytesDistributionView) (xs : List Exchange)
    (hlen : xs.length < 2 ^ 63)
    (hxs : List.Forall₂ (fun x cs => Proper x ∧ Sent (x.log.drop x.before) cs) xs p.cmds) :
    ∃ rows, p.Shows rows ∧ ∀ m s, ∀ i ≤ 13, bucketShown rows (rowTags m s) i =
      (xs.countP fun x => decide ((overSince x ∧ method x = m ∧ itoa (status x) = s) ∧ inSize i (received x)) : Int) := by
  obtain ⟨rows, h1, h2⟩ := p.collected (fit_cmds hxs) rfl rfl
  obtain ⟨e1, _, e3⟩ := end_parts hxs (M := .clientReceivedBytes) (fun x => some (received x)) (by decide) filter_received p.inter
    (p.foreign _ rfl)
  refine ⟨rows, h1, fun m s i hi => ?_⟩
  obtain ⟨_, h3⟩ := rows_dist rfl (sorted_of_nice PluginViews.size_nice) h2 (lt_of_le_of_lt e1 hlen) (rowTags m s)
  rw [h3 i hi]
  have := e3 received (fun _ => rfl) (fun v => decide (Agg.InBucket Plugins.Http.sizeDistribution.buckets i v)) m s
  simp only [decide_eq_true_eq, inBucket_size] at this
  exact_mod_cast this

/-- **C67.** The view `ClientSentBytesDistribution` shows the sizes of the request bodies, a request without a body
counting in the first bucket. -/
theorem sent_bytes (p : Program Plugins.Http.clientSentBytesDistributionView) (xs : List Exchange)
    (hlen : xs.length < 2 ^ 63)
    (hxs : List.Forall₂ (fun x cs => Proper x ∧ Sent (x.log.drop x.before) cs) xs p.cmds) :
    ∃ rows, p.Shows rows ∧ ∀ m s, ∀ i ≤ 13, bucketShown rows (rowTags m s) i =
      (xs.countP fun x => decide ((overSince x ∧ method x = m ∧ itoa (status x) = s) ∧
        inSize i (if x.req.bodyNil then 0 else max x.req.contentLength 0)) : Int) := by
  obtain ⟨rows, h1, h2⟩ := p.collected (fit_cmds hxs) rfl rfl
  obtain ⟨e1, _, e3⟩ := end_parts hxs (M := .clientSentBytes) (fun x => some (HttpClient.requestSize x.req)) (by decide) filter_sent
    p.inter (p.foreign _ rfl)
  refine ⟨rows, h1, fun m s i hi => ?_⟩
  obtain ⟨_, h3⟩ := rows_dist rfl (sorted_of_nice PluginViews.size_nice) h2 (lt_of_le_of_lt e1 hlen) (rowTags m s)
  rw [h3 i hi]
  have := e3 (fun x => HttpClient.requestSize x.req) (fun _ => rfl)
    (fun v => decide (Agg.InBucket Plugins.Http.sizeDistribution.buckets i v)) m s
  simp only [decide_eq_true_eq, inBucket_size] at this
  have hsz : ∀ x : Exchange, inSize i (HttpClient.requestSize x.req) ↔
      inSize i (if x.req.bodyNil then 0 else max x.req.contentLength 0) := by
    intro x
    unfold HttpClient.requestSize
    by_cases hb : x.req.bodyNil = true
    · simp only [hb, if_true]
      exact inSize_neg hi
    · simp only [hb]
      by_cases hc : x.req.contentLength > 0
      · simp [hc, Int.max_eq_left hc.le]
      · simp [hc, Int.max_eq_right (not_lt.mp hc)]
  simp only [hsz] at this
  exact_mod_cast this

/-- **C67.** The view `ClientRequestCountView` shows the number of requests started since the view was registered. -/
theorem request_count (p : Program Plugins.Http.clientRequestCountView) (xs : List Exchange)
    (hlen : xs.length < 2 ^ 63)
    (hxs : List.Forall₂ (fun x cs => Proper x ∧ Sent (x.log.drop x.before) cs) xs p.cmds) :
    ∃ rows, p.Shows rows ∧ countShown rows [] = (xs.countP fun x => decide (startedSince x) : Int) := by
  obtain ⟨rows, h1, h2⟩ := p.collected (fit_cmds hxs) rfl rfl
  have hone : List.Forall₂ (fun x cs => (samplesOf (measureOf .clientRequestCount).name cs).length =
      if decide (startedSince x) = true then 1 else 0) xs p.cmds := hxs.imp fun x cs h => start_samples h.1 h.2
  have hlen' := length_parts p.inter (p.foreign _ rfl) (measure := (measureOf .clientRequestCount).name) (xs := xs)
    (hone.imp fun x cs h => by rw [h]; split <;> simp)
  have hcount := count_parts p.inter (p.foreign _ rfl) (measure := (measureOf .clientRequestCount).name) (xs := xs)
    (fun r => decide (specTags [] r.1 = [])) (fun x => decide (startedSince x))
    (hone.imp fun x cs h => by rw [← h, List.countP_eq_length]; intro r _; rfl)
  refine ⟨rows, h1, ?_⟩
  obtain ⟨h3, _⟩ := rows_count rfl h2 (lt_of_le_of_lt hlen' hlen) []
  exact h3.trans (by exact_mod_cast hcount)

/-! ## Example -/

/-- A GET read to its end; one whose body is not finished; one that fails, started before the view was registered; a
health check. -/
def demoExchanges : List Exchange :=
  [⟨HttpClient.env0, HttpClient.req0, .answered ⟨200, 10, false⟩ [.read 1500 .eof, .close .nil], 0⟩,
   ⟨HttpClient.env0, HttpClient.req0, .answered ⟨404, 10, false⟩ [.read 3 .nil], 0⟩,
   ⟨HttpClient.env0, HttpClient.req0, .failed (str "reset"), 1⟩,
   ⟨HttpClient.env0, { HttpClient.req0 with path := str "/healthz" }, .answered ⟨200, 10, false⟩ [.close .nil], 0⟩]

def demoCmds : List (List Cmd) :=
  demoExchanges.map fun x => (x.log.drop x.before).map (command 9 (fun _ => ⟨-1⟩) (fun _ => .fin 5))

theorem sent_map (l : List (Tags × List Meas)) (now : Int) (md : Bytes → Metadatas) (lat : Http.Measure → F64) :
    Sent l (l.map (command now md lat)) := by
  induction l with
  | nil => exact .nil
  | cons x l ih => exact .cons ⟨now, md, lat, rfl⟩ ih

/-- The hypotheses are met by these requests; the counts are 1 for GET with 200, 1 for GET with 500, 0 for GET with 404,
and 2 requests were started. -/
example : ∃ p : Program Plugins.Http.clientCompletedCountView,
    List.Forall₂ (fun x cs => Proper x ∧ Sent (x.log.drop x.before) cs) demoExchanges p.cmds ∧
    (demoExchanges.countP fun x => decide (overSince x ∧ method x = str "GET" ∧ itoa (status x) = str "200")) = 1 ∧
    (demoExchanges.countP fun x => decide (overSince x ∧ method x = str "GET" ∧ itoa (status x) = str "500")) = 1 ∧
    (demoExchanges.countP fun x => decide (overSince x ∧ method x = str "GET" ∧ itoa (status x) = str "404")) = 0 ∧
    (demoExchanges.countP fun x => decide (startedSince x)) = 2 ∧
    (demoExchanges.countP fun x => decide ((overSince x ∧ method x = str "GET" ∧ itoa (status x) = str "200") ∧
      inSize 1 (received x))) = 1 := by
  refine ⟨demoProgram _ (by simp [Plugins.views, Plugins.Http.views]) demoCmds, ?_, by decide, by decide, by decide, by decide,
    by decide⟩
  have hp : ∀ x ∈ demoExchanges, Proper x := by
    intro x hx
    simp only [demoExchanges, List.mem_cons, List.not_mem_nil, or_false] at hx
    rcases hx with rfl | rfl | rfl | rfl <;> refine ⟨by simp [HttpClient.env0], ?_⟩ <;> first | trivial | exact ⟨rfl, by decide, by decide⟩
  simp only [demoProgram, demoCmds]
  generalize demoExchanges = l at hp ⊢
  induction l with
  | nil => exact .nil
  | cons x l ih =>
    exact .cons ⟨hp x (by simp), sent_map _ _ _ _⟩ (ih fun x hx => hp x (by simp [hx]))

end Verif.Props.HttpViews
