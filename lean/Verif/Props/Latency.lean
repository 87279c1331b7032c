import Verif.Plugins.Latency
import Verif.RoundErr
import Verif.Props.GrpcViews
import Verif.Props.HttpServerViews

/-!
# C86: latency distributions have every request in the bucket of its duration
-/

namespace Verif.Props.Latency
open Verif Verif.Tag Verif.Stats Verif.View Verif.View.Spec Verif.Props.Rows Verif.Props.Worker Verif.Props.ViewCounts
open Verif.Plugins (latencyMs)
open Verif.Props.HttpViews (rnd_ne_nan)
open Verif.Props.GrpcViews (within)

/-! ## Specification -/

/-- The bounds of the buckets of the HTTP plugin, in nanoseconds. -/
def httpBounds : List Int := [1, 2, 3, 4, 5, 6, 8, 10, 13, 16, 20, 25, 30, 40, 50, 65, 80, 100, 130, 160, 200, 250, 300, 400,
  500, 650, 800, 1000, 2000, 5000, 10000, 20000, 50000, 100000].map (· * 1000000)

/-- The bounds of the buckets of the gRPC plugin, in nanoseconds. -/
def grpcBounds : List Int := [10000, 50000, 100000, 300000, 600000, 800000] ++ httpBounds

/-- The worker got these commands for the records of an HTTP request that took `elapsed` nanoseconds, at any time. -/
def SentHttp (elapsed : Int) (l : List (Http.Tags × List Http.Meas)) (cs : List Cmd) : Prop :=
  List.Forall₂ (fun x c => ∃ now md, c = Plugins.Http.command now md (fun _ => latencyMs elapsed) x) l cs

/-- The worker got these commands for records of an RPC that took `elapsed` nanoseconds, at any time, with any
attachments. -/
def SentGrpc (elapsed : Int) (l : List (TMap × List Verif.Grpc.Meas)) (cs : List Cmd) : Prop :=
  List.Forall₂ (fun x c => ∃ now att, c = Plugins.Grpc.command now att (fun _ => latencyMs elapsed) x) l cs

/-- The commands sent for an RPC that took `elapsed` nanoseconds: one list for every event. -/
def SendsGrpc (x : GrpcViews.Rpc) (elapsed : Int) (css : List (List Cmd)) : Prop :=
  ∃ s, x.state = some s ∧ List.Forall₂ (fun i cs => SentGrpc elapsed (if x.since i then Grpc.records (s.outs i) else []) cs)
    (List.range x.evs.length) css

/-- The commands in `cmds` are those of RPCs that took the given numbers of nanoseconds. -/
def RunsGrpc (xs : List (GrpcViews.Rpc × Int)) (cmds : List (List Cmd)) : Prop :=
  ∃ csss : List (List (List Cmd)), cmds = csss.flatten ∧
    List.Forall₂ (fun x css => x.1.Proper ∧ SendsGrpc x.1 x.2 css) xs csss

/-! ## Helper lemmas -/

theorem isNum_rnd (q : Rat) : (F64.rnd q).IsNum := by
  have := rnd_ne_nan q
  unfold F64.IsNum
  cases h : F64.rnd q <;> simp_all

theorem lt_false_trans {x y z : F64} (hy : y.IsNum) (h : F64.lt x y = false) (h' : F64.lt y z = false) : F64.lt x z = false :=
  F64.nlt_trans hy h h'

theorem million : F64.rnd ((1000000 : Int) : Rat) = .fin 1000000 := by
  rw [F64.rnd_int _ (by decide)]; norm_num

/-- Exact conversion of durations up to 2⁵³ ns. -/
theorem latency_small {n : Int} (h : n.natAbs ≤ 2 ^ 53) : latencyMs n = F64.rnd ((n : Rat) / 1000000) := by
  unfold latencyMs
  rw [million, F64.rnd_int n h]
  simp [F64.div]

theorem div_mono {x y : F64} (hx : x.IsNum) (hy : y.IsNum) (h : F64.lt y x = false) :
    F64.lt (F64.div y (.fin 1000000)) (F64.div x (.fin 1000000)) = false := by
  have e1 : F64.div .pinf (.fin 1000000) = .pinf := by simp only [F64.div]; rw [if_neg (by norm_num)]
  have e2 : F64.div .ninf (.fin 1000000) = .ninf := by simp only [F64.div]; rw [if_neg (by norm_num)]
  have e3 : ∀ q, F64.div (.fin q) (.fin 1000000) = F64.rnd (q / 1000000) := by
    intro q; simp only [F64.div]; rw [if_neg (by norm_num)]
  cases x with
  | nan => exact absurd rfl hx
  | pinf =>
    cases y with
    | pinf => rw [e1]; rfl
    | nan => exact absurd rfl hy
    | ninf => cases h
    | fin q => cases h
  | ninf =>
    rw [e2]
    generalize F64.div y _ = z
    cases z <;> rfl
  | fin a =>
    cases y with
    | pinf => rw [e1]; generalize F64.div _ _ = z; cases z <;> rfl
    | nan => exact absurd rfl hy
    | ninf => cases h
    | fin b =>
      rw [e3, e3]
      simp only [F64.lt, decide_eq_false_iff_not, not_lt] at h
      exact F64.rnd_mono (by linarith)

/-- The recorded latency does not decrease with the duration. -/
theorem latency_mono {n k : Int} (h : n ≤ k) : F64.lt (latencyMs k) (latencyMs n) = false := by
  unfold latencyMs
  rw [million]
  exact div_mono (isNum_rnd _) (isNum_rnd _) (F64.rnd_mono (by exact_mod_cast h))

theorem rnd_pos_fin {q : Rat} (h0 : 0 ≤ q) (h : q ≤ 2 ^ 53) : ∃ r, F64.rnd q = .fin r := by
  have hv : F64.Valid (2 ^ 53) := by
    have := F64.rnd_int (2 ^ 53) (by decide)
    unfold F64.Valid
    exact_mod_cast this
  obtain ⟨r, hr, _⟩ := F64.rnd_between F64.valid_zero hv h0 h
  exact ⟨r, hr⟩

/-- Two durations a nanosecond apart are recorded as different latencies, up to 26 days. -/
theorem rnd_strict {B : Int} (h0 : 0 < B) (h : B ≤ 2 ^ 51) :
    F64.lt (F64.rnd (((B - 1 : Int) : Rat) / 1000000)) (F64.rnd ((B : Rat) / 1000000)) = true := by
  have h0' : (1 : Rat) ≤ (B : Rat) := by exact_mod_cast h0
  have h' : (B : Rat) ≤ 2 ^ 51 := by exact_mod_cast h
  have e : ((B - 1 : Int) : Rat) = (B : Rat) - 1 := by push_cast; ring
  rw [e]
  have p1 : 0 ≤ ((B : Rat) - 1) / 1000000 := by apply div_nonneg <;> linarith
  have p2 : 0 ≤ (B : Rat) / 1000000 := by apply div_nonneg <;> linarith
  obtain ⟨r1, hr1⟩ := rnd_pos_fin p1 (by rw [div_le_iff₀ (by norm_num)]; norm_num at h' ⊢; linarith)
  obtain ⟨r2, hr2⟩ := rnd_pos_fin p2 (by rw [div_le_iff₀ (by norm_num)]; norm_num at h' ⊢; linarith)
  have g1 := F64.rnd_err hr1
  have g2 := F64.rnd_err hr2
  rw [abs_of_nonneg p1] at g1
  rw [abs_of_nonneg p2] at g2
  have g1' := (abs_le.mp g1).2
  have g2' := (abs_le.mp g2).1
  have heta : F64.eta ≤ 1 / 2 ^ 60 := by
    unfold F64.eta
    exact one_div_le_one_div_of_le (by positivity) (pow_le_pow_right₀ (by norm_num) (by norm_num))
  rw [hr1, hr2]
  simp only [F64.lt, decide_eq_true_eq]
  have heps : F64.eps = 1 / 2 ^ 53 := rfl
  rw [heps] at g1' g2'
  norm_num at h' heta g1' g2' ⊢
  linarith

/-- **C86.** A request that took `n` nanoseconds is recorded with a latency below `B` nanoseconds' worth of milliseconds
exactly if `n < B`: the roundings never move it over a bound. -/
theorem latency_below (n : Int) {B : Int} (h0 : 0 < B) (h : B ≤ 2 ^ 51) :
    F64.lt (latencyMs n) (F64.rnd ((B : Rat) / 1000000)) = decide (n < B) := by
  rcases lt_or_ge n B with hn | hn
  · rw [decide_eq_true hn]
    by_contra hc
    have hc := Bool.eq_false_iff.mpr hc
    have h1 := latency_mono (n := n) (k := B - 1) (by omega)
    have h2 := F64.nlt_trans (by
      unfold latencyMs
      rw [million]
      have : ∀ x : F64, x.IsNum → (F64.div x (.fin 1000000)).IsNum := by
        intro x hx
        cases x with
        | nan => exact absurd rfl hx
        | pinf => simp only [F64.div]; rw [if_neg (by norm_num)]; simp [F64.IsNum]
        | ninf => simp only [F64.div]; rw [if_neg (by norm_num)]; simp [F64.IsNum]
        | fin q => simp only [F64.div]; rw [if_neg (by norm_num)]; exact isNum_rnd _
      exact this _ (isNum_rnd _)) h1 hc
    rw [latency_small (by omega), rnd_strict h0 h] at h2
    cases h2
  · rw [decide_eq_false (by omega), ← latency_small (by omega)]
    exact latency_mono hn

/-- **C86.** A longer request is recorded with a greater latency, up to 26 days. -/
theorem latency_strict {n k : Int} (h : n < k) (h0 : 0 < k) (hk : k ≤ 2 ^ 51) : F64.lt (latencyMs n) (latencyMs k) = true := by
  rw [latency_small (n := k) (by omega), latency_below n h0 hk, decide_eq_true h]

/-- **C86.** The recorded latency is the duration in milliseconds up to a relative error of 2⁻⁵³. -/
theorem latency_close {n : Int} (h0 : 0 ≤ n) (h : n ≤ 2 ^ 53) :
    ∃ r : Rat, latencyMs n = .fin r ∧ |r - (n : Rat) / 1000000| ≤ 1 / 2 ^ 53 * ((n : Rat) / 1000000) + 1 / 2 ^ 1075 := by
  have h0' : (0 : Rat) ≤ (n : Rat) := by exact_mod_cast h0
  have h' : (n : Rat) ≤ 2 ^ 53 := by exact_mod_cast h
  have hq : 0 ≤ (n : Rat) / 1000000 := div_nonneg h0' (by norm_num)
  obtain ⟨r, hr⟩ := rnd_pos_fin hq (by rw [div_le_iff₀ (by norm_num)]; norm_num at h' ⊢; linarith)
  refine ⟨r, by rw [latency_small (by omega), hr], ?_⟩
  have := F64.rnd_err hr
  rw [abs_of_nonneg hq] at this
  exact this

theorem inBucket_latency {a : Aggregation F64} {bs : List Int} (ha : a.buckets = bs.map fun b : Int => F64.rnd ((b : Rat) / 1000000))
    (hb : ∀ b ∈ bs, 0 < b ∧ b ≤ 2 ^ 51) (i : Nat) (n : Int) :
    Agg.InBucket a.buckets i (latencyMs n) ↔ within bs i n := by
  rw [ha]
  unfold Agg.InBucket within
  refine and_congr (by rw [List.length_map]) (and_congr ?_ ?_)
  · constructor
    · intro h b hi hm
      have := h _ hi (by rw [List.getElem?_map, hm]; rfl)
      obtain ⟨h1, h2⟩ := hb b (List.mem_of_getElem? hm)
      rw [latency_below n h1 h2] at this
      simpa using this
    · intro h b hi hm
      rw [List.getElem?_map, Option.map_eq_some_iff] at hm
      obtain ⟨b, hm, rfl⟩ := hm
      obtain ⟨h1, h2⟩ := hb b (List.mem_of_getElem? hm)
      rw [latency_below n h1 h2]
      simpa using h b hi hm
  · constructor
    · intro h b hm
      have := h _ (by rw [List.getElem?_map, hm]; rfl)
      obtain ⟨h1, h2⟩ := hb b (List.mem_of_getElem? hm)
      rw [latency_below n h1 h2] at this
      simpa using this
    · intro h b hm
      rw [List.getElem?_map, Option.map_eq_some_iff] at hm
      obtain ⟨b, hm, rfl⟩ := hm
      obtain ⟨h1, h2⟩ := hb b (List.mem_of_getElem? hm)
      rw [latency_below n h1 h2]
      simpa using h b hm

theorem http_bounds : Plugins.Http.latencyDistribution.buckets = httpBounds.map fun b : Int => F64.rnd ((b : Rat) / 1000000) := by
  have h : ([1, 2, 3, 4, 5, 6, 8, 10, 13, 16, 20, 25, 30, 40, 50, 65, 80, 100, 130, 160, 200, 250, 300, 400, 500, 650, 800, 1000,
    2000, 5000, 10000, 20000, 50000, 100000] : List Rat) = httpBounds.map fun b : Int => (b : Rat) / 1000000 := by decide +kernel
  have := congrArg (List.map F64.rnd) h
  rw [List.map_map] at this
  exact this

theorem grpc_bounds :
    Plugins.Grpc.millisecondsDistribution.buckets = grpcBounds.map fun b : Int => F64.rnd ((b : Rat) / 1000000) := by
  have h : ([1 / 100, 5 / 100, 1 / 10, 3 / 10, 6 / 10, 8 / 10, 1, 2, 3, 4, 5, 6, 8, 10, 13, 16, 20, 25, 30, 40, 50, 65, 80, 100, 130,
   160, 200, 250, 300, 400, 500, 650, 800, 1000, 2000, 5000, 10000, 20000, 50000, 100000] : List Rat) =
    grpcBounds.map fun b : Int => (b : Rat) / 1000000 := by decide +kernel
  have := congrArg (List.map F64.rnd) h
  rw [List.map_map] at this
  exact this

theorem httpBounds_pos : ∀ b ∈ httpBounds, 0 < b ∧ b ≤ 2 ^ 51 := by decide
theorem grpcBounds_pos : ∀ b ∈ grpcBounds, 0 < b ∧ b ≤ 2 ^ 51 := by decide

/-! ### HTTP -/

theorem SentHttp.sent {e : Int} {l : List (Http.Tags × List Http.Meas)} {cs : List Cmd} (h : SentHttp e l cs) :
    HttpViews.Sent l cs := h.imp fun _ _ ⟨now, md, hc⟩ => ⟨now, md, _, hc⟩

theorem http_value {e : Int} {l : List (Http.Tags × List Http.Meas)} {cs : List Cmd} (h : SentHttp e l cs) {M : Http.Measure}
    (hl : ∀ y ∈ l, ∀ m ∈ y.2, m.measure = M → m.value = none) :
    ∀ r ∈ samplesOf (Plugins.Http.measureOf M).name cs, r.2.v = latencyMs e := by
  induction h with
  | nil => simp [samplesOf]
  | @cons y c l cs hy _ ih =>
    obtain ⟨now, md, rfl⟩ := hy
    intro r hr
    rw [samplesOf_cons, HttpViews.sample_command, List.mem_append] at hr
    rcases hr with hr | hr
    · obtain ⟨m, hm, rfl⟩ := List.mem_map.mp hr
      rw [List.mem_filter] at hm
      have := hl y (by simp) m hm.1 (of_decide_eq_true hm.2)
      simp only [Plugins.Http.measurement, this]
    · exact ih (fun y h => hl y (by simp [h])) r hr

theorem client_log {x : HttpViews.Exchange} (hx : HttpViews.Proper x) :
    ∀ y ∈ x.log.drop x.before, ∀ m ∈ y.2, m.measure = .clientRoundtripLatency → m.value = none := by
  intro y hy m hm he
  have hy := List.mem_of_mem_drop hy
  obtain ⟨h1, h2⟩ := HttpViews.log_spec x hx
  by_cases ht : HttpViews.tracked x.req
  · obtain ⟨t, n, hl, _⟩ := h2 ht
    rw [hl] at hy
    rcases List.mem_cons.mp hy with rfl | hy
    · rw [List.mem_singleton.mp hm] at he; cases he
    · split at hy
      · rw [List.mem_singleton.mp hy] at hm
        have : m ∈ ((HttpViews.endMeas x n).filter fun m => decide (m.measure = .clientRoundtripLatency)) := by
          rw [List.mem_filter]; exact ⟨hm, decide_eq_true he⟩
        rw [HttpViews.filter_latency, List.mem_singleton] at this
        rw [this]
      · simp at hy
  · rw [h1 ht] at hy; simp at hy

theorem server_log {x : HttpServerViews.Served} (hx : HttpServerViews.Proper x) :
    ∀ y ∈ x.log.drop x.before, ∀ m ∈ y.2, m.measure = .serverLatency → m.value = none := by
  intro y hy m hm he
  have hy := List.mem_of_mem_drop hy
  obtain ⟨t0, t, hl, _⟩ := HttpServerViews.log_spec x hx
  rw [hl] at hy
  rcases List.mem_cons.mp hy with rfl | hy
  · rw [List.mem_singleton.mp hm] at he; cases he
  · split at hy
    · rw [List.mem_singleton.mp hy] at hm
      have : m ∈ ((HttpServerViews.endMeas x).filter fun m => decide (m.measure = .serverLatency)) := by
        rw [List.mem_filter]; exact ⟨hm, decide_eq_true he⟩
      rw [HttpServerViews.filter_latency, List.mem_singleton] at this
      rw [this]
    · simp at hy

/-- **C86.** The view `ClientRoundtripLatencyDistribution` of the HTTP plugin shows, for every method, status and bucket, the
number of requests with them that were over since the view was registered after a time in the bucket. -/
theorem http_client (p : Program Plugins.Http.clientRoundtripLatencyDistributionView) (xs : List (HttpViews.Exchange × Int))
    (hlen : xs.length < 2 ^ 63)
    (hxs : List.Forall₂ (fun x cs => HttpViews.Proper x.1 ∧ SentHttp x.2 (x.1.log.drop x.1.before) cs) xs p.cmds) :
    ∃ rows, p.Shows rows ∧ ∀ m s, ∀ i ≤ 34, bucketShown rows (HttpViews.rowTags m s) i =
      (xs.countP fun x => decide (HttpViews.overSince x.1 ∧ HttpViews.method x.1 = m ∧ Http.itoa (HttpViews.status x.1) = s ∧
        within httpBounds i x.2) : Int) := by
  have hxs' : List.Forall₂ (fun x cs => HttpViews.Proper x ∧ HttpViews.Sent (x.log.drop x.before) cs) (xs.map Prod.fst) p.cmds := by
    rw [List.forall₂_map_left_iff]
    exact hxs.imp fun _ _ h => ⟨h.1, h.2.sent⟩
  obtain ⟨rows, h1, h2⟩ := p.collected (HttpViews.fit_cmds hxs') rfl rfl
  refine ⟨rows, h1, fun m s i hi => ?_⟩
  obtain ⟨e1, e2⟩ := HttpServerViews.one_each hxs p.inter (p.foreign _ rfl)
    (fun r => decide (specTags [Plugins.Http.keyClientMethod, Plugins.Http.keyClientStatus] r.1 = HttpViews.rowTags m s ∧
      Agg.InBucket Plugins.Http.latencyDistribution.buckets i r.2.v)) (fun x => HttpViews.overSince x.1)
    (fun x => HttpViews.overSince x.1 ∧ HttpViews.method x.1 = m ∧ Http.itoa (HttpViews.status x.1) = s ∧
        within httpBounds i x.2)
    (fun x cs h => by
      have := HttpViews.end_samples h.1 h.2.sent (M := .clientRoundtripLatency) (by decide) (HttpViews.filter_latency x.1)
      refine ⟨fun hn => ⟨this.1 hn, fun h => hn h.1⟩, fun hs => ?_⟩
      obtain ⟨tm, s', h3, h4, _⟩ := this.2 hs
      have h5 := http_value h.2 (client_log h.1) (tm, s') (by rw [h3]; simp)
      refine ⟨(tm, s'), h3, ?_⟩
      rw [decide_eq_true_eq]
      simp only at h5 ⊢
      rw [h5, inBucket_latency http_bounds httpBounds_pos, h4, HttpViews.rowTags_inj]
      simp [hs, and_assoc])
  obtain ⟨_, h3⟩ := rows_dist rfl (sorted_of_nice PluginViews.latency_nice) h2 (lt_of_le_of_lt e1 hlen) (HttpViews.rowTags m s)
  exact (h3 i hi).trans (by exact_mod_cast e2)

/-- **C86.** The view `ServerLatencyView` of the HTTP plugin shows for every bucket the number of requests served since the view
was registered in a time in the bucket. -/
theorem http_server (p : Program Plugins.Http.serverLatencyView) (xs : List (HttpServerViews.Served × Int))
    (hlen : xs.length < 2 ^ 63)
    (hxs : List.Forall₂ (fun x cs => HttpServerViews.Proper x.1 ∧ SentHttp x.2 (x.1.log.drop x.1.before) cs) xs p.cmds) :
    ∃ rows, p.Shows rows ∧ ∀ i ≤ 34, bucketShown rows [] i =
      (xs.countP fun x => decide (HttpServerViews.overSince x.1 ∧ within httpBounds i x.2) : Int) := by
  have hxs' : List.Forall₂ (fun x cs => HttpServerViews.Proper x ∧ HttpViews.Sent (x.log.drop x.before) cs)
      (xs.map Prod.fst) p.cmds := by
    rw [List.forall₂_map_left_iff]
    exact hxs.imp fun _ _ h => ⟨h.1, h.2.sent⟩
  obtain ⟨rows, h1, h2⟩ := p.collected (HttpServerViews.fit_cmds hxs') rfl rfl
  refine ⟨rows, h1, fun i hi => ?_⟩
  obtain ⟨e1, e2⟩ := HttpServerViews.one_each hxs p.inter (p.foreign _ rfl)
    (fun r => decide (specTags [] r.1 = [] ∧ Agg.InBucket Plugins.Http.latencyDistribution.buckets i r.2.v))
    (fun x => HttpServerViews.overSince x.1)
    (fun x => HttpServerViews.overSince x.1 ∧ within httpBounds i x.2)
    (fun x cs h => by
      have := HttpServerViews.end_samples h.1 h.2.sent (M := .serverLatency) (by decide) (HttpServerViews.filter_latency x.1)
      refine ⟨fun hn => ⟨this.1 hn, fun h => hn h.1⟩, fun hs => ?_⟩
      obtain ⟨tm, s', h3, _⟩ := this.2 hs
      have h5 := http_value h.2 (server_log h.1) (tm, s') (by rw [h3]; simp)
      refine ⟨(tm, s'), h3, ?_⟩
      rw [decide_eq_true_eq]
      simp only at h5 ⊢
      rw [h5, inBucket_latency http_bounds httpBounds_pos]
      simp [hs, specTags])
  obtain ⟨_, h3⟩ := rows_dist rfl (sorted_of_nice PluginViews.latency_nice) h2 (lt_of_le_of_lt e1 hlen) []
  exact (h3 i hi).trans (by exact_mod_cast e2)

/-! ### gRPC -/

theorem SendsGrpc.sends {x : GrpcViews.Rpc} {e : Int} {css : List (List Cmd)} (h : SendsGrpc x e css) : x.Sends css := by
  obtain ⟨s, hs, hf⟩ := h
  exact ⟨s, hs, hf.imp fun _ _ h => h.imp fun _ _ ⟨now, att, hc⟩ => ⟨now, att, _, hc⟩⟩

theorem grpc_value {e : Int} {l : List (TMap × List Verif.Grpc.Meas)} {cs : List Cmd} (h : SentGrpc e l cs)
    {M : Verif.Grpc.Measure} (hl : ∀ y ∈ l, ∀ m ∈ y.2, m.measure = M → m.value = none) :
    ∀ r ∈ samplesOf (Plugins.Grpc.measureOf M).name cs, r.2.v = latencyMs e := by
  induction h with
  | nil => simp [samplesOf]
  | @cons y c l cs hy _ ih =>
    obtain ⟨now, md, rfl⟩ := hy
    intro r hr
    rw [samplesOf_cons, GrpcViews.sample_command, List.mem_append] at hr
    rcases hr with hr | hr
    · obtain ⟨m, hm, rfl⟩ := List.mem_map.mp hr
      rw [List.mem_filter] at hm
      have := hl y (by simp) m hm.1 (of_decide_eq_true hm.2)
      simp only [Plugins.Grpc.measurement, this]
    · exact ih (fun y h => hl y (by simp [h])) r hr

theorem records_latency {x : GrpcViews.Rpc} (hx : x.Proper) {s : Verif.Grpc.State} (hs : x.state = some s) {j : Nat}
    (hj : j < x.evs.length) {M : Verif.Grpc.Measure} (hM : M = .clientRoundtripLatency ∨ M = .serverLatency) :
    ∀ y ∈ Grpc.records (s.outs j), ∀ m ∈ y.2, m.measure = M → m.value = none := by
  intro y hy m hm hme
  obtain ⟨ev, he⟩ : ∃ ev, x.evs[j]? = some ev := ⟨_, List.getElem?_eq_getElem hj⟩
  obtain ⟨r1, r2⟩ := GrpcViews.records_of hx hs he
  cases hd : x.done j with
  | false => rw [r1 hd] at hy; simp at hy
  | true =>
    have r2 := r2 hd
    cases ev with
    | begin cl ff =>
      obtain ⟨t, hrec, _⟩ := r2
      rw [hrec, List.mem_singleton] at hy
      subst hy
      rw [List.mem_singleton] at hm
      subst hm
      simp only at hme
      rcases hM with rfl | rfl <;> cases hc : x.client <;> rw [hc] at hme <;> cases hme
    | «end» cl err =>
      obtain ⟨t, hrec, _⟩ := r2
      rw [hrec, List.mem_singleton] at hy
      subst hy
      simp only [GrpcViews.endMeas, Grpc.endMeasurements] at hm
      rcases hM with rfl | rfl <;> cases hc : x.client <;> rw [hc] at hm <;> simp at hm <;>
        rcases hm with rfl | rfl | rfl | rfl | rfl <;> first | rfl | cases hme
    | _ =>
      rw [show Grpc.records (s.outs j) = [] from r2] at hy
      simp at hy

theorem grpc_values {x : GrpcViews.Rpc} (hx : x.Proper) {e : Int} {css : List (List Cmd)} (h : SendsGrpc x e css)
    {M : Verif.Grpc.Measure} (hM : M = .clientRoundtripLatency ∨ M = .serverLatency) :
    ∀ r ∈ css.flatMap (samplesOf (Plugins.Grpc.measureOf M).name), r.2.v = latencyMs e := by
  obtain ⟨s, hs, hf⟩ := h
  intro r hr
  obtain ⟨cs, hcs, hr⟩ := List.mem_flatMap.mp hr
  obtain ⟨j, hj, rfl⟩ := List.getElem_of_mem hcs
  have hlen := hf.length_eq
  have hsent := (List.forall₂_iff_get.mp hf).2 j (by omega) hj
  simp only [List.get_eq_getElem, List.getElem_range] at hsent
  refine grpc_value hsent ?_ r hr
  intro y hy m hm hme
  split at hy
  swap
  · simp at hy
  exact records_latency hx hs (by rw [List.length_range] at hlen; omega) hM y hy m hm hme

theorem grpc_view {v : ViewDef} (p : Program v) (xs : List (GrpcViews.Rpc × Int)) (hlen : xs.length < 2 ^ 63)
    (hxs : RunsGrpc xs p.cmds) {M : Verif.Grpc.Measure} (hM : M = .clientRoundtripLatency ∨ M = .serverLatency)
    (hm : v.measure = some (Plugins.Grpc.measureOf M)) (ha : v.agg = some Plugins.Grpc.millisecondsDistribution) (side : Bool)
    (km : String) (hkm : GrpcViews.keyMethod side = ⟨str km⟩) (hkeys : v.tagKeys = [GrpcViews.keyMethod side])
    (hval : ∀ x, ((GrpcViews.endMeas x).filter fun y => decide (y.measure = M)) = if x.client = side then [⟨M, none⟩] else []) :
    ∃ rows, p.Shows rows ∧ ∀ m, ∀ i ≤ 40, bucketShown rows (GrpcViews.rowTags [(km, m)]) i =
      (xs.countP fun x => decide (x.1.client = side ∧ x.1.method = m ∧ x.1.ended.isSome = true ∧ within grpcBounds i x.2) : Int) := by
  obtain ⟨csss, hcsss, hf⟩ := hxs
  have hinter := p.inter
  rw [hcsss] at hinter
  have hf' : List.Forall₂ (fun x css => x.Proper ∧ x.Sends css) (xs.map Prod.fst) csss := by
    rw [List.forall₂_map_left_iff]
    exact hf.imp fun _ _ h => ⟨h.1, h.2.sends⟩
  have hM' : M ≠ .clientStarted ∧ M ≠ .serverStarted := by rcases hM with rfl | rfl <;> decide
  obtain ⟨rows, h1, h2⟩ := p.collected (by rw [hcsss]; exact GrpcViews.fit_rpcs hf') ha hm
  have e1 : (samplesOf (Plugins.Grpc.measureOf M).name p.mid).length ≤ xs.length := by
    have := (GrpcViews.end_counts hf' hinter hM' (p.foreign _ hm) side _ hval).1
    simpa using this
  refine ⟨rows, h1, fun m i hi => ?_⟩
  obtain ⟨_, h4⟩ := rows_dist rfl (sorted_of_nice PluginViews.milliseconds_nice) h2 (lt_of_le_of_lt e1 hlen)
    (GrpcViews.rowTags [(km, m)])
  rw [h4 i hi]
  have := GrpcViews.count_rpcs hinter (p.foreign _ hm)
    (fun r => decide (specTags v.tagKeys r.1 = GrpcViews.rowTags [(km, m)] ∧
      Agg.InBucket Plugins.Grpc.millisecondsDistribution.buckets i r.2.v))
    (fun x : GrpcViews.Rpc × Int =>
      decide (x.1.client = side ∧ x.1.method = m ∧ x.1.ended.isSome = true ∧ within grpcBounds i x.2)) (hf.imp ?_)
  · exact_mod_cast this
  · rintro x css ⟨hx, hs⟩
    have hv := grpc_values hx hs hM
    have := GrpcViews.end_samples hx hs.sends hM'
    cases he : x.1.ended with
    | none =>
      rw [he] at this; simp only at this; rw [this]
      simp
    | some err =>
      rw [he] at this
      obtain ⟨t, now, att, lat, h, g1, g2⟩ := this
      rw [h, hval] at hv ⊢
      by_cases hc : x.1.client = side
      · rw [if_pos hc, List.map_singleton] at hv ⊢
        have hv := hv _ (List.mem_singleton.mpr rfl)
        simp only at hv
        rw [List.countP_singleton]
        simp only [hv, inBucket_latency grpc_bounds grpcBounds_pos]
        have g1 : given (some t) ⟨str km⟩ = x.1.method := by
          rw [← hkm, ← hc]; exact g1
        simp only [hkeys, hkm, GrpcViews.specTags_one g1, GrpcViews.rowTags_one_inj]
        simp [hc]
      · rw [if_neg hc]
        simp [hc]

/-- **C86.** The view `ClientRoundtripLatencyView` of the gRPC plugin shows for every method and bucket the number of the client's
RPCs whose end was handled since the view was registered after a time in the bucket. -/
theorem grpc_client (p : Program Plugins.Grpc.clientRoundtripLatencyView) (xs : List (GrpcViews.Rpc × Int))
    (hlen : xs.length < 2 ^ 63) (hxs : RunsGrpc xs p.cmds) :
    ∃ rows, p.Shows rows ∧ ∀ m, ∀ i ≤ 40, bucketShown rows (GrpcViews.rowTags [("grpc_client_method", m)]) i =
      (xs.countP fun x => decide (x.1.client = true ∧ x.1.method = m ∧ x.1.ended.isSome = true ∧ within grpcBounds i x.2) : Int) :=
  grpc_view p xs hlen hxs (M := .clientRoundtripLatency) (by simp) rfl rfl true _ rfl rfl
    (by intro x; unfold GrpcViews.endMeas Grpc.endMeasurements; cases x.client <;> rfl)

/-- **C86.** The view `ServerLatencyView` of the gRPC plugin shows the same of the server's RPCs. -/
theorem grpc_server (p : Program Plugins.Grpc.serverLatencyView) (xs : List (GrpcViews.Rpc × Int))
    (hlen : xs.length < 2 ^ 63) (hxs : RunsGrpc xs p.cmds) :
    ∃ rows, p.Shows rows ∧ ∀ m, ∀ i ≤ 40, bucketShown rows (GrpcViews.rowTags [("grpc_server_method", m)]) i =
      (xs.countP fun x => decide (x.1.client = false ∧ x.1.method = m ∧ x.1.ended.isSome = true ∧ within grpcBounds i x.2) : Int) :=
  grpc_view p xs hlen hxs (M := .serverLatency) (by simp) rfl rfl false _ rfl rfl
    (by intro x; unfold GrpcViews.endMeas Grpc.endMeasurements; cases x.client <;> rfl)

/-! ## Examples -/

/-- A request of 1 ms is not below the bound of 1 ms, one that took a nanosecond less is; 300 µs, which no float has exactly. -/
example : F64.lt (latencyMs 1000000) (F64.rnd ((1000000 : Int) / 1000000)) = false ∧
    F64.lt (latencyMs 999999) (F64.rnd ((1000000 : Int) / 1000000)) = true ∧
    F64.lt (latencyMs 300000) (F64.rnd ((300000 : Int) / 1000000)) = false ∧
    F64.lt (latencyMs 299999) (F64.rnd ((300000 : Int) / 1000000)) = true := by
  refine ⟨?_, ?_, ?_, ?_⟩ <;> rw [latency_below _ (by decide) (by decide)] <;> decide

def demoHttp : List (HttpViews.Exchange × Int) := HttpViews.demoExchanges.zip [1500000, 70000, 2000000, 2999999]

/-- The hypotheses of `http_client` are met by these requests, and one of them took from 1 to 2 ms. -/
example : ∃ p : Program Plugins.Http.clientRoundtripLatencyDistributionView,
    List.Forall₂ (fun x cs => HttpViews.Proper x.1 ∧ SentHttp x.2 (x.1.log.drop x.1.before) cs) demoHttp p.cmds ∧
    (demoHttp.countP fun x => decide (HttpViews.overSince x.1 ∧ HttpViews.method x.1 = str "GET" ∧
      Http.itoa (HttpViews.status x.1) = str "200" ∧ within httpBounds 1 x.2)) = 1 := by
  refine ⟨demoProgram _ (by simp [Plugins.views, Plugins.Http.views]) (demoHttp.map fun x =>
    (x.1.log.drop x.1.before).map (Plugins.Http.command 9 (fun _ => ⟨-1⟩) fun _ => latencyMs x.2)), ?_, by decide +kernel⟩
  have hp : ∀ x ∈ demoHttp, HttpViews.Proper x.1 := by
    intro x hx
    simp only [demoHttp, HttpViews.demoExchanges, List.zip_cons_cons, List.zip_nil_left, List.mem_cons, List.not_mem_nil, or_false] at hx
    rcases hx with rfl | rfl | rfl | rfl <;> refine ⟨by simp [HttpClient.env0], ?_⟩ <;> first | trivial | exact ⟨rfl, by decide, by decide⟩
  simp only [demoProgram]
  rw [List.forall₂_map_right_iff, List.forall₂_same]
  refine fun x hx => ⟨hp x hx, ?_⟩
  unfold SentHttp
  rw [List.forall₂_map_right_iff, List.forall₂_same]
  exact fun _ _ => ⟨9, _, rfl⟩

def demoServed : List (HttpServerViews.Served × Int) := HttpServerViews.demoServed.zip [1500000, 70000, 2000000, 2999999]

/-- The hypotheses of `http_server` are met by these requests, and one of them took less than 1 ms. -/
example : ∃ p : Program Plugins.Http.serverLatencyView,
    List.Forall₂ (fun x cs => HttpServerViews.Proper x.1 ∧ SentHttp x.2 (x.1.log.drop x.1.before) cs) demoServed p.cmds ∧
    (demoServed.countP fun x => decide (HttpServerViews.overSince x.1 ∧ within httpBounds 0 x.2)) = 1 := by
  refine ⟨demoProgram _ (by simp [Plugins.views, Plugins.Http.views]) (demoServed.map fun x =>
    (x.1.log.drop x.1.before).map (Plugins.Http.command 9 (fun _ => ⟨-1⟩) fun _ => latencyMs x.2)), ?_, by decide +kernel⟩
  have hp : ∀ x ∈ demoServed, HttpServerViews.Proper x.1 := by
    intro x hx
    simp only [demoServed, HttpServerViews.demoServed, List.zip_cons_cons, List.zip_nil_left, List.mem_cons, List.not_mem_nil,
      or_false] at hx
    rcases hx with rfl | rfl | rfl | rfl <;> simp [HttpServerViews.Proper, HttpClient.env0]
  simp only [demoProgram]
  rw [List.forall₂_map_right_iff, List.forall₂_same]
  refine fun x hx => ⟨hp x hx, ?_⟩
  unfold SentHttp
  rw [List.forall₂_map_right_iff, List.forall₂_same]
  exact fun _ _ => ⟨9, _, rfl⟩

def demoRpcs : List (GrpcViews.Rpc × Int) := GrpcViews.demoRpcs.zip [300000, 70000]

def demoCmds : List (List (List Cmd)) :=
  demoRpcs.map fun x => (List.range x.1.evs.length).map fun i =>
    (match x.1.state with
      | some s => if x.1.since i then Grpc.records (s.outs i) else []
      | none => []).map (Plugins.Grpc.command 9 [] fun _ => latencyMs x.2)

/-- The hypotheses of `grpc_client` are met by these RPCs, and one of them took from 300 to 600 µs. -/
example : ∃ p : Program Plugins.Grpc.clientRoundtripLatencyView, RunsGrpc demoRpcs p.cmds ∧
    (demoRpcs.countP fun x => decide (x.1.client = true ∧ x.1.method = str "pkg.Service/Method" ∧ x.1.ended.isSome = true ∧
      within grpcBounds 4 x.2)) = 1 := by
  refine ⟨demoProgram _ (by simp [Plugins.views, Plugins.Grpc.views]) demoCmds.flatten, ⟨demoCmds, rfl, ?_⟩, by decide +kernel⟩
  have hp : ∀ x ∈ demoRpcs, x.1.Proper := fun x hx => GrpcViews.demo_proper _ (List.of_mem_zip hx).1
  unfold demoCmds
  rw [List.forall₂_map_right_iff, List.forall₂_same]
  refine fun x hx => ⟨hp x hx, ?_⟩
  obtain ⟨s, hs⟩ := Option.isSome_iff_exists.mp (hp x hx).runs
  refine ⟨s, hs, ?_⟩
  simp only [hs]
  rw [List.forall₂_map_right_iff, List.forall₂_same]
  refine fun i _ => ?_
  unfold SentGrpc
  rw [List.forall₂_map_right_iff, List.forall₂_same]
  exact fun _ _ => ⟨9, _, rfl⟩

end Verif.Props.Latency
