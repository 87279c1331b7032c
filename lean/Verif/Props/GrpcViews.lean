import Verif.Plugins.GrpcReport
import Verif.Props.GrpcWire
import Verif.Props.HttpViews

/-!
# C69: the views of the gRPC plugin count the RPCs
-/

namespace Verif.Props.GrpcViews
open Verif Verif.Tag Verif.Stats Verif.View Verif.View.Spec Verif.Props.Rows Verif.Props.Worker Verif.Props.ViewCounts
open Verif.Grpc (Ctx Event GErr Field Meas Env methodName statusTag keyClientMethod keyClientStatus keyServerMethod
  keyServerStatus)
open Verif.Plugins.Grpc (measureOf measurement command)
open Verif.Props.Grpc (records endMeasurements amount Returned NotCalled GoodTags TagsAre isBegin endTags)

/-! ## Specification -/

/-- An RPC, on the client's or the server's side. gRPC hands over the events `evs`, each from some goroutine. `early` is the
schedule of their handlers up to the point where the end is handed over (or up to now, if it is not), `late` the
schedule from there. `since` says for which events what the handler records reached the worker after the view was
registered. -/
structure Rpc where
  client : Bool
  full : Bytes
  ctx : Ctx
  order : List Bytes
  evs : List Event
  early : List Nat
  late : List Nat
  since : Nat → Bool

/-- The state when the end is handed over. -/
def Rpc.atEnd (x : Rpc) : Option Verif.Grpc.State := (Verif.Grpc.State.init x.ctx x.order x.evs).run x.early

/-- The state now. -/
def Rpc.state (x : Rpc) : Option Verif.Grpc.State := x.atEnd.bind fun s => s.run x.late

/-- The handler of event `i` has returned. -/
def Rpc.done (x : Rpc) (i : Nat) : Bool :=
  match x.state with
  | some s => (s.todo i).isEmpty
  | none => false

/-- The start of the RPC was handled, and recorded after the view was registered. -/
def Rpc.started (x : Rpc) : Bool :=
  (List.range x.evs.length).any fun i => match x.evs[i]? with
    | some (Event.begin _ _) => x.done i && x.since i
    | _ => false

/-- The error of the RPC, if its end was handled, and recorded after the view was registered. -/
def Rpc.ended (x : Rpc) : Option GErr :=
  (List.range x.evs.length).findSome? fun i => match x.evs[i]? with
    | some (Event.end _ err) => if x.done i && x.since i then some err else none
    | _ => none

/-- The method in the views: the full name without leading slashes. -/
def Rpc.method (x : Rpc) : Bytes := x.full.dropWhile fun c => c == 47

/-- Bytes or messages, sent or received. -/
def Rpc.total (x : Rpc) (f : Field) : Int := (x.evs.map (amount f)).sum

/-- The context `TagRPC` returned. -/
def Rpc.Tagged (x : Rpc) : Prop :=
  if x.client then ∃ env : Env, x.ctx = Verif.Grpc.clientCtx env x.full ∧ GoodTags env.tags
  else ∃ (env : Env) (wire : Option Bytes), Verif.Grpc.serverCtx env wire x.full = .ok x.ctx ∧ ∀ b, wire = some b → b.length < 2 ^ 63

/-- How gRPC uses the handler: one start, one end, with the side's flag; the handlers of the payloads have returned before
the end is handed over. The method is a valid tag value, and the totals are within an `int64`. -/
structure Rpc.Proper (x : Rpc) : Prop where
  runs : x.state.isSome
  tagged : x.Tagged
  valid : checkValue x.method = true
  begins : ∀ (i : Nat) cl ff, x.evs[i]? = some (Event.begin cl ff) → cl = x.client
  ends : ∀ (i : Nat) cl err, x.evs[i]? = some (Event.end cl err) → cl = x.client
  oneBegin : ∀ (i j : Nat) cl ff cl' ff', x.evs[i]? = some (Event.begin cl ff) → x.evs[j]? = some (Event.begin cl' ff') → i = j
  oneEnd : ∀ (i j : Nat) cl err cl' err', x.evs[i]? = some (Event.end cl err) → x.evs[j]? = some (Event.end cl' err') → i = j
  fresh : ∀ s (i : Nat) cl err, x.atEnd = some s → x.evs[i]? = some (Event.end cl err) → NotCalled x.ctx x.order x.evs s i
  last : ∀ s (i : Nat) cl err, x.atEnd = some s → x.evs[i]? = some (Event.end cl err) → x.done i = true →
    ∀ (j : Nat) e, x.evs[j]? = some e → (∃ f, amount f e ≠ 0) → Returned s j
  range : ∀ f, -2 ^ 63 ≤ x.total f ∧ x.total f < 2 ^ 63

/-- The worker got these commands for these records, at any time, with any latencies and attachments. -/
def Sent (l : List (TMap × List Meas)) (cs : List Cmd) : Prop :=
  List.Forall₂ (fun r c => ∃ now att lat, c = command now att lat r) l cs

/-- The commands sent for an RPC since the view was registered: one list for every event. -/
def Rpc.Sends (x : Rpc) (css : List (List Cmd)) : Prop :=
  ∃ s, x.state = some s ∧
    List.Forall₂ (fun i cs => Sent (if x.since i then records (s.outs i) else []) cs) (List.range x.evs.length) css

/-- The commands in `cmds` are those of the RPCs `xs`. -/
def Runs (xs : List Rpc) (cmds : List (List Cmd)) : Prop :=
  ∃ csss : List (List (List Cmd)), cmds = csss.flatten ∧ List.Forall₂ (fun x css => x.Proper ∧ x.Sends css) xs csss

/-- The tags of a row: empty values are left out. -/
def rowTags (kvs : List (String × Bytes)) : List (Key × Bytes) :=
  (kvs.map fun kv => ((⟨str kv.1⟩ : Key), kv.2)).filter fun kv => decide (kv.2 ≠ [])

/-- The `i`-th bucket of a distribution with the bounds `bs`. -/
def within (bs : List Int) (i : Nat) (n : Int) : Prop :=
  i ≤ bs.length ∧ (∀ b, 0 < i → bs[i - 1]? = some b → b ≤ n) ∧ ∀ b, bs[i]? = some b → n < b

instance (bs : List Int) (i : Nat) (n : Int) : Decidable (within bs i n) :=
  decidable_of_iff (i ≤ bs.length ∧ (0 < i → (bs[i - 1]?.all fun b => decide (b ≤ n)) = true) ∧
      (bs[i]?.all fun b => decide (n < b)) = true) (by
    unfold within
    refine and_congr_right fun _ => and_congr ?_ ?_
    · cases bs[i - 1]? <;> simp
    · cases bs[i]? <;> simp)

/-- Bytes: below 1 KiB, from 1 to 2 KiB, and so on; from 4 GiB up. -/
def bytesBounds : List Int :=
  [2 ^ 10, 2 ^ 11, 2 ^ 12, 2 ^ 14, 2 ^ 16, 2 ^ 18, 2 ^ 20, 2 ^ 22, 2 ^ 24, 2 ^ 26, 2 ^ 28, 2 ^ 30, 2 ^ 32]

/-- Messages: none, one, from 2 to 3, from 4 to 7, and so on; from 2¹⁶ up. -/
def messagesBounds : List Int := (List.range 17).map fun k => 2 ^ k

/-! ## Helper lemmas -/

theorem inBucket_within {a : Aggregation F64} {bs : List Int} (ha : a.buckets = bs.map fun b : Int => F64.fin (b : Rat))
    (hb : ∀ b ∈ bs, 0 < b ∧ b ≤ 2 ^ 53) (i : Nat) (n : Int) : Agg.InBucket a.buckets i (F64.rnd n) ↔ within bs i n := by
  rw [ha]
  unfold Agg.InBucket within
  refine and_congr (by rw [List.length_map]) (and_congr ?_ ?_)
  · constructor
    · intro h b hi hbi
      have := h _ hi (by rw [List.getElem?_map, hbi]; rfl)
      obtain ⟨h1, h2⟩ := hb b (List.mem_of_getElem? hbi)
      rw [HttpViews.rnd_lt n b h1 h2] at this
      simpa using this
    · intro h b hi hbi
      rw [List.getElem?_map, Option.map_eq_some_iff] at hbi
      obtain ⟨b, hbi, rfl⟩ := hbi
      obtain ⟨h1, h2⟩ := hb b (List.mem_of_getElem? hbi)
      rw [HttpViews.rnd_lt n b h1 h2]
      simpa using h b hi hbi
  · constructor
    · intro h b hbi
      have := h _ (by rw [List.getElem?_map, hbi]; rfl)
      obtain ⟨h1, h2⟩ := hb b (List.mem_of_getElem? hbi)
      rw [HttpViews.rnd_lt n b h1 h2] at this
      simpa using this
    · intro h b hbi
      rw [List.getElem?_map, Option.map_eq_some_iff] at hbi
      obtain ⟨b, hbi, rfl⟩ := hbi
      obtain ⟨h1, h2⟩ := hb b (List.mem_of_getElem? hbi)
      rw [HttpViews.rnd_lt n b h1 h2]
      simpa using h b hbi

theorem bytes_bounds : Plugins.Grpc.bytesDistribution.buckets = bytesBounds.map fun b : Int => F64.fin (b : Rat) := by
  decide +kernel

theorem messages_bounds : Plugins.Grpc.messageCountDistribution.buckets = messagesBounds.map fun b : Int => F64.fin (b : Rat) := by
  decide +kernel

theorem bytesBounds_pos : ∀ b ∈ bytesBounds, 0 < b ∧ b ≤ 2 ^ 53 := by decide
theorem messagesBounds_pos : ∀ b ∈ messagesBounds, 0 < b ∧ b ≤ 2 ^ 53 := by decide

/-! ### Tags -/

theorem given_get (m : TMap) (k : Key) : given (some m) k = ((GoMap.get m k).map (·.value)).getD [] := by
  unfold given
  simp only [Option.getD_some]
  induction m with
  | nil => rfl
  | cons e m ih =>
    obtain ⟨k', v⟩ := e
    simp only [List.find?_cons, GoMap.get]
    by_cases h : k' = k
    · simp [h]
    · simpa [h] using ih

theorem copyAllP_ok {m0 : TMap} {es : List (Key × Content)} (h0 : ∀ e ∈ m0, EntryOK e) :
    ∀ e ∈ (copyAllP m0 es).1, EntryOK e := by
  induction es generalizing m0 with
  | nil => exact h0
  | cons e es ih =>
    obtain ⟨k, v⟩ := e
    simp only [copyAllP]
    split
    · exact h0
    · split
      · exact h0
      · rename_i h1 h2
        apply ih
        unfold Tag.insert
        split
        · exact h0
        · intro e he
          rcases GoMap.mem_set he with rfl | he
          · exact ⟨by simpa using h1, by simpa using h2⟩
          · exact h0 e (by simpa using he)

theorem mutateAllP_ok {m : TMap} (h0 : ∀ e ∈ m, EntryOK e) {kvs : List (Key × Bytes)}
    (hk : ∀ kv ∈ kvs, checkKeyName kv.1.name = true) :
    ∀ e ∈ (mutateAllP m (kvs.map fun kv => .upsert kv.1 kv.2 [])).1, EntryOK e := by
  induction kvs generalizing m with
  | nil => exact h0
  | cons kv kvs ih =>
    simp only [List.map_cons, mutateAllP, mutateP]
    by_cases hv : checkValue kv.2 = true
    · simp only [hv, Bool.not_true, Bool.false_eq_true, if_false]
      refine ih ?_ fun kv h => hk kv (by simp [h])
      intro e he
      rcases GoMap.mem_set he with rfl | he
      · exact ⟨hk kv (by simp), hv⟩
      · exact h0 e (by simpa using he)
    · simp only [hv]
      exact h0

theorem tagNew_good {m : Option TMap} {kvs : List (Key × Bytes)} (hk : ∀ kv ∈ kvs, checkKeyName kv.1.name = true)
    {m' : TMap} (h : Verif.Grpc.tagNew m kvs = some m') : GoodTags (some m') := by
  unfold Verif.Grpc.tagNew at h
  have h1 := copyAllP_ok (m0 := []) (es := m.getD []) (by simp)
  have h2 := copyAllP_wf [] (m.getD []) (by simp [GoMap.WF, GoMap.keys])
  rcases hc : copyAllP [] (m.getD []) with ⟨m1, o⟩
  rw [hc] at h h1 h2
  cases o with
  | some _ => cases h
  | none =>
    simp only at h h1 h2
    have h3 := mutateAllP_ok h1 hk
    have h4 := mutateAllP_wf (mus := kvs.map fun kv => .upsert kv.1 kv.2 []) h2
    rcases hm : mutateAllP m1 (kvs.map fun kv => .upsert kv.1 kv.2 []) with ⟨m2, o⟩
    rw [hm] at h h3 h4
    cases o with
    | some _ => cases h
    | none =>
      simp only [Option.some.injEq] at h
      subst h
      rintro l ⟨⟩
      exact ⟨h4, h3⟩

/-- What the context of an RPC is. -/
theorem tagged_spec {x : Rpc} (hx : x.Proper) : x.ctx.method = some x.full ∧ GoodTags x.ctx.tags ∧
    (x.client = false → (Grpc.valueIn x.ctx.tags keyServerMethod).map (·.value) = some x.method) := by
  have ht := hx.tagged
  have hv : checkValue (methodName x.full) = true := hx.valid
  unfold Rpc.Tagged at ht
  split at ht
  · next hc =>
    obtain ⟨env, he, hg⟩ := ht
    rw [he]
    exact ⟨rfl, hg, fun h => by rw [hc] at h; cases h⟩
  · obtain ⟨env, wire, he, hw⟩ := ht
    unfold Verif.Grpc.serverCtx Verif.Grpc.serverTags at he
    cases hx : Verif.Grpc.extractTags wire with
    | err => rw [hx] at he; cases he
    | panic => rw [hx] at he; cases he
    | ok pr =>
      rw [hx] at he
      have hg : GoodTags pr := by
        unfold Verif.Grpc.extractTags at hx
        cases wire with
        | none => cases hx; intro l hl; cases hl
        | some b =>
          simp only at hx
          cases hd : Tag.decode b with
          | ok m => rw [hd] at hx; cases hx; exact Grpc.decode_good (hw b rfl) hd
          | err => rw [hd] at hx; cases hx; intro l hl; cases hl
          | panic => rw [hd] at hx; cases hx
      obtain ⟨m', h1, h2, _⟩ := Grpc.tagNew_spec hg (kvs := [(keyServerMethod, methodName x.full)])
        (by intro kv hkv; cases List.mem_singleton.mp hkv; exact hv) (by simp)
      simp only [Res.bind, h1, Res.ok.injEq] at he
      rw [← he]
      refine ⟨rfl, tagNew_good ?_ h1, fun _ => ?_⟩
      · intro kv hkv; rw [List.mem_singleton.mp hkv]; rfl
      · exact h2 (keyServerMethod, methodName x.full) (by simp)

theorem records_good {c : Ctx} {vs : List Int} (l : List Verif.Grpc.Micro) :
    ∀ r ∈ records (Verif.Grpc.outsOf c vs l), GoodTags (some r.1) := by
  have hrec : ∀ kvs ms, (∀ kv ∈ kvs, checkKeyName kv.1.name = true) →
      ∀ r ∈ records (Verif.Grpc.record c.tags kvs ms), GoodTags (some r.1) := by
    intro kvs ms hk r hr
    unfold Verif.Grpc.record at hr
    cases ht : Verif.Grpc.tagNew c.tags kvs with
    | none => rw [ht] at hr; simp [records] at hr
    | some m =>
      rw [ht] at hr
      simp only [records, List.mem_singleton] at hr
      subst hr
      exact tagNew_good hk ht
  induction l with
  | nil => simp [Verif.Grpc.outsOf, records]
  | cons m l ih =>
    cases m with
    | recordStarted cl =>
      simp only [Verif.Grpc.outsOf, Grpc.records_append, List.mem_append]
      rintro r (hr | hr)
      · refine hrec _ _ ?_ r hr
        intro kv hkv; rw [List.mem_singleton.mp hkv]; rfl
      · exact ih r hr
    | recordEnd cl st =>
      simp only [Verif.Grpc.outsOf, Grpc.records_append, List.mem_append]
      rintro r (hr | hr)
      · unfold Verif.Grpc.endRecord at hr
        split at hr
        · refine hrec _ _ ?_ r hr
          intro kv hkv
          simp only [List.mem_cons, List.not_mem_nil, or_false] at hkv
          rcases hkv with rfl | rfl <;> rfl
        · refine hrec _ _ ?_ r hr
          intro kv hkv; rw [List.mem_singleton.mp hkv]; rfl
      · exact ih r hr
    | trace op => simpa [Verif.Grpc.outsOf, records] using ih
    | add f n => simpa [Verif.Grpc.outsOf, records] using ih
    | load f => simpa [Verif.Grpc.outsOf, records] using ih
    | panic => simpa [Verif.Grpc.outsOf, records] using ih

/-! ### What the events record -/

/-- A step that records. -/
def isRecord : Verif.Grpc.Micro → Bool
  | .recordStarted _ => true
  | .recordEnd _ _ => true
  | _ => false

theorem records_none {c : Ctx} {vs : List Int} {l : List Verif.Grpc.Micro} (h : ∀ m ∈ l, isRecord m = false) :
    records (Verif.Grpc.outsOf c vs l) = [] := by
  induction l with
  | nil => rfl
  | cons m l ih =>
    have hm := h m (by simp)
    have := ih fun m hm => h m (by simp [hm])
    cases m with
    | recordStarted cl => cases hm
    | recordEnd cl st => cases hm
    | _ => simpa [Verif.Grpc.outsOf, records] using this

theorem dropLast_handle (c : Ctx) (order : List Bytes) (e : Event) :
    ∀ m ∈ (Verif.Grpc.handleRPC c order e).dropLast, isRecord m = false := by
  unfold Verif.Grpc.handleRPC Verif.Grpc.traceHandleRPC Verif.Grpc.statsHandleRPC
  cases e with
  | «end» cl err => cases err <;> cases c.method.isNone <;> simp [isRecord]
  | begin cl ff => cases c.method.isNone <;> simp [isRecord]
  | outPayload n w => cases c.method.isNone <;> simp [isRecord]
  | inPayload n w => cases c.method.isNone <;> simp [isRecord]
  | header => simp

/-- A handler that has not returned has recorded nothing. -/
theorem records_running {x : Rpc} {s : Verif.Grpc.State} (hI : Verif.Grpc.Inv x.ctx x.order x.evs s) {i : Nat}
    (hi : i < x.evs.length) (hn : s.todo i ≠ []) : records (s.outs i) = [] := by
  obtain ⟨pre, ha⟩ := hI.pos i hi
  rw [ha.out]
  refine records_none fun m hm => dropLast_handle x.ctx x.order x.evs[i] m ?_
  rw [ha.split, List.dropLast_append_of_ne_nil hn]
  exact List.mem_append_left _ hm

theorem outs_good {x : Rpc} {s : Verif.Grpc.State} (hI : Verif.Grpc.Inv x.ctx x.order x.evs s) {i : Nat}
    (hi : i < x.evs.length) : ∀ r ∈ records (s.outs i), GoodTags (some r.1) := by
  obtain ⟨pre, ha⟩ := hI.pos i hi
  rw [ha.out]
  exact records_good _

theorem inv_of {x : Rpc} {s : Verif.Grpc.State} (h : x.state = some s) :
    ∃ s1, x.atEnd = some s1 ∧ (Verif.Grpc.State.init x.ctx x.order x.evs).run x.early = some s1 ∧ s1.run x.late = some s ∧
      (Verif.Grpc.State.init x.ctx x.order x.evs).run (x.early ++ x.late) = some s ∧ Verif.Grpc.Inv x.ctx x.order x.evs s := by
  unfold Rpc.state at h
  cases h1 : x.atEnd with
  | none => rw [h1] at h; cases h
  | some s1 =>
    rw [h1] at h
    have h1' : (Verif.Grpc.State.init x.ctx x.order x.evs).run x.early = some s1 := h1
    have h2 : s1.run x.late = some s := h
    have hrun : ∀ (l l' : List Nat) (a b c : Verif.Grpc.State), a.run l = some b → b.run l' = some c → a.run (l ++ l') = some c := by
      intro l
      induction l with
      | nil => intro l' a b c h1 h2; cases h1; exact h2
      | cons t l ih =>
        intro l' a b c h1 h2
        simp only [Verif.Grpc.State.run, List.cons_append] at h1 ⊢
        cases hs : a.step t with
        | none => rw [hs] at h1; cases h1
        | some a' => rw [hs] at h1; exact ih l' a' b c h1 h2
    exact ⟨s1, rfl, h1', h2, hrun _ _ _ _ _ h1' h2,
      Verif.Grpc.inv_run (Verif.Grpc.inv_run (Verif.Grpc.inv_init x.ctx x.order x.evs) h1') h2⟩

theorem done_iff {x : Rpc} {s : Verif.Grpc.State} (h : x.state = some s) (i : Nat) : x.done i = true ↔ s.todo i = [] := by
  unfold Rpc.done
  rw [h]
  simp

/-- The measurements of the end of an RPC. -/
def endMeas (x : Rpc) : List Meas :=
  endMeasurements x.client (x.total .sentBytes) (x.total .sentCount) (x.total .recvBytes) (x.total .recvCount)

/-- What the handler of an event records when it has returned. -/
def Recorded (x : Rpc) (s : Verif.Grpc.State) (i : Nat) : Event → Prop
  | .begin _ _ => ∃ m, records (s.outs i) = [(m, [⟨if x.client then .clientStarted else .serverStarted, some 1⟩])] ∧
      given (some m) (if x.client then keyClientMethod else keyServerMethod) = x.method
  | .end _ err => ∃ m, records (s.outs i) = [(m, endMeas x)] ∧
      given (some m) (if x.client then keyClientMethod else keyServerMethod) = x.method ∧
      given (some m) (if x.client then keyClientStatus else keyServerStatus) = statusTag err
  | _ => records (s.outs i) = []

theorem records_of {x : Rpc} (hx : x.Proper) {s : Verif.Grpc.State} (hs : x.state = some s) {i : Nat} {e : Event}
    (he : x.evs[i]? = some e) :
    (x.done i = false → records (s.outs i) = []) ∧
    (x.done i = true → Recorded x s i e) := by
  obtain ⟨s1, h1, hr1, hr2, hr, hI⟩ := inv_of hs
  have hlt : i < x.evs.length := (List.getElem?_eq_some_iff.1 he).1
  obtain ⟨hm, hg, hsm⟩ := tagged_spec hx
  refine ⟨fun hd => ?_, fun hd => ?_⟩
  · refine records_running hI hlt fun h => ?_
    rw [(done_iff hs i).mpr h] at hd; cases hd
  · have hret : Returned s i := (done_iff hs i).mp hd
    have hst := Grpc.started_record_partial hm hg hx.valid hr he hret
    cases e with
    | begin cl ff =>
      obtain ⟨m, ⟨t1, t2⟩, hrec⟩ := hst
      obtain rfl := hx.begins i cl ff he
      refine ⟨m, hrec, ?_⟩
      rw [given_get]
      cases hc : x.client with
      | true => simp only [if_true]; rw [t1 (keyClientMethod, methodName x.full) (by simp)]; rfl
      | false =>
        simp only [Bool.false_eq_true, if_false]
        rw [t2 keyServerMethod (by simp only [List.map_cons, List.map_nil]; decide), hsm hc]; rfl
    | «end» cl err =>
      obtain rfl := hx.ends i cl err he
      obtain ⟨m, hrec, t1, t2⟩ := Grpc.exact_sums_partial hm hg hx.valid hr1 hr2 he (hx.fresh s1 i _ err h1 he) hret
        (hx.last s1 i _ err h1 he hd)
      have hw : ∀ f, wrap64 (x.evs.map (amount f)).sum = x.total f := by
        intro f
        have := hx.range f
        unfold Rpc.total at this ⊢
        unfold wrap64; omega
      simp only [hw] at hrec
      refine ⟨m, hrec, ?_, ?_⟩
      · rw [given_get]
        cases hc : x.client with
        | true =>
          simp only [if_true]
          rw [t1 (keyClientMethod, methodName x.full) (by simp [endTags, hc])]; rfl
        | false =>
          simp only [Bool.false_eq_true, if_false]
          rw [t2 keyServerMethod (by simp only [endTags, hc, Bool.false_eq_true, if_false, List.map_cons, List.map_nil]; decide), hsm hc]; rfl
      · rw [given_get]
        cases hc : x.client with
        | true =>
          simp only [if_true]
          rw [t1 (keyClientStatus, statusTag err) (by simp [endTags, hc])]; rfl
        | false =>
          simp only [Bool.false_eq_true, if_false]
          rw [t1 (keyServerStatus, statusTag err) (by simp [endTags, hc])]; rfl
    | outPayload n w => exact hst
    | inPayload n w => exact hst
    | header => exact hst

/-! ### Samples -/

/-- All the measures. -/
def allMeasures : List Verif.Grpc.Measure :=
  [.clientSentMessages, .clientSentBytes, .clientReceivedMessages, .clientReceivedBytes, .clientRoundtripLatency, .clientStarted,
   .serverSentMessages, .serverSentBytes, .serverReceivedMessages, .serverReceivedBytes, .serverLatency, .serverStarted]

theorem measure_inj {a b : Verif.Grpc.Measure} : (measureOf a).name = (measureOf b).name ↔ a = b := by
  refine ⟨fun h => ?_, fun h => by rw [h]⟩
  have hn : (allMeasures.map fun a => (measureOf a).name).Nodup := by decide +kernel
  have hm : ∀ a, a ∈ allMeasures := by intro a; cases a <;> simp [allMeasures]
  exact List.inj_on_of_nodup_map hn (hm a) (hm b) h

theorem measurement_m (lat : Verif.Grpc.Measure → F64) (m : Meas) : (measurement lat m).m = measureOf m.measure := by
  unfold measurement
  cases m.value <;> rfl

theorem sample_command (M : Verif.Grpc.Measure) (now : Int) (att : Attachments) (lat : Verif.Grpc.Measure → F64)
    (x : TMap × List Meas) : samplesOf (measureOf M).name [command now att lat x] =
      (x.2.filter fun m => decide (m.measure = M)).map fun m => (some x.1, ⟨(measurement lat m).v, att, now⟩) := by
  simp only [command, samplesOf, List.append_nil, recorded, List.filterMap_map]
  induction x.2 with
  | nil => rfl
  | cons m ms ih =>
    rw [List.filterMap_cons, ih]
    simp only [Function.comp, measurement_m, measure_inj]
    by_cases h : m.measure = M
    · simp [h]
    · simp [h]

theorem flatMap_one {α β : Type} {l : List α} {f : α → List β} {i : Nat} (hi : i < l.length)
    (h : ∀ j (hj : j < l.length), j ≠ i → f l[j] = []) : l.flatMap f = f l[i] := by
  induction l generalizing i with
  | nil => simp at hi
  | cons a l ih =>
    rw [List.flatMap_cons]
    cases i with
    | zero =>
      have : l.flatMap f = [] := by
        rw [List.flatMap_eq_nil_iff]
        intro y hy
        obtain ⟨j, hj, rfl⟩ := List.getElem_of_mem hy
        exact h (j + 1) (by simpa using hj) (by omega)
      rw [this]; simp
    | succ i =>
      have h0 := h 0 (by simp) (by omega)
      rw [List.getElem_cons_zero] at h0
      rw [h0, List.nil_append, List.getElem_cons_succ]
      exact ih (by simpa using hi) fun j hj hne => h (j + 1) (by simpa using hj) (by omega)

/-- The commands of the `i`-th event. -/
theorem sends_get {x : Rpc} {css : List (List Cmd)} (h : x.Sends css) : ∃ s, x.state = some s ∧ css.length = x.evs.length ∧
    ∀ i (hi : i < css.length), Sent (if x.since i then records (s.outs i) else []) css[i] := by
  obtain ⟨s, hs, hf⟩ := h
  refine ⟨s, hs, by have := hf.length_eq; simpa using this.symm, fun i hi => ?_⟩
  have := (List.forall₂_iff_get.mp hf).2 i (by have := hf.length_eq; omega) hi
  simpa using this

theorem samples_nil {l : List (TMap × List Meas)} {cs : List Cmd} (h : Sent l cs) (M : Verif.Grpc.Measure)
    (hl : ∀ x ∈ l, (x.2.filter fun m => decide (m.measure = M)) = []) : samplesOf (measureOf M).name cs = [] := by
  induction h with
  | nil => rfl
  | @cons x c l cs hx _ ih =>
    obtain ⟨now, att, lat, rfl⟩ := hx
    rw [samplesOf_cons, sample_command, hl x (by simp), ih fun x hx => hl x (by simp [hx])]
    rfl

/-- What an RPC gives a view on a measure recorded at the end. -/
theorem end_samples {x : Rpc} (hx : x.Proper) {css : List (List Cmd)} (hs : x.Sends css) {M : Verif.Grpc.Measure}
    (hM : M ≠ .clientStarted ∧ M ≠ .serverStarted) :
    match x.ended with
    | none => css.flatMap (samplesOf (measureOf M).name) = []
    | some err => ∃ m now att lat, css.flatMap (samplesOf (measureOf M).name) =
          ((endMeas x).filter fun y => decide (y.measure = M)).map (fun y => (some m, ⟨(measurement lat y).v, att, now⟩)) ∧
        given (some m) (if x.client then keyClientMethod else keyServerMethod) = x.method ∧
        given (some m) (if x.client then keyClientStatus else keyServerStatus) = statusTag err := by
  obtain ⟨s, hst, hlen, hget⟩ := sends_get hs
  -- the events that give nothing
  have hnone : ∀ j (hj : j < css.length), (∀ cl err, x.evs[j]? = some (Event.end cl err) → ¬ (x.done j = true ∧ x.since j = true)) →
      samplesOf (measureOf M).name css[j] = [] := by
    intro j hj hne
    refine samples_nil (hget j hj) M ?_
    intro r hr
    obtain ⟨e, he⟩ : ∃ e, x.evs[j]? = some e := ⟨_, List.getElem?_eq_getElem (by omega)⟩
    obtain ⟨r1, r2⟩ := records_of hx hst he
    cases hsj : x.since j with
    | false => rw [hsj] at hr; simp at hr
    | true =>
      rw [hsj, if_pos rfl] at hr
      cases hd : x.done j with
      | false => rw [r1 hd] at hr; simp at hr
      | true =>
        have := r2 hd
        cases e with
        | begin cl ff =>
          obtain ⟨m, hm, _⟩ := this
          rw [hm] at hr
          rw [List.mem_singleton.mp hr]
          cases x.client
          · simp [Ne.symm hM.2]
          · simp [Ne.symm hM.1]
        | «end» cl err =>
          exact absurd ⟨hd, hsj⟩ (hne cl err he)
        | outPayload n w => rw [show records (s.outs j) = [] from this] at hr; simp at hr
        | inPayload n w => rw [show records (s.outs j) = [] from this] at hr; simp at hr
        | header => rw [show records (s.outs j) = [] from this] at hr; simp at hr
  cases hend : x.ended with
  | none =>
    simp only
    rw [List.flatMap_eq_nil_iff]
    intro cs hcs
    obtain ⟨j, hj, rfl⟩ := List.getElem_of_mem hcs
    refine hnone j hj ?_
    rintro cl err he ⟨hd, hsj⟩
    unfold Rpc.ended at hend
    rw [List.findSome?_eq_none_iff] at hend
    have := hend j (by simp; omega)
    rw [he] at this
    simp [hd, hsj] at this
  | some err =>
    simp only
    unfold Rpc.ended at hend
    obtain ⟨i, hi, hie⟩ := List.exists_of_findSome?_eq_some hend
    have hi' : i < css.length := by rw [hlen]; simpa using hi
    cases he : x.evs[i]? with
    | none => rw [he] at hie; cases hie
    | some e =>
      rw [he] at hie
      cases e with
      | «end» cl err' =>
        simp only [Option.ite_none_right_eq_some, Bool.and_eq_true, Option.some.injEq] at hie
        obtain ⟨⟨hd, hsi⟩, rfl⟩ := hie
        obtain ⟨m, hm, g1, g2⟩ := (records_of hx hst he).2 hd
        have hone := flatMap_one (f := samplesOf (measureOf M).name) hi' (by
          intro j hj hji
          refine hnone j hj ?_
          rintro cl' err'' he' _
          exact hji (hx.oneEnd j i _ _ _ _ he' he))
        have hsi' := hget i hi'
        rw [hsi, if_pos rfl, hm] at hsi'
        rw [hone]
        generalize css[i] = cs at hsi'
        cases hsi' with
        | @cons _ c _ cs' hc hs' =>
          cases hs'
          obtain ⟨now, att, lat, rfl⟩ := hc
          exact ⟨m, now, att, lat, sample_command M now att lat _, g1, g2⟩
      | _ => cases hie

/-- What an RPC gives a view on the starts. -/
theorem start_samples {x : Rpc} (hx : x.Proper) {css : List (List Cmd)} (hs : x.Sends css) {M : Verif.Grpc.Measure}
    (hM : M = .clientStarted ∨ M = .serverStarted) :
    match x.started && decide (M = if x.client then .clientStarted else .serverStarted) with
    | false => css.flatMap (samplesOf (measureOf M).name) = []
    | true => ∃ m s, css.flatMap (samplesOf (measureOf M).name) = [(some m, s)] ∧
        given (some m) (if x.client then keyClientMethod else keyServerMethod) = x.method := by
  obtain ⟨s, hst, hlen, hget⟩ := sends_get hs
  have hendM : ((endMeas x).filter fun y => decide (y.measure = M)) = [] := by
    unfold endMeas endMeasurements
    rcases hM with rfl | rfl <;> cases x.client <;> rfl
  have hnone : ∀ j (hj : j < css.length), (∀ cl ff, x.evs[j]? = some (Event.begin cl ff) →
      ¬ (x.done j = true ∧ x.since j = true ∧ M = if x.client then .clientStarted else .serverStarted)) →
      samplesOf (measureOf M).name css[j] = [] := by
    intro j hj hne
    refine samples_nil (hget j hj) M ?_
    intro r hr
    obtain ⟨e, he⟩ : ∃ e, x.evs[j]? = some e := ⟨_, List.getElem?_eq_getElem (by omega)⟩
    obtain ⟨r1, r2⟩ := records_of hx hst he
    cases hsj : x.since j with
    | false => rw [hsj] at hr; simp at hr
    | true =>
      rw [hsj, if_pos rfl] at hr
      cases hd : x.done j with
      | false => rw [r1 hd] at hr; simp at hr
      | true =>
        have := r2 hd
        cases e with
        | begin cl ff =>
          obtain ⟨m, hm, _⟩ := this
          rw [hm] at hr
          rw [List.mem_singleton.mp hr]
          have : ¬ M = if x.client then .clientStarted else .serverStarted := fun h => hne cl ff he ⟨hd, hsj, h⟩
          simp [Ne.symm this]
        | «end» cl err =>
          obtain ⟨m, hm, _⟩ := this
          rw [hm] at hr
          rw [List.mem_singleton.mp hr]
          exact hendM
        | outPayload n w => rw [show records (s.outs j) = [] from this] at hr; simp at hr
        | inPayload n w => rw [show records (s.outs j) = [] from this] at hr; simp at hr
        | header => rw [show records (s.outs j) = [] from this] at hr; simp at hr
  cases hb : x.started && decide (M = if x.client then .clientStarted else .serverStarted) with
  | false =>
    simp only
    rw [List.flatMap_eq_nil_iff]
    intro cs hcs
    obtain ⟨j, hj, rfl⟩ := List.getElem_of_mem hcs
    refine hnone j hj ?_
    rintro cl ff he ⟨hd, hsj, hm⟩
    have : x.started = true := by
      unfold Rpc.started
      rw [List.any_eq_true]
      refine ⟨j, by simp; omega, ?_⟩
      rw [he]
      simp [hd, hsj]
    rw [this, decide_eq_true hm] at hb
    cases hb
  | true =>
    simp only
    rw [Bool.and_eq_true] at hb
    obtain ⟨hb, hm⟩ := hb
    have hm := of_decide_eq_true hm
    unfold Rpc.started at hb
    rw [List.any_eq_true] at hb
    obtain ⟨i, hi, hie⟩ := hb
    have hi' : i < css.length := by rw [hlen]; simpa using hi
    cases he : x.evs[i]? with
    | none => rw [he] at hie; cases hie
    | some e =>
      rw [he] at hie
      cases e with
      | begin cl ff =>
        simp only [Bool.and_eq_true] at hie
        obtain ⟨hd, hsi⟩ := hie
        obtain ⟨m, hrec, g1⟩ := (records_of hx hst he).2 hd
        have hone := flatMap_one (f := samplesOf (measureOf M).name) hi' (by
          intro j hj hji
          refine hnone j hj ?_
          rintro cl' ff' he' _
          exact hji (hx.oneBegin j i _ _ _ _ he' he))
        have hsi' := hget i hi'
        rw [hsi, if_pos rfl, hrec, ← hm] at hsi'
        rw [hone]
        generalize css[i] = cs at hsi'
        cases hsi' with
        | @cons _ c _ cs' hc hs' =>
          cases hs'
          obtain ⟨now, att, lat, rfl⟩ := hc
          refine ⟨m, ⟨(measurement lat ⟨M, some 1⟩).v, att, now⟩, ?_, g1⟩
          rw [sample_command]
          simp
      | _ => cases hie

/-! ### All RPCs -/

theorem count_rpcs {α : Type} {measure : Bytes} {others mid : List Cmd} {csss : List (List (List Cmd))} {xs : List α}
    (hmid : Inter (others :: csss.flatten) mid) (ho : ∀ c ∈ others, Foreign measure c)
    (P : Option TMap × Sample F64 → Bool) (Q : α → Bool)
    (h : List.Forall₂ (fun x css => (css.flatMap (samplesOf measure)).countP P = if Q x then 1 else 0) xs csss) :
    (samplesOf measure mid).countP P = xs.countP Q := by
  rw [(samplesOf_inter measure hmid).countP_eq, List.flatMap_cons, samplesOf_foreign ho, List.nil_append]
  clear hmid
  induction h with
  | nil => rfl
  | @cons x css xs csss hx _ ih =>
    rw [List.flatten_cons, List.flatMap_append, List.countP_append, hx, ih, List.countP_cons, Nat.add_comm]

theorem length_rpcs {α : Type} {measure : Bytes} {others mid : List Cmd} {csss : List (List (List Cmd))} {xs : List α}
    (hmid : Inter (others :: csss.flatten) mid) (ho : ∀ c ∈ others, Foreign measure c)
    (h : List.Forall₂ (fun _ css => (css.flatMap (samplesOf measure)).length ≤ 1) xs csss) :
    (samplesOf measure mid).length ≤ xs.length := by
  rw [(samplesOf_inter measure hmid).length_eq, List.flatMap_cons, samplesOf_foreign ho, List.nil_append]
  clear hmid
  induction h with
  | nil => simp
  | @cons x css xs csss hx _ ih =>
    rw [List.flatten_cons, List.flatMap_append, List.length_append, List.length_cons]
    omega

theorem fit_rpcs {xs : List Rpc} {csss : List (List (List Cmd))}
    (h : List.Forall₂ (fun x css => x.Proper ∧ x.Sends css) xs csss) :
    ∀ cs ∈ csss.flatten, ∀ c ∈ cs, ∃ t r, c = .record t r ∧ TagsFit r.tags := by
  induction h with
  | nil => simp
  | @cons x css xs csss hx _ ih =>
    intro cs hcs c hc
    rw [List.flatten_cons, List.mem_append] at hcs
    rcases hcs with hcs | hcs
    · obtain ⟨s, hst, hlen, hget⟩ := sends_get hx.2
      obtain ⟨j, hj, rfl⟩ := List.getElem_of_mem hcs
      have hsent := hget j hj
      obtain ⟨_, _, _, _, _, hI⟩ := inv_of hst
      have hgood : ∀ r ∈ (if x.since j then records (s.outs j) else []), GoodTags (some r.1) := by
        intro r hr
        split at hr
        · exact outs_good hI (by omega) r hr
        · simp at hr
      generalize (if x.since j then records (s.outs j) else []) = l at hsent hgood
      generalize css[j] = cs at hsent hc
      induction hsent with
      | nil => simp at hc
      | @cons r c' l cs' hr _ ih2 =>
        rcases List.mem_cons.mp hc with rfl | hc
        · obtain ⟨now, att, lat, rfl⟩ := hr
          refine ⟨now, _, rfl, ?_⟩
          intro tm htm p hp
          cases htm
          have := (hgood r (by simp) r.1 rfl).2 p hp
          have h2 := this.2
          unfold checkValue at h2
          by_contra hlt
          rw [if_pos (show p.2.value.length > maxKeyLength from by unfold maxKeyLength; omega)] at h2
          cases h2
        · exact ih2 (fun r h => hgood r (by simp [h])) hc
    · exact ih cs hcs c hc

theorem specTags_two {tm : Option TMap} {k1 k2 : String} {v1 v2 : Bytes} (h1 : given tm ⟨str k1⟩ = v1)
    (h2 : given tm ⟨str k2⟩ = v2) : specTags [⟨str k1⟩, ⟨str k2⟩] tm = rowTags [(k1, v1), (k2, v2)] := by
  simp only [specTags, rowTags, List.map_cons, List.map_nil, h1, h2]

theorem specTags_one {tm : Option TMap} {k1 : String} {v1 : Bytes} (h1 : given tm ⟨str k1⟩ = v1) :
    specTags [⟨str k1⟩] tm = rowTags [(k1, v1)] := by
  simp only [specTags, rowTags, List.map_cons, List.map_nil, h1]

theorem rowTags_one_inj {k : String} {v v' : Bytes} : rowTags [(k, v)] = rowTags [(k, v')] ↔ v = v' := by
  unfold rowTags
  by_cases h : v = [] <;> by_cases h' : v' = [] <;> simp [h, h']

theorem rowTags_two_inj {k1 k2 : String} (hk : str k1 ≠ str k2) {v1 v2 w1 w2 : Bytes} :
    rowTags [(k1, v1), (k2, v2)] = rowTags [(k1, w1), (k2, w2)] ↔ v1 = w1 ∧ v2 = w2 := by
  unfold rowTags
  by_cases h1 : v1 = [] <;> by_cases h2 : v2 = [] <;> by_cases h3 : w1 = [] <;> by_cases h4 : w2 = [] <;>
    simp [h1, h2, h3, h4, hk, hk.symm]

/-- The keys of a side. -/
def keyMethod (side : Bool) : Key := if side then keyClientMethod else keyServerMethod
def keyStatus (side : Bool) : Key := if side then keyClientStatus else keyServerStatus

/-- The samples of a measure recorded at the end, of all RPCs. -/
theorem end_counts {others mid : List Cmd} {csss : List (List (List Cmd))} {xs : List Rpc}
    (hf : List.Forall₂ (fun x css => x.Proper ∧ x.Sends css) xs csss) (hmid : Inter (others :: csss.flatten) mid)
    {M : Verif.Grpc.Measure} (hM : M ≠ .clientStarted ∧ M ≠ .serverStarted) (ho : ∀ c ∈ others, Foreign (measureOf M).name c)
    (side : Bool) (val : Rpc → Option Int)
    (hval : ∀ x, ((endMeas x).filter fun y => decide (y.measure = M)) = if x.client = side then [⟨M, val x⟩] else []) :
    (samplesOf (measureOf M).name mid).length ≤ xs.length ∧
    ∀ (P : Option TMap × Sample F64 → Bool) (Q : Rpc → Prop) [DecidablePred Q],
      (∀ x m s, x.client = side → ∀ err, x.ended = some err → given (some m) (keyMethod side) = x.method →
        given (some m) (keyStatus side) = statusTag err → (∀ k, val x = some k → s.v = F64.rnd k) → (P (some m, s) = true ↔ Q x)) →
      (∀ x, Q x → x.client = side ∧ x.ended ≠ none) →
      (samplesOf (measureOf M).name mid).countP P = xs.countP fun x => decide (Q x) := by
  refine ⟨length_rpcs hmid ho (hf.imp ?_), fun P Q _ h1 h2 => count_rpcs hmid ho P _ (hf.imp ?_)⟩
  · rintro x css ⟨hx, hs⟩
    have := end_samples hx hs hM
    cases he : x.ended with
    | none => rw [he] at this; simp only at this; rw [this]; simp
    | some err =>
      rw [he] at this
      obtain ⟨m, now, att, lat, h, _⟩ := this
      rw [h, hval]
      split <;> simp
  · rintro x css ⟨hx, hs⟩
    have := end_samples hx hs hM
    cases he : x.ended with
    | none =>
      rw [he] at this; simp only at this; rw [this]
      have : ¬ Q x := fun hq => (h2 x hq).2 he
      simp [this]
    | some err =>
      rw [he] at this
      obtain ⟨m, now, att, lat, h, g1, g2⟩ := this
      rw [h, hval]
      by_cases hc : x.client = side
      · rw [if_pos hc, List.map_singleton, List.countP_singleton]
        rw [hc] at g1 g2
        have := h1 x m ⟨(measurement lat ⟨M, val x⟩).v, att, now⟩ hc err he g1 g2 (by
          intro k hk
          rw [hk]; rfl)
        simp only [this, decide_eq_true_eq]
      · have hq : ¬ Q x := fun hq => hc (h2 x hq).1
        rw [if_neg hc]
        simp [hq]

/-- The samples of the starts, of all RPCs. -/
theorem start_counts {others mid : List Cmd} {csss : List (List (List Cmd))} {xs : List Rpc}
    (hf : List.Forall₂ (fun x css => x.Proper ∧ x.Sends css) xs csss) (hmid : Inter (others :: csss.flatten) mid)
    (side : Bool) {M : Verif.Grpc.Measure} (hM : M = if side then .clientStarted else .serverStarted)
    (ho : ∀ c ∈ others, Foreign (measureOf M).name c) :
    (samplesOf (measureOf M).name mid).length ≤ xs.length ∧
    ∀ (P : Option TMap × Sample F64 → Bool) (Q : Rpc → Prop) [DecidablePred Q],
      (∀ x m s, x.client = side → x.started = true → given (some m) (keyMethod side) = x.method → (P (some m, s) = true ↔ Q x)) →
      (∀ x, Q x → x.client = side ∧ x.started = true) →
      (samplesOf (measureOf M).name mid).countP P = xs.countP fun x => decide (Q x) := by
  have hM' : M = .clientStarted ∨ M = .serverStarted := by cases side <;> simp_all
  have hside : ∀ x : Rpc, decide (M = if x.client then .clientStarted else .serverStarted) = decide (x.client = side) := by
    intro x
    rw [hM]
    cases x.client <;> cases side <;> rfl
  refine ⟨length_rpcs hmid ho (hf.imp ?_), fun P Q _ h1 h2 => count_rpcs hmid ho P _ (hf.imp ?_)⟩
  · rintro x css ⟨hx, hs⟩
    have := start_samples hx hs hM'
    cases he : x.started && decide (M = if x.client then .clientStarted else .serverStarted) with
    | false => rw [he] at this; simp only at this; rw [this]; simp
    | true =>
      rw [he] at this
      obtain ⟨m, s, h, _⟩ := this
      rw [h]; simp
  · rintro x css ⟨hx, hs⟩
    have := start_samples hx hs hM'
    cases he : x.started && decide (M = if x.client then .clientStarted else .serverStarted) with
    | false =>
      rw [he] at this; simp only at this; rw [this]
      have : ¬ Q x := by
        intro hq
        obtain ⟨g1, g2⟩ := h2 x hq
        rw [hside, g2, decide_eq_true g1] at he
        cases he
      simp [this]
    | true =>
      rw [he] at this
      rw [hside, Bool.and_eq_true] at he
      have hc := of_decide_eq_true he.2
      obtain ⟨m, s, h, g1⟩ := this
      rw [hc] at g1
      rw [h, List.countP_singleton]
      simp only [h1 x m s hc he.1 g1, decide_eq_true_eq]

/-- A view by method and status that counts a measure recorded at the end. -/
theorem completed_view {v : ViewDef} (p : Program v) (xs : List Rpc) (hlen : xs.length < 2 ^ 63) (hxs : Runs xs p.cmds)
    {M : Verif.Grpc.Measure} (hm : v.measure = some (measureOf M)) {a : Aggregation F64} (ha : v.agg = some a)
    (hcount : a.newData = some .count) (hM : M ≠ .clientStarted ∧ M ≠ .serverStarted) (side : Bool) (km ks : String)
    (hkm : keyMethod side = ⟨str km⟩) (hks : keyStatus side = ⟨str ks⟩) (hk : str km ≠ str ks)
    (hkeys : v.tagKeys = [keyMethod side, keyStatus side]) (val : Rpc → Option Int)
    (hval : ∀ x, ((endMeas x).filter fun y => decide (y.measure = M)) = if x.client = side then [⟨M, val x⟩] else []) :
    ∃ rows, p.Shows rows ∧ ∀ m s, countShown rows (rowTags [(km, m), (ks, s)]) =
      (xs.countP fun x => decide (x.client = side ∧ x.method = m ∧ x.ended.map statusTag = some s) : Int) := by
  obtain ⟨csss, hcsss, hf⟩ := hxs
  have hinter := p.inter
  rw [hcsss] at hinter
  obtain ⟨rows, h1, h2⟩ := p.collected (by rw [hcsss]; exact fit_rpcs hf) ha hm
  obtain ⟨e1, e2⟩ := end_counts hf hinter hM (p.foreign _ hm) side val hval
  refine ⟨rows, h1, fun m s => ?_⟩
  obtain ⟨h3, _⟩ := rows_count hcount h2 (lt_of_le_of_lt e1 hlen) (rowTags [(km, m), (ks, s)])
  rw [h3]
  have := e2 (fun r => decide (specTags v.tagKeys r.1 = rowTags [(km, m), (ks, s)]))
    (fun x => x.client = side ∧ x.method = m ∧ x.ended.map statusTag = some s) (by
      intro x tm smp hc err he g1 g2 _
      rw [decide_eq_true_eq, hkeys, hkm, hks]
      rw [hkm] at g1; rw [hks] at g2
      rw [specTags_two g1 g2, rowTags_two_inj hk, he]
      simp [hc]) (by
      rintro x ⟨g1, _, g3⟩
      refine ⟨g1, fun h => ?_⟩
      rw [h] at g3; cases g3)
  exact_mod_cast this

/-- A view by method that counts the starts. -/
theorem started_view {v : ViewDef} (p : Program v) (xs : List Rpc) (hlen : xs.length < 2 ^ 63) (hxs : Runs xs p.cmds)
    (side : Bool) (hm : v.measure = some (measureOf (if side then .clientStarted else .serverStarted)))
    {a : Aggregation F64} (ha : v.agg = some a) (hcount : a.newData = some .count) (km : String)
    (hkm : keyMethod side = ⟨str km⟩) (hkeys : v.tagKeys = [keyMethod side]) :
    ∃ rows, p.Shows rows ∧ ∀ m, countShown rows (rowTags [(km, m)]) =
      (xs.countP fun x => decide (x.client = side ∧ x.method = m ∧ x.started = true) : Int) := by
  obtain ⟨csss, hcsss, hf⟩ := hxs
  have hinter := p.inter
  rw [hcsss] at hinter
  obtain ⟨rows, h1, h2⟩ := p.collected (by rw [hcsss]; exact fit_rpcs hf) ha hm
  obtain ⟨e1, e2⟩ := start_counts hf hinter side rfl (p.foreign _ hm)
  refine ⟨rows, h1, fun m => ?_⟩
  obtain ⟨h3, _⟩ := rows_count hcount h2 (lt_of_le_of_lt e1 hlen) (rowTags [(km, m)])
  rw [h3]
  have := e2 (fun r => decide (specTags v.tagKeys r.1 = rowTags [(km, m)]))
    (fun x => x.client = side ∧ x.method = m ∧ x.started = true) (by
      intro x tm smp hc hst g1
      rw [decide_eq_true_eq, hkeys, hkm]
      rw [hkm] at g1
      rw [specTags_one g1, rowTags_one_inj, hst]
      simp [hc]) (by
      rintro x ⟨g1, _, g3⟩
      exact ⟨g1, g3⟩)
  exact_mod_cast this

/-- A view by method on a distribution of a measure recorded at the end. -/
theorem dist_view {v : ViewDef} (p : Program v) (xs : List Rpc) (hlen : xs.length < 2 ^ 63) (hxs : Runs xs p.cmds)
    {M : Verif.Grpc.Measure} (hm : v.measure = some (measureOf M)) {a : Aggregation F64} (ha : v.agg = some a)
    (hdist : a.newData = some .distribution) (hnice : PluginViews.NiceBounds a)
    (hM : M ≠ .clientStarted ∧ M ≠ .serverStarted) (side : Bool) (km : String)
    (hkm : keyMethod side = ⟨str km⟩) (hkeys : v.tagKeys = [keyMethod side]) (val : Rpc → Option Int)
    (hval : ∀ x, ((endMeas x).filter fun y => decide (y.measure = M)) = if x.client = side then [⟨M, val x⟩] else []) :
    ∃ rows, p.Shows rows ∧ ∀ m,
      totalShown rows (rowTags [(km, m)]) =
        (xs.countP fun x => decide (x.client = side ∧ x.method = m ∧ x.ended.isSome = true) : Int) ∧
      ∀ (bs : List Int) (f : Rpc → Int), a.buckets = bs.map (fun b : Int => F64.fin (b : Rat)) → (∀ b ∈ bs, 0 < b ∧ b ≤ 2 ^ 53) →
        (∀ x, val x = some (f x)) → ∀ i ≤ bs.length, bucketShown rows (rowTags [(km, m)]) i =
          (xs.countP fun x => decide (x.client = side ∧ x.method = m ∧ x.ended.isSome = true ∧ within bs i (f x)) : Int) := by
  obtain ⟨csss, hcsss, hf⟩ := hxs
  have hinter := p.inter
  rw [hcsss] at hinter
  obtain ⟨rows, h1, h2⟩ := p.collected (by rw [hcsss]; exact fit_rpcs hf) ha hm
  obtain ⟨e1, e2⟩ := end_counts hf hinter hM (p.foreign _ hm) side val hval
  refine ⟨rows, h1, fun m => ?_⟩
  obtain ⟨h3, h4⟩ := rows_dist hdist (sorted_of_nice hnice) h2 (lt_of_le_of_lt e1 hlen) (rowTags [(km, m)])
  refine ⟨?_, fun bs f hbs hpos hv i hi => ?_⟩
  · rw [h3]
    have := e2 (fun r => decide (specTags v.tagKeys r.1 = rowTags [(km, m)]))
      (fun x => x.client = side ∧ x.method = m ∧ x.ended.isSome = true) (by
        intro x tm smp hc err he g1 g2 _
        rw [decide_eq_true_eq, hkeys, hkm]
        rw [hkm] at g1
        rw [specTags_one g1, rowTags_one_inj, he]
        simp [hc]) (by
        rintro x ⟨g1, _, g3⟩
        refine ⟨g1, fun h => ?_⟩
        rw [h] at g3; cases g3)
    exact_mod_cast this
  · rw [h4 i (by rw [hbs, List.length_map]; exact hi)]
    have := e2 (fun r => decide (specTags v.tagKeys r.1 = rowTags [(km, m)] ∧ Agg.InBucket a.buckets i r.2.v))
      (fun x => x.client = side ∧ x.method = m ∧ x.ended.isSome = true ∧ within bs i (f x)) (by
        intro x tm smp hc err he g1 g2 g3
        rw [decide_eq_true_eq, hkeys, hkm]
        rw [hkm] at g1
        simp only [g3 _ (hv x), inBucket_within hbs hpos]
        rw [specTags_one g1, rowTags_one_inj, he]
        simp [hc]) (by
        rintro x ⟨g1, _, g3, _⟩
        refine ⟨g1, fun h => ?_⟩
        rw [h] at g3; cases g3)
    exact_mod_cast this

/-! ## Property theorems -/

/-- **C69.** `ClientCompletedRPCsView` shows for every method and status the number of the client's RPCs with it whose end was
handled since the view was registered. -/
theorem client_completed (p : Program Plugins.Grpc.clientCompletedRPCsView) (xs : List Rpc) (hlen : xs.length < 2 ^ 63)
    (hxs : Runs xs p.cmds) :
    ∃ rows, p.Shows rows ∧ ∀ m s, countShown rows (rowTags [("grpc_client_method", m), ("grpc_client_status", s)]) =
      (xs.countP fun x => decide (x.client = true ∧ x.method = m ∧ x.ended.map statusTag = some s) : Int) :=
  completed_view p xs hlen hxs (M := .clientRoundtripLatency) rfl rfl rfl (by decide) true _ _ rfl rfl (by decide) rfl (fun _ => none)
    (by intro x; unfold endMeas endMeasurements; cases x.client <;> rfl)

/-- **C69.** `ClientStartedRPCsView` shows for every method the number of the client's RPCs started since the view was registered. -/
theorem client_started (p : Program Plugins.Grpc.clientStartedRPCsView) (xs : List Rpc) (hlen : xs.length < 2 ^ 63)
    (hxs : Runs xs p.cmds) :
    ∃ rows, p.Shows rows ∧ ∀ m, countShown rows (rowTags [("grpc_client_method", m)]) =
      (xs.countP fun x => decide (x.client = true ∧ x.method = m ∧ x.started = true) : Int) :=
  started_view p xs hlen hxs true rfl rfl rfl _ rfl rfl

/-- **C69.** `ClientRoundtripLatencyView` has for every method as many latencies as RPCs ended. -/
theorem client_latency (p : Program Plugins.Grpc.clientRoundtripLatencyView) (xs : List Rpc) (hlen : xs.length < 2 ^ 63)
    (hxs : Runs xs p.cmds) :
    ∃ rows, p.Shows rows ∧ ∀ m, totalShown rows (rowTags [("grpc_client_method", m)]) =
      (xs.countP fun x => decide (x.client = true ∧ x.method = m ∧ x.ended.isSome = true) : Int) := by
  obtain ⟨rows, h1, h2⟩ := dist_view p xs hlen hxs (M := .clientRoundtripLatency) rfl rfl rfl PluginViews.milliseconds_nice (by decide) true _ rfl rfl
    (fun _ => none) (by intro x; unfold endMeas endMeasurements; cases x.client <;> rfl)
  exact ⟨rows, h1, fun m => (h2 m).1⟩

/-- **C69.** `ClientSentBytesPerRPCView` shows for every method and bucket the number of RPCs ended that had sent a number of
bytes in it. -/
theorem client_sent_bytes (p : Program Plugins.Grpc.clientSentBytesPerRPCView) (xs : List Rpc) (hlen : xs.length < 2 ^ 63)
    (hxs : Runs xs p.cmds) :
    ∃ rows, p.Shows rows ∧ ∀ m, ∀ i ≤ 13, bucketShown rows (rowTags [("grpc_client_method", m)]) i =
      (xs.countP fun x => decide (x.client = true ∧ x.method = m ∧ x.ended.isSome = true ∧
        within bytesBounds i (x.total .sentBytes)) : Int) := by
  obtain ⟨rows, h1, h2⟩ := dist_view p xs hlen hxs (M := .clientSentBytes) rfl rfl rfl PluginViews.bytes_nice (by decide) true _ rfl rfl
    (fun x => some (x.total .sentBytes)) (by intro x; unfold endMeas endMeasurements; cases x.client <;> rfl)
  exact ⟨rows, h1, fun m => (h2 m).2 bytesBounds _ bytes_bounds bytesBounds_pos fun _ => rfl⟩

/-- **C69.** `ClientSentMessagesPerRPCView` shows for every method and bucket the number of RPCs ended that had sent a number of
messages in it. -/
theorem client_sent_messages (p : Program Plugins.Grpc.clientSentMessagesPerRPCView) (xs : List Rpc) (hlen : xs.length < 2 ^ 63)
    (hxs : Runs xs p.cmds) :
    ∃ rows, p.Shows rows ∧ ∀ m, ∀ i ≤ 17, bucketShown rows (rowTags [("grpc_client_method", m)]) i =
      (xs.countP fun x => decide (x.client = true ∧ x.method = m ∧ x.ended.isSome = true ∧
        within messagesBounds i (x.total .sentCount)) : Int) := by
  obtain ⟨rows, h1, h2⟩ := dist_view p xs hlen hxs (M := .clientSentMessages) rfl rfl rfl PluginViews.messages_nice (by decide) true _ rfl rfl
    (fun x => some (x.total .sentCount)) (by intro x; unfold endMeas endMeasurements; cases x.client <;> rfl)
  exact ⟨rows, h1, fun m => (h2 m).2 messagesBounds _ messages_bounds messagesBounds_pos fun _ => rfl⟩

/-- **C69.** `ClientReceivedBytesPerRPCView` shows for every method and bucket the number of RPCs ended that had received a number of
bytes in it. -/
theorem client_received_bytes (p : Program Plugins.Grpc.clientReceivedBytesPerRPCView) (xs : List Rpc) (hlen : xs.length < 2 ^ 63)
    (hxs : Runs xs p.cmds) :
    ∃ rows, p.Shows rows ∧ ∀ m, ∀ i ≤ 13, bucketShown rows (rowTags [("grpc_client_method", m)]) i =
      (xs.countP fun x => decide (x.client = true ∧ x.method = m ∧ x.ended.isSome = true ∧
        within bytesBounds i (x.total .recvBytes)) : Int) := by
  obtain ⟨rows, h1, h2⟩ := dist_view p xs hlen hxs (M := .clientReceivedBytes) rfl rfl rfl PluginViews.bytes_nice (by decide) true _ rfl rfl
    (fun x => some (x.total .recvBytes)) (by intro x; unfold endMeas endMeasurements; cases x.client <;> rfl)
  exact ⟨rows, h1, fun m => (h2 m).2 bytesBounds _ bytes_bounds bytesBounds_pos fun _ => rfl⟩

/-- **C69.** `ClientReceivedMessagesPerRPCView` shows for every method and bucket the number of RPCs ended that had received a number of
messages in it. -/
theorem client_received_messages (p : Program Plugins.Grpc.clientReceivedMessagesPerRPCView) (xs : List Rpc) (hlen : xs.length < 2 ^ 63)
    (hxs : Runs xs p.cmds) :
    ∃ rows, p.Shows rows ∧ ∀ m, ∀ i ≤ 17, bucketShown rows (rowTags [("grpc_client_method", m)]) i =
      (xs.countP fun x => decide (x.client = true ∧ x.method = m ∧ x.ended.isSome = true ∧
        within messagesBounds i (x.total .recvCount)) : Int) := by
  obtain ⟨rows, h1, h2⟩ := dist_view p xs hlen hxs (M := .clientReceivedMessages) rfl rfl rfl PluginViews.messages_nice (by decide) true _ rfl rfl
    (fun x => some (x.total .recvCount)) (by intro x; unfold endMeas endMeasurements; cases x.client <;> rfl)
  exact ⟨rows, h1, fun m => (h2 m).2 messagesBounds _ messages_bounds messagesBounds_pos fun _ => rfl⟩

/-- **C69.** `ServerCompletedRPCsView` shows for every method and status the number of the server's RPCs with it whose end was
handled since the view was registered. -/
theorem server_completed (p : Program Plugins.Grpc.serverCompletedRPCsView) (xs : List Rpc) (hlen : xs.length < 2 ^ 63)
    (hxs : Runs xs p.cmds) :
    ∃ rows, p.Shows rows ∧ ∀ m s, countShown rows (rowTags [("grpc_server_method", m), ("grpc_server_status", s)]) =
      (xs.countP fun x => decide (x.client = false ∧ x.method = m ∧ x.ended.map statusTag = some s) : Int) :=
  completed_view p xs hlen hxs (M := .serverLatency) rfl rfl rfl (by decide) false _ _ rfl rfl (by decide) rfl (fun _ => none)
    (by intro x; unfold endMeas endMeasurements; cases x.client <;> rfl)

/-- **C69.** `ServerStartedRPCsView` shows for every method the number of the server's RPCs started since the view was registered. -/
theorem server_started (p : Program Plugins.Grpc.serverStartedRPCsView) (xs : List Rpc) (hlen : xs.length < 2 ^ 63)
    (hxs : Runs xs p.cmds) :
    ∃ rows, p.Shows rows ∧ ∀ m, countShown rows (rowTags [("grpc_server_method", m)]) =
      (xs.countP fun x => decide (x.client = false ∧ x.method = m ∧ x.started = true) : Int) :=
  started_view p xs hlen hxs false rfl rfl rfl _ rfl rfl

/-- **C69.** `ServerLatencyView` has for every method as many latencies as RPCs ended. -/
theorem server_latency (p : Program Plugins.Grpc.serverLatencyView) (xs : List Rpc) (hlen : xs.length < 2 ^ 63)
    (hxs : Runs xs p.cmds) :
    ∃ rows, p.Shows rows ∧ ∀ m, totalShown rows (rowTags [("grpc_server_method", m)]) =
      (xs.countP fun x => decide (x.client = false ∧ x.method = m ∧ x.ended.isSome = true) : Int) := by
  obtain ⟨rows, h1, h2⟩ := dist_view p xs hlen hxs (M := .serverLatency) rfl rfl rfl PluginViews.milliseconds_nice (by decide) false _ rfl rfl
    (fun _ => none) (by intro x; unfold endMeas endMeasurements; cases x.client <;> rfl)
  exact ⟨rows, h1, fun m => (h2 m).1⟩

/-- **C69.** `ServerSentBytesPerRPCView` shows for every method and bucket the number of RPCs ended that had sent a number of
bytes in it. -/
theorem server_sent_bytes (p : Program Plugins.Grpc.serverSentBytesPerRPCView) (xs : List Rpc) (hlen : xs.length < 2 ^ 63)
    (hxs : Runs xs p.cmds) :
    ∃ rows, p.Shows rows ∧ ∀ m, ∀ i ≤ 13, bucketShown rows (rowTags [("grpc_server_method", m)]) i =
      (xs.countP fun x => decide (x.client = false ∧ x.method = m ∧ x.ended.isSome = true ∧
        within bytesBounds i (x.total .sentBytes)) : Int) := by
  obtain ⟨rows, h1, h2⟩ := dist_view p xs hlen hxs (M := .serverSentBytes) rfl rfl rfl PluginViews.bytes_nice (by decide) false _ rfl rfl
    (fun x => some (x.total .sentBytes)) (by intro x; unfold endMeas endMeasurements; cases x.client <;> rfl)
  exact ⟨rows, h1, fun m => (h2 m).2 bytesBounds _ bytes_bounds bytesBounds_pos fun _ => rfl⟩

/-- **C69.** `ServerSentMessagesPerRPCView` shows for every method and bucket the number of RPCs ended that had sent a number of
messages in it. -/
theorem server_sent_messages (p : Program Plugins.Grpc.serverSentMessagesPerRPCView) (xs : List Rpc) (hlen : xs.length < 2 ^ 63)
    (hxs : Runs xs p.cmds) :
    ∃ rows, p.Shows rows ∧ ∀ m, ∀ i ≤ 17, bucketShown rows (rowTags [("grpc_server_method", m)]) i =
      (xs.countP fun x => decide (x.client = false ∧ x.method = m ∧ x.ended.isSome = true ∧
        within messagesBounds i (x.total .sentCount)) : Int) := by
  obtain ⟨rows, h1, h2⟩ := dist_view p xs hlen hxs (M := .serverSentMessages) rfl rfl rfl PluginViews.messages_nice (by decide) false _ rfl rfl
    (fun x => some (x.total .sentCount)) (by intro x; unfold endMeas endMeasurements; cases x.client <;> rfl)
  exact ⟨rows, h1, fun m => (h2 m).2 messagesBounds _ messages_bounds messagesBounds_pos fun _ => rfl⟩

/-- **C69.** `ServerReceivedBytesPerRPCView` shows for every method and bucket the number of RPCs ended that had received a number of
bytes in it. -/
theorem server_received_bytes (p : Program Plugins.Grpc.serverReceivedBytesPerRPCView) (xs : List Rpc) (hlen : xs.length < 2 ^ 63)
    (hxs : Runs xs p.cmds) :
    ∃ rows, p.Shows rows ∧ ∀ m, ∀ i ≤ 13, bucketShown rows (rowTags [("grpc_server_method", m)]) i =
      (xs.countP fun x => decide (x.client = false ∧ x.method = m ∧ x.ended.isSome = true ∧
        within bytesBounds i (x.total .recvBytes)) : Int) := by
  obtain ⟨rows, h1, h2⟩ := dist_view p xs hlen hxs (M := .serverReceivedBytes) rfl rfl rfl PluginViews.bytes_nice (by decide) false _ rfl rfl
    (fun x => some (x.total .recvBytes)) (by intro x; unfold endMeas endMeasurements; cases x.client <;> rfl)
  exact ⟨rows, h1, fun m => (h2 m).2 bytesBounds _ bytes_bounds bytesBounds_pos fun _ => rfl⟩

/-- **C69.** `ServerReceivedMessagesPerRPCView` shows for every method and bucket the number of RPCs ended that had received a number of
messages in it. -/
theorem server_received_messages (p : Program Plugins.Grpc.serverReceivedMessagesPerRPCView) (xs : List Rpc) (hlen : xs.length < 2 ^ 63)
    (hxs : Runs xs p.cmds) :
    ∃ rows, p.Shows rows ∧ ∀ m, ∀ i ≤ 17, bucketShown rows (rowTags [("grpc_server_method", m)]) i =
      (xs.countP fun x => decide (x.client = false ∧ x.method = m ∧ x.ended.isSome = true ∧
        within messagesBounds i (x.total .recvCount)) : Int) := by
  obtain ⟨rows, h1, h2⟩ := dist_view p xs hlen hxs (M := .serverReceivedMessages) rfl rfl rfl PluginViews.messages_nice (by decide) false _ rfl rfl
    (fun x => some (x.total .recvCount)) (by intro x; unfold endMeas endMeasurements; cases x.client <;> rfl)
  exact ⟨rows, h1, fun m => (h2 m).2 messagesBounds _ messages_bounds messagesBounds_pos fun _ => rfl⟩

/-- What does not hold: `ClientServerLatencyView` never shows anything, since the plugin does not record its measure. -/
theorem server_latency_never (p : Program Plugins.Grpc.clientServerLatencyView) (xs : List Rpc) (hxs : Runs xs p.cmds) :
    p.Shows [] := by
  obtain ⟨csss, hcsss, hf⟩ := hxs
  have hinter := p.inter
  rw [hcsss] at hinter
  obtain ⟨rows, h1, h2⟩ := p.collected (by rw [hcsss]; exact fit_rpcs hf) rfl rfl
  have hnil : samplesOf Plugins.Grpc.clientServerLatency.name p.mid = [] := by
    refine List.eq_nil_of_length_eq_zero ?_
    rw [(samplesOf_inter _ hinter).length_eq, List.flatMap_cons, samplesOf_foreign (p.foreign _ rfl), List.nil_append,
      List.length_eq_zero_iff, List.flatMap_eq_nil_iff]
    have hne : ∀ M : Verif.Grpc.Measure, (measureOf M).name ≠ Plugins.Grpc.clientServerLatency.name := by
      have : ∀ M ∈ allMeasures, (measureOf M).name ≠ Plugins.Grpc.clientServerLatency.name := by decide +kernel
      intro M
      refine this M ?_
      cases M <;> simp [allMeasures]
    intro cs hcs
    refine samplesOf_foreign fun c hc => ?_
    clear hinter hcsss
    induction hf with
    | nil => simp at hcs
    | @cons x css xs csss hx _ ih =>
      rw [List.flatten_cons, List.mem_append] at hcs
      rcases hcs with hcs | hcs
      · obtain ⟨s, _, _, hget⟩ := sends_get hx.2
        obtain ⟨j, hj, rfl⟩ := List.getElem_of_mem hcs
        have hsent := hget j hj
        unfold Sent at hsent
        obtain ⟨k, hk, rfl⟩ := List.getElem_of_mem hc
        obtain ⟨now, att, lat, h⟩ := (List.forall₂_iff_get.mp hsent).2 k (by have := hsent.length_eq; omega) hk
        simp only [List.get_eq_getElem] at h
        rw [h]
        intro m hm
        obtain ⟨y, _, hy⟩ := List.mem_map.mp hm
        cases hy
        rw [measurement_m]
        exact hne _
      · exact ih hcs
  obtain ⟨_, h3⟩ := h2
  cases rows with
  | nil => exact h1
  | cons row rows =>
    obtain ⟨r, hr, _⟩ := (h3 row).mp (by simp)
    rw [hnil] at hr
    cases hr

/-! ## Example -/

/-- A client's RPC that failed with NOT_FOUND after two messages, and one a server is still working on. -/
def demoRpcs : List Rpc :=
  [⟨true, str "/pkg.Service/Method", Verif.Grpc.clientCtx Grpc.demoEnv (str "/pkg.Service/Method"),
    [str "Client", str "FailFast"], Grpc.demoEvents,
    [0, 1, 2, 0, 3, 2, 1, 3, 1, 2, 3], [5, 5, 5, 5, 5, 5, 5], fun _ => true⟩,
   ⟨false, str "/a/b", ⟨some [(keyServerMethod, ⟨str "a/b", createMetadatas []⟩)], some 0, some (str "/a/b")⟩, [],
    [.begin false false, .inPayload 3 3, .end false .nil], [0, 1, 0, 1], [], fun i => decide (i ≠ 0)⟩]

def demoCmds : List (List (List Cmd)) :=
  demoRpcs.map fun x => (List.range x.evs.length).map fun i =>
    (match x.state with
      | some s => if x.since i then records (s.outs i) else []
      | none => []).map (command 9 [] fun _ => .fin 5)

theorem demo_proper : ∀ x ∈ demoRpcs, x.Proper := by
  intro x hx
  simp only [demoRpcs, List.mem_cons, List.not_mem_nil, or_false] at hx
  rcases hx with rfl | rfl
  · refine ⟨rfl, ?_, by decide, ?_, ?_, ?_, ?_, ?_, ?_, ?_⟩
    · refine ⟨Grpc.demoEnv, rfl, ?_⟩
      intro l hl; cases hl
      refine ⟨by simp [GoMap.WF, GoMap.keys, Grpc.demoTags], ?_⟩
      intro e he
      simp only [Grpc.demoTags, List.mem_singleton] at he
      subst he
      exact ⟨by decide, by decide⟩
    · intro i cl ff h
      rcases i with _|_|_|_|_|_|i <;> cases h; rfl
    · intro i cl err h
      rcases i with _|_|_|_|_|_|i <;> cases h; rfl
    · intro i j cl ff cl' ff' h h'
      rcases i with _|_|_|_|_|_|i <;> cases h
      rcases j with _|_|_|_|_|_|j <;> cases h'
      rfl
    · intro i j cl err cl' err' h h'
      rcases i with _|_|_|_|_|_|i <;> cases h
      rcases j with _|_|_|_|_|_|j <;> cases h'
      rfl
    · intro s i cl err hs h
      rcases i with _|_|_|_|_|_|i <;> cases h
      cases hs
      intro e he; cases he; rfl
    · intro s i cl err hs h _ j e he hf
      cases hs
      rcases j with _|_|_|_|_|_|j
      · rfl
      · rfl
      · rfl
      · rfl
      · cases he; obtain ⟨f, hf⟩ := hf; exact absurd rfl hf
      · cases he; obtain ⟨f, hf⟩ := hf; exact absurd rfl hf
      · cases he
    · intro f; cases f <;> decide
  · refine ⟨rfl, ?_, by decide, ?_, ?_, ?_, ?_, ?_, ?_, ?_⟩
    · exact ⟨Grpc.demoServer, none, rfl, by simp⟩
    · intro i cl ff h
      rcases i with _|_|_|i <;> cases h; rfl
    · intro i cl err h
      rcases i with _|_|_|i <;> cases h; rfl
    · intro i j cl ff cl' ff' h h'
      rcases i with _|_|_|i <;> cases h
      rcases j with _|_|_|j <;> cases h'
      rfl
    · intro i j cl err cl' err' h h'
      rcases i with _|_|_|i <;> cases h
      rcases j with _|_|_|j <;> cases h'
      rfl
    · intro s i cl err hs h
      rcases i with _|_|_|i <;> cases h
      cases hs
      intro e he; cases he; rfl
    · intro s i cl err hs h hd
      rcases i with _|_|_|i <;> cases h
      cases hd
    · intro f; cases f <;> decide

theorem sent_map (l : List (TMap × List Meas)) (now : Int) (att : Attachments) (lat : Verif.Grpc.Measure → F64) :
    Sent l (l.map (command now att lat)) := by
  induction l with
  | nil => exact .nil
  | cons r l ih => exact .cons ⟨now, att, lat, rfl⟩ ih

/-- The hypotheses are met by these RPCs, and what the counts are. -/
example : ∃ p : Program Plugins.Grpc.clientCompletedRPCsView, Runs demoRpcs p.cmds ∧
    (demoRpcs.countP fun x => decide (x.client = true ∧ x.method = str "pkg.Service/Method" ∧
      x.ended.map statusTag = some (str "NOT_FOUND"))) = 1 ∧
    (demoRpcs.countP fun x => decide (x.client = true ∧ x.method = str "pkg.Service/Method" ∧ x.ended.isSome = true ∧
      within bytesBounds 0 (x.total .sentBytes))) = 1 ∧
    (demoRpcs.countP fun x => decide (x.client = true ∧ x.method = str "pkg.Service/Method" ∧ x.ended.isSome = true ∧
      within messagesBounds 2 (x.total .sentCount))) = 1 ∧
    (demoRpcs.countP fun x => decide (x.client = false ∧ x.method = str "a/b" ∧ x.started = true)) = 0 := by
  refine ⟨demoProgram _ (by simp [Plugins.views, Plugins.Grpc.views]) demoCmds.flatten, ⟨demoCmds, rfl, ?_⟩, by decide +kernel,
    by decide +kernel, by decide +kernel, by decide +kernel⟩
  have hp := demo_proper
  unfold demoCmds
  generalize demoRpcs = l at hp
  induction l with
  | nil => exact .nil
  | cons x l ih =>
    refine .cons ⟨hp x (by simp), ?_⟩ (ih fun x hx => hp x (by simp [hx]))
    obtain ⟨s, hs⟩ := Option.isSome_iff_exists.mp (hp x (by simp)).runs
    refine ⟨s, hs, ?_⟩
    simp only [hs]
    rw [List.forall₂_map_right_iff, List.forall₂_same]
    exact fun i _ => sent_map _ _ _ _

end Verif.Props.GrpcViews
