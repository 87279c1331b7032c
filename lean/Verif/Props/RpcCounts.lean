import Verif.Props.Exports
import Verif.Props.GrpcViews
import Verif.Props.RpcPage
import Verif.Zpages.Enable

/-!
# C93: the RPC page counts the RPCs

From the events gRPC hands to the handlers, over the records and the reports of the worker, to the rows of the page.
-/

namespace Verif.Props.RpcCounts
open Verif Verif.View Verif.View.Spec Verif.Tag Verif.Stats Verif.Grpc Verif.Zpages.Enable
open Verif.Props.Worker Verif.Props.Exports Verif.Props.Rows Verif.Props.ViewCounts Verif.Props.GrpcViews
open Verif.Plugins.Grpc (measureOf)
open Verif.Props.Grpc (endMeasurements)
open Verif.Zpages.Rpcz (RView viewType methodOf countOf Conv Snap Snaps toU64)
open Verif.Props.Rpcz (messages completed rowsOf lastRow lastExport concerns statusKey failed Counted number shown snapsAfter)

/-! ## Specification -/

/-- A run of a program that enables the page: after any history `pre` that leaves the names of the page's views free, the page
registers them and its exporter, and goroutines send the worker commands, those of the gRPC plugin (`cmds`) and `others`, which
neither take from the page its views or its exporter nor record the measures of the plugin. In the end the worker reports. -/
structure System where
  z : Nat
  reg : Measures
  pre : List Cmd
  now : Int
  order : List ViewDef
  others : List Cmd
  cmds : List (List Cmd)
  mid : List Cmd
  t : Int
  measures : ∀ m ∈ Plugins.measures, ∃ d, GoMap.get reg m.name = some d
  good : ∀ c ∈ pre ++ others, GoodCmd reg c
  free : ∀ v ∈ order, specRun Spec.empty pre v.name = none
  unused : ∀ c ∈ pre, c ≠ .addExporter z
  taken : order.Perm (rpcViews.map Prod.fst)
  enabled : ∃ rest, registerRPCViews now order z = .register now order :: rest ∧ ∀ c ∈ rest, c ∈ others
  kept : ∀ v ∈ order, ∀ c ∈ others, ¬ Unregisters v.name c
  stays : ∀ c ∈ others, c ≠ .delExporter z
  foreign : ∀ v ∈ order, ∀ m, v.measure = some m → ∀ c ∈ others, Foreign m.name c
  inter : Inter (others :: cmds) mid

def System.history (S : System) : List Cmd := S.pre ++ [.register S.now S.order] ++ S.mid ++ [.tick S.t]

/-- What the page's exporter got, in order, each at some age of the program. -/
def System.Gets (S : System) (es : List Zpages.Rpcz.Export) : Prop :=
  ∃ w reg' rs, run newWorker S.reg S.history = .ok (w, reg', rs) ∧
    List.Forall₂ (fun e e' => ∃ age, e' = handed e age)
      ((rs.flatMap Prod.snd).filter fun e => decide (e.exporter = S.z)) es

/-- The RPC failed: it ended with an error. An error with the status OK is none. -/
def Fails : GErr → Bool
  | .nil => false
  | .status c _ => decide (c ≠ 0)
  | .other _ => true

/-- How many RPCs of a direction (`true`: received) and method ended. -/
def endedCount (xs : List Rpc) (m : Bytes) (rc : Bool) : Nat :=
  xs.countP fun x => decide (x.client = !rc ∧ x.method = m ∧ x.ended.isSome = true)

/-- How many of them failed. -/
def failedCount (xs : List Rpc) (m : Bytes) (rc : Bool) : Nat :=
  xs.countP fun x => decide (x.client = !rc ∧ x.method = m ∧ x.ended.map Fails = some true)

/-! ## The views of the page -/

theorem rpcViews_nodup : (rpcViews.map Prod.fst).Nodup := by decide +kernel

theorem rviewOf_mem : ∀ p ∈ rpcViews, rviewOf p.1 = p.2 := by decide +kernel

theorem rpcViews_inj : ∀ p ∈ rpcViews, ∀ q ∈ rpcViews, p.2 = q.2 → p.1 = q.1 := by decide +kernel

theorem mem_of_rviewOf {v : ViewDef} {rc : Bool} (h : viewType (rviewOf v) = some rc) : (v, rviewOf v) ∈ rpcViews := by
  unfold rviewOf at h ⊢
  cases hf : rpcViews.find? fun p => decide (p.1 = v) with
  | none => rw [hf] at h; simp [viewType] at h
  | some p =>
    have h1 : p.1 = v := by simpa using List.find?_some hf
    have := List.mem_of_find?_eq_some hf
    rw [← h1]; exact this

theorem rpcViews_plugin : ∀ p ∈ rpcViews, p.1 ∈ Plugins.views := by
  intro p hp
  simp only [rpcViews, List.mem_cons, List.not_mem_nil, or_false] at hp
  rcases hp with rfl | rfl | rfl | rfl | rfl | rfl | rfl | rfl | rfl | rfl | rfl | rfl <;>
    simp [Plugins.views, Plugins.Grpc.views]

/-- What a view of the page is: by method, and perhaps status, of one side, on a measure recorded at the end. -/
structure Kind (v : ViewDef) (M : Verif.Grpc.Measure) (side : Bool) (val : Rpc → Option Int) (a : Aggregation F64) : Prop where
  measure : v.measure = some (measureOf M)
  agg : v.agg = some a
  usable : a.Usable
  keys : v.tagKeys = [keyMethod side] ∨ v.tagKeys = [keyMethod side, keyStatus side]
  atEnd : M ≠ .clientStarted ∧ M ≠ .serverStarted
  recorded : ∀ x, ((endMeas x).filter fun y => decide (y.measure = M)) = if x.client = side then [⟨M, val x⟩] else []

theorem kinds : ∀ p ∈ rpcViews, ∃ M rc val a, Kind p.1 M (!rc) val a ∧ viewType p.2 = some rc := by
  intro p hp
  simp only [rpcViews, List.mem_cons, List.not_mem_nil, or_false] at hp
  have hc : Plugins.count.Usable := ⟨_, rfl, by decide⟩
  have hb : Plugins.Grpc.bytesDistribution.Usable := ⟨_, rfl, by decide⟩
  have hm : Plugins.Grpc.messageCountDistribution.Usable := ⟨_, rfl, by decide⟩
  have hl : Plugins.Grpc.millisecondsDistribution.Usable := ⟨_, rfl, by decide⟩
  rcases hp with rfl | rfl | rfl | rfl | rfl | rfl | rfl | rfl | rfl | rfl | rfl | rfl
  · exact ⟨.clientRoundtripLatency, false, fun _ => none, _, ⟨rfl, rfl, hc, .inr rfl, by decide,
      by intro x; unfold endMeas endMeasurements; cases x.client <;> rfl⟩, rfl⟩
  · exact ⟨.clientSentBytes, false, fun x => some (x.total .sentBytes), _, ⟨rfl, rfl, hb, .inl rfl, by decide,
      by intro x; unfold endMeas endMeasurements; cases x.client <;> rfl⟩, rfl⟩
  · exact ⟨.clientSentMessages, false, fun x => some (x.total .sentCount), _, ⟨rfl, rfl, hm, .inl rfl, by decide,
      by intro x; unfold endMeas endMeasurements; cases x.client <;> rfl⟩, rfl⟩
  · exact ⟨.clientReceivedBytes, false, fun x => some (x.total .recvBytes), _, ⟨rfl, rfl, hb, .inl rfl, by decide,
      by intro x; unfold endMeas endMeasurements; cases x.client <;> rfl⟩, rfl⟩
  · exact ⟨.clientReceivedMessages, false, fun x => some (x.total .recvCount), _, ⟨rfl, rfl, hm, .inl rfl, by decide,
      by intro x; unfold endMeas endMeasurements; cases x.client <;> rfl⟩, rfl⟩
  · exact ⟨.clientRoundtripLatency, false, fun _ => none, _, ⟨rfl, rfl, hl, .inl rfl, by decide,
      by intro x; unfold endMeas endMeasurements; cases x.client <;> rfl⟩, rfl⟩
  · exact ⟨.serverLatency, true, fun _ => none, _, ⟨rfl, rfl, hc, .inr rfl, by decide,
      by intro x; unfold endMeas endMeasurements; cases x.client <;> rfl⟩, rfl⟩
  · exact ⟨.serverReceivedBytes, true, fun x => some (x.total .recvBytes), _, ⟨rfl, rfl, hb, .inl rfl, by decide,
      by intro x; unfold endMeas endMeasurements; cases x.client <;> rfl⟩, rfl⟩
  · exact ⟨.serverReceivedMessages, true, fun x => some (x.total .recvCount), _, ⟨rfl, rfl, hm, .inl rfl, by decide,
      by intro x; unfold endMeas endMeasurements; cases x.client <;> rfl⟩, rfl⟩
  · exact ⟨.serverSentBytes, true, fun x => some (x.total .sentBytes), _, ⟨rfl, rfl, hb, .inl rfl, by decide,
      by intro x; unfold endMeas endMeasurements; cases x.client <;> rfl⟩, rfl⟩
  · exact ⟨.serverSentMessages, true, fun x => some (x.total .sentCount), _, ⟨rfl, rfl, hm, .inl rfl, by decide,
      by intro x; unfold endMeas endMeasurements; cases x.client <;> rfl⟩, rfl⟩
  · exact ⟨.serverLatency, true, fun _ => none, _, ⟨rfl, rfl, hl, .inl rfl, by decide,
      by intro x; unfold endMeas endMeasurements; cases x.client <;> rfl⟩, rfl⟩

/-- The method of a row of such a view. -/
theorem methodOf_row {keys : List Key} {side : Bool} (hk : keys = [keyMethod side] ∨ keys = [keyMethod side, keyStatus side])
    (tm : Option TMap) (d : AggData F64) : methodOf ⟨specTags keys tm, d⟩ = given tm (keyMethod side) := by
  have h1 : keyMethod side = keyClientMethod ∨ keyMethod side = keyServerMethod := by cases side <;> simp [keyMethod]
  have h2 : ¬ (keyStatus side = keyClientMethod ∨ keyStatus side = keyServerMethod) := by cases side <;> decide
  unfold methodOf specTags
  rcases hk with rfl | rfl
  · by_cases h : given tm (keyMethod side) = []
    · simp [h]
    · simp [h, h1]
  · by_cases h : given tm (keyMethod side) = []
    · by_cases h' : given tm (keyStatus side) = []
      · simp [h, h']
      · simp [h, h', h2]
    · simp [h, h1]

/-! ## What the worker hands over -/

theorem allExportsOK_mem {s : EState} {cs : List Cmd} {ess : List (List View.Export)} (h : AllExportsOK s cs ess) {e : View.Export}
    (he : e ∈ ess.flatten) : ∃ xs c ys es, cs = xs ++ c :: ys ∧ e ∈ es ∧ ExportsOK (eRun s xs) c es := by
  induction cs generalizing s ess with
  | nil => rw [show ess = [] from h] at he; simp at he
  | cons c cs ih =>
    obtain ⟨es, ess', rfl, h1, h2⟩ := h
    rw [List.flatten_cons, List.mem_append] at he
    rcases he with he | he
    · exact ⟨[], c, cs, es, rfl, he, h1⟩
    · obtain ⟨xs, c', ys, es', rfl, g1, g2⟩ := ih h2 he
      exact ⟨c :: xs, c', ys, es', rfl, g1, g2⟩

theorem System.mid_mem (S : System) (hc : ∀ cs ∈ S.cmds, ∀ c ∈ cs, ∃ t r, c = .record t r ∧ TagsFit r.tags) :
    ∀ c ∈ S.mid, c ∈ S.others ∨ ∃ t r, c = .record t r ∧ TagsFit r.tags := by
  intro c h
  have := (inter_perm S.inter).mem_iff.mp h
  rw [List.flatten_cons, List.mem_append] at this
  rcases this with h | h
  · exact .inl h
  · obtain ⟨cs, h1, h2⟩ := List.mem_flatten.mp h
    exact .inr (hc cs h1 c h2)

theorem System.mem_order (S : System) {p : ViewDef × RView} (hp : p ∈ rpcViews) : p.1 ∈ S.order :=
  S.taken.mem_iff.mpr (List.mem_map_of_mem hp)

theorem System.order_plugin (S : System) : ∀ v ∈ S.order, v ∈ Plugins.views := by
  intro v hv
  obtain ⟨p, hp, rfl⟩ := List.mem_map.mp (S.taken.mem_iff.mp hv)
  exact rpcViews_plugin p hp

theorem System.goodAll (S : System) (hc : ∀ cs ∈ S.cmds, ∀ c ∈ cs, ∃ t r, c = .record t r ∧ TagsFit r.tags) :
    ∀ c ∈ S.history, GoodCmd S.reg c := by
  intro c h
  simp only [System.history, List.mem_append, List.mem_singleton] at h
  rcases h with ((h | rfl) | h) | rfl
  · exact S.good c (by simp [h])
  · exact fun v hv => PluginViews.good S.measures (S.order_plugin v hv)
  · rcases S.mid_mem hc c h with h | ⟨t, r, rfl, hf⟩
    · exact S.good c (by simp [h])
    · exact hf
  · trivial

/-- What a view of the page has collected after a part of the history. -/
theorem System.state (S : System) (hc : ∀ cs ∈ S.cmds, ∀ c ∈ cs, ∃ t r, c = .record t r ∧ TagsFit r.tags)
    {v : ViewDef} (hv : v ∈ S.order) {a : Aggregation F64} (ha : v.agg = some a) {m : Stats.Measure} (hm : v.measure = some m)
    {part : List Cmd} (hp : ∀ c ∈ part, c ∈ S.mid) :
    (eRun init (S.pre ++ [.register S.now S.order] ++ part)).views v.name = some ⟨v, a, m, samplesOf m.name part⟩ := by
  obtain ⟨_, e2, _⟩ := PluginViews.registerAll_spec S.order S.order_plugin (specRun Spec.empty S.pre)
    (fun v hv x hx => by rw [S.free v hv] at hx; cases hx)
  obtain ⟨x, hx1, hx2, hx3⟩ := e2 v hv
  obtain ⟨x3, x4, x5⟩ := hx3 (S.free v hv)
  obtain ⟨xv, xa, xm, xr⟩ := x
  simp only at hx2 x3 x4 x5
  subst hx2 x5
  rw [ha] at x3; cases x3
  rw [hm] at x4; cases x4
  rw [eRun_views, specRun_append]
  show specRun (specRun Spec.empty _) part _ = _
  rw [specRun_append]
  have h4 : specRun (specRun Spec.empty S.pre) [.register S.now S.order] xv.name = some ⟨xv, a, m, []⟩ := by
    simp only [specRun, Spec.step, PluginViews.canonAll S.order_plugin]
    exact hx1
  have := specRun_collects h4 part (by
    intro c hcp
    rcases S.mid_mem hc c (hp c hcp) with h | ⟨t, r, rfl, _⟩
    · exact S.kept _ hv c h
    · simp [Unregisters])
  simpa using this

/-- The exporter of the page is registered in the end. -/
theorem System.exporting (S : System) (hc : ∀ cs ∈ S.cmds, ∀ c ∈ cs, ∃ t r, c = .record t r ∧ TagsFit r.tags) :
    (eRun init (S.pre ++ [.register S.now S.order] ++ S.mid)).exps S.z = true := by
  obtain ⟨rest, h1, h2⟩ := S.enabled
  have hmem : Cmd.addExporter S.z ∈ S.others := by
    apply h2
    simp only [registerRPCViews, List.cons.injEq, true_and] at h1
    rw [← h1]; simp
  have hm : Cmd.addExporter S.z ∈ S.mid := (inter_perm S.inter).mem_iff.mpr (by simp [hmem])
  obtain ⟨l, r, hlr⟩ := List.append_of_mem hm
  have := eRun_exps (s := init) (i := S.z) (S.pre ++ [.register S.now S.order] ++ l) r (by
    intro c hcr
    rcases S.mid_mem hc c (by rw [hlr]; simp [hcr]) with h | ⟨t, r, rfl, _⟩
    · exact S.stays c h
    · simp)
  rw [hlr]
  simpa using this

theorem forall₂_mem {α β : Type} {R : α → β → Prop} {l : List α} {l' : List β} (h : List.Forall₂ R l l') {b : β} (hb : b ∈ l') :
    ∃ a ∈ l, R a b := by
  induction h with
  | nil => cases hb
  | @cons a b' l l' h1 _ ih =>
    rcases List.mem_cons.mp hb with rfl | hb
    · exact ⟨a, by simp, h1⟩
    · obtain ⟨x, h2, h3⟩ := ih hb
      exact ⟨x, by simp [h2], h3⟩

theorem forall₂_filter {α β : Type} {R : α → β → Prop} {l : List α} {l' : List β} (h : List.Forall₂ R l l') (p : α → Bool) (q : β → Bool)
    (hpq : ∀ a b, R a b → p a = q b) : List.Forall₂ R (l.filter p) (l'.filter q) := by
  induction h with
  | nil => exact .nil
  | @cons a b l l' h1 _ ih =>
    rw [List.filter_cons, List.filter_cons, hpq a b h1]
    split
    · exact .cons h1 ih
    · exact ih

theorem forall₂_append_left {α β : Type} {R : α → β → Prop} {l1 l2 : List α} {l' : List β} (h : List.Forall₂ R (l1 ++ l2) l') :
    ∃ a b, l' = a ++ b ∧ List.Forall₂ R l1 a ∧ List.Forall₂ R l2 b := by
  induction l1 generalizing l' with
  | nil => exact ⟨[], l', rfl, .nil, h⟩
  | cons x l1 ih =>
    cases h with
    | cons h1 h2 =>
      obtain ⟨a, b, rfl, h3, h4⟩ := ih h2
      exact ⟨_ :: a, b, rfl, .cons h1 h3, h4⟩

/-- The rows as the page has them. -/
def paged (rows : List (Row F64)) : List Zpages.Rpcz.Row := rows.map fun r => ⟨r.tags, r.data⟩

/-- What the exporter of the page got: for every view of the page what it had collected at some time; and in the end, exactly
once, what it had collected then. -/
structure Got (S : System) (es : List Zpages.Rpcz.Export) : Prop where
  sound : ∀ e ∈ es, ∀ rc, viewType e.view = some rc → ∃ v part rest a m rows, (v, e.view) ∈ rpcViews ∧ S.mid = part ++ rest ∧
    v.agg = some a ∧ v.measure = some m ∧ RowsOf a v.tagKeys (samplesOf m.name part) rows ∧ e.rows = paged rows
  last : ∀ p ∈ rpcViews, ∀ a m, p.1.agg = some a → p.1.measure = some m → ∃ es1 es2 e rows, es = es1 ++ es2 ∧
    es2.filter (fun e => decide (e.view = p.2)) = [e] ∧ RowsOf a p.1.tagKeys (samplesOf m.name S.mid) rows ∧ e.rows = paged rows

theorem prefix_split {α : Type} {p q : List α} {r : α} {l xs ys : List α} {c : α} (h : p ++ [r] ++ q ++ l = xs ++ c :: ys)
    (hl : l.length = 1) (hx : p.length + 1 ≤ xs.length) : ∃ part rest, q = part ++ rest ∧ xs = p ++ [r] ++ part := by
  have h1 : p ++ [r] <+: xs := by
    have a1 : p ++ [r] <+: p ++ [r] ++ q ++ l := ⟨q ++ l, by simp⟩
    have a2 : xs <+: p ++ [r] ++ q ++ l := ⟨c :: ys, h.symm⟩
    exact List.prefix_of_prefix_length_le a1 a2 (by simpa using hx)
  obtain ⟨part, rfl⟩ := h1
  have h2 : part ++ c :: ys = q ++ l := by
    have : p ++ [r] ++ (q ++ l) = p ++ [r] ++ (part ++ c :: ys) := by simpa using h
    exact (List.append_cancel_left this).symm
  have h3 : part <+: q := by
    have a1 : part <+: q ++ l := ⟨c :: ys, h2⟩
    have a2 : q <+: q ++ l := ⟨l, rfl⟩
    refine List.prefix_of_prefix_length_le a1 a2 ?_
    have := congrArg List.length h2
    simp at this
    omega
  obtain ⟨rest, rfl⟩ := h3
  exact ⟨part, rest, rfl, rfl⟩

theorem got (S : System) (hc : ∀ cs ∈ S.cmds, ∀ c ∈ cs, ∃ t r, c = .record t r ∧ TagsFit r.tags) :
    (∃ es, S.Gets es) ∧ ∀ es, S.Gets es → Got S es := by
  obtain ⟨w, reg', rs, h1, h2⟩ := exports_exact S.reg S.history (S.goodAll hc)
  have hrs : rs.flatMap Prod.snd = (rs.map Prod.snd).flatten := by rw [List.flatMap_def]
  refine ⟨⟨_, w, reg', rs, h1, (List.forall₂_map_right_iff (f := fun e => handed e (.fin 1))).mpr
    (List.forall₂_same.mpr fun e _ => ⟨_, rfl⟩)⟩, ?_⟩
  rintro es ⟨w', reg'', rs', h1', hf⟩
  rw [h1] at h1'
  cases h1'
  rw [hrs] at hf
  refine ⟨?_, ?_⟩
  · intro e' he' rc hrc
    obtain ⟨e, he, age, rfl⟩ := forall₂_mem hf he'
    rw [List.mem_filter, decide_eq_true_eq] at he
    obtain ⟨xs, c, ys, es0, hxs, g1, g2⟩ := allExportsOK_mem h2 he.1
    obtain ⟨n, x, k1, k2, k3, k4, k5, k6, k7⟩ := g2.sound e g1
    rw [he.2] at k3
    have hlen : S.pre.length + 1 ≤ xs.length := by
      by_contra hlt
      have a1 : xs <+: S.history := ⟨c :: ys, hxs.symm⟩
      have a2 : S.pre <+: S.history := ⟨[.register S.now S.order] ++ S.mid ++ [.tick S.t], by simp [System.history]⟩
      have := List.prefix_of_prefix_length_le a1 a2 (by omega)
      have := eRun_noExp (s := init) (i := S.z) xs rfl (fun c hcx => S.unused c (this.subset hcx))
      rw [this] at k3; cases k3
    obtain ⟨part, rest, hq, hxs'⟩ := prefix_split (l := [.tick S.t]) hxs rfl hlen
    have hmem : (e.view, rviewOf e.view) ∈ rpcViews := mem_of_rviewOf hrc
    obtain ⟨M, rc', val, a, hk, _⟩ := kinds _ hmem
    have hst := S.state hc (S.mem_order hmem) hk.agg hk.measure (part := part) (by intro c h; rw [hq]; simp [h])
    rw [← hxs', k5, k2] at hst
    cases hst
    exact ⟨e.view, part, rest, a, _, e.rows, hmem, hq, hk.agg, hk.measure, by rw [← k4] at *; exact k7, rfl⟩
  · intro p hp a m ha hm
    have hv := S.mem_order hp
    obtain ⟨e1, e2, he, _, _, h3⟩ := allExportsOK_append h2
    obtain ⟨es0, rs'', rfl, hes, hnil⟩ := h3
    cases hnil
    rw [he, List.flatten_append, List.filter_append] at hf
    obtain ⟨es1, es2, rfl, _, hf2⟩ := forall₂_append_left hf
    rw [List.flatten_cons, List.flatten_nil, List.append_nil] at hf2
    have hst := S.state hc hv ha hm (part := S.mid) (fun _ h => h)
    have hone := hes.once p.1.name _ S.t S.z rfl hst (S.exporting hc)
    obtain ⟨e, hee⟩ := List.length_eq_one_iff.mp hone
    have hmem : e ∈ es0.filter (IsFor S.z p.1.name) := by rw [hee]; simp
    obtain ⟨hmem, hfor⟩ := List.mem_filter.mp hmem
    obtain ⟨n, x, g1, g2, g3, g4, g5, g6, g7⟩ := hes.sound e hmem
    simp only [IsFor, decide_eq_true_eq] at hfor
    have hn : n = p.1.name := by rw [← g5, hfor.2]
    subst hn
    rw [hst] at g2
    cases g2
    have hfilter : (es0.filter fun e => decide (e.exporter = S.z)).filter (fun e => decide (rviewOf e.view = p.2)) = [e] := by
      rw [List.filter_filter, ← hee]
      apply List.filter_congr
      intro y hy
      obtain ⟨n', x', _, q2, _, q4, q5, _, _⟩ := hes.sound y hy
      rw [Bool.eq_iff_iff, Bool.and_eq_true, decide_eq_true_eq, decide_eq_true_eq]
      simp only [IsFor, decide_eq_true_eq]
      constructor
      · rintro ⟨u1, u2⟩
        refine ⟨u2, ?_⟩
        obtain ⟨_, rc, _, _, _, hvt⟩ := kinds p hp
        have hy' : (y.view, rviewOf y.view) ∈ rpcViews := mem_of_rviewOf (by rw [u1]; exact hvt)
        exact congrArg _ (rpcViews_inj _ hy' p hp u1)
      · rintro ⟨u1, u2⟩
        refine ⟨?_, u1⟩
        rw [← q5, u2, hst] at q2
        cases q2
        rw [q4]
        exact rviewOf_mem p hp
    have := forall₂_filter hf2 (fun e => decide (rviewOf e.view = p.2)) (fun e => decide (e.view = p.2)) (by
      rintro y _ ⟨age, rfl⟩; rfl)
    rw [hfilter] at this
    cases h : es2.filter (fun e => decide (e.view = p.2)) with
    | nil => rw [h] at this; cases this
    | cons e' l =>
      rw [h] at this
      cases this with
      | cons b1 b2 =>
        cases b2
        obtain ⟨age, rfl⟩ := b1
        exact ⟨es1, es2, _, e.rows, rfl, h, g7, rfl⟩

/-! ## From rows to counts -/

theorem sum_countP {α : Type} (f : α → List (Key × Bytes)) (T : List (List (Key × Bytes))) (hT : T.Nodup) (l : List α) :
    (T.map fun t => l.countP fun r => decide (f r = t)).sum = l.countP fun r => decide (f r ∈ T) := by
  induction T with
  | nil => simp
  | cons t T ih =>
    rw [List.nodup_cons] at hT
    rw [List.map_cons, List.sum_cons, ih hT.2]
    clear ih
    induction l with
    | nil => rfl
    | cons r l ih =>
      simp only [List.countP_cons, List.mem_cons] at ih ⊢
      by_cases h : f r = t
      · have : f r ∉ T := h ▸ hT.1
        simp only [h, true_or, decide_true, if_true]
        rw [h] at this
        simp only [this, decide_false]
        simp only [Bool.false_eq_true, if_false]
        omega
      · simp only [h, false_or, decide_false, Bool.false_eq_true, if_false]
        omega

/-- The counts of the rows with tags like these are, in sum, the recordings with tags like these. -/
theorem sum_rows {a : Aggregation F64} (ha : a.newData = some .count) {keys : List Key} {recs : List (Option TMap × Sample F64)}
    {rows : List (Row F64)} (h : RowsOf a keys recs rows) (hlen : recs.length < 2 ^ 63) (P : List (Key × Bytes) → Bool) :
    (((paged rows).filter fun r => P r.tags).map number).sum = recs.countP fun r => P (specTags keys r.1) := by
  have hrow : ∀ row ∈ rows, number ⟨row.tags, row.data⟩ = recs.countP fun r => decide (specTags keys r.1 = row.tags) := by
    intro row hr
    have h1 := (rows_count ha h hlen row.tags).1
    have hf : rows.find? (fun r => decide (r.tags = row.tags)) = some row := by
      cases hf : rows.find? (fun r => decide (r.tags = row.tags)) with
      | none => exact absurd (List.find?_eq_none.mp hf row hr) (by simp)
      | some row' =>
        have e1 : row'.tags = row.tags := by simpa using List.find?_some hf
        have := List.inj_on_of_nodup_map h.1 (List.mem_of_find?_eq_some hf) hr e1
        rw [this]
    unfold countShown at h1
    rw [hf] at h1
    obtain ⟨rt, rd⟩ := row
    unfold number
    cases rd with
    | count st n => simp only at h1 ⊢; rw [h1]; simp
    | _ =>
      have hpos : ∃ r ∈ recs, specTags keys r.1 = rt := by
        obtain ⟨r, k1, k2, _⟩ := (h.2 _).mp hr
        exact ⟨r, k1, k2.symm⟩
      simp only at h1
      exact_mod_cast h1
  have hT : ((rows.filter fun r => P r.tags).map (·.tags)).Nodup := (List.filter_sublist.map _).nodup h.1
  have h2 := sum_countP (fun r : Option TMap × Sample F64 => specTags keys r.1) _ hT recs
  rw [List.map_map] at h2
  have h3 : ((paged rows).filter fun r => P r.tags) = paged (rows.filter fun r => P r.tags) := by
    unfold paged; rw [List.filter_map]; rfl
  rw [h3, paged, List.map_map]
  have h4 : (rows.filter fun r => P r.tags).map (number ∘ fun r => ⟨r.tags, r.data⟩) =
      (rows.filter fun r => P r.tags).map ((fun t => recs.countP fun r => decide (specTags keys r.1 = t)) ∘ (·.tags)) := by
    apply List.map_congr_left
    intro row hr
    exact hrow row (List.mem_filter.mp hr).1
  rw [h4, h2]
  apply List.countP_congr
  intro r hr
  rw [decide_eq_true_eq, List.mem_map]
  constructor
  · rintro ⟨row, h5, h6⟩
    rw [← h6]
    exact (List.mem_filter.mp h5).2
  · intro h5
    obtain ⟨row, h6, h7⟩ := (rows_count ha h hlen (specTags keys r.1)).2.mpr ⟨r, hr, rfl⟩
    exact ⟨row, List.mem_filter.mpr ⟨h6, by rw [h7]; exact h5⟩, h7⟩

/-- There are rows for a method if and only if something was recorded for it. -/
theorem rows_method {a : Aggregation F64} (hu : a.Usable) {keys : List Key} {side : Bool}
    (hk : keys = [keyMethod side] ∨ keys = [keyMethod side, keyStatus side]) {recs : List (Option TMap × Sample F64)}
    {rows : List (Row F64)} (h : RowsOf a keys recs rows) (m : Bytes) :
    (∃ r ∈ paged rows, methodOf r = m) ↔ ∃ r ∈ recs, given r.1 (keyMethod side) = m := by
  constructor
  · rintro ⟨r, hr, rfl⟩
    obtain ⟨row, h1, rfl⟩ := List.mem_map.mp hr
    obtain ⟨r, h2, h3, _⟩ := (h.2 row).mp h1
    refine ⟨r, h2, ?_⟩
    rw [h3, methodOf_row hk]
  · rintro ⟨r, hr, rfl⟩
    have := row_of hu h (specTags keys r.1)
    cases hf : rows.find? fun row => decide (row.tags = specTags keys r.1) with
    | none =>
      rw [hf] at this
      exact absurd (List.filter_eq_nil_iff.mp this r hr) (by simp)
    | some row =>
      have h1 : row.tags = specTags keys r.1 := by simpa using List.find?_some hf
      exact ⟨⟨row.tags, row.data⟩, List.mem_map_of_mem (List.mem_of_find?_eq_some hf), by rw [h1, methodOf_row hk]⟩

theorem ended_count {S : System} {xs : List Rpc} {csss : List (List (List Cmd))} (hcmds : S.cmds = csss.flatten)
    (hf : List.Forall₂ (fun x css => x.Proper ∧ x.Sends css) xs csss) {v : ViewDef} (hv : v ∈ S.order)
    {M : Verif.Grpc.Measure} {rc : Bool} {val : Rpc → Option Int} {a : Aggregation F64} (hk : Kind v M (!rc) val a) (m : Bytes) :
    (samplesOf (measureOf M).name S.mid).countP (fun r => decide (given r.1 (keyMethod (!rc)) = m)) = endedCount xs m rc := by
  have hinter := S.inter
  rw [hcmds] at hinter
  obtain ⟨_, e2⟩ := end_counts hf hinter hk.atEnd (S.foreign v hv _ hk.measure) (!rc) val hk.recorded
  refine e2 _ _ ?_ ?_
  · intro x tm smp hc err he g1 g2 _
    rw [decide_eq_true_eq, g1, he]
    simp [hc]
  · rintro x ⟨g1, _, g3⟩
    refine ⟨g1, fun h => ?_⟩
    rw [h] at g3; cases g3

theorem samples_length {S : System} {xs : List Rpc} {csss : List (List (List Cmd))} (hcmds : S.cmds = csss.flatten)
    (hf : List.Forall₂ (fun x css => x.Proper ∧ x.Sends css) xs csss) {v : ViewDef} (hv : v ∈ S.order)
    {M : Verif.Grpc.Measure} {rc : Bool} {val : Rpc → Option Int} {a : Aggregation F64} (hk : Kind v M (!rc) val a) :
    (samplesOf (measureOf M).name S.mid).length ≤ xs.length := by
  have hinter := S.inter
  rw [hcmds] at hinter
  exact (end_counts hf hinter hk.atEnd (S.foreign v hv _ hk.measure) (!rc) val hk.recorded).1

theorem countP_pos_mem {α : Type} {p : α → Bool} {l : List α} : 0 < l.countP p ↔ ∃ a ∈ l, p a = true := List.countP_pos_iff

theorem rowsOf_ne {m : Bytes} {e : Zpages.Rpcz.Export} : (!(rowsOf m e).isEmpty) = true ↔ ∃ r ∈ e.rows, methodOf r = m := by
  rw [Bool.not_eq_true', List.isEmpty_eq_false_iff_exists_mem]
  simp only [rowsOf, List.mem_filter, decide_eq_true_eq]

theorem lastRow_append (m : Bytes) (v : RView) (es1 es2 : List Zpages.Rpcz.Export) {e : Zpages.Rpcz.Export}
    (he : es2.filter (fun e => decide (e.view = v)) = [e]) {r : Zpages.Rpcz.Row} (hr : (rowsOf m e).getLast? = some r) :
    lastRow m v (es1 ++ es2) = some (e, r) := by
  unfold lastRow
  rw [List.filter_append, he, List.flatMap_append, List.getLast?_append]
  simp [List.getLast?_map, hr]

theorem lastExport_append (m : Bytes) (v : RView) (es1 es2 : List Zpages.Rpcz.Export) {e : Zpages.Rpcz.Export}
    (he : es2.filter (fun e => decide (e.view = v)) = [e]) (hr : (!(rowsOf m e).isEmpty) = true) :
    lastExport m v (es1 ++ es2) = some e := by
  unfold lastExport
  have : es2.filter (fun e => decide (e.view = v) && !(rowsOf m e).isEmpty) = [e] := by
    have h := List.filter_filter (p := fun e => !(rowsOf m e).isEmpty) (q := fun e => decide (e.view = v)) (l := es2)
    rw [he] at h
    rw [List.filter_cons, if_pos hr] at h
    rw [List.filter_nil] at h
    rw [h]
    apply List.filter_congr
    intro x _
    exact Bool.and_comm _ _
  rw [List.filter_append, this, List.getLast?_append]
  rfl

theorem messages_mem (rc : Bool) : ∃ v M val, (v, messages rc) ∈ rpcViews ∧
    Kind v M (!rc) val Plugins.Grpc.messageCountDistribution ∧ v.tagKeys = [keyMethod (!rc)] := by
  cases rc
  · exact ⟨Plugins.Grpc.clientSentMessagesPerRPCView, .clientSentMessages, fun x => some (x.total .sentCount), by simp [rpcViews, messages],
      ⟨rfl, rfl, ⟨_, rfl, by decide⟩, .inl rfl, by decide,
        by intro x; unfold endMeas endMeasurements; cases x.client <;> rfl⟩, rfl⟩
  · exact ⟨Plugins.Grpc.serverReceivedMessagesPerRPCView, .serverReceivedMessages, fun x => some (x.total .recvCount), by simp [rpcViews, messages],
      ⟨rfl, rfl, ⟨_, rfl, by decide⟩, .inl rfl, by decide,
        by intro x; unfold endMeas endMeasurements; cases x.client <;> rfl⟩, rfl⟩

theorem completed_mem (rc : Bool) : ∃ v M val, (v, completed rc) ∈ rpcViews ∧
    Kind v M (!rc) val Plugins.count ∧ v.tagKeys = [keyMethod (!rc), keyStatus (!rc)] := by
  cases rc
  · exact ⟨Plugins.Grpc.clientCompletedRPCsView, .clientRoundtripLatency, fun _ => none, by simp [rpcViews, completed],
      ⟨rfl, rfl, ⟨_, rfl, by decide⟩, .inr rfl, by decide,
        by intro x; unfold endMeas endMeasurements; cases x.client <;> rfl⟩, rfl⟩
  · exact ⟨Plugins.Grpc.serverCompletedRPCsView, .serverLatency, fun _ => none, by simp [rpcViews, completed],
      ⟨rfl, rfl, ⟨_, rfl, by decide⟩, .inr rfl, by decide,
        by intro x; unfold endMeas endMeasurements; cases x.client <;> rfl⟩, rfl⟩

/-! ## Property theorems -/

/-- **C93.** The program runs, and the page's exporter gets reports. -/
theorem reports (S : System) (xs : List Rpc) (hxs : Runs xs S.cmds) : ∃ es, S.Gets es := by
  obtain ⟨csss, hcsss, hf⟩ := hxs
  exact (got S (by rw [hcsss]; exact fit_rpcs hf)).1

/-- **C93.** The page has a row for a direction and method if and only if an RPC of it has ended. -/
theorem listed (S : System) (xs : List Rpc) (hxs : Runs xs S.cmds) (es : List Zpages.Rpcz.Export) (hes : S.Gets es)
    (m : Bytes) (rc : Bool) : es.any (concerns (m, rc)) = true ↔ 0 < endedCount xs m rc := by
  obtain ⟨csss, hcsss, hf⟩ := hxs
  have hg := (got S (by rw [hcsss]; exact fit_rpcs hf)).2 es hes
  constructor
  · intro h
    obtain ⟨e, he, hcon⟩ := List.any_eq_true.mp h
    rw [concerns, Bool.and_eq_true, decide_eq_true_eq, rowsOf_ne] at hcon
    obtain ⟨hvt, hrow⟩ := hcon
    obtain ⟨v, part, rest, a, ms, rows, h1, h2, h3, h4, h5, h6⟩ := hg.sound e he rc hvt
    obtain ⟨M, rc', val, a', hk, hvt'⟩ := kinds _ h1
    rw [hvt] at hvt'; cases hvt'
    rw [hk.agg] at h3; cases h3
    rw [hk.measure] at h4; cases h4
    rw [h6] at hrow
    obtain ⟨r, hr, hgv⟩ := (rows_method hk.usable hk.keys h5 m).mp hrow
    rw [← ended_count hcsss hf (S.mem_order h1) hk m, countP_pos_mem]
    exact ⟨r, by rw [h2, samplesOf_append]; simp [hr], by simpa using hgv⟩
  · intro h
    obtain ⟨v, M, val, h1, hk, _⟩ := messages_mem rc
    obtain ⟨es1, es2, e, rows, rfl, h2, h3, h4⟩ := hg.last _ h1 _ _ hk.agg hk.measure
    rw [← ended_count hcsss hf (S.mem_order h1) hk m, countP_pos_mem] at h
    obtain ⟨r, hr, hgv⟩ := h
    have hrow := (rows_method hk.usable hk.keys h3 m).mpr ⟨r, hr, by simpa using hgv⟩
    rw [← h4] at hrow
    have he : e ∈ es2.filter (fun e => decide (e.view = messages rc)) := by rw [h2]; simp
    obtain ⟨he, hev⟩ := List.mem_filter.mp he
    rw [List.any_eq_true]
    refine ⟨e, by simp [he], ?_⟩
    rw [concerns, Bool.and_eq_true, rowsOf_ne]
    refine ⟨?_, hrow⟩
    rw [of_decide_eq_true hev]
    simp [Rpcz.viewType_messages]

theorem toU64_nat (c : Conv) (n : Nat) (h : n ≤ 2 ^ 53) : (toU64 c (Arith.ofInt (n : Int) : F64)).toNat = n := by
  have : (Arith.ofInt (n : Int) : F64) = .fin n := by
    show F64.rnd _ = _
    have := F64.rnd_int n (by simpa using h)
    exact_mod_cast this
  rw [this]
  unfold toU64
  have h2 : (n : Rat) < 2 ^ 64 := by
    have : n < 2 ^ 64 := by omega
    exact_mod_cast this
  simp only
  rw [if_pos ⟨by exact_mod_cast Nat.zero_le n, h2⟩]
  have : (n : Rat).floor = n := by
    have := Rat.floor_intCast (n : Int)
    exact_mod_cast this
  rw [this, BitVec.ofInt_natCast, BitVec.toNat_ofNat, Nat.mod_eq_of_lt (by omega)]

/-- The row of a method of a view of messages. -/
theorem messages_row (S : System) (xs : List Rpc) (hlen : xs.length ≤ 2 ^ 53) (hxs : Runs xs S.cmds) (es : List Zpages.Rpcz.Export)
    (hes : S.Gets es) (m : Bytes) (rc : Bool) (hpos : 0 < endedCount xs m rc) :
    ∃ e r, (es.filter fun e => decide (e.view = messages rc)).getLast? = some e ∧ lastRow m (messages rc) es = some (e, r) ∧
      countOf r = Arith.ofInt (endedCount xs m rc : Int) := by
  obtain ⟨csss, hcsss, hf⟩ := hxs
  have hg := (got S (by rw [hcsss]; exact fit_rpcs hf)).2 es hes
  obtain ⟨v, M, val, h1, hk, hkeys⟩ := messages_mem rc
  obtain ⟨es1, es2, e, rows, rfl, h2, h3, h4⟩ := hg.last _ h1 _ _ hk.agg hk.measure
  have hn := ended_count hcsss hf (S.mem_order h1) hk m
  have hsl := samples_length hcsss hf (S.mem_order h1) hk
  have hex := hpos
  rw [← hn, countP_pos_mem] at hex
  obtain ⟨r0, hr0, hgv0⟩ := hex
  have hrow := (rows_method hk.usable hk.keys h3 m).mpr ⟨r0, hr0, by simpa using hgv0⟩
  rw [← h4, ← rowsOf_ne, Bool.not_eq_true', List.isEmpty_eq_false_iff] at hrow
  obtain ⟨r, hr⟩ : ∃ r, (rowsOf m e).getLast? = some r := ⟨_, List.getLast?_eq_some_getLast hrow⟩
  refine ⟨e, r, ?_, lastRow_append _ _ _ _ h2 hr, ?_⟩
  · rw [List.filter_append, h2, List.getLast?_append]; rfl
  · have hmem := List.mem_of_getLast? hr
    rw [rowsOf, List.mem_filter, decide_eq_true_eq, h4] at hmem
    obtain ⟨hmem, hmeth⟩ := hmem
    obtain ⟨row, hrow2, rfl⟩ := List.mem_map.mp hmem
    obtain ⟨r1, hr1, htags, _⟩ := (h3.2 row).mp hrow2
    have hd := (rows_dist rfl (sorted_of_nice PluginViews.messages_nice) h3 (by omega) row.tags).1
    have hfind : rows.find? (fun r => decide (r.tags = row.tags)) = some row := by
      cases hf : rows.find? (fun r => decide (r.tags = row.tags)) with
      | none => exact absurd (List.find?_eq_none.mp hf row hrow2) (by simp)
      | some row' =>
        have e1 : row'.tags = row.tags := by simpa using List.find?_some hf
        rw [List.inj_on_of_nodup_map h3.1 (List.mem_of_find?_eq_some hf) hrow2 e1]
    have hcnt : ((samplesOf (measureOf M).name S.mid).countP fun r => decide (specTags v.tagKeys r.1 = row.tags)) = endedCount xs m rc := by
      rw [← hn]
      apply List.countP_congr
      intro r _
      rw [decide_eq_true_eq, decide_eq_true_eq, ← hmeth, htags]
      simp only [hkeys, methodOf_row (.inl rfl)]
      constructor
      · intro h
        have := congrArg (fun t => methodOf ⟨t, row.data⟩) h
        simpa only [methodOf_row (keys := [keyMethod (!rc)]) (.inl rfl)] using this
      · intro h
        simp only [specTags, List.map_cons, List.map_nil, h]
    rw [hcnt] at hd
    unfold totalShown at hd
    rw [hfind] at hd
    obtain ⟨rt, rd⟩ := row
    cases rd with
    | dist d => simp only at hd; unfold countOf; simp only; rw [hd]
    | _ => simp only at hd; exact absurd hd (by omega)

/-- **C93.** The count a row shows is the number of RPCs of its direction and method that have ended. -/
theorem count_shown (S : System) (xs : List Rpc) (hlen : xs.length ≤ 2 ^ 53) (hxs : Runs xs S.cmds) (es : List Zpages.Rpcz.Export)
    (hes : S.Gets es) (c : Conv) (m : Bytes) (rc : Bool) : (shown c es (m, rc)).countTotal.toNat = endedCount xs m rc := by
  have hle : endedCount xs m rc ≤ 2 ^ 53 := le_trans List.countP_le_length hlen
  by_cases hpos : 0 < endedCount xs m rc
  · obtain ⟨e, r, _, h1, h2⟩ := messages_row S xs hlen hxs es hes m rc hpos
    show (Rpcz.shownCount c (lastRow m (messages rc) es)).toNat = _
    rw [h1]
    show (toU64 c (countOf r)).toNat = _
    rw [h2, toU64_nat c _ hle]
  · have hz : es.any (concerns (m, rc)) = false := by
      rw [Bool.eq_false_iff]
      exact fun h => hpos ((listed S xs hxs es hes m rc).mp h)
    show (Rpcz.shownCount c (lastRow m (messages rc) es)).toNat = _
    rw [Rpcz.lastRow_none hz (Rpcz.viewType_messages rc)]
    show 0 = _
    omega

/-- **C93.** The rate a row shows is that number by the age of the program at the last report. -/
theorem rate_shown (S : System) (xs : List Rpc) (hlen : xs.length ≤ 2 ^ 53) (hxs : Runs xs S.cmds) (es : List Zpages.Rpcz.Export)
    (hes : S.Gets es) (c : Conv) (m : Bytes) (rc : Bool) (hpos : 0 < endedCount xs m rc) :
    ∃ e, (es.filter fun e => decide (e.view = messages rc)).getLast? = some e ∧
      (shown c es (m, rc)).rpcRateTotal = F64.div (.fin (endedCount xs m rc)) e.ageSec := by
  have hle : endedCount xs m rc ≤ 2 ^ 53 := le_trans List.countP_le_length hlen
  obtain ⟨e, r, h0, h1, h2⟩ := messages_row S xs hlen hxs es hes m rc hpos
  refine ⟨e, h0, ?_⟩
  show Rpcz.countRate (lastRow m (messages rc) es) = _
  rw [h1]
  show F64.div (countOf r) e.ageSec = _
  rw [h2]
  have : (Arith.ofInt (endedCount xs m rc : Int) : F64) = .fin (endedCount xs m rc) := by
    show F64.rnd _ = _
    have := F64.rnd_int (endedCount xs m rc) (by simpa using hle)
    exact_mod_cast this
  rw [this]

/-! ### Errors -/

theorem statusCode_ok (c : Nat) : statusCodeToString c ≠ [] ∧ (statusCodeToString c = str "OK" ↔ c = 0) := by
  unfold statusCodeToString
  by_cases h0 : c = 0
  · rw [if_pos h0]; exact ⟨by decide, by simp [h0]⟩
  · rw [if_neg h0]
    have key : ∀ x : Bytes, (x ≠ [] ∧ x ≠ str "OK") → (x ≠ [] ∧ (x = str "OK" ↔ c = 0)) :=
      fun x hx => ⟨hx.1, by simp [hx.2, h0]⟩
    apply key
    have pick : ∀ (p : Prop) [Decidable p] (a b : Bytes), (a ≠ [] ∧ a ≠ str "OK") → (b ≠ [] ∧ b ≠ str "OK") →
        ((if p then a else b) ≠ [] ∧ (if p then a else b) ≠ str "OK") := by
      intro p _ a b ha hb
      split
      · exact ha
      · exact hb
    repeat' apply pick
    all_goals first
      | decide
      | (refine ⟨by simp [str], ?_⟩
         intro h
         have := congrArg (fun l => l.head?) h
         revert this
         simp [str])

/-- The status tag tells that the RPC failed. -/
theorem tag_fails {err : GErr} (h : ∀ msg, err ≠ .other msg) :
    (statusTag err ≠ [] ∧ statusTag err ≠ str "OK") ↔ Fails err = true := by
  cases err with
  | nil => simp [statusTag, Fails]
  | status c msg =>
    obtain ⟨h1, h2⟩ := statusCode_ok c
    simp [statusTag, Fails, h1, h2]
  | other msg => exact absurd rfl (h msg)

/-- The row has this method and counts failed RPCs. -/
def failedRow (m : Bytes) (key : Key) (tags : List (Key × Bytes)) : Bool :=
  decide (methodOf ⟨tags, .count 0 0⟩ = m) && failed key ⟨tags, .count 0 0⟩

theorem failedRow_tags (m : Bytes) (rc : Bool) (tm : Option TMap) :
    failedRow m (statusKey rc) (specTags [keyMethod (!rc), keyStatus (!rc)] tm) = true ↔
      given tm (keyMethod (!rc)) = m ∧ given tm (keyStatus (!rc)) ≠ [] ∧ given tm (keyStatus (!rc)) ≠ str "OK" := by
  unfold failedRow
  rw [Bool.and_eq_true, decide_eq_true_eq, methodOf_row (.inr rfl)]
  apply and_congr_right
  intro _
  have h1 : keyStatus (!rc) = statusKey rc := by cases rc <;> rfl
  have h2 : keyMethod (!rc) ≠ statusKey rc := by cases rc <;> decide
  unfold failed specTags
  by_cases h : given tm (keyMethod (!rc)) = [] <;> by_cases h' : given tm (statusKey rc) = [] <;> simp [h, h', h1, h2]

theorem completed_row {rows : List (Row F64)} {keys : List Key} {recs : List (Option TMap × Sample F64)}
    (h : RowsOf Plugins.count keys recs rows) (hlen : recs.length ≤ 2 ^ 53) {rc : Bool} (hkeys : keys = [keyMethod (!rc), keyStatus (!rc)])
    {r : Zpages.Rpcz.Row} (hr : r ∈ paged rows) : Counted (statusKey rc) r := by
  obtain ⟨row, hrow, rfl⟩ := List.mem_map.mp hr
  obtain ⟨r1, hr1, htags, _⟩ := (h.2 row).mp hrow
  refine ⟨?_, ?_⟩
  · have hd := (rows_count rfl h (by omega) row.tags).1
    have hfind : rows.find? (fun r => decide (r.tags = row.tags)) = some row := by
      cases hf : rows.find? (fun r => decide (r.tags = row.tags)) with
      | none => exact absurd (List.find?_eq_none.mp hf row hrow) (by simp)
      | some row' =>
        have e1 : row'.tags = row.tags := by simpa using List.find?_some hf
        rw [List.inj_on_of_nodup_map h.1 (List.mem_of_find?_eq_some hf) hrow e1]
    have hp : 0 < recs.countP fun r => decide (specTags keys r.1 = row.tags) :=
      countP_pos_mem.mpr ⟨r1, hr1, by simp [htags]⟩
    have hl : (recs.countP fun r => decide (specTags keys r.1 = row.tags)) ≤ recs.length := List.countP_le_length
    unfold countShown at hd
    rw [hfind] at hd
    generalize recs.countP (fun r => decide (specTags keys r.1 = row.tags)) = k at hd hp hl
    obtain ⟨rt, rd⟩ := row
    cases rd with
    | count st n => simp only at hd; exact ⟨st, n, rfl, by omega, by omega⟩
    | _ => simp only at hd; exact absurd hd (by omega)
  · simp only
    rw [htags, hkeys]
    have h2 : keyMethod (!rc) ≠ statusKey rc := by cases rc <;> decide
    unfold specTags
    by_cases h : given r1.1 (keyMethod (!rc)) = [] <;> by_cases h' : given r1.1 (keyStatus (!rc)) = [] <;>
      simp [h, h', h2, List.filter_cons] <;> split <;> simp

/-- **C93.** The errors a row shows are the RPCs of its direction and method that ended with an error, if every error has a
status, as gRPC documents. -/
theorem errors_shown (S : System) (xs : List Rpc) (hlen : xs.length ≤ 2 ^ 53) (hxs : Runs xs S.cmds)
    (hst : ∀ x ∈ xs, ∀ msg, x.ended ≠ some (.other msg)) (es : List Zpages.Rpcz.Export)
    (hes : S.Gets es) (c : Conv) (m : Bytes) (rc : Bool) : (shown c es (m, rc)).errorsTotal.toNat = failedCount xs m rc := by
  have hle : failedCount xs m rc ≤ 2 ^ 53 := le_trans List.countP_le_length hlen
  by_cases hpos : 0 < endedCount xs m rc
  · obtain ⟨csss, hcsss, hf⟩ := id hxs
    have hg := (got S (by rw [hcsss]; exact fit_rpcs hf)).2 es hes
    obtain ⟨v, M, val, h1, hk, hkeys⟩ := completed_mem rc
    obtain ⟨es1, es2, e, rows, rfl, h2, h3, h4⟩ := hg.last _ h1 _ _ hk.agg hk.measure
    have hn := ended_count hcsss hf (S.mem_order h1) hk m
    have hsl := samples_length hcsss hf (S.mem_order h1) hk
    rw [← hn, countP_pos_mem] at hpos
    obtain ⟨r0, hr0, hgv0⟩ := hpos
    have hrow := (rows_method hk.usable hk.keys h3 m).mpr ⟨r0, hr0, by simpa using hgv0⟩
    rw [← h4, ← rowsOf_ne] at hrow
    show (Rpcz.shownErrors c (m, rc) (lastExport m (completed rc) _)).toNat = _
    rw [lastExport_append _ _ _ _ h2 hrow, Rpcz.errors_count (by
      intro r hr
      rw [rowsOf, List.mem_filter, h4] at hr
      exact completed_row h3 (by omega) hkeys hr.1)]
    have hfil : (rowsOf m e).filter (failed (statusKey rc)) = (paged rows).filter fun r => failedRow m (statusKey rc) r.tags := by
      rw [rowsOf, h4, List.filter_filter]
      apply List.filter_congr
      intro r _
      exact Bool.and_comm _ _
    simp only at hfil ⊢
    rw [hfil, sum_rows rfl h3 (by omega)]
    have hinter := S.inter
    rw [hcsss] at hinter
    obtain ⟨_, e2⟩ := end_counts hf hinter hk.atEnd (S.foreign v (S.mem_order h1) _ hk.measure) (!rc) val hk.recorded
    have := e2 (fun r => failedRow m (statusKey rc) (specTags v.tagKeys r.1))
      (fun x => x.client = !rc ∧ x.method = m ∧
        x.ended.map (fun err => decide (statusTag err ≠ [] ∧ statusTag err ≠ str "OK")) = some true) (by
        intro x tm smp hc err he g1 g2 _
        simp only [hkeys]
        rw [failedRow_tags, g1, g2, he]
        simp [hc]) (by
        rintro x ⟨g1, _, g3⟩
        refine ⟨g1, fun h => ?_⟩
        rw [h] at g3; cases g3)
    rw [this]
    have hcongr : (xs.countP fun x => decide (x.client = !rc ∧ x.method = m ∧
        x.ended.map (fun err => decide (statusTag err ≠ [] ∧ statusTag err ≠ str "OK")) = some true)) = failedCount xs m rc := by
      apply List.countP_congr
      intro x hx
      rw [decide_eq_true_eq, decide_eq_true_eq]
      apply and_congr_right; intro _
      apply and_congr_right; intro _
      cases he : x.ended with
      | none => simp
      | some err =>
        have := tag_fails (err := err) (fun msg h => hst x hx msg (by rw [he, h]))
        simp only [Option.map_some, Option.some.injEq, decide_eq_true_eq]
        exact this
    rw [hcongr, BitVec.toNat_ofNat, Nat.mod_eq_of_lt (by omega)]
  · have hz : es.any (concerns (m, rc)) = false := by
      rw [Bool.eq_false_iff]
      exact fun h => hpos ((listed S xs hxs es hes m rc).mp h)
    show (Rpcz.shownErrors c (m, rc) (lastExport m (completed rc) es)).toNat = _
    rw [Rpcz.lastExport_none hz (Rpcz.viewType_completed rc)]
    show 0 = _
    have : failedCount xs m rc ≤ endedCount xs m rc := by
      apply List.countP_mono_left
      intro x _ h
      rw [decide_eq_true_eq] at h ⊢
      refine ⟨h.1, h.2.1, ?_⟩
      cases he : x.ended with
      | none => rw [he] at h; simp at h
      | some _ => rfl
    omega

/-! ### The page -/

/-- **C93.** After a report, the tables of the page have below their headings, for each direction and sorted by method, exactly one
row for every method of which an RPC has ended. Under Count it has the number of those RPCs, and under Errors of those that failed:
exactly below a million, and else to within 0.0501 percent. -/
theorem page_counts (S : System) (xs : List Rpc) (hlen : xs.length ≤ 2 ^ 53) (hxs : Runs xs S.cmds)
    (hst : ∀ x ∈ xs, ∀ msg, x.ended ≠ some (.other msg)) (es : List Zpages.Rpcz.Export) (hes : S.Gets es) (c : Conv) {order : Snaps}
    (ho : order.Perm (snapsAfter c es)) (rule : Zpages.Semicolon) :
    ∃ (seen : List TracePage.Shown) (sent received : List (Bytes × List RpcPage.Cell)),
      TracePage.read rule (Zpages.Rpcz.rpczPage order) = some seen ∧
      RpcPage.tables seen = RpcPage.groupHead "Sent" ++ sent.map Prod.snd ++ (RpcPage.groupHead "Received" ++ received.map Prod.snd) ∧
      ∀ rc : Bool, (if rc then received else sent).Pairwise (fun a b => a.1 < b.1) ∧
        (∀ m, m ∈ (if rc then received else sent).map Prod.fst ↔ 0 < endedCount xs m rc) ∧
        ∀ e ∈ (if rc then received else sent), e.2[0]? = some (1, RpcPage.visible e.1) ∧
          (∃ t v, RpcPage.under .count .tot e.2 = some t ∧ RpcFigures.figure t = some v ∧
            |v - endedCount xs e.1 rc| ≤ 501 / 10 ^ 6 * endedCount xs e.1 rc ∧
            (endedCount xs e.1 rc < 10 ^ 6 → v = endedCount xs e.1 rc)) ∧
          ∃ t v, RpcPage.under .errors .tot e.2 = some t ∧ RpcFigures.figure t = some v ∧
            |v - failedCount xs e.1 rc| ≤ 501 / 10 ^ 6 * failedCount xs e.1 rc ∧
            (failedCount xs e.1 rc < 10 ^ 6 → v = failedCount xs e.1 rc) := by
  obtain ⟨seen, sent, received, h1, h2, h3⟩ := RpcPage.page_tables_partial c es ho rule
  refine ⟨seen, sent, received, h1, h2, fun rc => ?_⟩
  obtain ⟨k1, k2, k3⟩ := h3 rc
  refine ⟨k1, fun m => (k2 m).trans (listed S xs hxs es hes m rc), fun e he => ?_⟩
  have hs := k3 e he
  have a1 := hs.count
  have a2 := hs.errors
  rw [count_shown S xs hlen hxs es hes c e.1 rc] at a1
  rw [errors_shown S xs hlen hxs hst es hes c e.1 rc] at a2
  exact ⟨hs.method, a1, a2⟩

/-- However often `Handle` is called, the views and the exporter are registered once, by the first call. -/
theorem handles_once (z : Nat) (now : Int) (order : List ViewDef) (l : List (Int × List ViewDef)) :
    handles z false ((now, order) :: l) = [.register now order, .addExporter z] := by
  have : ∀ l, handles z true l = [] := by
    intro l
    induction l with
    | nil => rfl
    | cons a l ih => simp [handles, enable, ih]
  simp [handles, enable, registerRPCViews, this]

/-! ## An error without a status -/

/-- An error that has no status is not shown: `errors_shown` needs its hypothesis. -/
theorem other_unseen (msg : Bytes) (m : Bytes) (rc : Bool) (tm : Option TMap)
    (h : given tm (keyStatus (!rc)) = statusTag (.other msg)) :
    Fails (.other msg) = true ∧ failedRow m (statusKey rc) (specTags [keyMethod (!rc), keyStatus (!rc)] tm) = false := by
  refine ⟨rfl, ?_⟩
  rw [Bool.eq_false_iff]
  intro hf
  exact ((failedRow_tags m rc tm).mp hf).2.1 h

/-! ## Example -/

/-- A program that has another exporter before the page is enabled. -/
def demoSystem (cmds : List (List Cmd)) : System where
  z := 2
  reg := PluginViews.demoReg
  pre := [.setPeriod 5, .addExporter 1]
  now := 3
  order := (rpcViews.map Prod.fst).reverse
  others := [.addExporter 2, .tick 7]
  cmds := cmds
  mid := ([.addExporter 2, .tick 7] :: cmds).flatten
  t := 11
  measures := PluginViews.demoReg_ok
  good := by
    intro c hc
    simp only [List.cons_append, List.nil_append, List.mem_cons, List.not_mem_nil, or_false] at hc
    rcases hc with rfl | rfl | rfl | rfl <;> trivial
  free := fun _ _ => rfl
  unused := by intro c hc; simp only [List.mem_cons, List.not_mem_nil, or_false] at hc; rcases hc with rfl | rfl <;> simp
  taken := List.reverse_perm _
  enabled := ⟨_, rfl, by simp⟩
  kept := by intro v _ c hc; simp only [List.mem_cons, List.not_mem_nil, or_false] at hc; rcases hc with rfl | rfl <;> simp [Unregisters]
  stays := by intro c hc; simp only [List.mem_cons, List.not_mem_nil, or_false] at hc; rcases hc with rfl | rfl <;> simp
  foreign := by intro v _ m _ c hc; simp only [List.mem_cons, List.not_mem_nil, or_false] at hc; rcases hc with rfl | rfl <;> trivial
  inter := inter_flatten _

theorem demo_runs : Runs demoRpcs demoCmds.flatten := by
  refine ⟨demoCmds, rfl, ?_⟩
  have hp := demo_proper
  unfold demoCmds
  generalize demoRpcs = l at hp
  induction l with
  | nil => exact .nil
  | cons x l ih =>
    refine .cons ⟨hp x (by simp), ?_⟩ (ih fun x hx => hp x (by simp [hx]))
    obtain ⟨s, hs⟩ := Option.isSome_iff_exists.mp (hp x (by simp)).runs
    refine ⟨s, hs, ?_⟩
    simp only [hs]
    rw [List.forall₂_map_right_iff, List.forall₂_same]
    exact fun i _ => sent_map _ _ _ _

/-- The hypotheses are met, and what the page then shows: the client's RPC that failed, and nothing of the server's that is still
running. -/
example : Runs demoRpcs (demoSystem demoCmds.flatten).cmds ∧ (∃ es, (demoSystem demoCmds.flatten).Gets es) ∧
    (∀ x ∈ demoRpcs, ∀ msg, x.ended ≠ some (.other msg)) ∧
    endedCount demoRpcs (str "pkg.Service/Method") false = 1 ∧ failedCount demoRpcs (str "pkg.Service/Method") false = 1 ∧
    endedCount demoRpcs (str "a/b") true = 0 := by
  refine ⟨demo_runs, reports _ _ demo_runs, ?_, by decide +kernel, by decide +kernel, by decide +kernel⟩
  have : ∀ x ∈ demoRpcs, x.ended.all (fun e => match e with | .other _ => false | _ => true) = true := by decide +kernel
  intro x hx msg h
  have := this x hx
  rw [h] at this
  simp at this

end Verif.Props.RpcCounts
