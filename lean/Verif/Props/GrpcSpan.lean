import Verif.Props.Grpc
import Verif.Props.HttpServer

/-!
# C57: the spans of RPCs

The operations of `Verif.Props.Grpc` in the trace model: any program that makes them on the span of the
RPC, among whatever else it does.
-/

namespace Verif.Props.Grpc
open Verif Verif.Grpc Verif.Trace Verif.Props.HttpClient

/-! ## Specification -/

/-- The status of the span of an RPC that ends with an error. -/
def spanStatus : GErr → Trace.Status
  | .nil => ⟨0, []⟩
  | .status code msg => ⟨int32 code, msg⟩
  | .other msg => ⟨13, msg⟩

/-- A message event without its time. -/
def msgOf : Event → Option (EventType × Int × Int)
  | .outPayload n w => some (.sent, n, w)
  | .inPayload n w => some (.recv, n, w)
  | _ => none

/-- The operations of an RPC on spans, in the order they were made. -/
def rpcOps (s : Grpc.State) : List Op := traceOps (s.out.map (·.2))

/-- The span operations with which `TagRPC` begins on the new span: a link or nothing. -/
def linkOps (i : Nat) (l : List Link) : List Op := l.map fun x => .addLink (some i) x

/-! ## Helper lemmas -/

/-- Operations that set the status, change the name, or end. -/
def isFinal : Op → Bool
  | .setStatus _ _ => true
  | .setName _ _ => true
  | .endSpan _ _ => true
  | .addLink _ _ => true
  | _ => false

def finals (l : List Op) : List Op := l.filter isFinal

def finalOuts (l : List Out) : List Op := finals (traceOps l)

theorem finalOuts_append (a b : List Out) : finalOuts (a ++ b) = finalOuts a ++ finalOuts b := by
  simp [finalOuts, finals, traceOps_append]

theorem finalOuts_other (c : Ctx) (order : List Bytes) (e : Event) (he : ∀ cl err, e ≠ .end cl err) (vs : List Int)
    {pre rest : List Micro} (h : handleRPC c order e = pre ++ rest) : finalOuts (outsOf c vs pre) = [] := by
  have key : finalOuts (outsOf c vs (handleRPC c order e)) = [] := by
    unfold handleRPC traceHandleRPC statsHandleRPC
    cases e with
    | «end» cl err => exact absurd rfl (he cl err)
    | begin cl ff =>
      cases c.method.isNone <;> simp [outsOf, finalOuts, traceOps, finals, traceOps_startedRecord, isFinal]
    | outPayload n w => cases c.method.isNone <;> simp [outsOf, finalOuts, traceOps, finals, isFinal]
    | inPayload n w => cases c.method.isNone <;> simp [outsOf, finalOuts, traceOps, finals, isFinal]
    | header => simp [outsOf, finalOuts, traceOps, finals]
  rw [h, outsOf_append, finalOuts_append] at key
  exact (List.append_eq_nil_iff.1 key).1

/-- Only one thread has operations of a kind: they are in that thread's order. -/
theorem one_thread {l : List (Nat × Out)} {t : Nat} (h : ∀ o ∈ l, o.1 ≠ t → finalOuts [o.2] = []) :
    finalOuts (l.map (·.2)) = finalOuts ((l.filter fun o => o.1 = t).map (·.2)) := by
  induction l with
  | nil => rfl
  | cons o l ih =>
    have ih := ih fun o ho => h o (by simp [ho])
    have hc : ∀ l, finalOuts (o.2 :: l) = finalOuts [o.2] ++ finalOuts l := fun l => finalOuts_append [o.2] l
    by_cases ho : o.1 = t
    · rw [List.filter_cons_of_pos (by simpa using ho), List.map_cons, List.map_cons, hc, ih, ← hc]
    · rw [List.filter_cons_of_neg (by simpa using ho), List.map_cons, hc, h o (by simp) ho, ih]; rfl

theorem finalOuts_mem_nil {l : List Out} (h : finalOuts l = []) {o : Out} (ho : o ∈ l) : finalOuts [o] = [] := by
  obtain ⟨a, b, rfl⟩ := List.append_of_mem ho
  have : a ++ o :: b = a ++ ([o] ++ b) := rfl
  rw [this, finalOuts_append, finalOuts_append] at h
  exact (List.append_eq_nil_iff.1 (List.append_eq_nil_iff.1 h).2).1

/-- The status and end operations of an RPC with one `End` event. -/
theorem finals_rpc {c : Ctx} {order : List Bytes} {evs : List Event} {s : Grpc.State} (hI : Inv c order evs s)
    {t : Nat} {cl : Bool} {err : GErr} (ht : evs[t]? = some (.end cl err))
    (huniq : ∀ t' cl' err', evs[t']? = some (.end cl' err') → t' = t) (h1 : Returned s t) :
    finals (rpcOps s) = spanOps c order (.end cl err) := by
  have h2 : finalOuts (s.out.map (·.2)) = finalOuts (s.outs t) := by
    apply one_thread
    intro o ho hne
    have hlt := hI.ids o ho
    obtain ⟨pre, ha⟩ := hI.pos o.1 hlt
    have hm : o.2 ∈ s.outs o.1 := by
      unfold State.outs
      exact List.mem_map.2 ⟨o, List.mem_filter.2 ⟨ho, by simp⟩, rfl⟩
    refine finalOuts_mem_nil ?_ hm
    rw [ha.out]
    refine finalOuts_other c order evs[o.1] ?_ _ ha.split
    intro cl' err' he
    exact hne (huniq o.1 cl' err' (by rw [List.getElem?_eq_getElem hlt, he]))
  show finalOuts (s.out.map (·.2)) = _
  rw [h2, outs_returned hI ht h1]
  unfold handleRPC traceHandleRPC statsHandleRPC
  cases err <;> cases c.method.isNone <;>
    simp [outsOf, finalOuts, traceOps, finals, traceOps_endRecord, isFinal, spanOps]

theorem finals_append (a b : List Op) : finals (a ++ b) = finals a ++ finals b := by simp [finals]

theorem finals_linkOps (i : Nat) (l : List Link) : finals (linkOps i l) = linkOps i l := by
  unfold finals linkOps
  rw [List.filter_eq_self]
  intro op hop
  obtain ⟨x, _, rfl⟩ := List.mem_map.1 hop
  rfl

theorem statuses_finals (i : Nat) (l : List Op) : Spans.statuses i (finals l) = Spans.statuses i l := by
  unfold Spans.statuses finals
  rw [List.filterMap_filter]
  congr 1; funext op
  cases op <;> rfl

theorem names_finals (i : Nat) (l : List Op) : Spans.names i (finals l) = Spans.names i l := by
  unfold Spans.names finals
  rw [List.filterMap_filter]
  congr 1; funext op
  cases op <;> rfl

/-- The links among operations. -/
def linksOf (i : Nat) (l : List Op) : List Link :=
  l.filterMap fun op => match op with
    | .addLink s x => if s = some i then some x else none
    | _ => none

theorem adds_links (i : Nat) (now : Int) (l : List Op) : (adds i now l).links = linksOf i l := by
  induction l generalizing now with
  | nil => rfl
  | cons op l ih =>
    show (opAdds now i op).links ++ (adds i (clock now op) l).links = _
    rw [ih]
    cases op <;> simp only [opAdds, linksOf, List.filterMap_cons] <;> (try split) <;> simp [Adds.none]

theorem linksOf_finals (i : Nat) (l : List Op) : linksOf i (finals l) = linksOf i l := by
  unfold linksOf finals
  rw [List.filterMap_filter]
  congr 1; funext op
  cases op <;> rfl

theorem names_onIt (i : Nat) (l : List Op) : Spans.names i (l.filter (onIt i)) = Spans.names i l := by
  unfold Spans.names
  rw [List.filterMap_filter]
  congr 1; funext op
  cases op with
  | setName s n =>
    by_cases h : s = some i <;> simp [onIt, Spans.target, h]
  | _ => simp

theorem linksOf_onIt (i : Nat) (l : List Op) : linksOf i (l.filter (onIt i)) = linksOf i l := by
  unfold linksOf
  rw [List.filterMap_filter]
  congr 1; funext op
  cases op with
  | addLink s n =>
    by_cases h : s = some i <;> simp [onIt, Spans.target, h]
  | _ => simp

/-- **C57.** Take an RPC with one `End` event (as gRPC makes them), in any schedule, once the handler of
`End` has returned; and any program that starts span `i` as `x` and then makes on it the link of `TagRPC`, if
there is one, and the operations of the RPC. Then the span is exported exactly once to every exporter
registered at its end (if it is sampled), under the name and kind it was started with, with the status that
stands for the error, and with that link. -/
theorem rpc_span_exported {c : Ctx} {i : Nat} (hspan : c.span = some i) {order : List Bytes} {evs : List Event}
    {sched : List Nat} {s : Grpc.State} (r : (State.init c order evs).run sched = some s)
    {t : Nat} {cl : Bool} {err : GErr} (ht : evs[t]? = some (.end cl err))
    (huniq : ∀ t' cl' err', evs[t']? = some (.end cl' err') → t' = t) (h1 : Returned s t)
    {links : List Link} (hlinks : links.length ≤ 1)
    {t0 : Int} {H : List Op} {st : Trace.State} (hrun : run (State.init t0) H = .ok st) {x : Start.Started}
    (hx : (Start.startedBy H)[i]? = some x) (hown : H.filter (onIt i) = linkOps i links ++ rpcOps s) :
    ∃ a o b sp, H = a ++ .endSpan (some i) o :: b ∧ (∀ o, Op.endSpan (some i) o ∉ a) ∧
      st.spans[i]? = some sp ∧
      (∀ e, st.exported.countP (fun x => decide (x.1 = e ∧ x.2.1 = i)) =
        if sp.ctx.isSampled ∧ Trace.registered e a = true then 1 else 0) ∧
      ∀ e sd, (e, i, sd) ∈ st.exported →
        sd.status = spanStatus err ∧ sd.name = x.name ∧ sd.kind = Spans.kindOf x.opts ∧
        sd.hasRemoteParent = Start.isRemote x.origin ∧ sd.ctx = sp.ctx ∧ sd.links = links := by
  have hI := inv_run (inv_init c order evs) r
  have hf := finals_rpc hI ht huniq h1
  have hfin : finals (H.filter (onIt i)) = linkOps i links ++ spanOps c order (.end cl err) := by
    rw [hown, finals_append, hf, finals_linkOps]
  -- what is before the end
  have hpre : ∃ pre, spanOps c order (.end cl err) = pre ++ [.endSpan (some i) order] ∧
      (∀ o, Op.endSpan (some i) o ∉ pre) ∧ (Spans.statuses i pre).getLastD ⟨0, []⟩ = spanStatus err ∧
      Spans.names i pre = [] ∧ linksOf i pre = [] := by
    cases err with
    | nil => exact ⟨[], by simp [spanOps, hspan], by simp, rfl, rfl, rfl⟩
    | status code msg =>
      exact ⟨[.setStatus (some i) ⟨int32 code, msg⟩], by simp [spanOps, hspan], by simp, by simp [Spans.statuses, spanStatus], rfl, rfl⟩
    | other msg =>
      exact ⟨[.setStatus (some i) ⟨13, msg⟩], by simp [spanOps, hspan], by simp, by simp [Spans.statuses, spanStatus], rfl, rfl⟩
  obtain ⟨pre, q1, q2, q3, q4, q5⟩ := hpre
  rw [q1, ← List.append_assoc] at hfin
  have hno : ∀ o, Op.endSpan (some i) o ∉ linkOps i links ++ pre := by
    intro o hm
    rcases List.mem_append.1 hm with hm | hm
    · obtain ⟨_, _, hm⟩ := List.mem_map.1 hm; cases hm
    · exact q2 o hm
  have hmem : Op.endSpan (some i) order ∈ H := by
    have : Op.endSpan (some i) order ∈ finals (H.filter (onIt i)) := by rw [hfin]; simp
    exact (List.mem_filter.mp (List.mem_filter.mp this).1).1
  obtain ⟨a, o, b, s1, s2⟩ := split_first ⟨_, hmem⟩
  have hrun' := hrun
  rw [s1] at hrun'
  obtain ⟨sp, e1, e2, _⟩ := Spans.exported_exactly_once hrun' s2
  refine ⟨a, o, b, sp, s1, s2, e1, e2, ?_⟩
  intro e sd hxp
  have hfil : ∀ (P : List Op) (order : List Bytes) (b2 : List Op), H = P ++ .endSpan (some i) order :: b2 →
      (∀ o, Op.endSpan (some i) o ∉ P) → finals (P.filter (onIt i)) = linkOps i links ++ pre := by
    intro P order b2 hP hno'
    have h := hfin
    rw [hP, List.filter_append, List.filter_cons_of_pos (by simp [onIt, Spans.target]), finals_append] at h
    have hcons : ∀ l, finals (Op.endSpan (some i) order :: l) = .endSpan (some i) order :: finals l := fun l => rfl
    rw [hcons] at h
    refine prefix_unique h ?_ hno
    intro o hm
    exact hno' o (List.mem_filter.mp (List.mem_filter.mp hm).1).1
  have hst_append : ∀ a b, Spans.statuses i (a ++ b) = Spans.statuses i a ++ Spans.statuses i b := by
    intro a b; simp [Spans.statuses]
  have hnm_append : ∀ a b, Spans.names i (a ++ b) = Spans.names i a ++ Spans.names i b := by
    intro a b; simp [Spans.names]
  have hl1 : Spans.statuses i (linkOps i links) = [] := by
    unfold Spans.statuses linkOps; rw [List.filterMap_map, List.filterMap_eq_nil_iff]; intro x _; rfl
  have hl2 : Spans.names i (linkOps i links) = [] := by
    unfold Spans.names linkOps; rw [List.filterMap_map, List.filterMap_eq_nil_iff]; intro x _; rfl
  have hl3 : linksOf i (linkOps i links) = links := by
    unfold linksOf linkOps; rw [List.filterMap_map]
    have : (fun op => match op with
        | Op.addLink s x => if s = some i then some x else none
        | _ => none) ∘ (fun x : Link => Op.addLink (some i) x) = some := by funext x; simp
    rw [this, List.filterMap_some]
  obtain ⟨c1, op, d, order1, b2, x1, s', g1, g2, g3, g4, g5, g6, g7, g8, g9, g10, _⟩ := Spans.exported_data hrun hxp
  have hx1 : (Start.startedBy H)[i]? = some x1 := by
    rw [g1]
    unfold Start.startedBy at g3 ⊢
    simp only [List.flatMap_append, List.flatMap_cons, g2]
    rw [List.append_assoc, List.getElem?_append_right (by omega), g3]
    simp
  rw [hx] at hx1
  cases hx1
  have hP := hfil _ _ _ g1 g4
  refine ⟨?_, ?_, g9, g10, ?_, ?_⟩
  · rw [g8, ← statuses_filter, ← statuses_finals, hP, hst_append, hl1, List.nil_append, q3]
  · rw [g7, ← names_onIt, ← names_finals, hP, hnm_append, hl2, q4]; rfl
  · rw [g6]; rw [e1] at g5; cases g5; rfl
  · obtain ⟨c2, op2, d2, order2, b3, x2, k1, k2, k3, k4, A, hA, _, _, _, _, k5, _⟩ := Spans.exported_events hrun hxp
    rw [k5, hA, adds_links, ← linksOf_onIt, ← linksOf_finals, hfil _ _ _ k1 k4]
    have : linksOf i (linkOps i links ++ pre) = links := by
      have happ : linksOf i (linkOps i links ++ pre) = linksOf i (linkOps i links) ++ linksOf i pre := by simp [linksOf]
      rw [happ, hl3, q5, List.append_nil]
    rw [this]
    have hlim := HttpServer.limit_pos Trace.Config.maxLinks 32 (by decide) c2
    unfold Spans.newest
    have : links.length - (Spans.limit Trace.Config.maxLinks 32 c2).toNat = 0 := by omega
    rw [this, List.drop_zero]

/-! ## Message events -/

/-- The message events among operations. -/
def msgsOf (i : Nat) (l : List Op) : List (EventType × Int × Int) :=
  l.filterMap fun op => match op with
    | .addMessageEvent s ty _ n w => if s = some i then some (ty, n, w) else none
    | _ => none

theorem adds_msgs (i : Nat) (now : Int) (l : List Op) :
    ((adds i now l).msgs.map fun m => (m.type, m.uncompressed, m.compressed)) = msgsOf i l := by
  induction l generalizing now with
  | nil => rfl
  | cons op l ih =>
    have ih := ih (clock now op)
    show (((opAdds now i op).msgs ++ (adds i (clock now op) l).msgs).map _) = _
    rw [List.map_append, ih]
    cases op <;> simp only [opAdds, msgsOf, List.filterMap_cons] <;> (try split) <;> simp [Adds.none]

theorem msgsOf_onIt (i : Nat) (l : List Op) : msgsOf i (l.filter (onIt i)) = msgsOf i l := by
  unfold msgsOf
  rw [List.filterMap_filter]
  congr 1; funext op
  cases op with
  | addMessageEvent s ty id n w =>
    by_cases h : s = some i <;> simp [onIt, Spans.target, h]
  | _ => simp

theorem msgsOf_append (i : Nat) (a b : List Op) : msgsOf i (a ++ b) = msgsOf i a ++ msgsOf i b := by simp [msgsOf]

/-- The parts of an interleaving, one after the other. -/
theorem perm_split {α : Type} (l : List (Nat × α)) (n : Nat) (h : ∀ o ∈ l, o.1 < n) :
    l.Perm ((List.range n).flatMap fun i => l.filter fun o => o.1 = i) := by
  induction n generalizing l with
  | zero =>
    cases l with
    | nil => simp
    | cons o l => exact absurd (h o (by simp)) (by omega)
  | succ n ih =>
    rw [List.range_succ, List.flatMap_append]
    have h1 := ih (l.filter fun o => decide (o.1 < n)) (by
      intro o ho; simpa using (List.mem_filter.1 ho).2)
    have h2 : (List.range n).flatMap (fun i => (l.filter fun o => decide (o.1 < n)).filter fun o => o.1 = i) =
        (List.range n).flatMap fun i => l.filter fun o => o.1 = i := by
      apply List.flatMap_congr
      intro i hi
      rw [List.filter_filter]
      apply List.filter_congr
      intro o _
      have := List.mem_range.1 hi
      by_cases ho : o.1 = i <;> simp [ho]; omega
    rw [h2] at h1
    have h3 : ((l.filter fun o => decide (o.1 < n)) ++ (l.filter fun o => !decide (o.1 < n))).Perm l := List.filter_append_perm _ _
    have h4 : (l.filter fun o => !decide (o.1 < n)) = l.filter fun o => o.1 = n := by
      apply List.filter_congr
      intro o ho
      have := h o ho
      by_cases hn : o.1 = n <;> simp [hn]; omega
    rw [h4] at h3
    refine h3.symm.trans ?_
    simpa using h1.append_right _

theorem run_out {s s' : Grpc.State} {sched : List Nat} (h : s.run sched = some s') : ∃ rest, s'.out = s.out ++ rest := by
  induction sched generalizing s with
  | nil => simp only [State.run, Option.some.injEq] at h; subst h; exact ⟨[], by simp⟩
  | cons t ts ih =>
    simp only [State.run] at h
    cases hs : s.step t with
    | none => rw [hs] at h; cases h
    | some s1 =>
      rw [hs] at h
      obtain ⟨rest, hr⟩ := ih h
      obtain ⟨m, rest', _, _, _, _, h1, h2⟩ := step_eq hs
      by_cases hm : m = .panic
      · rw [h2 hm] at hr; exact ⟨rest, hr⟩
      · rw [(h1 hm).2.2.2.2.2.1, List.append_assoc] at hr; exact ⟨_, hr⟩

/-- The message events among what comes out. -/
def msgOuts (i : Nat) (l : List Out) : List (EventType × Int × Int) := msgsOf i (traceOps l)

theorem msgOuts_append (i : Nat) (a b : List Out) : msgOuts i (a ++ b) = msgOuts i a ++ msgOuts i b := by
  simp [msgOuts, traceOps_append, msgsOf_append]

theorem msgOuts_flatMap (i : Nat) (l : List Out) : msgOuts i l = l.flatMap fun o => msgOuts i [o] := by
  induction l with
  | nil => rfl
  | cons o l ih => rw [List.flatMap_cons, ← ih]; exact msgOuts_append i [o] l

theorem msgOuts_handle {c : Ctx} {i : Nat} (hspan : c.span = some i) (order : List Bytes) (e : Event) (vs : List Int) :
    msgOuts i (outsOf c vs (handleRPC c order e)) = (msgOf e).toList := by
  unfold handleRPC traceHandleRPC statsHandleRPC
  cases e with
  | «end» cl err =>
    cases err <;> cases c.method.isNone <;> simp [outsOf, msgOuts, traceOps, msgsOf, traceOps_endRecord, msgOf]
  | begin cl ff => cases c.method.isNone <;> simp [outsOf, msgOuts, traceOps, msgsOf, traceOps_startedRecord, msgOf]
  | outPayload n w => cases c.method.isNone <;> simp [outsOf, msgOuts, traceOps, msgsOf, msgOf, hspan]
  | inPayload n w => cases c.method.isNone <;> simp [outsOf, msgOuts, traceOps, msgsOf, msgOf, hspan]
  | header => simp [outsOf, msgOuts, traceOps, msgsOf, msgOf]

/-- What comes out of a thread that has no message event, at any point. -/
theorem msgOuts_none {c : Ctx} {i : Nat} (hspan : c.span = some i) {order : List Bytes} {e : Event} (he : msgOf e = none)
    (vs : List Int) {pre rest : List Micro} (h : handleRPC c order e = pre ++ rest) : msgOuts i (outsOf c vs pre) = [] := by
  have key := msgOuts_handle hspan order e vs
  rw [he, h, outsOf_append, msgOuts_append] at key
  exact (List.append_eq_nil_iff.1 key).1

/-- When the payload handlers have returned, the message events that came out are the payload events. -/
theorem msgOuts_all {c : Ctx} {i : Nat} (hspan : c.span = some i) {order : List Bytes} {evs : List Event} {s : Grpc.State}
    (hI : Inv c order evs s) (hall : ∀ t e, evs[t]? = some e → (msgOf e).isSome → Returned s t) :
    (msgOuts i (s.out.map (·.2))).Perm (evs.filterMap msgOf) := by
  have hp := perm_split s.out evs.length hI.ids
  have h1 : (msgOuts i (s.out.map (·.2))).Perm
      ((List.range evs.length).flatMap fun j => msgOuts i (s.outs j)) := by
    rw [msgOuts_flatMap, List.flatMap_map]
    refine (hp.flatMap_right _).trans ?_
    rw [List.flatMap_assoc]
    apply List.Perm.of_eq
    apply List.flatMap_congr
    intro j _
    rw [msgOuts_flatMap i (s.outs j)]
    unfold State.outs
    rw [List.flatMap_map]
  refine h1.trans (List.Perm.of_eq ?_)
  have h2 : ∀ j (hj : j < evs.length), msgOuts i (s.outs j) = (msgOf evs[j]).toList := by
    intro j hj
    cases hm : msgOf evs[j] with
    | none =>
      obtain ⟨pre, ha⟩ := hI.pos j hj
      rw [ha.out, msgOuts_none hspan hm _ ha.split]; rfl
    | some x =>
      rw [outs_returned hI (List.getElem?_eq_getElem hj) (hall j _ (List.getElem?_eq_getElem hj) (by rw [hm]; rfl)),
        msgOuts_handle hspan, hm]
  clear h1 hp hall hI
  have h3 : ((List.range evs.length).flatMap fun j => msgOuts i (s.outs j)) = evs.flatMap fun e => (msgOf e).toList := by
    rw [List.flatMap_def, List.flatMap_def]
    congr 1
    apply List.ext_getElem (by simp)
    intro j h1 h2'
    simp only [List.getElem_map, List.getElem_range]
    exact h2 j (by simpa using h1)
  rw [h3]
  clear h2 h3
  induction evs with
  | nil => rfl
  | cons e evs ih =>
    rw [List.flatMap_cons, ih, List.filterMap_cons]
    cases msgOf e <;> rfl

/-- **C57.** When the payload handlers have returned before the end is handled, the message events of the
exported span are the newest of those of the RPC's payload events, with their sizes, as many as the limit
in force when the span was started allows; the others are counted as dropped. -/
theorem messages_exported {c : Ctx} {i : Nat} (hspan : c.span = some i) {order : List Bytes} {evs : List Event}
    {sched1 sched2 : List Nat} {s1 s2 : Grpc.State} (r1 : (State.init c order evs).run sched1 = some s1)
    (r2 : s1.run sched2 = some s2) {t : Nat} {cl : Bool} {err : GErr} (ht : evs[t]? = some (.end cl err))
    (huniq : ∀ t' cl' err', evs[t']? = some (.end cl' err') → t' = t) (h0 : NotCalled c order evs s1 t)
    (hall : ∀ t e, evs[t]? = some e → (msgOf e).isSome → Returned s1 t)
    {links : List Link}
    {t0 : Int} {H : List Op} {st : Trace.State} (hrun : run (State.init t0) H = .ok st)
    (hown : H.filter (onIt i) = linkOps i links ++ rpcOps s2) {e : Exporter} {sd : SpanData}
    (hxp : (e, i, sd) ∈ st.exported) :
    ∃ before start rest all, H = before ++ start :: rest ∧ (Start.startedBy before).length = i ∧
      all.Perm (evs.filterMap msgOf) ∧
      (sd.messageEvents.map fun m => (m.type, m.uncompressed, m.compressed)) =
        Spans.newest (Spans.limit Trace.Config.maxMessageEvents 128 before) all ∧
      sd.droppedMessageEvents + sd.messageEvents.length = all.length := by
  have hI1 := inv_run (inv_init c order evs) r1
  have hI2 := inv_run hI1 r2
  obtain ⟨rest, hrest⟩ := run_out r2
  -- no end before
  have hno1 : ∀ o, Op.endSpan (some i) o ∉ rpcOps s1 := by
    intro o hm
    have h2 : finalOuts (s1.out.map (·.2)) = finalOuts (s1.outs t) := by
      apply one_thread
      intro o ho hne
      have hlt := hI1.ids o ho
      obtain ⟨pre, ha⟩ := hI1.pos o.1 hlt
      have hm : o.2 ∈ s1.outs o.1 := by
        unfold State.outs
        exact List.mem_map.2 ⟨o, List.mem_filter.2 ⟨ho, by simp⟩, rfl⟩
      refine finalOuts_mem_nil ?_ hm
      rw [ha.out]
      refine finalOuts_other c order evs[o.1] ?_ _ ha.split
      intro cl' err' he
      exact hne (huniq o.1 cl' err' (by rw [List.getElem?_eq_getElem hlt, he]))
    have hlt : t < evs.length := (List.getElem?_eq_some_iff.1 ht).1
    have hee : evs[t] = .end cl err := (List.getElem?_eq_some_iff.1 ht).2
    obtain ⟨pre', ha⟩ := hI1.pos t hlt
    have hsp' := ha.split
    rw [hee, h0 _ ht] at hsp'
    have hp' : pre' = [] := by
      have := congrArg List.length hsp'
      rw [List.length_append] at this
      exact List.eq_nil_of_length_eq_zero (by omega)
    have ho := ha.out
    rw [hp'] at ho
    rw [ho] at h2
    have : Op.endSpan (some i) o ∈ finalOuts (s1.out.map (·.2)) := List.mem_filter.2 ⟨hm, rfl⟩
    rw [h2] at this
    cases this
  -- all message events are before
  have hmsg : msgsOf i (traceOps (rest.map (·.2))) = [] := by
    show msgOuts i (rest.map (·.2)) = []
    have p1 := msgOuts_all hspan hI1 hall
    have p2 := msgOuts_all hspan hI2 fun t e he hs => todo_nil_run r2 (hall t e he hs)
    have hl : (msgOuts i (s2.out.map (·.2))).length = (msgOuts i (s1.out.map (·.2))).length := by
      rw [p1.length_eq, p2.length_eq]
    rw [hrest, List.map_append, msgOuts_append, List.length_append] at hl
    exact List.eq_nil_of_length_eq_zero (by omega)
  have hops : rpcOps s2 = rpcOps s1 ++ traceOps (rest.map (·.2)) := by
    unfold rpcOps; rw [hrest, List.map_append, traceOps_append]
  obtain ⟨c2, op2, d2, order2, b3, x2, k1, k2, k3, k4, A, hA, _, _, k5, k6, _, _⟩ := Spans.exported_events hrun hxp
  -- the end is in the rest
  have hsplit : ∃ q, (c2 ++ op2 :: d2).filter (onIt i) = linkOps i links ++ rpcOps s1 ++ q ∧ msgsOf i q = [] := by
    have h := hown
    rw [k1, List.filter_append, List.filter_cons_of_pos (by simp [onIt, Spans.target]), hops, ← List.append_assoc] at h
    have hna : ∀ o, Op.endSpan (some i) o ∉ linkOps i links ++ rpcOps s1 := by
      intro o hm
      rcases List.mem_append.1 hm with hm | hm
      · obtain ⟨_, _, hm⟩ := List.mem_map.1 hm; cases hm
      · exact hno1 o hm
    have hnb : ∀ o, Op.endSpan (some i) o ∉ (c2 ++ op2 :: d2).filter (onIt i) := fun o hm => k4 o (List.mem_filter.1 hm).1
    rcases List.append_eq_append_iff.1 h with ⟨q, hq1, hq2⟩ | ⟨q, hq1, hq2⟩
    · -- the end would be in the first part
      cases q with
      | nil =>
        refine ⟨[], by rw [hq1]; simp, rfl⟩
      | cons y q =>
        simp only [List.cons_append, List.cons.injEq] at hq2
        exact absurd (by rw [hq1, ← hq2.1]; simp) (hna order2)
    · refine ⟨q, hq1, ?_⟩
      rw [hq2, msgsOf_append] at hmsg
      exact (List.append_eq_nil_iff.1 hmsg).1
  obtain ⟨q, hq1, hq2⟩ := hsplit
  have hm : A.msgs.map (fun m => (m.type, m.uncompressed, m.compressed)) = msgOuts i (s1.out.map (·.2)) := by
    rw [hA, adds_msgs, ← msgsOf_onIt, hq1, msgsOf_append, msgsOf_append, hq2, List.append_nil]
    have : msgsOf i (linkOps i links) = [] := by
      unfold msgsOf linkOps; rw [List.filterMap_map, List.filterMap_eq_nil_iff]; intro x _; rfl
    rw [this]; rfl
  refine ⟨c2, op2, d2 ++ .endSpan (some i) order2 :: b3, A.msgs.map (fun m => (m.type, m.uncompressed, m.compressed)),
    by rw [k1]; simp, k3, ?_, ?_, ?_⟩
  · rw [hm]; exact msgOuts_all hspan hI1 hall
  · rw [k5]; unfold Spans.newest; rw [List.map_drop, List.length_map]
  · rw [k6, List.length_map]

end Verif.Props.Grpc
