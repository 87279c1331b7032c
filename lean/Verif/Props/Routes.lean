import Verif.Http.Routes
import Verif.Props.HttpServer

/-!
# C84: handlers inside handlers, and routes
-/

namespace Verif.Props.Routes
open Verif Verif.Http Verif.Trace
open Verif.Props.HttpClient (valueOf)
open Verif.Props.HttpServer

/-! ## Specification -/

/-- A call that is not `SetRoute`. -/
def onWriter : HOp → Bool
  | .setRoute _ => false
  | _ => true

/-- The calls that count for the nearest `Handler` around a program, with `WithRouteTag` as a `SetRoute` after the
handler returned; and whether the program panics. Routes inside another `Handler` count only there. -/
def calls : Prog → List HOp × Bool
  | .done => ([], false)
  | .call op => ([op], false)
  | .look => ([], false)
  | .panic => ([], true)
  | .seq a b => if (calls a).2 then calls a else ((calls a).1 ++ (calls b).1, (calls b).2)
  | .recovering p => ((calls p).1, false)
  | .withRoute r p => if (calls p).2 then calls p else ((calls p).1 ++ [.setRoute r], false)
  | .handler _ _ _ _ p => ((calls p).1.filter onWriter, (calls p).2)

/-- The tags inside `WithRouteTag`. -/
def routed (t : Tags) (r : Bytes) : Tags := if Tag.checkValue r then GoMap.set t (str "http_server_route") r else t

/-- What is recorded: the start of a request and its end, by a `Handler` called with tags `t`. -/
inductive Expect where
  | started (t : Tags) (req : Request)
  | ended (t : Tags) (req : Request) (ops : List HOp)

/-- What is recorded, in order. A route that is no tag value loses the end. -/
def expects : Prog → Tags → List Expect
  | .seq a b, t => expects a t ++ if (calls a).2 then [] else expects b t
  | .recovering p, t => expects p t
  | .withRoute r p, t => expects p (routed t r)
  | .handler _ _ req _ p, t => .started t req :: expects p t ++
      if (routes (calls p).1).all Tag.checkValue then [.ended t req (calls p).1] else []
  | _, _ => []

/-- The tags programs see in their contexts. -/
def looks : Prog → Tags → List Tags
  | .look, t => [t]
  | .seq a b, t => looks a t ++ if (calls a).2 then [] else looks b t
  | .recovering p, t => looks p t
  | .withRoute r p, t => looks p (routed t r)
  | .handler _ _ _ _ p, t => looks p t
  | _, _ => []

/-- A record is as expected (`requestTags`, `EndRecord`: C45). -/
def Meets : Expect → Tags × List Meas → Prop
  | .started t req, x => x.2 = [⟨.serverRequestCount, some 1⟩] ∧ (∃ env : Env, env.tags = t ∧ requestTags env req x.1) ∧
      GoMap.get x.1 (str "http_server_route") = GoMap.get t (str "http_server_route")
  | .ended t req ops, x => (∃ env : Env, env.tags = t ∧ EndRecord env req ops x) ∧
      (routes ops = [] → GoMap.get x.1 (str "http_server_route") = GoMap.get t (str "http_server_route"))

/-! ## Lemmas -/

theorem fold_note (w : Writer) (hw : wrap64 w.respSize = w.respSize) (ops : List HOp) :
    ops.foldl Writer.note w = { w with
      respSize := wrap64 (w.respSize + written ops)
      statusCode := (codes ops).getLastD w.statusCode
      added := w.added ++ (routes ops).map fun r => (str "http_server_route", r) } := by
  have key : ∀ (ops : List HOp) (w w' : Writer), { w with log := [] } = { w' with log := [] } →
      { (w.steps ops).1 with log := [] } = { ops.foldl Writer.note w' with log := [] } := by
    intro ops
    induction ops with
    | nil => intro w w' h; exact h
    | cons op ops ih =>
      intro w w' h
      refine ih (w.step op).1 (w'.note op) ?_
      obtain ⟨a1, a2, a3, a4, a5, a6, a7, a8⟩ := w
      obtain ⟨b1, b2, b3, b4, b5, b6, b7, b8⟩ := w'
      simp only [Writer.mk.injEq, and_true] at h
      obtain ⟨rfl, rfl, rfl, rfl, rfl, rfl, rfl⟩ := h
      cases op <;> rfl
  have hlog : ∀ (ops : List HOp) (w : Writer), (ops.foldl Writer.note w).log = w.log := by
    intro ops
    induction ops with
    | nil => intro w; rfl
    | cons op ops ih =>
      intro w
      simp only [List.foldl_cons]
      rw [ih]
      cases op <;> rfl
  have h := key ops w w rfl
  obtain ⟨l, h1, _⟩ := steps_spec w hw ops
  rw [h1] at h
  have h2 : ops.foldl Writer.note w = { { ops.foldl Writer.note w with log := [] } with log := w.log } := by
    rw [← hlog ops w]
  rw [h2, ← h]

theorem forwarded_filter (ops : List HOp) : (ops.filter onWriter).flatMap forwarded = ops.flatMap forwarded := by
  induction ops with
  | nil => rfl
  | cons op ops ih => cases op <;> simp [List.filter_cons, onWriter, forwarded, ih]

/-- A call on a writer. -/
theorem callWriter_spec (chain : List Nat) (hn : chain.Nodup) (op : HOp) (s : Served) :
    (callWriter chain op s).cells.length = s.cells.length ∧
    (∀ j : Nat, (callWriter chain op s).cells[j]? = (s.cells[j]?).map fun w => if j ∈ chain then w.note op else w) ∧
    (∃ l, (callWriter chain op s).log = s.log ++ l ∧ below l = forwarded op ∧ records l = []) ∧
    (callWriter chain op s).seen = s.seen := by
  induction chain generalizing s with
  | nil =>
    cases op <;> refine ⟨rfl, fun j => by simp [callWriter, Served.emit], ?_, rfl⟩
    · exact ⟨_, rfl, rfl, rfl⟩
    · exact ⟨_, rfl, rfl, rfl⟩
    · exact ⟨_, rfl, rfl, rfl⟩
    · exact ⟨[], by simp [callWriter], rfl, rfl⟩
  | cons i chain ih =>
    obtain ⟨hi, hn⟩ := List.nodup_cons.mp hn
    obtain ⟨h1, h2, ⟨l, h3, h4, h5⟩, h6⟩ := ih hn s
    have hcells : ∀ j : Nat, ((callWriter chain op s).cells.modify i fun w => w.note op)[j]? =
        (s.cells[j]?).map fun w => if j ∈ i :: chain then w.note op else w := by
      intro j
      rw [List.getElem?_modify, h2 j]
      cases s.cells[j]? with
      | none => rfl
      | some w =>
        by_cases hj : i = j
        · subst hj; simp [hi]
        · simp [hj, Ne.symm hj]
    cases op with
    | write n e =>
      obtain ⟨o, ho⟩ : ∃ o, (callWriter (i :: chain) (.write n e) s).log =
          (callWriter chain (.write n e) s).log ++ [.trace o] := ⟨_, rfl⟩
      refine ⟨by simp [callWriter, Served.emit, h1], hcells, ⟨l ++ [.trace o], ?_, ?_, ?_⟩, h6⟩
      · rw [ho, h3, List.append_assoc]
      · rw [below_append, h4]; rfl
      · rw [records_append, h5]; rfl
    | writeHeader c => exact ⟨by simp [callWriter, h1], hcells, ⟨l, h3, h4, h5⟩, h6⟩
    | readFrom n e => exact ⟨by simp [callWriter, h1], hcells, ⟨l, h3, h4, h5⟩, h6⟩
    | setRoute r => exact ⟨by simp [callWriter, h1], hcells, ⟨l, h3, h4, h5⟩, h6⟩

/-- The calls that change tracker `j`. -/
def noted (c : RCtx) (j : Nat) (ops : List HOp) : List HOp :=
  if c.added = some j then ops else if j ∈ c.writer then ops.filter onWriter else []

theorem noted_append (c : RCtx) (j : Nat) (a b : List HOp) : noted c j (a ++ b) = noted c j a ++ noted c j b := by
  unfold noted
  split
  · rfl
  · split <;> simp

/-- What running a program comes to. -/
structure Ran (p : Prog) (c : RCtx) (s : Served) (r : Served × Bool) : Prop where
  panics : r.2 = (calls p).2
  length : s.cells.length ≤ r.1.cells.length
  cells : ∀ j < s.cells.length, r.1.cells[j]? = (s.cells[j]?).map fun w => (noted c j (calls p).1).foldl Writer.note w
  log : ∃ l, r.1.log = s.log ++ l ∧ below l = (calls p).1.flatMap forwarded ∧
    List.Forall₂ Meets (expects p c.tags) (records l)
  seen : r.1.seen = s.seen ++ looks p c.tags

/-- A context as handlers make them. -/
structure Fits (c : RCtx) (s : Served) : Prop where
  nodup : c.writer.Nodup
  alloc : ∀ j ∈ c.writer, j < s.cells.length
  added : c.added = c.writer.head?

theorem addRoute_spec (c : RCtx) (s : Served) (hf : Fits c s) (r : Bytes) :
    (addRoute c r s).cells.length = s.cells.length ∧ (addRoute c r s).log = s.log ∧ (addRoute c r s).seen = s.seen ∧
    ∀ j : Nat, (addRoute c r s).cells[j]? = (s.cells[j]?).map fun w => (noted c j [.setRoute r]).foldl Writer.note w := by
  unfold addRoute
  cases ha : c.added with
  | none =>
    refine ⟨rfl, rfl, rfl, fun j => ?_⟩
    have : ∀ j, noted c j [HOp.setRoute r] = [] := by
      intro j
      unfold noted
      rw [ha, if_neg (by simp)]
      split <;> rfl
    simp [this]
  | some a =>
    refine ⟨by simp, rfl, rfl, fun j => ?_⟩
    simp only
    rw [List.getElem?_modify]
    cases s.cells[j]? with
    | none => rfl
    | some w =>
      unfold noted
      rw [ha]
      by_cases hj : a = j
      · simp [hj]
      · have : ¬ (some a = some j) := by simpa using hj
        rw [if_neg this]
        by_cases hm : j ∈ c.writer <;> simp [hj, hm, onWriter]

theorem routed_eq (t : Tags) (r : Bytes) : (tagNew t [(str "http_server_route", r)]).getD t = routed t r := by
  unfold routed
  rw [tagNew_some]
  by_cases h : Tag.checkValue r = true <;> simp [h]

theorem startTags_route (env : Env) (req : Request) :
    GoMap.get (startTags env req) (str "http_server_route") = GoMap.get env.tags (str "http_server_route") := by
  unfold startTags
  rw [tagNew_some]
  split
  · simp only [List.foldl_cons, List.foldl_nil, Option.getD_some]
    repeat rw [GoMap.get_set_other _ _ (by decide)]
  · rfl

theorem records_traces (l : List Op) : records (l.map Ev.trace) = [] ∧ below (l.map Ev.trace) = [] := by
  induction l with
  | nil => exact ⟨rfl, rfl⟩
  | cons o l ih => exact ⟨ih.1, ih.2⟩

theorem handler_end (env : Env) (req : Request) (sp : Option Nat) (ops : List HOp) (log : List Ev) :
    ∃ l, (ops.foldl Writer.note { startStats env req sp log with log := [] }).finish.log = l ∧ below l = [] ∧
      List.Forall₂ Meets (if (routes ops).all Tag.checkValue then [.ended env.tags req ops] else []) (records l) := by
  have hw := fold_note { startStats env req sp log with log := [] } (show wrap64 0 = 0 by decide) ops
  obtain ⟨l, h1, h2, h3, h4⟩ := finish_spec (w := ops.foldl Writer.note { startStats env req sp log with log := [] })
    (by rw [hw]; rfl)
  have hl : (ops.foldl Writer.note { startStats env req sp log with log := [] }).log = [] := by rw [hw]
  rw [hl, List.nil_append] at h1
  refine ⟨l, h1, h3, ?_⟩
  rw [h4, hw]
  have hadd : (startStats env req sp log).added = [] := rfl
  have hst : (startStats env req sp log).statusCode = 0 := rfl
  have hr0 : (startStats env req sp log).respSize = 0 := rfl
  have htags : (startStats env req sp log).tags = startTags env req := rfl
  simp only [hadd, hst, hr0, htags, List.nil_append, Int.zero_add, finalStatus_eq]
  have hall : ((routes ops).map fun r => (str "http_server_route", r)).all (fun kv => Tag.checkValue kv.2) =
      (routes ops).all Tag.checkValue := by rw [List.all_map]; rfl
  rw [hall]
  split
  · refine List.Forall₂.cons ⟨⟨env, rfl, ?_⟩, ?_⟩ List.Forall₂.nil
    · refine ⟨requestTags_of ?_, ?_, ?_, ?_, ?_, ?_, ?_⟩
      · intro k h2 h3
        rw [get_foldl_route, if_neg h3, GoMap.get_set_other _ _ h2]
      · rw [get_foldl_route, if_neg (by decide), GoMap.get_set_same]
      · intro r hl
        rw [get_foldl_route, if_pos rfl, hl]
      · rfl
      · rfl
      · have hq0 : (startStats env req sp log).reqSize = HttpClient.requestSize req := rfl
        by_cases hq : HttpClient.requestSize req ≥ 0
        · simp only [if_pos hq, Writer.measurements, hq0]; rfl
        · simp only [if_neg hq, Writer.measurements, hq0]; rfl
      · have hq0 : (startStats env req sp log).reqSize = HttpClient.requestSize req := rfl
        by_cases hq : HttpClient.requestSize req ≥ 0
        · simp only [if_pos hq, Writer.measurements, hq0]; rfl
        · simp only [if_neg hq, Writer.measurements, hq0]; rfl
    · intro h
      rw [get_foldl_route, if_pos rfl, h]
      simp only [List.getLast?_nil]
      rw [GoMap.get_set_other _ _ (by decide), startTags_route]
  · exact List.Forall₂.nil

theorem exec_spec (p : Prog) (c : RCtx) (s : Served) (hf : Fits c s) : Ran p c s (p.exec c s) := by
  induction p generalizing c s with
  | done =>
    refine ⟨rfl, Nat.le_refl _, fun j _ => ?_, ⟨[], by simp [Prog.exec], rfl, .nil⟩, by simp [Prog.exec, looks]⟩
    simp [Prog.exec, calls, noted]
  | look =>
    refine ⟨rfl, Nat.le_refl _, fun j _ => ?_, ⟨[], by simp [Prog.exec], rfl, .nil⟩, rfl⟩
    simp [Prog.exec, calls, noted]
  | panic =>
    refine ⟨rfl, Nat.le_refl _, fun j _ => ?_, ⟨[], by simp [Prog.exec], rfl, .nil⟩, by simp [Prog.exec, looks]⟩
    simp [Prog.exec, calls, noted]
  | call op =>
    by_cases ho : onWriter op = true
    · have he : (Prog.call op).exec c s = (callWriter c.writer op s, false) := by
        cases op with
        | setRoute r => cases ho
        | _ => rfl
      obtain ⟨h1, h2, ⟨l, h3, h4, h5⟩, h6⟩ := callWriter_spec c.writer hf.nodup op s
      rw [he]
      refine ⟨rfl, Nat.le_of_eq h1.symm, fun j _ => ?_, ⟨l, h3, by simp [calls, h4], ?_⟩, by simp [h6, looks]⟩
      · simp only [calls]
        rw [h2 j]
        congr 1
        funext w
        unfold noted
        by_cases ha : c.added = some j
        · have : j ∈ c.writer := by
            rw [hf.added] at ha
            exact List.mem_of_mem_head? (by simp [ha])
          simp [ha, this]
        · rw [if_neg ha]
          by_cases hj : j ∈ c.writer <;> simp [hj, ho]
      · simp only [expects]; rw [h5]; exact .nil
    · cases op with
      | setRoute r =>
        obtain ⟨h1, h2, h3, h4⟩ := addRoute_spec c s hf r
        exact ⟨rfl, Nat.le_of_eq h1.symm, fun j _ => h4 j, ⟨[], by simp [Prog.exec, h2], rfl, .nil⟩, by simp [Prog.exec, h3, looks]⟩
      | _ => exact absurd rfl ho
  | seq a b iha ihb =>
    obtain ⟨a1, a2, a3, ⟨l, a4, a5, a6⟩, a7⟩ := iha c s hf
    have he : (Prog.seq a b).exec c s = if (a.exec c s).2 then a.exec c s else b.exec c (a.exec c s).1 := rfl
    rw [he]
    by_cases hp : (calls a).2 = true
    · rw [if_pos (by rw [a1]; exact hp)]
      refine ⟨by simp [calls, hp, a1], a2, ?_, ⟨l, a4, by simp [calls, hp, a5], by simpa [expects, hp] using a6⟩,
        by simp [looks, hp, a7]⟩
      simpa [calls, hp] using a3
    · have hf' : Fits c (a.exec c s).1 := ⟨hf.nodup, fun j hj => Nat.lt_of_lt_of_le (hf.alloc j hj) a2, hf.added⟩
      obtain ⟨b1, b2, b3, ⟨l', b4, b5, b6⟩, b7⟩ := ihb c _ hf'
      rw [if_neg (by rw [a1]; exact hp)]
      refine ⟨by simp [calls, hp, b1], Nat.le_trans a2 b2, ?_, ⟨l ++ l', by rw [b4, a4, List.append_assoc], ?_, ?_⟩, ?_⟩
      · intro j hj
        rw [b3 j (Nat.lt_of_lt_of_le hj a2), a3 j hj]
        simp [calls, hp, noted_append, Function.comp_def]
      · rw [below_append, a5, b5]; simp [calls, hp]
      · rw [records_append]
        simp only [expects, hp]
        exact List.rel_append a6 b6
      · rw [b7, a7]; simp [looks, hp]
  | recovering p ih =>
    obtain ⟨a1, a2, a3, a4, a7⟩ := ih c s hf
    exact ⟨rfl, a2, a3, a4, a7⟩
  | withRoute r p ih =>
    have hf' : Fits { c with tags := routed c.tags r } s := ⟨hf.nodup, hf.alloc, hf.added⟩
    obtain ⟨a1, a2, a3, ⟨l, a4, a5, a6⟩, a7⟩ := ih _ s hf'
    have he : (Prog.withRoute r p).exec c s =
        if (p.exec { c with tags := routed c.tags r } s).2 then p.exec { c with tags := routed c.tags r } s
        else (addRoute c r (p.exec { c with tags := routed c.tags r } s).1, false) := by
      rw [← routed_eq]; rfl
    rw [he]
    by_cases hp : (calls p).2 = true
    · rw [if_pos (by rw [a1]; exact hp)]
      refine ⟨by simp [calls, hp, a1], a2, fun j hj => ?_, ⟨l, a4, by simp [calls, hp, a5], a6⟩, a7⟩
      have := a3 j hj
      simp only [calls, hp, if_true]
      exact this
    · rw [if_neg (by rw [a1]; exact hp)]
      have hf2 : Fits c (p.exec { c with tags := routed c.tags r } s).1 :=
        ⟨hf.nodup, fun j hj => Nat.lt_of_lt_of_le (hf.alloc j hj) a2, hf.added⟩
      obtain ⟨h1, h2, h3, h4⟩ := addRoute_spec c _ hf2 r
      refine ⟨by simp [calls, hp], by rw [h1]; exact a2, ?_, ⟨l, by rw [h2, a4], ?_, a6⟩, by rw [h3, a7]; rfl⟩
      · intro j hj
        rw [h4 j, a3 j hj]
        simp only [calls, hp, noted_append, Option.map_map, Function.comp_def, List.foldl_append, Bool.false_eq_true, if_false]
        rfl
      · rw [a5]; simp [calls, hp, forwarded]
  | handler cfg env req ex p ih =>
    -- the parts of the run
    let env' : Env := { env with tags := c.tags, ctxSpan := c.span }
    let st := startTrace cfg env' req ex
    let sp := if st.2.isSome then st.2 else c.span
    let w := startStats env' req sp (st.1.map .trace)
    let c1 : RCtx := ⟨c.tags, sp, some s.cells.length, s.cells.length :: c.writer⟩
    let s1 : Served := { s with cells := s.cells ++ [{ w with log := [] }], log := s.log ++ w.log }
    let s2 : Served := match (p.exec c1 s1).1.cells[s.cells.length]? with
      | some w => { (p.exec c1 s1).1 with
          cells := (p.exec c1 s1).1.cells.set s.cells.length { w.finish with log := [] }
          log := (p.exec c1 s1).1.log ++ w.finish.log }
      | none => (p.exec c1 s1).1
    let s3 : Served := match st.2 with
      | some j => s2.emit [.trace (.endSpan (some j) env.order)]
      | none => s2
    have he : (Prog.handler cfg env req ex p).exec c s = (s3, (p.exec c1 s1).2) := rfl
    rw [he]
    have hf1 : Fits c1 s1 := by
      refine ⟨List.nodup_cons.mpr ⟨fun h => Nat.lt_irrefl _ (hf.alloc _ h), hf.nodup⟩, ?_, rfl⟩
      intro j hj
      have hlen : s1.cells.length = s.cells.length + 1 := by simp [s1]
      rcases List.mem_cons.mp hj with rfl | hj
      · omega
      · have := hf.alloc j hj
        omega
    obtain ⟨a1, a2, a3, ⟨l, a4, a5, a6⟩, a7⟩ := ih c1 s1 hf1
    have hlen1 : s1.cells.length = s.cells.length + 1 := by simp [s1]
    have hcell : (p.exec c1 s1).1.cells[s.cells.length]? = some ((calls p).1.foldl Writer.note { w with log := [] }) := by
      rw [a3 _ (by omega)]
      simp [s1, noted, c1]
    obtain ⟨l2, e1, e2, e3⟩ := handler_end env' req sp (calls p).1 (st.1.map .trace)
    have hs2 : s2 = { (p.exec c1 s1).1 with
          cells := (p.exec c1 s1).1.cells.set s.cells.length
            { ((calls p).1.foldl Writer.note { w with log := [] }).finish with log := [] }
          log := (p.exec c1 s1).1.log ++ l2 } := by
      simp only [s2, hcell]
      rw [show ((calls p).1.foldl Writer.note { w with log := [] }).finish.log = l2 from e1]
    have hs3 : s3.cells = s2.cells ∧ s3.seen = s2.seen ∧ ∃ l3, s3.log = s2.log ++ l3 ∧ below l3 = [] ∧ records l3 = [] := by
      simp only [s3]
      cases st.2 with
      | none => exact ⟨rfl, rfl, [], by simp, rfl, rfl⟩
      | some j => exact ⟨rfl, rfl, _, rfl, rfl, rfl⟩
    obtain ⟨hc3, hn3, l3, hl3, g1, g2⟩ := hs3
    refine ⟨by rw [a1]; rfl, ?_, ?_, ⟨w.log ++ l ++ l2 ++ l3, ?_, ?_, ?_⟩, ?_⟩
    · rw [hc3, hs2]
      simp only [List.length_set]
      omega
    · intro j hj
      rw [hc3, hs2]
      simp only
      rw [List.getElem?_set_ne (by omega), a3 j (by omega)]
      have hs1 : s1.cells[j]? = s.cells[j]? := by simp only [s1]; rw [List.getElem?_append_left hj]
      rw [hs1]
      congr 1
      funext x
      congr 1
      have hne : ¬ (s.cells.length = j) := by omega
      have hne' : ¬ (j = s.cells.length) := by omega
      unfold noted
      simp only [c1, Option.some.injEq, if_neg hne, List.mem_cons, hne', false_or, calls]
      by_cases ha : c.added = some j
      · have : j ∈ c.writer := by
          rw [hf.added] at ha
          exact List.mem_of_mem_head? (by simp [ha])
        rw [if_pos this, if_pos ha]
      · rw [if_neg ha]
        by_cases hm : j ∈ c.writer
        · rw [if_pos hm, if_pos hm, List.filter_filter]; simp
        · rw [if_neg hm, if_neg hm]
    · rw [hl3, hs2]
      simp only
      rw [a4]
      simp [s1]
    · have hwl : below w.log = [] := by
        show below (st.1.map Ev.trace ++ [Ev.record _ _]) = []
        rw [below_append, (records_traces _).2]; rfl
      simp only [below_append, hwl, a5, e2, g1, calls, forwarded_filter, List.nil_append, List.append_nil]
    · have hwl : records w.log = [(startTags env' req, [⟨.serverRequestCount, some 1⟩])] := by
        show records (st.1.map Ev.trace ++ [Ev.record _ _]) = _
        rw [records_append, (records_traces _).1]; rfl
      simp only [records_append, hwl, g2, List.append_nil, expects]
      refine List.rel_append ?_ e3
      refine List.Forall₂.cons ⟨rfl, ⟨env', rfl, requestTags_of fun k _ _ => rfl⟩, startTags_route env' req⟩ a6
    · rw [hn3, hs2]
      simp only
      rw [a7]
      rfl

/-! ## C84 -/

/-- A request's context and writer before any handler of this package, with tags `t`. -/
def bare (t : Tags) : RCtx := ⟨t, none, none, []⟩

/-- Nothing happened. -/
def fresh : Served := ⟨[], [], []⟩

theorem bare_fits (t : Tags) : Fits (bare t) fresh := ⟨List.nodup_nil, fun _ h => absurd h List.not_mem_nil, rfl⟩

/-- **C84.** Whatever handlers are inside handlers: a panic reaches the server if and only if no one recovers from
it; the server's writer gets every call, once and in order; every `Handler` that is called records the
start of its request and, when the routes are tag values, the end, once each, also when the handler inside panics, with
the bytes, the status and the last route of what runs inside it, and the tags of its context; routes set inside an
inner `Handler` stay there; and programs see the tags of the `WithRouteTag`s around them. -/
theorem nested_partial (p : Prog) (t : Tags) :
    (p.exec (bare t) fresh).2 = (calls p).2 ∧
    below (p.exec (bare t) fresh).1.log = (calls p).1.flatMap forwarded ∧
    List.Forall₂ Meets (expects p t) (records (p.exec (bare t) fresh).1.log) ∧
    (p.exec (bare t) fresh).1.seen = looks p t := by
  obtain ⟨h1, _, _, ⟨l, h2, h3, h4⟩, h5⟩ := exec_spec p (bare t) fresh (bare_fits t)
  have hl : (p.exec (bare t) fresh).1.log = l := by rw [h2]; rfl
  exact ⟨h1, by rw [hl]; exact h3, by rw [hl]; exact h4, by rw [h5]; rfl⟩

theorem getLast_routes (ops : List HOp) (r : Bytes) : (routes (ops ++ [.setRoute r])).getLast? = some r := by
  simp [routes, List.filterMap_append]

/-- **C84.** `WithRouteTag(h, r)` inside a `Handler`: when `h` returns, the request is recorded with route `r`, whatever
routes `h` sets itself, as long as all are tag values. (Not when `h` panics: `panic_loses_route`.) -/
theorem route_recorded_partial (cfg : HandlerConfig) (env : Env) (req : Request) (ex : Option SpanContext) (r : Bytes)
    (p : Prog) (t : Tags) (hp : (calls p).2 = false) (hr : Tag.checkValue r = true)
    (hall : ∀ r' ∈ routes (calls p).1, Tag.checkValue r' = true) :
    ∃ x, (records ((Prog.handler cfg env req ex (.withRoute r p)).exec (bare t) fresh).1.log).getLast? = some x ∧
      GoMap.get x.1 (str "http_server_route") = some r ∧
      GoMap.get x.1 (str "http.status") = some (itoa (finalStatus (calls p).1)) ∧
      valueOf x.2 .serverResponseBytes = some (some (wrap64 (written (calls p).1))) := by
  have hc : (calls (.withRoute r p)).1 = (calls p).1 ++ [.setRoute r] := by simp [calls, hp]
  have hv : (routes (calls (.withRoute r p)).1).all Tag.checkValue = true := by
    rw [hc]
    simp only [routes, List.filterMap_append, List.all_append, Bool.and_eq_true]
    exact ⟨List.all_eq_true.mpr hall, by simpa using hr⟩
  obtain ⟨_, _, h, _⟩ := nested_partial (.handler cfg env req ex (.withRoute r p)) t
  have hx : expects (.handler cfg env req ex (.withRoute r p)) t =
      (.started t req :: expects (.withRoute r p) t) ++ [.ended t req (calls (.withRoute r p)).1] := by
    simp only [expects, hv, if_true]
  rw [hx] at h
  have hrev := List.forall₂_reverse_iff.mpr h
  rw [List.reverse_append, List.reverse_singleton] at hrev
  rw [List.getLast?_eq_head?_reverse]
  generalize (records ((Prog.handler cfg env req ex (.withRoute r p)).exec (bare t) fresh).1.log).reverse = rs at hrev
  cases hrev with
  | @cons _ x _ _ hm _ =>
    obtain ⟨⟨env', _, he⟩, _⟩ := hm
    refine ⟨x, rfl, he.route r (by rw [hc]; exact getLast_routes _ r), ?_, ?_⟩
    · rw [he.status, hc]
      congr 2
      simp [finalStatus, codes, List.filterMap_append]
    · rw [he.response, hc]
      simp [written]

/-! ### One handler: the model of C45-C47 and C54 -/

/-- No `Handler` inside. -/
def plain : Prog → Bool
  | .seq a b => plain a && plain b
  | .recovering p => plain p
  | .withRoute _ p => plain p
  | .handler .. => false
  | _ => true

/-- The events of calls on one tracker. -/
def stepLog (sp : Option Nat) (ops : List HOp) : List Ev :=
  ops.flatMap fun op => forwarded op ++ (spanOps sp op).map Ev.trace

theorem note_span (ops : List HOp) (w : Writer) : (ops.foldl Writer.note w).span = w.span := by
  induction ops generalizing w with
  | nil => rfl
  | cons op ops ih => rw [List.foldl_cons, ih]; cases op <;> rfl

theorem steps_log (ops : List HOp) (w : Writer) : (w.steps ops).1 =
    { ops.foldl Writer.note w with log := w.log ++ stepLog w.span ops } := by
  induction ops generalizing w with
  | nil => simp [Writer.steps, stepLog]
  | cons op ops ih =>
    have hs : (w.steps (op :: ops)).1 = ((w.step op).1.steps ops).1 := rfl
    rw [hs, ih]
    have key : ∀ (ops : List HOp) (w : Writer) (l : List Ev),
        { ops.foldl Writer.note { w with log := l } with log := [] } = { ops.foldl Writer.note w with log := [] } := by
      intro ops
      induction ops with
      | nil => intro w l; rfl
      | cons op ops ih =>
        intro w l
        simp only [List.foldl_cons]
        have : Writer.note { w with log := l } op = { w.note op with log := l } := by cases op <;> rfl
        rw [this]
        exact ih _ l
    have k : ∀ (w : Writer) (l l' : List Ev), { ops.foldl Writer.note { w with log := l } with log := l' } =
        { ops.foldl Writer.note w with log := l' } := by
      intro w l l'
      have := key ops w l
      rw [Writer.mk.injEq] at this ⊢
      exact ⟨this.1, this.2.1, this.2.2.1, this.2.2.2.1, this.2.2.2.2.1, this.2.2.2.2.2.1, this.2.2.2.2.2.2.1, rfl⟩
    have hstep : (w.step op).1 = { w.note op with log := w.log ++ (forwarded op ++ (spanOps w.span op).map Ev.trace) } := by
      cases op <;> simp [Writer.step, Writer.note, Writer.emit, forwarded, spanOps]
    have hsp : (w.step op).1.span = w.span := by cases op <;> rfl
    rw [hsp, hstep, k]
    simp [stepLog]

theorem plain_exec (p : Prog) (hp : plain p = true) (c : RCtx) (i : Nat) (ha : c.added = some i) (hw : c.writer = [i])
    (s : Served) (w : Writer) (hi : s.cells[i]? = some w) :
    (p.exec c s).1.log = s.log ++ stepLog w.span (calls p).1 := by
  induction p generalizing c s w with
  | done => simp [Prog.exec, calls, stepLog]
  | look => simp [Prog.exec, calls, stepLog]
  | panic => simp [Prog.exec, calls, stepLog]
  | call op =>
    cases op with
    | setRoute r => simp [Prog.exec, calls, stepLog, addRoute, ha, forwarded, spanOps]
    | write n e =>
      simp [Prog.exec, calls, stepLog, hw, callWriter, Served.emit, forwarded, spanOps, Served.spanOf, hi, Writer.note]
    | writeHeader n => simp [Prog.exec, calls, stepLog, hw, callWriter, Served.emit, forwarded, spanOps]
    | readFrom n e => simp [Prog.exec, calls, stepLog, hw, callWriter, Served.emit, forwarded, spanOps]
  | seq a b iha ihb =>
    simp only [plain, Bool.and_eq_true] at hp
    have hlt : i < s.cells.length := (List.getElem?_eq_some_iff.mp hi).1
    have hf : Fits c s := ⟨by rw [hw]; simp, by rw [hw]; simpa using hlt, by rw [ha, hw]; rfl⟩
    obtain ⟨a1, a2, a3, _, _⟩ := exec_spec a c s hf
    have he : (Prog.seq a b).exec c s = if (a.exec c s).2 then a.exec c s else b.exec c (a.exec c s).1 := rfl
    rw [he]
    by_cases h : (calls a).2 = true
    · rw [if_pos (by rw [a1]; exact h), iha hp.1 c ha hw s w hi]
      simp [calls, h]
    · have hc := a3 i hlt
      rw [hi] at hc
      rw [if_neg (by rw [a1]; exact h), ihb hp.2 c ha hw _ _ hc, iha hp.1 c ha hw s w hi, note_span]
      simp [calls, h, stepLog]
  | recovering p ih => exact ih hp c ha hw s w hi
  | withRoute r p ih =>
    have hlt : i < s.cells.length := (List.getElem?_eq_some_iff.mp hi).1
    have hf : Fits { c with tags := routed c.tags r } s := ⟨by simp [hw], by simpa [hw] using hlt, by simp [ha, hw]⟩
    obtain ⟨a1, _⟩ := exec_spec p { c with tags := routed c.tags r } s hf
    have hlog := ih hp { c with tags := routed c.tags r } ha hw s w hi
    have he : (Prog.withRoute r p).exec c s =
        if (p.exec { c with tags := routed c.tags r } s).2 then p.exec { c with tags := routed c.tags r } s
        else (addRoute c r (p.exec { c with tags := routed c.tags r } s).1, false) := by
      rw [← routed_eq]; rfl
    rw [he]
    by_cases h : (calls p).2 = true
    · rw [if_pos (by rw [a1]; exact h), hlog]
      simp [calls, h]
    · rw [if_neg (by rw [a1]; exact h)]
      have h1 : ∀ x, (addRoute c r x).log = x.log := by intro x; unfold addRoute; rw [ha]
      have h2 : stepLog w.span [.setRoute r] = [] := rfl
      have h3 : stepLog w.span ((calls p).1 ++ [.setRoute r]) = stepLog w.span (calls p).1 := by
        rw [stepLog, List.flatMap_append]
        exact (congrArg _ h2).trans (List.append_nil _)
      simp only [h1, hlog, calls, h, h3, Bool.false_eq_true, if_false]
  | handler => cases hp

/-- **C84.** One `Handler` with any `WithRouteTag`s and recovering handlers inside does to spans, views and the
server's writer exactly what the model of a handler that makes the flat list of calls does. -/
theorem one_handler (cfg : HandlerConfig) (env : Env) (req : Request) (ex : Option SpanContext) (p : Prog)
    (hp : plain p = true) (t : Tags) :
    let r := (Prog.handler cfg env req ex p).exec (bare t) fresh
    let m := serveHTTP cfg { env with tags := t, ctxSpan := none } req ex (calls p).1 (calls p).2
    r.1.log = m.1.log ∧ r.2 = m.2.2 := by
  intro r m
  refine ⟨?_, (nested_partial (.handler cfg env req ex p) t).1⟩
  let env' : Env := { env with tags := t, ctxSpan := none }
  let st := startTrace cfg env' req ex
  let sp := if st.2.isSome then st.2 else none
  let w := startStats env' req sp (st.1.map .trace)
  let c1 : RCtx := ⟨t, sp, some 0, [0]⟩
  let s1 : Served := ⟨[{ w with log := [] }], [] ++ w.log, []⟩
  have hf1 : Fits c1 s1 := ⟨by simp [c1], by simp [c1, s1], rfl⟩
  obtain ⟨_, _, a3, _, _⟩ := exec_spec p c1 s1 hf1
  have hcell : (p.exec c1 s1).1.cells[0]? = some ((calls p).1.foldl Writer.note { w with log := [] }) := by
    rw [a3 0 (by simp [s1])]
    simp [s1, noted, c1]
  have hlog := plain_exec p hp c1 0 rfl rfl s1 { w with log := [] } rfl
  -- the end, with and without a log
  have hfin : ∀ (v : Writer) (l : List Ev), ({ v with log := l } : Writer).finish.log = l ++ ({ v with log := [] } : Writer).finish.log := by
    intro v l
    unfold Writer.finish
    by_cases h : v.ended = true
    · simp [h]
    · by_cases hs : v.statusCode = 0 <;> simp [h, hs, Writer.emit, Writer.measurements]
  have hnil : ∀ (ops : List HOp) (v : Writer), (ops.foldl Writer.note v).log = v.log := by
    intro ops
    induction ops with
    | nil => intro v; rfl
    | cons op ops ih => intro v; rw [List.foldl_cons, ih]; cases op <;> rfl
  have hv : ((calls p).1.foldl Writer.note { w with log := [] }) =
      { (calls p).1.foldl Writer.note { w with log := [] } with log := [] } := by
    have eta : ∀ v : Writer, v.log = [] → v = { v with log := [] } := by
      rintro ⟨_, _, _, _, _, _, _, l⟩ h
      cases h
      rfl
    exact eta _ (hnil (calls p).1 { w with log := [] })
  have hk : { (calls p).1.foldl Writer.note { w with log := [] } with log := [] } =
      { (calls p).1.foldl Writer.note w with log := [] } := by
    have h1 := steps_log (calls p).1 { w with log := [] }
    have h2 := fold_note w (show wrap64 0 = 0 by decide) (calls p).1
    have h3 := fold_note { w with log := [] } (show wrap64 0 = 0 by decide) (calls p).1
    rw [h2, h3]
  have hm : m.1.log = (match st.2 with
      | some j => (w.steps (calls p).1).1.finish.log ++ [.trace (.endSpan (some j) env.order)]
      | none => (w.steps (calls p).1).1.finish.log) := by
    show (match st.2 with
      | some i => (w.steps (calls p).1).1.finish.emit [.trace (.endSpan (some i) env.order)]
      | none => (w.steps (calls p).1).1.finish).log = _
    cases st.2 <;> rfl
  have hr : r.1.log = (match st.2 with
      | some j => (p.exec c1 s1).1.log ++ ((calls p).1.foldl Writer.note { w with log := [] }).finish.log ++ [.trace (.endSpan (some j) env.order)]
      | none => (p.exec c1 s1).1.log ++ ((calls p).1.foldl Writer.note { w with log := [] }).finish.log) := by
    let s2 : Served := match (p.exec c1 s1).1.cells[0]? with
      | some w => { (p.exec c1 s1).1 with
          cells := (p.exec c1 s1).1.cells.set 0 { w.finish with log := [] }
          log := (p.exec c1 s1).1.log ++ w.finish.log }
      | none => (p.exec c1 s1).1
    have he : r.1 = (match st.2 with
      | some j => s2.emit [.trace (.endSpan (some j) env.order)]
      | none => s2) := rfl
    have hs2 : s2.log = (p.exec c1 s1).1.log ++ ((calls p).1.foldl Writer.note { w with log := [] }).finish.log := by
      simp only [s2, hcell]
    rw [he]
    cases st.2 with
    | none => exact hs2
    | some j => exact congrArg (· ++ [Ev.trace (.endSpan (some j) env.order)]) hs2
  have hend : (w.steps (calls p).1).1.finish.log =
      (p.exec c1 s1).1.log ++ ((calls p).1.foldl Writer.note { w with log := [] }).finish.log := by
    rw [steps_log, hfin, hv, hk, hlog]
    rfl
  rw [hr, hm, hend]

/-! ### Examples, and what is lost -/

/-- A handler that writes, inside a route, inside another route that a logging handler calls. -/
def demo : Prog := .handler cfg0 HttpClient.env0 HttpClient.req0 none
  (.withRoute (str "/outer") (.seq (.withRoute (str "/inner") (.seq .look (.call (.write 3 .nil)))) (.call (.writeHeader 404))))

/-- The routes of the records, and the routes programs saw. -/
def routesOf (p : Prog) : List (Option Bytes) × List (Option Bytes) :=
  ((records (p.exec (bare []) fresh).1.log).map fun x => GoMap.get x.1 (str "http_server_route"),
   (p.exec (bare []) fresh).1.seen.map fun t => GoMap.get t (str "http_server_route"))

/-- The statuses of the records, and whether the server sees a panic. -/
def statusesOf (p : Prog) : List (Option Bytes) × Bool :=
  ((records (p.exec (bare []) fresh).1.log).map fun x => GoMap.get x.1 (str "http.status"), (p.exec (bare []) fresh).2)

/-- The outermost route is recorded, the innermost is in the context. -/
theorem outer_recorded_inner_seen : routesOf demo = ([none, some (str "/outer")], [some (str "/inner")]) := by decide

example : ∃ x, (records (demo.exec (bare []) fresh).1.log).getLast? = some x ∧
    GoMap.get x.1 (str "http_server_route") = some (str "/outer") ∧
    GoMap.get x.1 (str "http.status") = some (str "404") ∧ valueOf x.2 .serverResponseBytes = some (some 3) := by
  obtain ⟨x, h1, h2, h3, h4⟩ := route_recorded_partial cfg0 HttpClient.env0 HttpClient.req0 none (str "/outer")
    (.seq (.withRoute (str "/inner") (.seq .look (.call (.write 3 .nil)))) (.call (.writeHeader 404))) [] (by decide) (by decide)
    (by decide)
  exact ⟨x, h1, h2, h3.trans (by decide), h4.trans (by decide)⟩

/-- A handler that panics is recorded without the route of `WithRouteTag`, though the handler around recovers and the
response is sent; a route set with `SetRoute` is recorded. -/
theorem panic_loses_route :
    routesOf (.handler cfg0 HttpClient.env0 HttpClient.req0 none (.recovering (.withRoute (str "/r") .panic))) =
      ([none, none], []) ∧
    routesOf (.handler cfg0 HttpClient.env0 HttpClient.req0 none (.recovering (.seq (.call (.setRoute (str "/r"))) .panic))) =
      ([none, some (str "/r")], []) := by decide

/-- A `Handler` inside another one: both record the status, and the inner one has the route of the `WithRouteTag` around
it in its tags; its own route does not reach the outer one. -/
theorem inner_handler :
    routesOf (.handler cfg0 HttpClient.env0 HttpClient.req0 none (.withRoute (str "/a")
      (.handler cfg0 { HttpClient.env0 with span := 1 } HttpClient.req0 none (.call (.writeHeader 404))))) =
      ([none, some (str "/a"), some (str "/a"), some (str "/a")], []) ∧
    routesOf (.handler cfg0 HttpClient.env0 HttpClient.req0 none
      (.handler cfg0 { HttpClient.env0 with span := 1 } HttpClient.req0 none (.withRoute (str "/b") .done))) =
      ([none, none, some (str "/b"), none], []) ∧
    statusesOf (.handler cfg0 HttpClient.env0 HttpClient.req0 none (.withRoute (str "/a")
      (.handler cfg0 { HttpClient.env0 with span := 1 } HttpClient.req0 none (.call (.writeHeader 404))))) =
      ([none, none, some (str "404"), some (str "404")], false) := by decide

/-- A handler that panics before it wrote anything is recorded with status 200, though the server aborts the
response. -/
theorem panic_recorded_ok :
    statusesOf (.handler cfg0 HttpClient.env0 HttpClient.req0 none .panic) = ([none, some (str "200")], true) := by decide

/-- A route that is no tag value loses the end of the request, also when another route replaces it. -/
theorem replaced_route_loses_stats :
    routesOf (.handler cfg0 HttpClient.env0 HttpClient.req0 none (.withRoute (str "/r") (.call (.setRoute [195, 169])))) =
      ([none], []) := by decide

end Verif.Props.Routes
