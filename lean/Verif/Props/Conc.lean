import Verif.View.ConcInv
import Verif.Props.ViewMetric

/-!
# Properties C18 and C19: the collection worker under concurrency

All theorems are about every state an arbitrary schedule can reach from a new meter with any number
of goroutines running any programs of calls.
-/

namespace Verif.Props.Conc
open Verif Verif.Tag Verif.Stats Verif.View Verif.View.Conc Verif.Props.Rows
open Verif.View.Spec hiding step record
open Verif.Props.Worker
open Verif.Props.Recording (RealMeasurements)

/-- The programs only use measures, views and tags made by the packages' constructors. -/
def GoodProgs (reg : Measures) (progs : List (List Call)) : Prop :=
  ∀ p ∈ progs, ∀ c ∈ p, GoodCall reg c

theorem reach_inv {cap : Nat} {reg : Measures} {progs : List (List Call)} (hg : GoodProgs reg progs)
    {as : List Action} {s : State} (h : exec (init cap reg progs) as = some s) : Inv progs s :=
  (inv_init cap reg progs hg).exec h

/-! ## C18 -/

/-- C18. Every reply is the one the abstract machine gives after all the commands that any goroutine
sent before this one, in the order sent; and between sending and getting the reply its goroutine does
nothing else. -/
theorem replies_linearizable (cap : Nat) (reg : Measures) (progs : List (List Call))
    (hg : GoodProgs reg progs) (as : List Action) (s : State)
    (h : exec (init cap reg progs) as = some s) (pre post : List Ev) (i : Nat) (c : Cmd) (r : Reply)
    (ht : s.trace = pre ++ .handled i c r :: post) :
    ∃ pre1 pre2, pre = pre1 ++ .sent i c :: pre2 ∧ (isSync c = true → own i pre2 = []) ∧
      ReplyOK (specRun Spec.empty ((sents pre1).map Prod.snd)) c r := by
  obtain ⟨p, q, h1, _, h2, h3⟩ := (reach_inv hg h).hist pre _ post ht
  exact ⟨p, q, h1, h2, h3⟩

/-- C18. Commands are handled in the order they were sent, each at most once. -/
theorem fifo (cap : Nat) (reg : Measures) (progs : List (List Call))
    (hg : GoodProgs reg progs) (as : List Action) (s : State)
    (h : exec (init cap reg progs) as = some s) :
    handleds s.trace <+: sents s.trace := by
  rw [(reach_inv hg h).fifo]; exact List.prefix_append _ _

/-- C18. Each goroutine makes the calls of its program in order, and what it does is, call by call,
one of the complete sequences of `Block`, followed by the start of the call it is in. -/
theorem program_order (cap : Nat) (reg : Measures) (progs : List (List Call))
    (hg : GoodProgs reg progs) (as : List Action) (s : State)
    (h : exec (init cap reg progs) as = some s) (i : Nat) (th : Thread) (hi : s.threads[i]? = some th) :
    ∃ done evs cur part, List.Forall₂ (Block i) done evs ∧ progs[i]? = some (done ++ cur ++ th.todo) ∧
      own i s.trace = evs.flatten ++ part ∧ Partial i th.phase cur part :=
  ((reach_inv hg h).thread i th hi).prog

/-- C18. What `RetrieveData` returns: if the view was registered, in the order of sending, after a
history in which its name was free, and not unregistered since, the rows are exactly those of all the
measurements for its measure sent by any goroutine between the two. -/
theorem retrieve_rows (cap : Nat) (reg : Measures) (progs : List (List Call))
    (hg : GoodProgs reg progs) (as : List Action) (s : State)
    (h : exec (init cap reg progs) as = some s) (pre1 pre2 post : List Ev) (i j : Nat) (r : Reply)
    (now : Int) (v v' : ViewDef) (A M : List (Nat × Cmd)) (hv : canonicalize v = (v', none))
    (ht : s.trace = (pre1 ++ .sent i (.retrieve v'.name) :: pre2) ++ .handled i (.retrieve v'.name) r :: post)
    (hown : own i pre2 = []) (hs : sents pre1 = A ++ (j, .register now [v]) :: M)
    (hfree : specRun Spec.empty (A.map Prod.snd) v'.name = none)
    (hM : ∀ p ∈ M, ¬ Unregisters v'.name p.2) :
    ∃ a m rows, v'.agg = some a ∧ v'.measure = some m ∧ r = .rows (some rows) ∧
      RowsOf a v'.tagKeys (samplesOf m.name (M.map Prod.snd)) rows := by
  obtain ⟨p, q, h1, h2, h3⟩ := replies_linearizable cap reg progs hg as s h _ post i _ r ht
  obtain ⟨m, a0, a, _, hm, _, ha, _⟩ := canonicalize_ok hv
  -- the two decompositions agree: `i` sends nothing between sending and receiving
  have hq := h2 rfl
  have hpq : p = pre1 := by
    rcases List.append_eq_append_iff.mp h1 with ⟨c, hc1, hc2⟩ | ⟨c, hc1, hc2⟩
    · cases c with
      | nil => simpa using hc1
      | cons x c =>
        exfalso
        simp only [List.cons_append, List.cons.injEq] at hc2
        have : Ev.sent i (.retrieve v'.name) ∈ own i pre2 := by
          rw [hc2.2]; simp [own, isOwn]
        rw [hown] at this; simp at this
    · cases c with
      | nil => simpa using hc1.symm
      | cons x c =>
        exfalso
        simp only [List.cons_append, List.cons.injEq] at hc2
        have : Ev.sent i (.retrieve v'.name) ∈ own i q := by
          rw [hc2.2]; simp [own, isOwn]
        rw [hq] at this; simp at this
  subst hpq
  have hσ : specRun Spec.empty ((sents p).map Prod.snd) v'.name =
      some ⟨v', a, m, samplesOf m.name (M.map Prod.snd)⟩ := by
    rw [hs]
    simp only [List.map_append, List.map_cons]
    rw [specRun_append]
    have h4 : Spec.step (specRun Spec.empty (A.map Prod.snd)) (.register now [v]) v'.name = some ⟨v', a, m, []⟩ := by
      simp [Spec.step, canonicalizeAll, hv, Spec.registerAll, hfree, ha, hm, Spec.update]
    have := specRun_collects h4 (M.map Prod.snd) (by
      intro c hc; obtain ⟨p, hp, rfl⟩ := List.mem_map.mp hc; exact hM p hp)
    simpa [specRun] using this
  simp only [ReplyOK, hσ] at h3
  obtain ⟨rows, h4, h5⟩ := h3
  exact ⟨a, m, rows, ha, hm, h4, h5⟩

/-- C18. A `Record` made after a successful `Register` of a view for one of its measures has returned
is sent, never skipped. -/
theorem record_not_skipped (cap : Nat) (reg : Measures) (progs : List (List Call))
    (hg : GoodProgs reg progs) (as : List Action) (s : State)
    (h : exec (init cap reg progs) as = some s) (pre mid post : List Ev) (i j : Nat) (now : Int)
    (vs : List ViewDef) (v : ViewDef) (m : Measure) (r : RecordReq) (x : Measurement)
    (hv : v ∈ vs) (hm : v.measure = some m) (hx : some x ∈ r.ms) (hmx : m.name = x.m.name) :
    s.trace ≠ pre ++ .handled j (.register now vs) (.registered .ok) :: mid ++ .skipped i r :: post := by
  intro ht
  exact (reach_inv hg h).hist _ _ post ht x hx j now vs v m (by simp) hv hm hmx

theorem foldl_count (ss ss' : List (Sample F64)) (hl : ss.length = ss'.length) (st st' n : Int) :
    ∃ k, ss.foldl AggData.next (.count st n) = .count st k ∧
      ss'.foldl AggData.next (.count st' n) = .count st' k := by
  induction ss generalizing ss' n with
  | nil => cases ss' <;> simp_all
  | cons s ss ih =>
    cases ss' with
    | nil => simp at hl
    | cons s' ss' =>
      simp only [List.foldl_cons, AggData.next]
      exact ih ss' (by simpa using hl) _

/-- C18. The totals of a Count view depend only on which measurements were collected, not on their
order: any two orders of the same recordings give the same count for the same tags. -/
theorem count_order_irrelevant (a : Aggregation F64) (ha : a.newData = some .count) (keys : List Key)
    (recs recs' : List (Option TMap × Sample F64)) (hp : recs.Perm recs') (rows rows' : List (Row F64))
    (h : RowsOf a keys recs rows) (h' : RowsOf a keys recs' rows') (tags : List (Key × Bytes)) (n : Int) :
    (∃ st, (⟨tags, .count st n⟩ : Row F64) ∈ rows) ↔ ∃ st, (⟨tags, .count st n⟩ : Row F64) ∈ rows' := by
  have key : ∀ (recs recs' : List (Option TMap × Sample F64)) (rows rows' : List (Row F64)),
      recs.Perm recs' → RowsOf a keys recs rows → RowsOf a keys recs' rows' →
      (∃ st, (⟨tags, .count st n⟩ : Row F64) ∈ rows) → ∃ st, (⟨tags, .count st n⟩ : Row F64) ∈ rows' := by
    intro recs recs' rows rows' hp h h' ⟨st, hm⟩
    obtain ⟨r, hr, ht, s0, ss, d0, h1, h2, h3⟩ := (h.2 _).mp hm
    have hlen : (rowSamples keys recs r.1).length = (rowSamples keys recs' r.1).length := by
      unfold rowSamples
      exact ((hp.filter _).map _).length_eq
    rw [h1] at hlen
    cases hs : rowSamples keys recs' r.1 with
    | nil => rw [hs] at hlen; simp at hlen
    | cons s1 ss1 =>
      rw [hs] at hlen
      have hd : ∀ t, a.mkData t = .ok (.count t 0) := by intro t; simp [Aggregation.mkData, ha]
      rw [hd] at h2
      simp only [Res.ok.injEq] at h2
      subst h2
      rw [AggData.addAll_eq _ (mkData_shape (hd s0.t))] at h3
      simp only [Res.ok.injEq] at h3
      obtain ⟨k, hk1, hk2⟩ := foldl_count (s0 :: ss) (s1 :: ss1) hlen s0.t s1.t 0
      rw [hk1] at h3
      simp only [AggData.count.injEq] at h3
      refine ⟨s1.t, (h'.2 _).mpr ⟨r, hp.mem_iff.mp hr, ht, s1, ss1, _, hs, hd _, ?_⟩⟩
      rw [AggData.addAll_eq _ (mkData_shape (hd s1.t)), hk2, h3.2]
  exact ⟨key recs recs' rows rows' hp h h', key recs' recs rows' rows hp.symm h' h⟩

/-! ### A recording may be skipped though an earlier one of the same goroutine is collected -/

def sizeM : Measure := ⟨.int64, str "size", [], str "By"⟩
/-- `size` is subscribed (by a view of some meter), `latency` is not. -/
def reg2 : Measures := [(str "size", ⟨true, str "size", [], str "By"⟩),
  (str "latency", ⟨false, str "latency", [], str "ms"⟩)]
def both : RecordReq := ⟨none, [some ⟨.fin 1, sizeM⟩, some ⟨.fin 1, Recording.latency⟩], []⟩
def onlyLatency : RecordReq := ⟨none, [some ⟨.fin 2, Recording.latency⟩], []⟩

/-- While another goroutine's `Register` of a view of `latency` is queued, a goroutine records
`size` and `latency` together and then `latency` alone. The second call is skipped because `latency`
is not subscribed yet, the first is sent and will be handled after the `Register`. So the new view
collects the earlier recording of the goroutine and not the later one: the order in which recordings
take effect for a view *being registered* is not the goroutine's order. -/
theorem later_record_skipped_earlier_collected :
    ∃ s x, exec (init 1024 reg2 [[.register [Recording.view1]], [.record both, .record onlyLatency]])
        [.thread 0 0, .thread 0 0, .thread 1 1, .thread 1 1, .thread 1 2] = some s ∧
      s.trace = [.called 0 (.register [Recording.view1]), .sent 0 (.register 0 [Recording.view1]),
        .called 1 (.record both), .sent 1 (.record 1 both),
        .called 1 (.record onlyLatency), .skipped 1 onlyLatency] ∧
      specRun Spec.empty ((sents s.trace).map Prod.snd) (str "latency") = some x ∧
      x.recs = [(none, ⟨.fin 1, [], 1⟩)] := by
  refine ⟨_, ⟨Recording.view1', { Recording.distAgg with buckets := [.fin 5, .fin 10] }, Recording.latency,
    [(none, ⟨.fin 1, [], 1⟩)]⟩, rfl, rfl, ?_, rfl⟩
  show specRun Spec.empty [.register 0 [Recording.view1], .record 1 both] (str "latency") = _
  simp only [specRun, Spec.step, canonicalizeAll, Recording.canon_view1]
  simp [Spec.registerAll, Spec.empty, Recording.view1', Spec.update, record_get, both, recorded, sizeM,
    Recording.latency, str]

/-! ## C19 -/

/-- What the stop flags say. -/
structure StopInv (s : State) : Prop where
  closed : s.chanClosed = true ↔ s.loop = .exited
  done : s.doneClosed = true ↔ s.loop = .exited
  quit : s.loop = .exited → s.quitClosed = true
  stopped : ∀ i, Ev.stopped i ∈ s.trace → s.loop = .exited
  wait : ∀ (i : Nat) (th : Thread), s.threads[i]? = some th → th.phase = .stopWait → s.quitClosed = true
  called : s.quitClosed = true → ∃ i, Ev.called i .stop ∈ s.trace
  phases : ∀ (i : Nat) (th : Thread), s.threads[i]? = some th →
    (th.phase = .stopSelect ∨ th.phase = .stopClose ∨ th.phase = .stopWait) → Ev.called i .stop ∈ s.trace
  final : Hist (fun pre e => (∀ i c r, e = .handled i c r → ∀ j, Ev.stopped j ∉ pre) ∧
    (∀ i c, e = .sent i c → ∀ j, Ev.stopped j ∉ pre)) s.trace
  crash : s.crashed = true → s.quitClosed = true ∨
    ∃ (i : Nat) (th : Thread) (r : RecordReq) (rest : List Call), s.threads[i]? = some th ∧
      th.todo = .record r :: rest ∧ ¬ ∃ b, anySubscribed s.reg r.ms = .ok b

theorem stop_init (cap : Nat) (reg : Measures) (progs : List (List Call)) :
    StopInv (init cap reg progs) := by
  refine ⟨by simp [init], by simp [init], by simp [init], by simp [init], ?_, by simp [init], ?_, Hist.nil _,
    by simp [init]⟩
  · intro i th hi hp
    simp only [init, List.getElem?_map, Option.map_eq_some_iff] at hi
    obtain ⟨p, _, rfl⟩ := hi
    simp at hp
  · intro i th hi hp
    simp only [init, List.getElem?_map, Option.map_eq_some_iff] at hi
    obtain ⟨p, _, rfl⟩ := hi
    simp at hp

/-- A goroutine changes phase. -/
theorem StopInv.setThread {s : State} (h : StopInv s) (hcr : s.crashed = false) {i : Nat} {th' : Thread}
    {evs : List Ev} (hst : ∀ j, Ev.stopped j ∈ evs → s.loop = .exited)
    (hw : th'.phase = .stopWait → s.quitClosed = true)
    (hp : (th'.phase = .stopSelect ∨ th'.phase = .stopClose ∨ th'.phase = .stopWait) →
      Ev.called i .stop ∈ s.trace ++ evs)
    (hf : Hist (fun pre e => (∀ i c r, e = .handled i c r → ∀ j, Ev.stopped j ∉ pre) ∧
      (∀ i c, e = .sent i c → ∀ j, Ev.stopped j ∉ pre)) (s.trace ++ evs)) :
    StopInv (s.setThread i th' evs) := by
  refine ⟨h.closed, h.done, h.quit, ?_, ?_, ?_, ?_, hf, ?_⟩
  · intro j hj
    simp only [State.setThread, List.mem_append] at hj
    rcases hj with hj | hj
    · exact h.stopped j hj
    · exact hst j hj
  · intro j th hj hph
    simp only [State.setThread, List.getElem?_set] at hj
    split at hj
    · split at hj
      · simp only [Option.some.injEq] at hj; subst hj; exact hw hph
      · simp at hj
    · exact h.wait j th hj hph
  · intro hq
    obtain ⟨j, hj⟩ := h.called hq
    exact ⟨j, List.mem_append_left _ hj⟩
  · intro j th hj hph
    simp only [State.setThread, List.getElem?_set] at hj
    split at hj
    · next he =>
      subst he
      split at hj
      · simp only [Option.some.injEq] at hj; subst hj; exact hp hph
      · simp at hj
    · exact List.mem_append_left _ (h.phases j th hj hph)
  · intro hc
    simp only [State.setThread] at hc
    rw [hcr] at hc; simp at hc

theorem StopInv.step {progs : List (List Call)} {s s' : State} (hi : Inv progs s) (h : StopInv s) {a : Action}
    (hs : step s a = some s') : StopInv s' := by
  unfold Conc.step at hs
  split at hs
  · simp at hs
  next hcr =>
  have hcr : s.crashed = false := by simpa using hcr
  have quitCrash : s.quitClosed = true → StopInv { s with crashed := true } := fun hq =>
    ⟨h.closed, h.done, h.quit, h.stopped, h.wait, h.called, h.phases, h.final, fun _ => Or.inl hq⟩
  cases a with
  | thread i now =>
    simp only [stepThread] at hs
    cases hth : s.threads[i]? with
    | none => rw [hth] at hs; simp at hs
    | some th =>
      obtain ⟨todo, ph⟩ := th
      rw [hth] at hs
      cases ph with
      | idle =>
        cases todo with
        | nil => simp at hs
        | cons c rest =>
          simp only [Option.some.injEq] at hs
          subst hs
          have basic : ∀ ph, (ph = .idle ∨ ∃ c, ph = .sending c) →
              StopInv (s.setThread i ⟨rest, ph⟩ [.called i c]) := by
            intro ph hph
            refine h.setThread hcr (by simp) ?_ ?_ (h.final.snoc ⟨by simp, by simp⟩)
            · rcases hph with rfl | ⟨c, rfl⟩ <;> simp
            · rcases hph with rfl | ⟨c, rfl⟩ <;> simp
          cases c with
          | record r =>
            simp only [stepCall]
            have bad : (¬ ∃ b, anySubscribed s.reg r.ms = .ok b) → StopInv { s with crashed := true } := fun hb =>
              ⟨h.closed, h.done, h.quit, h.stopped, h.wait, h.called, h.phases, h.final,
                fun _ => Or.inr ⟨i, _, r, rest, hth, rfl, hb⟩⟩
            cases hb : anySubscribed s.reg r.ms with
            | panic => exact bad (by simp [hb])
            | err => exact bad (by simp [hb])
            | ok b =>
              cases b with
              | true => exact basic _ (Or.inr ⟨_, rfl⟩)
              | false =>
                refine h.setThread hcr (by simp) (by simp) (by simp) ?_
                have e : s.trace ++ [Ev.called i (.record r), Ev.skipped i r] =
                  (s.trace ++ [Ev.called i (.record r)]) ++ [Ev.skipped i r] := by simp
                rw [e]
                exact (h.final.snoc ⟨by simp, by simp⟩).snoc ⟨by simp, by simp⟩
          | addExporter e =>
            simp only [stepCall, handle]
            have := basic .idle (Or.inl rfl)
            exact ⟨this.closed, this.done, this.quit, this.stopped, this.wait, this.called, this.phases, this.final,
              fun hc => by simp only [State.setThread] at hc; rw [hcr] at hc; simp at hc⟩
          | delExporter e =>
            simp only [stepCall, handle]
            have := basic .idle (Or.inl rfl)
            exact ⟨this.closed, this.done, this.quit, this.stopped, this.wait, this.called, this.phases, this.final,
              fun hc => by simp only [State.setThread] at hc; rw [hcr] at hc; simp at hc⟩
          | stop =>
            simp only [stepCall]
            exact h.setThread hcr (by simp) (by simp) (by simp) (h.final.snoc ⟨by simp, by simp⟩)
          | register vs => exact basic _ (Or.inr ⟨_, rfl⟩)
          | unregister vs => exact basic _ (Or.inr ⟨_, rfl⟩)
          | retrieve vs => exact basic _ (Or.inr ⟨_, rfl⟩)
          | find vs => exact basic _ (Or.inr ⟨_, rfl⟩)
          | setPeriod vs => exact basic _ (Or.inr ⟨_, rfl⟩)
      | sending c =>
        simp only at hs
        split at hs
        · next hcl =>
          simp only [Option.some.injEq] at hs; subst hs
          exact quitCrash (h.quit (h.closed.mp hcl))
        · next hcl =>
          split at hs
          · simp only [Option.some.injEq] at hs
            subst hs
            have hno : ∀ j, Ev.stopped j ∉ s.trace := fun j hj => hcl (h.closed.mpr (h.stopped j hj))
            have := h.setThread (i := i) (th' := ⟨todo, if isSync c then .waiting c else .idle⟩)
              (evs := [.sent i c]) hcr (by simp) (by simp only; split <;> simp) (by simp only; split <;> simp)
              (h.final.snoc ⟨by simp, fun _ _ _ => hno⟩)
            exact ⟨this.closed, this.done, this.quit, this.stopped, this.wait, this.called, this.phases, this.final,
              fun hc => by simp only [State.setThread] at hc; rw [hcr] at hc; simp at hc⟩
          · simp at hs
      | waiting c => simp at hs
      | stopSelect =>
        simp only [Option.some.injEq] at hs
        subst hs
        refine h.setThread hcr (by simp) ?_ ?_ (by simpa using h.final)
        · simp only; split
          · next hq => intro _; exact hq
          · simp
        · intro _; simpa using h.phases i _ hth (Or.inl rfl)
      | stopClose =>
        simp only at hs
        split at hs
        · next hq => simp only [Option.some.injEq] at hs; subst hs; exact quitCrash hq
        · simp only [Option.some.injEq] at hs; subst hs
          have hcall := h.phases i _ hth (Or.inr (Or.inl rfl))
          refine ⟨h.closed, h.done, fun _ => rfl, by simpa [State.setThread] using h.stopped, fun _ _ _ _ => rfl,
            fun _ => ⟨i, by simpa [State.setThread] using hcall⟩, ?_, by simpa [State.setThread] using h.final,
            fun _ => Or.inl rfl⟩
          intro j th hj hph
          simp only [State.setThread, List.append_nil]
          simp only [State.setThread, List.getElem?_set] at hj
          split at hj
          · next he => subst he; exact hcall
          · exact h.phases j th hj hph
      | stopWait =>
        simp only at hs
        split at hs
        · next hd =>
          simp only [Option.some.injEq] at hs; subst hs
          exact h.setThread hcr (fun _ _ => h.done.mp hd) (by simp) (by simp) (h.final.snoc ⟨by simp, by simp⟩)
        · simp at hs
  | handle =>
    simp only [stepHandle] at hs
    split at hs
    swap
    · simp at hs
    next hl =>
    cases hch : s.chan with
    | nil => rw [hch] at hs; simp at hs
    | cons p rest =>
      obtain ⟨i, c⟩ := p
      rw [hch] at hs
      simp only at hs
      obtain ⟨w', reg', r, es, e1, _⟩ := handle_rel hi.rel c (hi.good (i, c) (by simp [hch]))
      rw [e1] at hs
      simp only [Option.some.injEq] at hs
      subst hs
      have hno : ∀ j, Ev.stopped j ∉ s.trace := fun j hj => by
        have := h.stopped j hj; rw [hl] at this; simp at this
      have hph : ∀ (j : Nat) (th : Thread), (reply s.threads i c)[j]? = some th → th.phase ≠ .idle →
          s.threads[j]? = some th := by
        intro j th hj hne
        simp only [reply] at hj
        split at hj
        · rw [List.getElem?_modify] at hj
          cases ht : s.threads[j]? with
          | none => rw [ht] at hj; simp at hj
          | some t =>
            rw [ht] at hj
            simp only [Option.map_eq_map, Option.map_some, Option.some.injEq] at hj
            split at hj
            · subst hj; simp at hne
            · rw [hj]
        · exact hj
      refine ⟨h.closed, h.done, h.quit, ?_, ?_, ?_, ?_, h.final.snoc ⟨fun _ _ _ _ => hno, by simp⟩, ?_⟩
      · intro j hj; exact h.stopped j (by simpa using hj)
      · intro j th hj hp; exact h.wait j th (hph j th hj (by simp [hp])) hp
      · intro hq; obtain ⟨j, hj⟩ := h.called hq; exact ⟨j, List.mem_append_left _ hj⟩
      · intro j th hj hp
        exact List.mem_append_left _ (h.phases j th (hph j th hj (by rcases hp with hp | hp | hp <;> simp [hp])) hp)
      · intro hc; simp only at hc; rw [hcr] at hc; simp at hc
  | tick now =>
    simp only [stepTick] at hs
    split at hs
    · obtain ⟨w', reg', r, es, e1, _⟩ := handle_rel hi.rel (.tick now) trivial
      rw [e1] at hs
      simp only [Option.some.injEq] at hs
      subst hs
      exact ⟨h.closed, h.done, h.quit, h.stopped, h.wait, h.called, h.phases, h.final,
        fun hc => by simp only at hc; rw [hcr] at hc; simp at hc⟩
    · simp at hs
  | quit =>
    simp only [stepQuit] at hs
    split at hs
    · next hq =>
      simp only [Option.some.injEq] at hs; subst hs
      exact ⟨by simp, by simp, fun _ => hq.2, fun _ _ => rfl, h.wait, h.called, h.phases, h.final,
        fun _ => Or.inl hq.2⟩
    · simp at hs
  | launch =>
    simp only [stepLaunch] at hs
    split at hs
    · next hl =>
      simp only [Option.some.injEq] at hs; subst hs
      refine ⟨?_, ?_, by simp, ?_, h.wait, h.called, h.phases, h.final, h.crash⟩
      · have := h.closed; rw [hl] at this; simpa using this
      · have := h.done; rw [hl] at this; simpa using this
      · intro i hi'; have := h.stopped i hi'; rw [hl] at this; simp at this
    · simp at hs

theorem reach_stop {cap : Nat} {reg : Measures} {progs : List (List Call)} (hg : GoodProgs reg progs)
    {as : List Action} {s : State} (h : exec (init cap reg progs) as = some s) : StopInv s := by
  have : ∀ (as : List Action) (s0 : State), Inv progs s0 → StopInv s0 → exec s0 as = some s → StopInv s := by
    intro as
    induction as with
    | nil => intro s0 _ h1 h0; simp only [exec, Option.some.injEq] at h0; rw [← h0]; exact h1
    | cons a as ih =>
      intro s0 h1 h2 h0
      simp only [exec] at h0
      obtain ⟨s1, h3, h4⟩ := Option.bind_eq_some_iff.mp h0
      exact ih s1 (h1.step h3) (h2.step h1 h3) h4
  exact this as _ (inv_init cap reg progs hg) (stop_init cap reg progs) h

theorem step_cap {s s' : State} {a : Action} (h : step s a = some s') : s'.cap = s.cap := by
  unfold step at h
  split at h
  · simp at h
  · cases a with
    | thread i now =>
      simp only [stepThread] at h
      repeat' split at h
      all_goals first
        | (simp at h; done)
        | (simp only [Option.some.injEq] at h; subst h; first | rfl | skip)
      unfold stepCall
      repeat' split
      all_goals rfl
    | handle =>
      simp only [stepHandle] at h
      repeat' split at h
      all_goals first | (simp at h; done) | (simp only [Option.some.injEq] at h; subst h; rfl)
    | tick now =>
      simp only [stepTick] at h
      repeat' split at h
      all_goals first | (simp at h; done) | (simp only [Option.some.injEq] at h; subst h; rfl)
    | quit =>
      simp only [stepQuit] at h
      repeat' split at h
      all_goals first | (simp at h; done) | (simp only [Option.some.injEq] at h; subst h; rfl)
    | launch =>
      simp only [stepLaunch] at h
      repeat' split at h
      all_goals first | (simp at h; done) | (simp only [Option.some.injEq] at h; subst h; rfl)

theorem exec_cap {s0 s : State} {as : List Action} (h0 : exec s0 as = some s) : s.cap = s0.cap := by
  induction as generalizing s0 with
  | nil => simp only [exec, Option.some.injEq] at h0; rw [h0]
  | cons a as ih =>
    simp only [exec] at h0
    obtain ⟨s1, h1, h2⟩ := Option.bind_eq_some_iff.mp h0
    rw [ih h2, step_cap h1]

/-- C18. As long as the loop runs, the program never gets stuck: if some goroutine has not finished,
the loop or a goroutine can make a step. -/
theorem no_deadlock (cap : Nat) (hcap : 0 < cap) (reg : Measures) (progs : List (List Call))
    (hg : GoodProgs reg progs) (as : List Action) (s : State)
    (h : exec (init cap reg progs) as = some s) (hc : s.crashed = false) (hl : s.loop = .running)
    (i : Nat) (th : Thread) (hi : s.threads[i]? = some th)
    (hne : th.todo ≠ [] ∨ th.phase ≠ .idle) (now : Int) :
    (step s (.thread i now)).isSome ∨ (step s .handle).isSome ∨ (step s .quit).isSome := by
  have inv := reach_inv hg h
  have sinv := reach_stop hg h
  have t := inv.thread i th hi
  have handle_ok : s.chan ≠ [] → (step s .handle).isSome := by
    intro hch
    obtain ⟨⟨j, c⟩, rest, hcr⟩ := List.exists_cons_of_ne_nil hch
    obtain ⟨w', reg', r, es, e1, _⟩ := handle_rel inv.rel c (inv.good (j, c) (by simp [hcr]))
    simp [step, hc, stepHandle, hl, hcr, e1]
  obtain ⟨todo, ph⟩ := th
  cases ph with
  | idle =>
    cases todo with
    | nil => simp at hne
    | cons c rest => left; simp [step, hc, stepThread, hi]
  | sending c =>
    by_cases h1 : s.chanClosed = true
    · left; simp [step, hc, stepThread, hi, h1]
    · by_cases h2 : s.chan.length < s.cap
      · left; simp [step, hc, stepThread, hi, h1, h2]
      · right; left
        apply handle_ok
        intro he
        rw [he] at h2
        have : s.cap = cap := exec_cap h
        simp only [List.length_nil] at h2
        omega
  | waiting c =>
    right; left
    apply handle_ok
    intro he
    obtain ⟨rs, h1, _⟩ := t.chan
    rw [he] at h1
    simp at h1
  | stopSelect => left; simp [step, hc, stepThread, hi]
  | stopClose => left; by_cases hq : s.quitClosed = true <;> simp [step, hc, stepThread, hi, hq]
  | stopWait =>
    right; right
    simp [step, hc, stepQuit, hl, sinv.wait i _ hi rfl]
/-- C19. Once some `Stop` has returned, the worker handles no further command and the channel accepts
none. -/
theorem stop_is_final (cap : Nat) (reg : Measures) (progs : List (List Call))
    (hg : GoodProgs reg progs) (as : List Action) (s : State)
    (h : exec (init cap reg progs) as = some s) (pre post : List Ev) (i : Nat)
    (ht : s.trace = pre ++ .stopped i :: post) : sents post = [] ∧ handleds post = [] := by
  have inv := reach_stop hg h
  constructor
  · cases hs : sents post with
    | nil => rfl
    | cons p l =>
      exfalso
      obtain ⟨e, he, hp⟩ := List.mem_filterMap.mp (show p ∈ sents post by rw [hs]; simp)
      obtain ⟨a, b, rfl⟩ := List.append_of_mem he
      cases e with
      | sent j c =>
        have := (inv.final (pre ++ .stopped i :: a) (.sent j c) b (by rw [ht]; simp)).2 j c rfl i
        simp at this
      | _ => simp at hp
  · cases hs : handleds post with
    | nil => rfl
    | cons p l =>
      exfalso
      obtain ⟨e, he, hp⟩ := List.mem_filterMap.mp (show p ∈ handleds post by rw [hs]; simp)
      obtain ⟨a, b, rfl⟩ := List.append_of_mem he
      cases e with
      | handled j c r =>
        have := (inv.final (pre ++ .stopped i :: a) (.handled j c r) b (by rw [ht]; simp)).1 j c r rfl i
        simp at this
      | _ => simp at hp

/-- C19. At any time, stopped or not, the worker's state is the one after whole commands only: those
handled, which are the first of those sent. -/
theorem nothing_half_applied (cap : Nat) (reg : Measures) (progs : List (List Call))
    (hg : GoodProgs reg progs) (as : List Action) (s : State)
    (h : exec (init cap reg progs) as = some s) :
    Rel s.w s.reg (specRun Spec.empty ((handleds s.trace).map Prod.snd)) ∧
      handleds s.trace <+: sents s.trace :=
  ⟨(reach_inv hg h).rel, fifo cap reg progs hg as s h⟩

/-- C19, the part that holds of "calls do not crash the program": with measurements made by the
packages' measures, the program can only crash once a goroutine has called `Stop`. Missing: calls made
after or while a meter is stopped do crash, see `call_after_stop_crashes` and
`concurrent_stops_crash`. -/
theorem crash_needs_stop_partial (cap : Nat) (reg : Measures) (progs : List (List Call))
    (hg : GoodProgs reg progs) (hreal : ∀ p ∈ progs, ∀ r, Call.record r ∈ p → RealMeasurements reg r.ms)
    (as : List Action) (s : State) (h : exec (init cap reg progs) as = some s) (hc : s.crashed = true) :
    s.quitClosed = true ∧ ∃ i, Ev.called i .stop ∈ s.trace := by
  have inv := reach_stop hg h
  rcases inv.crash hc with hq | ⟨i, th, r, rest, h1, h2, h3⟩
  · exact ⟨hq, inv.called hq⟩
  · exfalso
    obtain ⟨done, evs, cur, part, _, hp, _⟩ := ((reach_inv hg h).thread i th h1).prog
    have hmem : Call.record r ∈ done ++ cur ++ th.todo := by rw [h2]; simp
    have hr := hreal _ (List.mem_of_getElem? hp) r hmem
    have hr' : RealMeasurements s.reg r.ms := by
      intro m hm
      obtain ⟨x, d, rfl, hd⟩ := hr m hm
      have := reg_grows hg h x.m.name (by rw [hd]; rfl)
      obtain ⟨d', hd'⟩ := Option.isSome_iff_exists.mp this
      exact ⟨x, d', rfl, hd'⟩
    obtain ⟨b, hb, _⟩ := Recording.anySubscribed_eq hr'
    exact h3 ⟨b, hb⟩
where
  reg_grows {cap : Nat} {reg : Measures} {progs : List (List Call)} (hg : GoodProgs reg progs)
      {as : List Action} {s : State} (h : exec (init cap reg progs) as = some s) :
      ∀ k, (GoMap.get reg k).isSome → (GoMap.get s.reg k).isSome := by
    have : ∀ (as : List Action) (s0 : State), Inv progs s0 → exec s0 as = some s →
        ∀ k, (GoMap.get s0.reg k).isSome → (GoMap.get s.reg k).isSome := by
      intro as
      induction as with
      | nil => intro s0 _ h0 k hk; simp only [exec, Option.some.injEq] at h0; rw [← h0]; exact hk
      | cons a as ih =>
        intro s0 h1 h0 k hk
        simp only [exec] at h0
        obtain ⟨s1, h3, h4⟩ := Option.bind_eq_some_iff.mp h0
        exact ih s1 (h1.step h3) h4 k (one h1 h3 k hk)
    exact this as _ (inv_init cap reg progs hg) h
  one {progs : List (List Call)} {s s' : State} {a : Action} (hi : Inv progs s) (hs : step s a = some s') :
      ∀ k, (GoMap.get s.reg k).isSome → (GoMap.get s'.reg k).isSome := by
    intro k hk
    unfold step at hs
    split at hs
    · simp at hs
    · cases a with
      | thread i now =>
        simp only [stepThread] at hs
        repeat' split at hs
        all_goals first
          | (simp at hs; done)
          | (simp only [Option.some.injEq] at hs; subst hs; first | exact hk | skip)
        unfold stepCall
        simp only [handle]
        repeat' split
        all_goals exact hk
      | handle =>
        simp only [stepHandle] at hs
        split at hs
        swap
        · simp at hs
        cases hch : s.chan with
        | nil => rw [hch] at hs; simp at hs
        | cons p rest =>
          obtain ⟨i, c⟩ := p
          rw [hch] at hs
          obtain ⟨w', reg', r, es, e1, _, _, e4⟩ := handle_rel hi.rel c (hi.good (i, c) (by simp [hch]))
          simp only [e1, Option.some.injEq] at hs
          subst hs
          exact e4 k hk
      | tick now =>
        simp only [stepTick] at hs
        split at hs
        · obtain ⟨w', reg', r, es, e1, _, _, e4⟩ := handle_rel hi.rel (.tick now) trivial
          simp only [e1, Option.some.injEq] at hs
          subst hs
          exact e4 k hk
        · simp at hs
      | quit =>
        simp only [stepQuit] at hs
        split at hs
        · simp only [Option.some.injEq] at hs; subst hs; exact hk
        · simp at hs
      | launch =>
        simp only [stepLaunch] at hs
        split at hs
        · simp only [Option.some.injEq] at hs; subst hs; exact hk
        · simp at hs

/-- Against C19: a call on a stopped meter crashes the program (send on a closed channel). -/
theorem call_after_stop_crashes :
    ∃ s, exec (init 1024 [] [[.stop, .find (str "v")]])
        [.launch, .thread 0 0, .thread 0 0, .thread 0 0, .quit, .thread 0 0, .thread 0 0, .thread 0 0] = some s ∧
      s.trace = [.called 0 .stop, .stopped 0, .called 0 (.find (str "v"))] ∧ s.crashed = true :=
  ⟨_, rfl, rfl, rfl⟩

/-- Against C19: `stats.Record` for a measure some view once subscribed to crashes the program after
`Stop`. -/
theorem record_after_stop_crashes :
    ∃ s, exec (init 1024 reg2 [[.stop, .record both]])
        [.launch, .thread 0 0, .thread 0 0, .thread 0 0, .quit, .thread 0 0, .thread 0 0, .thread 0 0] = some s ∧
      s.trace = [.called 0 .stop, .stopped 0, .called 0 (.record both)] ∧ s.crashed = true :=
  ⟨_, rfl, rfl, rfl⟩

/-- Against C19: two goroutines stopping a meter at the same time crash the program (close of a
closed channel). -/
theorem concurrent_stops_crash :
    ∃ s, exec (init 1024 [] [[.stop], [.stop]])
        [.launch, .thread 0 0, .thread 1 0, .thread 0 0, .thread 1 0, .thread 0 0, .thread 1 0] = some s ∧
      s.crashed = true := ⟨_, rfl, rfl⟩

/-- A `Record` that returned before `Stop` was called may never be handled: the loop may leave with
commands in the channel. -/
theorem stop_drops_commands :
    ∃ s, exec (init 1024 reg2 [[.record both, .stop]])
        [.launch, .thread 0 5, .thread 0 0, .thread 0 0, .thread 0 0, .thread 0 0, .quit, .thread 0 0] = some s ∧
      s.trace = [.called 0 (.record both), .sent 0 (.record 5 both), .called 0 .stop, .stopped 0] ∧
      s.loop = .exited ∧ s.chan = [(0, .record 5 both)] := ⟨_, rfl, rfl, rfl, rfl⟩

/-- `Stop` on a meter that was never started does not return. -/
theorem stop_waits_for_start (cap : Nat) (reg : Measures) (progs : List (List Call))
    (hg : GoodProgs reg progs) (as : List Action) (s : State)
    (h : exec (init cap reg progs) as = some s) (hl : s.loop = .notStarted) (i : Nat) :
    Ev.stopped i ∉ s.trace := by
  intro hi
  have := (reach_stop hg h).stopped i hi
  rw [hl] at this; simp at this

/-! ### Instances -/

/-- A view counting the recordings of `latency` by tag `a`. -/
def viewC : ViewDef := ⟨12, str "n", str "d", [⟨str "a"⟩], some Recording.latency, some Recording.countAgg⟩

theorem canon_viewC : canonicalize viewC = (viewC, none) := by
  simp [canonicalize, viewC, withDefaults, Recording.countAgg]
  decide

theorem exec_append (s : State) (as bs : List Action) :
    exec s (as ++ bs) = (exec s as).bind fun s => exec s bs := by
  induction as generalizing s with
  | nil => rfl
  | cons a as ih =>
    simp only [List.cons_append, exec]
    cases step s a with
    | none => rfl
    | some s1 => exact ih s1

/-- Two goroutines: one registers a view, records and reads it back, the other records too. The
hypotheses of the theorems above hold. -/
example : ∃ s r, exec (init 1024 Recording.regUnsub
      [[.register [viewC], .record Recording.req1, .retrieve (str "n")], [.record Recording.req1]])
      ([.launch, .thread 0 0, .thread 0 0] ++ ([.handle] ++ [.thread 0 1, .thread 1 2, .thread 1 2, .thread 0 1,
       .thread 0 3, .thread 0 3, .handle, .handle, .tick 4, .handle])) = some s ∧
    s.trace = [.called 0 (.register [viewC]), .sent 0 (.register 0 [viewC]),
      .handled 0 (.register 0 [viewC]) (.registered .ok),
      .called 0 (.record Recording.req1), .called 1 (.record Recording.req1), .sent 1 (.record 2 Recording.req1),
      .sent 0 (.record 1 Recording.req1), .called 0 (.retrieve (str "n")), .sent 0 (.retrieve (str "n")),
      .handled 1 (.record 2 Recording.req1) .none, .handled 0 (.record 1 Recording.req1) .none,
      .handled 0 (.retrieve (str "n")) r] := by
  have hh : handle newWorker Recording.regUnsub (.register 0 [viewC]) =
      (newWorker.registerAll Recording.regUnsub 0 [viewC]).bind
        (fun x => .ok (x.1, x.2.1, .registered (if x.2.2.length > 0 then .conflict x.2.2 else .ok), [])) := by
    simp only [handle, Worker.register, canonicalizeAll, canon_viewC]
    rfl
  rw [exec_append]
  rw [show exec (init 1024 Recording.regUnsub
      [[.register [viewC], .record Recording.req1, .retrieve (str "n")], [.record Recording.req1]])
      [.launch, .thread 0 0, .thread 0 0] = some
        ⟨[⟨[.record Recording.req1, .retrieve (str "n")], .waiting (.register 0 [viewC])⟩,
          ⟨[.record Recording.req1], .idle⟩], 1024, [(0, .register 0 [viewC])], newWorker, Recording.regUnsub,
          .running, false, false, false, false,
          [.called 0 (.register [viewC]), .sent 0 (.register 0 [viewC])]⟩ from rfl]
  rw [Option.bind_some, exec_append]
  have h1 : exec ⟨[⟨[.record Recording.req1, .retrieve (str "n")], .waiting (.register 0 [viewC])⟩,
          ⟨[.record Recording.req1], .idle⟩], 1024, [(0, .register 0 [viewC])], newWorker, Recording.regUnsub,
          .running, false, false, false, false,
          [.called 0 (.register [viewC]), .sent 0 (.register 0 [viewC])]⟩ [.handle] = some
        ⟨[⟨[.record Recording.req1, .retrieve (str "n")], .idle⟩,
          ⟨[.record Recording.req1], .idle⟩], 1024, [],
          ⟨[(str "latency", [0])], [(str "n", 0)], [(0, 0)], [], [⟨viewC, true, ⟨[], Recording.countAgg⟩,
            ⟨str "n", str "d", .dimensionless, .cumulativeInt64, [str "a"]⟩⟩]⟩,
          [(str "latency", ⟨true, str "latency", [], str "ms"⟩)],
          .running, false, false, false, false,
          [.called 0 (.register [viewC]), .sent 0 (.register 0 [viewC]),
            .handled 0 (.register 0 [viewC]) (.registered .ok)]⟩ := by
    simp only [exec, step, stepHandle, hh]
    rfl
  rw [h1]
  exact ⟨_, _, rfl, rfl⟩

example : GoodProgs Recording.regUnsub
    [[.register [viewC], .record Recording.req1, .retrieve (str "n"), .stop], [.record Recording.req1]] := by
  have hr : GoodCall Recording.regUnsub (.record Recording.req1) := by
    intro now cmd hc
    simp only [Call.cmd, Option.some.injEq] at hc
    subst hc
    intro tm htm p hp
    simp only [Recording.req1, Option.some.injEq] at htm; subst htm
    simp only [Recording.tagsAB, List.mem_singleton] at hp; subst hp
    decide
  intro p hp c hc
  simp only [List.mem_cons, List.not_mem_nil, or_false] at hp
  rcases hp with rfl | rfl
  · simp only [List.mem_cons, List.not_mem_nil, or_false] at hc
    rcases hc with rfl | rfl | rfl | rfl
    · intro now cmd hc
      simp only [Call.cmd, Option.some.injEq] at hc
      subst hc
      intro v hv
      simp only [List.mem_singleton] at hv; subst hv
      refine ⟨?_, ?_⟩
      · intro m hm; simp only [viewC, Option.some.injEq] at hm; subst hm
        exact ⟨by decide, _, rfl⟩
      · intro a ha; simp only [viewC, Option.some.injEq] at ha; subst ha
        exact ⟨rfl, by decide⟩
    · exact hr
    · intro now cmd hc
      simp only [Call.cmd, Option.some.injEq] at hc
      subst hc; trivial
    · intro now cmd hc; simp [Call.cmd] at hc
  · simp only [List.mem_singleton] at hc; subst hc; exact hr

end Verif.Props.Conc
