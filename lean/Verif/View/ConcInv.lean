import Verif.View.ConcLemmas

/-!
# Invariants of the concurrent system: preservation
-/

namespace Verif.View.Conc
open Verif Verif.Tag Verif.Stats Verif.View Verif.View.Spec Verif.Props.Rows Verif.Props.Worker
open Verif.Props.Recording (RealMeasurements)

/-- What is true of an event and the events before it. -/
def HistP (pre : List Ev) : Ev → Prop
  | .handled i c r => ∃ pre1 pre2, pre = pre1 ++ .sent i c :: pre2 ∧ sents pre1 = handleds pre ∧
      (isSync c = true → own i pre2 = []) ∧
      ReplyOK (specRun Spec.empty ((sents pre1).map Prod.snd)) c r
  | .skipped _ r => ∀ x, some x ∈ r.ms → ∀ j now vs v m,
      .handled j (.register now vs) (.registered .ok) ∈ pre → v ∈ vs → v.measure = some m →
      m.name ≠ x.m.name
  | _ => True

/-- The calls of a program as the constructors of the packages let one write them. -/
def GoodCall (reg : Measures) (c : Call) : Prop := ∀ now cmd, c.cmd now = some cmd → GoodCmd reg cmd

/-- The commands of goroutine `i` in the channel that expect a reply: the one it waits for, last. -/
def ChanOK (chan : List (Nat × Cmd)) (i : Nat) : Phase → Prop
  | .waiting c => ∃ rs, chan.filter (fun p => decide (p.1 = i)) = rs ++ [(i, c)] ∧
      ∀ p ∈ rs, isSync p.2 = false
  | _ => ∀ p ∈ chan.filter (fun p => decide (p.1 = i)), isSync p.2 = false

def GoodPhase (reg : Measures) : Phase → Prop
  | .sending c => GoodCmd reg c
  | _ => True

structure TInv (progs : List (List Call)) (chan : List (Nat × Cmd)) (trace : List Ev) (reg : Measures)
    (i : Nat) (th : Thread) : Prop where
  prog : ∃ done evs cur part, List.Forall₂ (Block i) done evs ∧
    progs[i]? = some (done ++ cur ++ th.todo) ∧ own i trace = evs.flatten ++ part ∧
    Partial i th.phase cur part
  chan : ChanOK chan i th.phase
  todo : ∀ c ∈ th.todo, GoodCall reg c
  phase : GoodPhase reg th.phase

structure Inv (progs : List (List Call)) (s : State) : Prop where
  len : s.threads.length = progs.length
  fifo : sents s.trace = handleds s.trace ++ s.chan
  rel : Rel s.w s.reg (specRun Spec.empty ((handleds s.trace).map Prod.snd))
  hist : Hist HistP s.trace
  subs : ∀ j now vs, Ev.handled j (.register now vs) (.registered .ok) ∈ s.trace →
    ∀ v ∈ vs, ∀ m, v.measure = some m → ∃ d, GoMap.get s.reg m.name = some d ∧ d.subs = true
  senders : ∀ p ∈ s.chan, p.1 < s.threads.length
  good : ∀ p ∈ s.chan, GoodCmd s.reg p.2
  thread : ∀ i th, s.threads[i]? = some th → TInv progs s.chan s.trace s.reg i th

theorem inv_init (cap : Nat) (reg : Measures) (progs : List (List Call))
    (hg : ∀ p ∈ progs, ∀ c ∈ p, GoodCall reg c) : Inv progs (init cap reg progs) := by
  refine ⟨by simp [init], by simp [init, sents, handleds], ?_, Hist.nil _, by simp [init], by simp [init],
    by simp [init], ?_⟩
  · exact rel_init reg
  · intro i th hth
    simp only [init, List.getElem?_map, Option.map_eq_some_iff] at hth
    obtain ⟨p, hp, rfl⟩ := hth
    exact ⟨⟨[], [], [], [], List.Forall₂.nil, by simpa using hp, by simp [init, own], rfl, rfl⟩,
      by simp [init, ChanOK], hg p (List.mem_of_getElem? hp), trivial⟩

theorem goodCall_mono {reg reg' : Measures} {c : Call}
    (hr : ∀ k, (GoMap.get reg k).isSome → (GoMap.get reg' k).isSome) (h : GoodCall reg c) :
    GoodCall reg' c := fun now cmd hc => goodCmd_mono hr (h now cmd hc)

/-- A goroutine not involved in a step. -/
theorem TInv.frame {progs : List (List Call)} {chan chan' : List (Nat × Cmd)} {trace : List Ev}
    {reg reg' : Measures} {i : Nat} {th : Thread} (h : TInv progs chan trace reg i th) (evs : List Ev)
    (hev : own i evs = [])
    (hc : chan'.filter (fun p => decide (p.1 = i)) = chan.filter (fun p => decide (p.1 = i)))
    (hr : ∀ k, (GoMap.get reg k).isSome → (GoMap.get reg' k).isSome) :
    TInv progs chan' (trace ++ evs) reg' i th := by
  refine ⟨?_, ?_, fun c hc => goodCall_mono hr (h.todo c hc), ?_⟩
  · obtain ⟨done, es, cur, part, h1, h2, h3, h4⟩ := h.prog
    exact ⟨done, es, cur, part, h1, h2, by rw [own_append, hev, List.append_nil, h3], h4⟩
  · have := h.chan
    unfold ChanOK at *
    rw [hc]; exact this
  · have := h.phase
    cases hp : th.phase <;> rw [hp] at this <;> try trivial
    exact goodCmd_mono hr this

/-- A step of goroutine `i` that sends nothing. -/
theorem Inv.setThread {progs : List (List Call)} {s : State} (h : Inv progs s) {i : Nat} {th' : Thread}
    {evs : List Ev} (h1 : sents evs = []) (h2 : handleds evs = [])
    (hh : Hist HistP (s.trace ++ evs)) (ho : ∀ j, j ≠ i → own j evs = [])
    (hs : ∀ j now vs, Ev.handled j (.register now vs) (.registered .ok) ∉ evs)
    (ht : TInv progs s.chan (s.trace ++ evs) s.reg i th') : Inv progs (s.setThread i th' evs) := by
  have hrefl : ∀ k, (GoMap.get s.reg k).isSome → (GoMap.get s.reg k).isSome := fun _ h => h
  refine ⟨by simp [State.setThread, h.len], ?_, ?_, hh, ?_, ?_, h.good, ?_⟩
  · simp only [State.setThread, sents_append, handleds_append, h1, h2, List.append_nil]; exact h.fifo
  · simp only [State.setThread, handleds_append, h2, List.append_nil]; exact h.rel
  · intro j now vs hj
    simp only [State.setThread, List.mem_append] at hj
    rcases hj with hj | hj
    · exact h.subs j now vs hj
    · exact absurd hj (hs j now vs)
  · simp only [State.setThread, List.length_set]; exact h.senders
  · intro j tj hj
    simp only [State.setThread, List.getElem?_set] at hj
    split at hj
    · next he =>
      subst he
      split at hj
      · simp only [Option.some.injEq] at hj; subst hj; exact ht
      · simp at hj
    · next hne => exact (h.thread j tj hj).frame evs (ho j (fun e => hne e.symm)) rfl hrefl

theorem chanOK_of_not_waiting {chan : List (Nat × Cmd)} {i : Nat} {p q : Phase}
    (hp : ∀ c, p ≠ .waiting c) (hq : ∀ c, q ≠ .waiting c) (h : ChanOK chan i p) : ChanOK chan i q := by
  cases p with
  | waiting c => exact absurd rfl (hp c)
  | _ => cases q with
    | waiting c => exact absurd rfl (hq c)
    | _ => exact h

/-- The start of a call. -/
theorem Inv.call {progs : List (List Call)} {s : State} (h : Inv progs s) {i : Nat} {c : Call}
    {rest : List Call} (hi : s.threads[i]? = some ⟨c :: rest, .idle⟩) {ph : Phase}
    (hw : ∀ c, ph ≠ .waiting c) (hgood : GoodPhase s.reg ph)
    (hp : Partial i ph [c] [.called i c]) : Inv progs (s.setThread i ⟨rest, ph⟩ [.called i c]) := by
  have t := h.thread i _ hi
  obtain ⟨done, es, cur, part, h1, h2, h3, h4, h5⟩ := t.prog
  subst h4 h5
  refine h.setThread rfl rfl (h.hist.snoc trivial) ?_ (by simp) ?_
  · intro j hj; simp [own, isOwn, Ne.symm hj]
  · refine ⟨⟨done, es, [c], [.called i c], h1, by simpa using h2, ?_, hp⟩,
      chanOK_of_not_waiting (p := .idle) (by simp) hw t.chan, fun c hc => t.todo c (by simp [hc]), hgood⟩
    rw [own_append, h3]; simp [own, isOwn]

/-- The start of a call that returns at once. -/
theorem Inv.callReturn {progs : List (List Call)} {s : State} (h : Inv progs s) {i : Nat} {c : Call}
    {rest : List Call} (hi : s.threads[i]? = some ⟨c :: rest, .idle⟩) {evs : List Ev}
    (hb : Block i c evs) (h1 : sents evs = []) (h2 : handleds evs = [])
    (hh : Hist HistP (s.trace ++ evs)) (ho : ∀ j, j ≠ i → own j evs = []) (hoi : own i evs = evs)
    (hs : ∀ j now vs, Ev.handled j (.register now vs) (.registered .ok) ∉ evs) :
    Inv progs (s.setThread i ⟨rest, .idle⟩ evs) := by
  have t := h.thread i _ hi
  obtain ⟨done, es, cur, part, g1, g2, g3, h4, h5⟩ := t.prog
  subst h4 h5
  refine h.setThread h1 h2 hh ho hs ?_
  refine ⟨⟨done ++ [c], es ++ [evs], [], [], ?_, by simpa using g2, ?_, rfl, rfl⟩,
      t.chan, fun c hc => t.todo c (by simp [hc]), trivial⟩
  · exact List.rel_append g1 (List.Forall₂.cons hb List.Forall₂.nil)
  · rw [own_append, g3, hoi]; simp

/-- A change of worker state that the abstract machine does not see. -/
theorem Inv.worker {progs : List (List Call)} {s : State} (h : Inv progs s) {w : Worker} {reg : Measures}
    (hr : Rel w reg (specRun Spec.empty ((handleds s.trace).map Prod.snd)))
    (hm : ∀ k, (GoMap.get s.reg k).isSome → (GoMap.get reg k).isSome)
    (hs : ∀ k d, GoMap.get s.reg k = some d → d.subs = true → ∃ d', GoMap.get reg k = some d' ∧ d'.subs = true) :
    Inv progs { s with w := w, reg := reg } := by
  refine ⟨h.len, h.fifo, hr, h.hist, ?_, h.senders, fun p hp => goodCmd_mono hm (h.good p hp), ?_⟩
  · intro j now vs hj v hv m hmm
    obtain ⟨d, hd, hds⟩ := h.subs j now vs hj v hv m hmm
    exact hs _ d hd hds
  · intro i th hi
    have := (h.thread i th hi).frame (reg' := reg) (chan' := s.chan) [] rfl rfl hm
    simpa using this

theorem Inv.stepCall {progs : List (List Call)} {s : State} (h : Inv progs s) {i : Nat} {now : Int}
    {c : Call} {rest : List Call} (hi : s.threads[i]? = some ⟨c :: rest, .idle⟩) :
    Inv progs (stepCall s i now c rest) := by
  have t := h.thread i _ hi
  have hgood : ∀ cmd, c.cmd now = some cmd → GoodCmd s.reg cmd := t.todo c (by simp) now
  have crash : Inv progs { s with crashed := true } :=
    ⟨h.len, h.fifo, h.rel, h.hist, h.subs, h.senders, h.good, h.thread⟩
  have exporter : ∀ e w reg r es, (e = Cmd.addExporter r ∨ e = Cmd.delExporter r) →
      handle s.w s.reg e = .ok (w, reg, es) → Block i c [.called i c] →
      Inv progs { s.setThread i ⟨rest, .idle⟩ [.called i c] with w := w, reg := reg } := by
    intro e w reg r es he hh hb
    have h1 := h.callReturn hi hb rfl rfl (h.hist.snoc trivial)
      (by intro j hj; simp [own, isOwn, Ne.symm hj]) (by simp [own, isOwn]) (by simp)
    obtain ⟨rr, ex⟩ := es
    obtain ⟨w', reg', r', es', g1, g2, _, g4⟩ := handle_rel h.rel e (by rcases he with rfl | rfl <;> trivial)
    rw [hh] at g1
    simp only [Res.ok.injEq, Prod.mk.injEq] at g1
    obtain ⟨rfl, rfl, rfl, rfl⟩ := g1
    refine h1.worker ?_ g4 (handle_subs hh).1
    have : handleds (s.setThread i ⟨rest, .idle⟩ [.called i c]).trace = handleds s.trace := by
      simp [State.setThread, handleds]
    rw [this]
    rcases he with rfl | rfl <;> exact g2
  unfold Conc.stepCall
  cases c with
  | record r =>
    simp only
    cases hb : anySubscribed s.reg r.ms with
    | panic => exact crash
    | err => exact crash
    | ok b =>
      cases b with
      | true => exact h.call hi (by simp) (hgood _ rfl) ⟨_, now, rfl, rfl, rfl⟩
      | false =>
        refine h.callReturn hi (Block.skip r) rfl rfl ?_ ?_ (by simp [own, isOwn]) (by simp)
        · have e : s.trace ++ [Ev.called i (.record r), Ev.skipped i r] =
            (s.trace ++ [Ev.called i (.record r)]) ++ [Ev.skipped i r] := by simp
          rw [e]
          refine (h.hist.snoc (e := .called i (.record r)) trivial).snoc ?_
          intro x hx j now' vs v m hj hv hm he
          simp only [List.mem_append, List.mem_singleton, reduceCtorEq, or_false] at hj
          obtain ⟨d, hd, hds⟩ := h.subs j now' vs hj v hv m hm
          rw [he] at hd
          exact absurd (anySub_false hb x hx d hd) (by simp [hds])
        · intro j hj; simp [own, isOwn, Ne.symm hj]
  | addExporter e =>
    simp only [handle]
    exact exporter (.addExporter e) _ _ e _ (Or.inl rfl) rfl (Block.addExporter e)
  | delExporter e =>
    simp only [handle]
    exact exporter (.delExporter e) _ _ e _ (Or.inr rfl) rfl (Block.delExporter e)
  | stop => exact h.call hi (by simp) trivial ⟨rfl, rfl⟩
  | register vs => exact h.call hi (by simp) (hgood _ rfl) ⟨_, now, rfl, rfl, rfl⟩
  | unregister vs => exact h.call hi (by simp) (hgood _ rfl) ⟨_, now, rfl, rfl, rfl⟩
  | retrieve vs => exact h.call hi (by simp) (hgood _ rfl) ⟨_, now, rfl, rfl, rfl⟩
  | find vs => exact h.call hi (by simp) (hgood _ rfl) ⟨_, now, rfl, rfl, rfl⟩
  | setPeriod vs => exact h.call hi (by simp) (hgood _ rfl) ⟨_, now, rfl, rfl, rfl⟩
where
  anySub_false {reg : Measures} {ms : List (Option Measurement)} (hb : anySubscribed reg ms = .ok false) :
      ∀ x, some x ∈ ms → ∀ d, GoMap.get reg x.m.name = some d → d.subs = false := by
    induction ms with
    | nil => simp
    | cons m ms ih =>
      simp only [anySubscribed] at hb
      obtain ⟨b, h1, h2⟩ := bind_eq_ok hb
      cases b with
      | true => simp at h2
      | false =>
        simp only [Bool.false_eq_true, if_false] at h2
        intro x hx d hd
        simp only [List.mem_cons] at hx
        rcases hx with rfl | hx
        · simp only [subscribed, hd, Res.ok.injEq] at h1; exact h1
        · exact ih h2 x hx d hd

theorem Inv.stepThread {progs : List (List Call)} {s s' : State} (h : Inv progs s) {i : Nat} {now : Int}
    (hs : stepThread s i now = some s') : Inv progs s' := by
  have crash : Inv progs { s with crashed := true } :=
    ⟨h.len, h.fifo, h.rel, h.hist, h.subs, h.senders, h.good, h.thread⟩
  unfold Conc.stepThread at hs
  cases hth : s.threads[i]? with
  | none => rw [hth] at hs; simp at hs
  | some th =>
    obtain ⟨todo, ph⟩ := th
    have t := h.thread i _ hth
    have stopStep : ∀ ph', (ph = .stopSelect ∨ ph = .stopClose) → (ph' = .stopWait ∨ ph' = .stopClose) →
        Inv progs (s.setThread i ⟨todo, ph'⟩ []) := by
      intro ph' hp hp'
      obtain ⟨done, es, cur, part, g1, g2, g3, g4⟩ := t.prog
      refine h.setThread rfl rfl (by simpa using h.hist) (fun _ _ => rfl) (by simp) ?_
      refine ⟨⟨done, es, cur, part, g1, g2, by simpa using g3, ?_⟩, ?_, t.todo, ?_⟩
      · rcases hp with rfl | rfl <;> rcases hp' with rfl | rfl <;> exact g4
      · refine chanOK_of_not_waiting (p := ph) ?_ ?_ t.chan
        · rcases hp with rfl | rfl <;> simp
        · rcases hp' with rfl | rfl <;> simp
      · rcases hp' with rfl | rfl <;> trivial
    rw [hth] at hs
    cases ph with
    | idle =>
      cases todo with
      | nil => simp at hs
      | cons c rest =>
        simp only [Option.some.injEq] at hs
        subst hs
        exact h.stepCall hth
    | sending c =>
      simp only at hs
      split at hs
      · simp only [Option.some.injEq] at hs; subst hs; exact crash
      · split at hs
        · simp only [Option.some.injEq] at hs
          subst hs
          obtain ⟨done, es, cur, part, g1, g2, g3, call, now', rfl, hcmd, rfl⟩ := t.prog
          have hlt : i < s.threads.length := by
            rw [List.getElem?_eq_some_iff] at hth; exact hth.1
          have hrefl : ∀ k, (GoMap.get s.reg k).isSome → (GoMap.get s.reg k).isSome := fun _ h => h
          refine ⟨by simp [State.setThread, h.len], ?_, ?_, h.hist.snoc trivial, ?_, ?_, ?_, ?_⟩
          · simp only [State.setThread, sents_append, handleds_append, h.fifo]
            simp [sents, handleds]
          · simp only [State.setThread, handleds_append]
            simpa [handleds] using h.rel
          · intro j now vs hj
            simp only [State.setThread, List.mem_append, List.mem_singleton, reduceCtorEq, or_false] at hj
            exact h.subs j now vs hj
          · intro p hp
            simp only [State.setThread, List.length_set, List.mem_append, List.mem_singleton] at hp ⊢
            rcases hp with hp | rfl
            · exact h.senders p hp
            · exact hlt
          · intro p hp
            simp only [State.setThread, List.mem_append, List.mem_singleton] at hp ⊢
            rcases hp with hp | rfl
            · exact h.good p hp
            · exact t.phase
          · intro j tj hj
            simp only [State.setThread, List.getElem?_set] at hj
            split at hj
            · next he =>
              subst he
              simp only [Option.some.injEq] at hj
              subst hj
              simp only [State.setThread]
              have hch := t.chan
              simp only [ChanOK] at hch
              cases hsy : isSync c with
              | true =>
                refine ⟨⟨done, es, [call], [.called i call, .sent i c], g1, g2, ?_, call, now', rfl, hcmd, hsy, rfl⟩,
                  ⟨s.chan.filter (fun p => decide (p.1 = i)), by simp, hch⟩, t.todo, trivial⟩
                rw [own_append, g3]; simp [own, isOwn]
              | false =>
                refine ⟨⟨done ++ [call], es ++ [[.called i call, .sent i c]], [], [], ?_, by simpa using g2, ?_, rfl, rfl⟩,
                  ?_, t.todo, trivial⟩
                · refine List.rel_append g1 (List.Forall₂.cons ?_ List.Forall₂.nil)
                  cases call <;> simp only [Call.cmd, Option.some.injEq, reduceCtorEq] at hcmd <;> subst hcmd <;>
                    simp only [isSync, reduceCtorEq] at hsy
                  exact Block.recorded _ _
                · rw [own_append, g3]; simp [own, isOwn]
                · simp only [Bool.false_eq_true, if_false, ChanOK, List.filter_append]
                  intro p hp
                  simp only [List.mem_append] at hp
                  rcases hp with hp | hp
                  · exact hch p hp
                  · simp at hp; subst hp; exact hsy
            · next hne =>
              refine (h.thread j tj hj).frame _ ?_ ?_ hrefl
              · simp [own, isOwn, hne]
              · simp [hne]
        · simp at hs
    | waiting c => simp at hs
    | stopSelect =>
      simp only [Option.some.injEq] at hs
      subst hs
      apply stopStep _ (Or.inl rfl)
      split <;> simp
    | stopClose =>
      simp only at hs
      split at hs
      · simp only [Option.some.injEq] at hs; subst hs; exact crash
      · simp only [Option.some.injEq] at hs; subst hs
        have := stopStep .stopWait (Or.inr rfl) (Or.inl rfl)
        exact ⟨this.len, this.fifo, this.rel, this.hist, this.subs, this.senders, this.good, this.thread⟩
    | stopWait =>
      simp only at hs
      split at hs
      · simp only [Option.some.injEq] at hs; subst hs
        obtain ⟨done, es, cur, part, g1, g2, g3, rfl, rfl⟩ := t.prog
        refine h.setThread rfl rfl (h.hist.snoc trivial) ?_ (by simp) ?_
        · intro j hj; simp [own, isOwn, Ne.symm hj]
        · refine ⟨⟨done ++ [.stop], es ++ [[.called i .stop, .stopped i]], [], [], ?_, by simpa using g2, ?_, rfl, rfl⟩,
            chanOK_of_not_waiting (p := .stopWait) (by simp) (by simp) t.chan, t.todo, trivial⟩
          · exact List.rel_append g1 (List.Forall₂.cons Block.stop List.Forall₂.nil)
          · rw [own_append, g3]; simp [own, isOwn]
      · simp at hs

theorem own_eq_nil_of {i : Nat} {c : Cmd} {p q : List Ev} {xs : List Ev}
    (h : own i (p ++ .sent i c :: q) = xs ++ [.sent i c]) (hq : ∀ d, (i, d) ∉ sents q) : own i q = [] := by
  rcases List.eq_nil_or_concat (own i q) with h0 | ⟨ys, e, he⟩
  · exact h0
  · exfalso
    rw [own_append] at h
    have h1 : own i (.sent i c :: q) = .sent i c :: own i q := by simp [own, isOwn]
    rw [h1, he, List.concat_eq_append, ← List.cons_append, ← List.append_assoc] at h
    have := List.append_inj' h (by simp)
    simp only [List.cons.injEq, and_true] at this
    have hm : Ev.sent i c ∈ own i q := by rw [he, this.2]; simp
    have : Ev.sent i c ∈ q := (List.mem_filter.mp hm).1
    exact hq c (List.mem_filterMap.mpr ⟨_, this, rfl⟩)

theorem Inv.stepHandle {progs : List (List Call)} {s s' : State} (h : Inv progs s)
    (hs : stepHandle s = some s') : Inv progs s' := by
  have crash : Inv progs { s with crashed := true } :=
    ⟨h.len, h.fifo, h.rel, h.hist, h.subs, h.senders, h.good, h.thread⟩
  unfold Conc.stepHandle at hs
  split at hs
  swap
  · simp at hs
  cases hch : s.chan with
  | nil => rw [hch] at hs; simp at hs
  | cons p rest =>
    obtain ⟨i, c⟩ := p
    rw [hch] at hs
    simp only at hs
    obtain ⟨w', reg', r, es, e1, e2, e3, e4⟩ := handle_rel h.rel c (h.good (i, c) (by simp [hch]))
    rw [e1] at hs
    simp only [Option.some.injEq] at hs
    subst hs
    have hsub := handle_subs e1
    have hlt := h.senders (i, c) (by simp [hch])
    obtain ⟨th, hth⟩ : ∃ th, s.threads[i]? = some th := ⟨_, List.getElem?_eq_getElem hlt⟩
    have t := h.thread i th hth
    have hfifo := h.fifo
    rw [hch] at hfifo
    obtain ⟨p, q, htr, hp, hq⟩ := sents_split _ _ _ _ _ hfifo
    -- the sender of a command that expects a reply is waiting for it, and sent nothing after it
    have hwait : isSync c = true → th.phase = .waiting c ∧ ∀ d, (i, d) ∉ rest := by
      intro hsy
      have hc := t.chan
      rw [hch] at hc
      have hmem : (i, c) ∈ ((i, c) :: rest).filter (fun p => decide (p.1 = i)) := by simp
      cases hph : th.phase with
      | waiting c' =>
        rw [hph] at hc
        obtain ⟨rs, hrs, hns⟩ := hc
        simp only [List.filter_cons, decide_true, if_true] at hrs
        cases rs with
        | nil =>
          simp only [List.nil_append, List.cons.injEq, Prod.mk.injEq, true_and] at hrs
          obtain ⟨rfl, hrest⟩ := hrs
          refine ⟨rfl, fun d hd => ?_⟩
          have : (i, d) ∈ rest.filter (fun p => decide (p.1 = i)) := List.mem_filter.mpr ⟨hd, by simp⟩
          rw [hrest] at this; simp at this
        | cons x rs =>
          simp only [List.cons_append, List.cons.injEq] at hrs
          have := hns x (by simp)
          rw [← hrs.1] at this
          simp [hsy] at this
      | _ => rw [hph] at hc; have := hc _ hmem; simp [hsy] at this
    have hhist : HistP s.trace (.handled i c r) := by
      refine ⟨p, q, htr, hp, ?_, ?_⟩
      · intro hsy
        obtain ⟨hw, hno⟩ := hwait hsy
        obtain ⟨done, evs, cur, part, g1, g2, g3, g4⟩ := t.prog
        rw [hw] at g4
        obtain ⟨call, now, rfl, hcmd, _, rfl⟩ := g4
        rw [htr] at g3
        refine own_eq_nil_of (xs := evs.flatten ++ [.called i call]) (by rw [g3]; simp) ?_
        intro d hd
        rw [hq] at hd
        exact hno d hd
      · rw [hp]; exact e3
    refine ⟨?_, ?_, ?_, h.hist.snoc hhist, ?_, ?_, ?_, ?_⟩
    · simp only [reply]; split <;> simp [h.len]
    · simp only [sents_append, handleds_append, hfifo]; simp [sents, handleds]
    · simp only [handleds_append]
      have : handleds [Ev.handled i c r] = [(i, c)] := rfl
      rw [this, List.map_append, specRun_append]
      exact e2
    · intro j now vs hj v hv m hm
      simp only [List.mem_append, List.mem_singleton] at hj
      rcases hj with hj | hj
      · obtain ⟨d, hd, hds⟩ := h.subs j now vs hj v hv m hm
        exact hsub.1 _ d hd hds
      · simp only [Ev.handled.injEq] at hj
        exact hsub.2 now vs hj.2.1.symm hj.2.2.symm v hv m hm
    · intro x hx
      have := h.senders x (by rw [hch]; simp [hx])
      simp only [reply]
      split <;> simpa using this
    · intro x hx
      exact goodCmd_mono e4 (h.good x (by rw [hch]; simp [hx]))
    · intro j tj hj
      simp only [reply] at hj
      by_cases hsy : isSync c = true
      · obtain ⟨hw, hno⟩ := hwait hsy
        rw [if_pos hsy, List.getElem?_modify] at hj
        by_cases hij : i = j
        · subst hij
          rw [hth] at hj
          simp only [if_true, Option.map_eq_map, Option.map_some, Option.some.injEq] at hj
          subst hj
          obtain ⟨done, evs, cur, part, g1, g2, g3, g4⟩ := t.prog
          rw [hw] at g4
          obtain ⟨call, now, rfl, hcmd, _, rfl⟩ := g4
          refine ⟨⟨done ++ [call], evs ++ [[.called i call, .sent i c, .handled i c r]], [], [], ?_,
            by simpa using g2, ?_, rfl, rfl⟩, ?_, fun c hc => goodCall_mono e4 (t.todo c hc), trivial⟩
          · exact List.rel_append g1 (List.Forall₂.cons (Block.sync now call c r hcmd hsy) List.Forall₂.nil)
          · rw [own_append, g3]; simp [own, isOwn, hsy]
          · simp only [ChanOK]
            intro x hx
            obtain ⟨hx1, hx2⟩ := List.mem_filter.mp hx
            simp only [decide_eq_true_eq] at hx2
            obtain ⟨a, d⟩ := x
            simp only at hx2
            subst hx2
            exact absurd hx1 (hno d)
        · simp only [hij, if_false, Option.map_eq_map, Option.map_id_fun', id_eq] at hj
          refine (h.thread j tj hj).frame _ ?_ ?_ e4
          · simp [own, isOwn, hij]
          · rw [hch]; simp [hij]
      · rw [if_neg hsy] at hj
        have tj' := h.thread j tj hj
        by_cases hij : i = j
        · subst hij
          rw [hth] at hj
          simp only [Option.some.injEq] at hj
          subst hj
          obtain ⟨done, evs, cur, part, g1, g2, g3, g4⟩ := t.prog
          refine ⟨⟨done, evs, cur, part, g1, g2, ?_, g4⟩, ?_, fun c hc => goodCall_mono e4 (t.todo c hc), ?_⟩
          · rw [own_append, g3]; simp [own, isOwn, hsy]
          · have hc := t.chan
            rw [hch] at hc
            cases hph : th.phase with
            | waiting c' =>
              rw [hph] at hc
              obtain ⟨rs, hrs, hns⟩ := hc
              simp only [List.filter_cons, decide_true, if_true] at hrs
              cases rs with
              | nil =>
                simp only [List.nil_append, List.cons.injEq, Prod.mk.injEq, true_and] at hrs
                obtain ⟨done, evs, cur, part, g1, g2, g3, g4⟩ := t.prog
                rw [hph] at g4
                obtain ⟨_, _, _, _, hs', _⟩ := g4
                rw [← hrs.1] at hs'
                exact absurd hs' hsy
              | cons x rs =>
                simp only [List.cons_append, List.cons.injEq] at hrs
                exact ⟨rs, hrs.2, fun y hy => hns y (by simp [hy])⟩
            | _ =>
              rw [hph] at hc
              simp only [ChanOK] at hc ⊢
              intro x hx
              exact hc x (by simp [hx])
          · have := t.phase
            cases hph : th.phase <;> rw [hph] at this <;> try trivial
            exact goodCmd_mono e4 this
        · refine tj'.frame _ ?_ ?_ e4
          · simp [own, isOwn, hij]
          · rw [hch]; simp [hij]

theorem Inv.step {progs : List (List Call)} {s s' : State} (h : Inv progs s) {a : Action}
    (hs : step s a = some s') : Inv progs s' := by
  unfold Conc.step at hs
  split at hs
  · simp at hs
  · cases a with
    | thread i now => exact h.stepThread hs
    | handle => exact h.stepHandle hs
    | tick now =>
      simp only [stepTick] at hs
      split at hs
      · obtain ⟨w', reg', r, es, e1, e2, e3, e4⟩ := handle_rel h.rel (.tick now) trivial
        rw [e1] at hs
        simp only [Option.some.injEq] at hs
        subst hs
        exact h.worker e2 e4 (handle_subs e1).1
      · simp at hs
    | quit =>
      simp only [stepQuit] at hs
      split at hs
      · simp only [Option.some.injEq] at hs; subst hs
        exact ⟨h.len, h.fifo, h.rel, h.hist, h.subs, h.senders, h.good, h.thread⟩
      · simp at hs
    | launch =>
      simp only [stepLaunch] at hs
      split at hs
      · simp only [Option.some.injEq] at hs; subst hs
        exact ⟨h.len, h.fifo, h.rel, h.hist, h.subs, h.senders, h.good, h.thread⟩
      · simp at hs

theorem Inv.exec {progs : List (List Call)} {s s' : State} (h : Inv progs s) {as : List Action}
    (hs : exec s as = some s') : Inv progs s' := by
  induction as generalizing s with
  | nil => simp only [Conc.exec, Option.some.injEq] at hs; subst hs; exact h
  | cons a as ih =>
    simp only [Conc.exec] at hs
    obtain ⟨s1, h1, h2⟩ := Option.bind_eq_some_iff.mp hs
    exact ih (h.step h1) h2

end Verif.View.Conc
