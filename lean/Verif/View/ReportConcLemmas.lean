import Verif.View.ReportConc

/-!
# Reports and exporters: the invariant of the locks
-/

namespace Verif.View.ReportConc
open Verif

/-- The goroutine is a client or inside `ExportView`. -/
def Calling (g : G) : Prop := g.loop = none ∨ ∃ src n es e, g.loop = some (.call src n es e)

/-- The steps of the system, one by one. -/
inductive T (s : State) (i : Nat) (g : G) : State → Prop where
  | callE (op r) (hc : Calling g) (h : g.cur = .idle) (ht : g.todo = .exporter op :: r) :
      T s i g (s.upd i { g with todo := r, cur := .wantE op } [.called i op])
  | callOther (c r cur) (hc : Calling g) (h : g.cur = .idle) (ht : g.todo = c :: r)
      (hn : cur = .wantMu ∨ ∃ k, cur = .sending k) :
      T s i g (s.upd i { g with todo := r, cur := cur } [])
  | lockE (op) (hc : Calling g) (h : g.cur = .wantE op) (he : s.emu = none) :
      T s i g { s.upd i { g with cur := .inE op } [] with emu := some i }
  | unlockE (op) (hc : Calling g) (h : g.cur = .inE op) :
      T s i g { s.upd i { g with cur := .out op } [] with emu := none, exps := op.apply s.exps }
  | ret (op) (hc : Calling g) (h : g.cur = .out op) :
      T s i g (s.upd i { g with cur := .idle } [.returned i op])
  | send (k) (hc : Calling g) (h : g.cur = .sending k) :
      T s i g { s.upd i { g with cur := if k.isSome then .awaiting else .idle } [] with
        chan := s.chan ++ [(i, k)] }
  | lockMu (hc : Calling g) (h : g.cur = .wantMu) (hm : s.mu = none) :
      T s i g { s.upd i { g with cur := .inMu } [] with mu := some i }
  | unlockMu (hc : Calling g) (h : g.cur = .inMu) :
      T s i g { s.upd i { g with cur := .idle } [] with mu := none }
  | tick (n) (hl : g.loop = some .select) :
      T s i g (s.upd i { g with loop := some (.lockMu n) } [])
  | take (l rest) (hl : g.loop = some .select)
      (h : (∃ w, l = .handler w) ∨ ∃ j n, l = .lockE (.unregister j) n) :
      T s i g { s.upd i { g with loop := some l } [] with chan := rest }
  | answer (j rest) (hl : g.loop = some .select) : T s i g { s.reply j with chan := rest }
  | tickMu (n l) (hl : g.loop = some (.lockMu n)) (hm : s.mu = none)
      (h : l = .unlockMu ∨ ∃ n, l = .lockE .tick n) :
      T s i g { s.upd i { g with loop := some l } [] with mu := some i }
  | tickEnd (hl : g.loop = some .unlockMu) :
      T s i g { s.upd i { g with loop := some .select } [] with mu := none }
  | handled (w) (hl : g.loop = some (.handler w)) :
      T s i g (s.upd i { g with loop := some .select } [])
  | handledReply (w j) (hl : g.loop = some (.handler w)) :
      T s i g ((s.upd i { g with loop := some .select } []).reply j)
  | begin (src n order) (hl : g.loop = some (.lockE src n)) (he : s.emu = none)
      (ho : order.Perm s.exps) :
      T s i g { s.upd i { g with loop := some (.range src n order) } [.reportBegin i] with emu := some i }
  | done (src n) (hl : g.loop = some (.range src n [])) :
      T s i g { s.upd i { g with loop := some (afterReport src n) } [.reportEnd i] with emu := none }
  | enter (src n e es calls) (hl : g.loop = some (.range src n (e :: es))) :
      T s i g (s.upd i ⟨calls, .idle, some (.call src n es e)⟩ [.exportBegin i e])
  | leave (src n e es) (hl : g.loop = some (.call src n es e)) (h : g.cur = .idle) (ht : g.todo = []) :
      T s i g (s.upd i { g with loop := some (.range src n es) } [.exportEnd i e])
  | removed (who n) (hl : g.loop = some (.remove who n)) :
      T s i g ((s.upd i { g with loop := some .select } []).reply who)
  | next (who n) (hl : g.loop = some (.remove who (n + 1))) :
      T s i g (s.upd i { g with loop := some (.lockE (.unregister who) n) } [])

theorem stepCall_T {s s' : State} {i : Nat} {g : G} (hc : Calling g) (h : stepCall s i g = some s') :
    T s i g s' := by
  unfold stepCall at h
  cases hcur : g.cur with
  | idle =>
    rw [hcur] at h
    simp only at h
    cases ht : g.todo with
    | nil => rw [ht] at h; cases h
    | cons c r =>
      rw [ht] at h
      cases c with
      | exporter op => simp only [Option.some.injEq] at h; subst h; exact .callE op r hc hcur ht
      | command k =>
        simp only [Option.some.injEq] at h; subst h
        exact .callOther _ r _ hc hcur ht (Or.inr ⟨_, rfl⟩)
      | record =>
        simp only [Option.some.injEq] at h; subst h
        exact .callOther _ r _ hc hcur ht (Or.inr ⟨_, rfl⟩)
      | read =>
        simp only [Option.some.injEq] at h; subst h
        exact .callOther _ r _ hc hcur ht (Or.inl rfl)
  | wantE op =>
    rw [hcur] at h
    simp only at h
    split at h
    · next he => simp only [Option.some.injEq] at h; subst h; exact .lockE op hc hcur he
    · cases h
  | inE op => rw [hcur] at h; simp only [Option.some.injEq] at h; subst h; exact .unlockE op hc hcur
  | out op => rw [hcur] at h; simp only [Option.some.injEq] at h; subst h; exact .ret op hc hcur
  | sending k =>
    rw [hcur] at h
    simp only at h
    split at h
    · simp only [Option.some.injEq] at h; subst h; exact .send k hc hcur
    · cases h
  | awaiting => rw [hcur] at h; cases h
  | wantMu =>
    rw [hcur] at h
    simp only at h
    split at h
    · next he => simp only [Option.some.injEq] at h; subst h; exact .lockMu hc hcur he
    · cases h
  | inMu => rw [hcur] at h; simp only [Option.some.injEq] at h; subst h; exact .unlockMu hc hcur

theorem stepLoop_T {s s' : State} {i : Nat} {g : G} {a : Action} {l : Loop} (hl : g.loop = some l)
    (h : stepLoop s i g a l = some s') : T s i g s' := by
  cases l with
  | select =>
    simp only [stepLoop] at h
    split at h
    · simp only [Option.some.injEq] at h; subst h; exact .tick _ hl
    · split at h
      · cases h
      · simp only [Option.some.injEq] at h; subst h; exact .take _ _ hl (Or.inl ⟨_, rfl⟩)
      · simp only [Option.some.injEq] at h; subst h; exact .take _ _ hl (Or.inl ⟨_, rfl⟩)
      · simp only [Option.some.injEq] at h; subst h; exact .answer _ _ hl
      · simp only [Option.some.injEq] at h; subst h; exact .answer _ _ hl
      · simp only [Option.some.injEq] at h; subst h; exact .take _ _ hl (Or.inr ⟨_, _, rfl⟩)
  | lockMu n =>
    simp only [stepLoop] at h
    split at h
    · next hm =>
      simp only [Option.some.injEq] at h; subst h
      refine .tickMu n _ hl hm ?_
      cases n with
      | zero => exact Or.inl rfl
      | succ n => exact Or.inr ⟨n, rfl⟩
    · cases h
  | unlockMu => simp only [stepLoop, Option.some.injEq] at h; subst h; exact .tickEnd hl
  | handler w =>
    simp only [stepLoop] at h
    split at h
    · split at h
      · simp only [Option.some.injEq] at h; subst h; exact .handled _ hl
      · simp only [Option.some.injEq] at h; subst h; exact .handledReply _ _ hl
    · cases h
  | lockE src n =>
    simp only [stepLoop] at h
    split at h
    · next he => simp only [Option.some.injEq] at h; subst h; exact .begin src n _ hl he.1 he.2
    · cases h
  | range src n es =>
    cases es with
    | nil => simp only [stepLoop, Option.some.injEq] at h; subst h; exact .done src n hl
    | cons e es => simp only [stepLoop, Option.some.injEq] at h; subst h; exact .enter src n e es _ hl
  | call src n es e =>
    simp only [stepLoop] at h
    split at h
    · next he => simp only [Option.some.injEq] at h; subst h; exact .leave src n e es hl he.1 he.2
    · exact stepCall_T (Or.inr ⟨_, _, _, _, hl⟩) h
  | remove who n =>
    simp only [stepLoop] at h
    split at h
    · split at h
      · simp only [Option.some.injEq] at h; subst h; exact .removed _ _ hl
      · simp only [Option.some.injEq] at h; subst h; exact .next _ _ hl
    · cases h

theorem step_T {s s' : State} {a : Action} (h : step s a = some s') :
    ∃ g, s.gs[a.g]? = some g ∧ T s a.g g s' := by
  unfold step at h
  cases hg : s.gs[a.g]? with
  | none => rw [hg] at h; cases h
  | some g =>
    rw [hg] at h
    simp only at h
    refine ⟨g, rfl, ?_⟩
    cases hl : g.loop with
    | none => rw [hl] at h; exact stepCall_T (Or.inl hl) h
    | some l => rw [hl] at h; exact stepLoop_T hl h

/-! ## Holding the locks -/

def Cur.isInE : Cur → Bool
  | .inE _ => true
  | _ => false

def Loop.hasE : Loop → Bool
  | .range _ _ _ => true
  | .call _ _ _ _ => true
  | _ => false

def Loop.hasMu : Loop → Bool
  | .unlockMu => true
  | .lockE .tick _ => true
  | .range .tick _ _ => true
  | .call .tick _ _ _ => true
  | _ => false

def holdsE (g : G) : Bool := g.cur.isInE || g.loop.any Loop.hasE

def holdsMu (g : G) : Bool := decide (g.cur = .inMu) || g.loop.any Loop.hasMu

/-- A loop that is not inside `ExportView` makes no calls; inside it, it does not get a lock it
already holds. -/
def WF (g : G) : Prop :=
  ∀ l, g.loop = some l → match l with
    | .call src _ _ _ => g.cur.isInE = false ∧ (src = .tick → g.cur ≠ .inMu)
    | _ => g.cur = .idle ∧ g.todo = []

structure Inv (s : State) : Prop where
  e : ∀ (i : Nat) (g : G), s.gs[i]? = some g → (holdsE g = true ↔ s.emu = some i)
  m : ∀ (i : Nat) (g : G), s.gs[i]? = some g → (holdsMu g = true ↔ s.mu = some i)
  el : ∀ (i : Nat), s.emu = some i → i < s.gs.length
  ml : ∀ (i : Nat), s.mu = some i → i < s.gs.length
  wf : ∀ (i : Nat) (g : G), s.gs[i]? = some g → WF g
  nodup : s.exps.Nodup

/-- The lock is left alone, or goes between free and held by `i`. -/
def Moves (i : Nat) (a b : Option Nat) : Prop :=
  a = b ∨ ((a = none ∨ a = some i) ∧ (b = none ∨ b = some i))

theorem Moves.other {i j : Nat} {a b : Option Nat} (h : Moves i a b) (hj : j ≠ i) :
    a = some j ↔ b = some j := by
  rcases h with rfl | ⟨h1, h2⟩
  · rfl
  · constructor
    · rintro rfl; rcases h1 with h1 | h1 <;> cases h1; exact absurd rfl hj
    · rintro rfl; rcases h2 with h2 | h2 <;> cases h2; exact absurd rfl hj

theorem get_upd {s : State} {i j : Nat} {g g' : G} {evs : List Ev} (hg : s.gs[i]? = some g) :
    (s.upd i g' evs).gs[j]? = if j = i then some g' else s.gs[j]? := by
  have hi : i < s.gs.length := by
    rcases Nat.lt_or_ge i s.gs.length with h | h
    · exact h
    · rw [List.getElem?_eq_none h] at hg; cases hg
  simp only [State.upd, List.getElem?_set]
  by_cases hj : j = i
  · subst hj; simp [hi]
  · rw [if_neg (fun h => hj h.symm), if_neg hj]

theorem inv_upd {s : State} (h : Inv s) {i : Nat} {g g' : G}
    (hg : s.gs[i]? = some g) (s' : State) (hgs : s'.gs = (s.upd i g' []).gs)
    (he : holdsE g' = true ↔ s'.emu = some i) (hm : holdsMu g' = true ↔ s'.mu = some i)
    (hem : Moves i s.emu s'.emu) (hmm : Moves i s.mu s'.mu) (hwf : WF g') (hnd : s'.exps.Nodup) :
    Inv s' := by
  have hi : i < s.gs.length := by
    rcases Nat.lt_or_ge i s.gs.length with h | h
    · exact h
    · rw [List.getElem?_eq_none h] at hg; cases hg
  have hlen : s'.gs.length = s.gs.length := by rw [hgs]; simp [State.upd]
  constructor
  · intro j x hx
    rw [hgs, get_upd hg] at hx
    by_cases hj : j = i
    · rw [if_pos hj] at hx; cases hx; subst hj; exact he
    · rw [if_neg hj] at hx; rw [h.e j x hx]; exact hem.other hj
  · intro j x hx
    rw [hgs, get_upd hg] at hx
    by_cases hj : j = i
    · rw [if_pos hj] at hx; cases hx; subst hj; exact hm
    · rw [if_neg hj] at hx; rw [h.m j x hx]; exact hmm.other hj
  · intro j hj
    rw [hlen]
    by_cases hji : j = i
    · subst hji; exact hi
    · exact h.el j ((hem.other hji).mpr hj)
  · intro j hj
    rw [hlen]
    by_cases hji : j = i
    · subst hji; exact hi
    · exact h.ml j ((hmm.other hji).mpr hj)
  · intro j x hx
    rw [hgs, get_upd hg] at hx
    by_cases hj : j = i
    · rw [if_pos hj] at hx; cases hx; exact hwf
    · rw [if_neg hj] at hx; exact h.wf j x hx
  · exact hnd

/-- What a reply does to a goroutine. -/
def replied (g : G) : G := if g.cur = .awaiting then { g with cur := .idle } else g

theorem get_reply (s : State) (j k : Nat) :
    (s.reply j).gs[k]? = if j = k then (s.gs[k]?).map replied else s.gs[k]? := by
  simp only [State.reply, List.getElem?_modify]
  by_cases hk : j = k
  · subst hk; cases s.gs[j]? <;> simp [replied]
  · cases s.gs[k]? <;> simp [hk]

theorem replied_loop (g : G) : (replied g).loop = g.loop := by unfold replied; split <;> rfl

theorem replied_todo (g : G) : (replied g).todo = g.todo := by unfold replied; split <;> rfl

theorem replied_cur (g : G) : (replied g).cur = g.cur ∨ (g.cur = .awaiting ∧ (replied g).cur = .idle) := by
  unfold replied; split
  · next h => exact Or.inr ⟨h, rfl⟩
  · exact Or.inl rfl

theorem replied_holds (g : G) : holdsE (replied g) = holdsE g ∧ holdsMu (replied g) = holdsMu g := by
  unfold holdsE holdsMu
  rw [replied_loop]
  rcases replied_cur g with h | ⟨h1, h2⟩
  · rw [h]; exact ⟨rfl, rfl⟩
  · rw [h1, h2]; exact ⟨rfl, rfl⟩

theorem replied_wf {g : G} (h : WF g) : WF (replied g) := by
  intro l hl
  rw [replied_loop] at hl
  have := h l hl
  rcases replied_cur g with hc | ⟨h1, h2⟩
  · cases l <;> simp only [hc, replied_todo] at * <;> exact this
  · cases l <;> simp only [h1, h2, replied_todo] at * <;> first | exact absurd this.1 (by decide) | skip
    exact ⟨rfl, fun _ => by decide⟩

/-- A goroutine of the state after a reply comes from one before. -/
theorem get_reply_some {s : State} {j k : Nat} {g : G} (h : (s.reply j).gs[k]? = some g) :
    ∃ g0, s.gs[k]? = some g0 ∧ (g = g0 ∨ g = replied g0) := by
  rw [get_reply] at h
  split at h
  · rw [Option.map_eq_some_iff] at h
    obtain ⟨g0, h1, h2⟩ := h
    exact ⟨g0, h1, Or.inr h2.symm⟩
  · exact ⟨g, h, Or.inl rfl⟩

theorem inv_reply {s : State} (h : Inv s) (j : Nat) : Inv (s.reply j) := by
  constructor
  · intro i g hg
    obtain ⟨g0, h1, rfl | rfl⟩ := get_reply_some hg
    · exact h.e i _ h1
    · rw [(replied_holds g0).1]; exact h.e i _ h1
  · intro i g hg
    obtain ⟨g0, h1, rfl | rfl⟩ := get_reply_some hg
    · exact h.m i _ h1
    · rw [(replied_holds g0).2]; exact h.m i _ h1
  · intro i hi; simpa [State.reply] using h.el i hi
  · intro i hi; simpa [State.reply] using h.ml i hi
  · intro i g hg
    obtain ⟨g0, h1, rfl | rfl⟩ := get_reply_some hg
    · exact h.wf i _ h1
    · exact replied_wf (h.wf i _ h1)
  · exact h.nodup

theorem inv_chan {s : State} (h : Inv s) (c : List (Nat × Option Kind)) : Inv { s with chan := c } :=
  ⟨h.e, h.m, h.el, h.ml, h.wf, h.nodup⟩

theorem apply_nodup {l : List Nat} (h : l.Nodup) (op : Op) : (op.apply l).Nodup := by
  cases op with
  | add e =>
    simp only [Op.apply]
    split
    · exact h
    · next hn =>
      rw [List.nodup_append]
      refine ⟨h, by simp, ?_⟩
      intro a ha b hb hab
      simp at hb
      subst hab hb
      exact hn ha
  | del e => exact h.filter _

/-- A goroutine inside a call that is not made from `ExportView` has no loop; in both cases the state
of the call may change freely between states that hold no lock. -/
theorem wf_call {g : G} (hc : Calling g) (cur : Cur) (todo : List Call)
    (h1 : cur.isInE = false) (h2 : cur ≠ .inMu) : WF { g with cur := cur, todo := todo } := by
  intro l hl
  rcases hc with hc | ⟨src, n, es, e, hc⟩
  · simp only at hl; rw [hc] at hl; cases hl
  · simp only at hl; rw [hc] at hl; cases hl
    exact ⟨h1, fun _ => h2⟩

theorem wf_loop {g : G} (h : WF g) {l0 l : Loop} (hl0 : g.loop = some l0)
    (hn : ∀ src n es e, l0 ≠ .call src n es e) : WF { g with loop := some l } := by
  have hg := h l0 hl0
  have hidle : g.cur = .idle ∧ g.todo = [] := by
    cases l0 with
    | call src n es e => exact absurd rfl (hn src n es e)
    | _ => exact hg
  intro l' hl'
  simp only [Option.some.injEq] at hl'
  subst hl'
  cases l with
  | call src n es e => simp [hidle.1, Cur.isInE]
  | _ => exact hidle

theorem inv_T {s s' : State} {i : Nat} {g : G} (h : Inv s) (hg : s.gs[i]? = some g) (ht : T s i g s') :
    Inv s' := by
  have hE := h.e i g hg
  have hM := h.m i g hg
  have hW := h.wf i g hg
  have refl : ∀ a, Moves i a a := fun a => Or.inl rfl
  cases ht with
  | callE op r hc hcur ht =>
    refine inv_upd h hg (g' := { g with todo := r, cur := .wantE op }) _ rfl ?_ ?_ (refl _) (refl _)
      (wf_call hc _ _ rfl (by simp)) h.nodup
    · show _ ↔ s.emu = some i
      rw [← hE]; simp [holdsE, hcur, Cur.isInE]
    · show _ ↔ s.mu = some i
      rw [← hM]; simp [holdsMu, hcur]
  | callOther c r cur hc hcur ht hn =>
    refine inv_upd h hg (g' := { g with todo := r, cur := cur }) _ rfl ?_ ?_ (refl _) (refl _)
      (wf_call hc _ _ ?_ ?_) h.nodup
    · show _ ↔ s.emu = some i
      rw [← hE]; rcases hn with rfl | ⟨k, rfl⟩ <;> simp [holdsE, hcur, Cur.isInE]
    · show _ ↔ s.mu = some i
      rw [← hM]; rcases hn with rfl | ⟨k, rfl⟩ <;> simp [holdsMu, hcur]
    · rcases hn with rfl | ⟨k, rfl⟩ <;> rfl
    · rcases hn with rfl | ⟨k, rfl⟩ <;> simp
  | lockE op hc hcur he =>
    have hnotE : holdsE g = false := by
      rw [Bool.eq_false_iff]; intro hc'; rw [hE.mp hc'] at he; cases he
    have hnl : g.loop.any Loop.hasE = false := by
      simp only [holdsE, Bool.or_eq_false_iff] at hnotE; exact hnotE.2
    refine inv_upd h hg (g' := { g with cur := .inE op }) _ rfl ?_ ?_ ?_ (refl _) ?_ h.nodup
    · simp [holdsE, Cur.isInE]
    · show _ ↔ s.mu = some i
      rw [← hM]; simp [holdsMu, hcur]
    · exact Or.inr ⟨Or.inl he, Or.inr rfl⟩
    · intro l hl
      rcases hc with hc | ⟨src, n, es, e, hc⟩
      · simp only at hl; rw [hc] at hl; cases hl
      · rw [hc] at hnl; simp [Loop.hasE] at hnl
  | unlockE op hc hcur =>
    have hh : holdsE g = true := by simp [holdsE, hcur, Cur.isInE]
    have hnl : g.loop.any Loop.hasE = false := by
      rcases hc with hc | ⟨src, n, es, e, hc⟩
      · rw [hc]; rfl
      · have := hW _ hc; simp [hcur, Cur.isInE] at this
    refine inv_upd h hg (g' := { g with cur := .out op }) _ rfl ?_ ?_ ?_ (refl _)
      (wf_call hc _ _ rfl (by simp)) (apply_nodup h.nodup op)
    · simp [holdsE, Cur.isInE, hnl]
    · show _ ↔ s.mu = some i
      rw [← hM]; simp [holdsMu, hcur]
    · exact Or.inr ⟨Or.inr (hE.mp hh), Or.inl rfl⟩
  | ret op hc hcur =>
    refine inv_upd h hg (g' := { g with cur := .idle }) _ rfl ?_ ?_ (refl _) (refl _)
      (wf_call hc _ _ rfl (by simp)) h.nodup
    · show _ ↔ s.emu = some i
      rw [← hE]; simp [holdsE, hcur, Cur.isInE]
    · show _ ↔ s.mu = some i
      rw [← hM]; simp [holdsMu, hcur]
  | send k hc hcur =>
    refine inv_upd h hg (g' := { g with cur := if k.isSome then .awaiting else .idle }) _ rfl ?_ ?_
      (refl _) (refl _) (wf_call hc _ _ ?_ ?_) h.nodup
    · show _ ↔ s.emu = some i
      rw [← hE]; cases k <;> simp [holdsE, hcur, Cur.isInE]
    · show _ ↔ s.mu = some i
      rw [← hM]; cases k <;> simp [holdsMu, hcur]
    · cases k <;> rfl
    · cases k <;> simp
  | lockMu hc hcur hm =>
    have hnotM : holdsMu g = false := by
      rw [Bool.eq_false_iff]; intro hc'; rw [hM.mp hc'] at hm; cases hm
    have hnl : g.loop.any Loop.hasMu = false := by
      simp only [holdsMu, Bool.or_eq_false_iff] at hnotM; exact hnotM.2
    refine inv_upd h hg (g' := { g with cur := .inMu }) _ rfl ?_ ?_ (refl _) ?_ ?_ h.nodup
    · show _ ↔ s.emu = some i
      rw [← hE]; simp [holdsE, hcur, Cur.isInE]
    · simp [holdsMu]
    · exact Or.inr ⟨Or.inl hm, Or.inr rfl⟩
    · intro l hl
      rcases hc with hc | ⟨src, n, es, e, hc⟩
      · simp only at hl; rw [hc] at hl; cases hl
      · simp only at hl; rw [hc] at hl; cases hl
        refine ⟨rfl, ?_⟩
        rintro rfl
        rw [hc] at hnl; simp [Loop.hasMu] at hnl
  | unlockMu hc hcur =>
    have hh : holdsMu g = true := by simp [holdsMu, hcur]
    have hnl : g.loop.any Loop.hasMu = false := by
      rcases hc with hc | ⟨src, n, es, e, hc⟩
      · rw [hc]; rfl
      · have := (hW _ hc).2
        cases src with
        | tick => exact absurd hcur (this rfl)
        | unregister w => rw [hc]; rfl
    refine inv_upd h hg (g' := { g with cur := .idle }) _ rfl ?_ ?_ (refl _) ?_
      (wf_call hc _ _ rfl (by simp)) h.nodup
    · show _ ↔ s.emu = some i
      rw [← hE]; simp [holdsE, hcur, Cur.isInE]
    · simp [holdsMu, hnl]
    · exact Or.inr ⟨Or.inr (hM.mp hh), Or.inl rfl⟩
  | tick n hl =>
    refine inv_upd h hg (g' := { g with loop := some (.lockMu n) }) _ rfl ?_ ?_ (refl _) (refl _)
      (wf_loop hW hl (by simp)) h.nodup
    · show _ ↔ s.emu = some i
      rw [← hE]; simp [holdsE, hl, Loop.hasE]
    · show _ ↔ s.mu = some i
      rw [← hM]; simp [holdsMu, hl, Loop.hasMu]
  | take l rest hl hn =>
    refine inv_upd h hg (g' := { g with loop := some l }) _ rfl ?_ ?_ (refl _) (refl _)
      (wf_loop hW hl (by simp)) h.nodup
    · show _ ↔ s.emu = some i
      rw [← hE]; rcases hn with ⟨w, rfl⟩ | ⟨j, n, rfl⟩ <;> simp [holdsE, hl, Loop.hasE]
    · show _ ↔ s.mu = some i
      rw [← hM]; rcases hn with ⟨w, rfl⟩ | ⟨j, n, rfl⟩ <;> simp [holdsMu, hl, Loop.hasMu]
  | answer j rest hl => exact inv_chan (inv_reply h j) rest
  | tickMu n l hl hm hn =>
    refine inv_upd h hg (g' := { g with loop := some l }) _ rfl ?_ ?_ (refl _) ?_
      (wf_loop hW hl (by simp)) h.nodup
    · show _ ↔ s.emu = some i
      rw [← hE]; rcases hn with rfl | ⟨n, rfl⟩ <;> simp [holdsE, hl, Loop.hasE]
    · rcases hn with rfl | ⟨n, rfl⟩ <;> simp [holdsMu, Loop.hasMu]
    · exact Or.inr ⟨Or.inl hm, Or.inr rfl⟩
  | tickEnd hl =>
    have hidle := hW _ hl
    have hh : holdsMu g = true := by simp [holdsMu, hl, Loop.hasMu]
    refine inv_upd h hg (g' := { g with loop := some .select }) _ rfl ?_ ?_ (refl _) ?_
      (wf_loop hW hl (by simp)) h.nodup
    · show _ ↔ s.emu = some i
      rw [← hE]; simp [holdsE, hl, Loop.hasE]
    · simp [holdsMu, Loop.hasMu, hidle.1]
    · exact Or.inr ⟨Or.inr (hM.mp hh), Or.inl rfl⟩
  | handled w hl =>
    refine inv_upd h hg (g' := { g with loop := some .select }) _ rfl ?_ ?_ (refl _) (refl _)
      (wf_loop hW hl (by simp)) h.nodup
    · show _ ↔ s.emu = some i
      rw [← hE]; simp [holdsE, hl, Loop.hasE]
    · show _ ↔ s.mu = some i
      rw [← hM]; simp [holdsMu, hl, Loop.hasMu]
  | handledReply w j hl =>
    apply inv_reply
    refine inv_upd h hg (g' := { g with loop := some .select }) _ rfl ?_ ?_ (refl _) (refl _)
      (wf_loop hW hl (by simp)) h.nodup
    · show _ ↔ s.emu = some i
      rw [← hE]; simp [holdsE, hl, Loop.hasE]
    · show _ ↔ s.mu = some i
      rw [← hM]; simp [holdsMu, hl, Loop.hasMu]
  | begin src n order hl he ho =>
    refine inv_upd h hg (g' := { g with loop := some (.range src n order) }) _ rfl ?_ ?_ ?_ (refl _)
      (wf_loop hW hl (by simp)) h.nodup
    · simp [holdsE, Loop.hasE]
    · show _ ↔ s.mu = some i
      rw [← hM]; cases src <;> simp [holdsMu, hl, Loop.hasMu]
    · exact Or.inr ⟨Or.inl he, Or.inr rfl⟩
  | done src n hl =>
    have hidle := hW _ hl
    have hh : holdsE g = true := by simp [holdsE, hl, Loop.hasE]
    refine inv_upd h hg (g' := { g with loop := some (afterReport src n) }) _ rfl ?_ ?_ ?_ (refl _)
      (wf_loop hW hl (by simp)) h.nodup
    · cases src <;> cases n <;> simp [holdsE, Loop.hasE, afterReport, hidle.1, Cur.isInE]
    · show _ ↔ s.mu = some i
      rw [← hM]; cases src <;> cases n <;> simp [holdsMu, hl, Loop.hasMu, afterReport]
    · exact Or.inr ⟨Or.inr (hE.mp hh), Or.inl rfl⟩
  | enter src n e es calls hl =>
    have hidle := hW _ hl
    refine inv_upd h hg (g' := ⟨calls, .idle, some (.call src n es e)⟩) _ rfl ?_ ?_ (refl _) (refl _)
      ?_ h.nodup
    · show _ ↔ s.emu = some i
      rw [← hE]; simp [holdsE, hl, Loop.hasE]
    · show _ ↔ s.mu = some i
      rw [← hM]; cases src <;> simp [holdsMu, hl, Loop.hasMu, hidle.1]
    · intro l' hl'; cases hl'; exact ⟨rfl, fun _ => by simp⟩
  | leave src n e es hl hcur ht =>
    refine inv_upd h hg (g' := { g with loop := some (.range src n es) }) _ rfl ?_ ?_ (refl _) (refl _)
      ?_ h.nodup
    · show _ ↔ s.emu = some i
      rw [← hE]; simp [holdsE, hl, Loop.hasE]
    · show _ ↔ s.mu = some i
      rw [← hM]; cases src <;> simp [holdsMu, hl, Loop.hasMu]
    · intro l' hl'; cases hl'; exact ⟨hcur, ht⟩
  | removed who n hl =>
    apply inv_reply
    refine inv_upd h hg (g' := { g with loop := some .select }) _ rfl ?_ ?_ (refl _) (refl _)
      (wf_loop hW hl (by simp)) h.nodup
    · show _ ↔ s.emu = some i
      rw [← hE]; simp [holdsE, hl, Loop.hasE]
    · show _ ↔ s.mu = some i
      rw [← hM]; simp [holdsMu, hl, Loop.hasMu]
  | next who n hl =>
    refine inv_upd h hg (g' := { g with loop := some (.lockE (.unregister who) n) }) _ rfl ?_ ?_
      (refl _) (refl _) (wf_loop hW hl (by simp)) h.nodup
    · show _ ↔ s.emu = some i
      rw [← hE]; simp [holdsE, hl, Loop.hasE]
    · show _ ↔ s.mu = some i
      rw [← hM]; simp [holdsMu, hl, Loop.hasMu]

theorem inv_init (cap : Nat) (progs : List (List Call)) (loops : Nat) : Inv (init cap progs loops) := by
  have hg : ∀ (i : Nat) (g : G), (init cap progs loops).gs[i]? = some g →
      g.cur = .idle ∧ (g.loop = none ∨ (g.loop = some .select ∧ g.todo = [])) := by
    intro i g h
    have hm := List.mem_of_getElem? h
    simp only [init, List.mem_append, List.mem_map, List.mem_replicate] at hm
    rcases hm with ⟨p, _, rfl⟩ | ⟨_, rfl⟩
    · exact ⟨rfl, Or.inl rfl⟩
    · exact ⟨rfl, Or.inr ⟨rfl, rfl⟩⟩
  constructor
  · intro i g h
    obtain ⟨h1, h2 | ⟨h2, _⟩⟩ := hg i g h <;> simp [holdsE, h1, h2, Cur.isInE, Loop.hasE, init]
  · intro i g h
    obtain ⟨h1, h2 | ⟨h2, _⟩⟩ := hg i g h <;> simp [holdsMu, h1, h2, Loop.hasMu, init]
  · intro i h; cases h
  · intro i h; cases h
  · intro i g h l hl
    obtain ⟨h1, h2 | ⟨h2, h3⟩⟩ := hg i g h
    · rw [h2] at hl; cases hl
    · rw [h2] at hl; cases hl; exact ⟨h1, h3⟩
  · exact List.nodup_nil

theorem inv_step {s s' : State} {a : Action} (h : Inv s) (hs : step s a = some s') : Inv s' := by
  obtain ⟨g, hg, ht⟩ := step_T hs
  exact inv_T h hg ht

theorem inv_exec {s s' : State} {as : List Action} (h : Inv s) (hs : exec s as = some s') : Inv s' := by
  induction as generalizing s with
  | nil => cases hs; exact h
  | cons a as ih =>
    simp only [exec] at hs
    cases h1 : step s a with
    | none => rw [h1] at hs; cases hs
    | some s1 => rw [h1] at hs; exact ih (inv_step h h1) hs

/-- Two goroutines cannot both hold the lock of the exporters. -/
theorem Inv.uniqueE {s : State} (h : Inv s) {i j : Nat} {g g' : G} (hi : s.gs[i]? = some g)
    (hj : s.gs[j]? = some g') (h1 : holdsE g = true) (h2 : holdsE g' = true) : i = j := by
  have e1 := (h.e i g hi).mp h1
  have e2 := (h.e j g' hj).mp h2
  rw [e1] at e2
  exact Option.some.inj e2

/-! ## Schedules and traces -/

theorem T_trace {s s' : State} {i : Nat} {g : G} (h : T s i g s') :
    ∃ evs, s'.trace = s.trace ++ evs ∧ evs.length ≤ 1 := by
  cases h <;> first
    | exact ⟨_, rfl, Nat.le_refl _⟩
    | exact ⟨[], rfl, by simp⟩
    | exact ⟨[], (List.append_nil _).symm, by simp⟩

theorem step_trace {s s' : State} {a : Action} (h : step s a = some s') :
    ∃ evs, s'.trace = s.trace ++ evs ∧ evs.length ≤ 1 := by
  obtain ⟨g, _, ht⟩ := step_T h
  exact T_trace ht

theorem exec_trace {s s' : State} {as : List Action} (h : exec s as = some s') :
    ∃ evs, s'.trace = s.trace ++ evs := by
  induction as generalizing s with
  | nil => cases h; exact ⟨[], by simp⟩
  | cons a as ih =>
    simp only [exec] at h
    cases h1 : step s a with
    | none => rw [h1] at h; cases h
    | some s1 =>
      rw [h1] at h
      obtain ⟨e1, he1, _⟩ := step_trace h1
      obtain ⟨e2, he2⟩ := ih h
      exact ⟨e1 ++ e2, by rw [he2, he1, List.append_assoc]⟩

theorem exec_append (s : State) (xs ys : List Action) :
    exec s (xs ++ ys) = (exec s xs).bind fun s => exec s ys := by
  induction xs generalizing s with
  | nil => rfl
  | cons a xs ih =>
    simp only [List.cons_append, exec]
    cases step s a with
    | none => rfl
    | some s1 => exact ih s1

/-- The step that makes the next event. -/
theorem exec_next {s s' : State} {as : List Action} (h : exec s as = some s') {ev : Ev} {u : List Ev}
    (ht : s'.trace = s.trace ++ ev :: u) :
    ∃ as1 a as2 s1 s2, as = as1 ++ a :: as2 ∧ exec s as1 = some s1 ∧ s1.trace = s.trace ∧
      step s1 a = some s2 ∧ s2.trace = s1.trace ++ [ev] ∧ exec s2 as2 = some s' ∧
      s'.trace = s2.trace ++ u := by
  induction as generalizing s with
  | nil =>
    have h : s = s' := Option.some.inj h
    subst h
    have := congrArg List.length ht
    simp at this
  | cons a as ih =>
    simp only [exec] at h
    cases h1 : step s a with
    | none => rw [h1] at h; cases h
    | some s1 =>
      rw [h1] at h
      have hrest : exec s1 as = some s' := h
      obtain ⟨evs, he1, hlen⟩ := step_trace h1
      obtain ⟨rest, hr⟩ := exec_trace hrest
      cases evs with
      | nil =>
        have he : s1.trace = s.trace := by rw [he1]; simp
        obtain ⟨as1, b, as2, s2, s3, e1, e2, e3, e4, e5, e6, e7⟩ := ih hrest (by rw [he]; exact ht)
        exact ⟨a :: as1, b, as2, s2, s3, by rw [e1]; rfl, by simp only [exec, h1]; exact e2,
          by rw [e3, he], e4, e5, e6, e7⟩
      | cons ev' evs' =>
        have : evs' = [] := by
          cases evs' with
          | nil => rfl
          | cons _ _ => simp at hlen
        subst this
        have hcat : s.trace ++ ([ev'] ++ rest) = s.trace ++ (ev :: u) := by
          rw [← List.append_assoc, ← he1, ← hr, ht]
        have hc := List.append_cancel_left hcat
        simp only [List.cons_append, List.nil_append, List.cons.injEq] at hc
        obtain ⟨rfl, hc⟩ := hc
        exact ⟨[], a, as, s, s1, rfl, rfl, rfl, h1, he1, hrest, by rw [hr, hc]⟩

/-- A schedule can be cut where its trace is. -/
theorem exec_split {s s' : State} {as : List Action} (h : exec s as = some s') (u1 : List Ev)
    {u2 : List Ev} (ht : s'.trace = s.trace ++ (u1 ++ u2)) :
    ∃ as1 as2 s1, as = as1 ++ as2 ∧ exec s as1 = some s1 ∧ exec s1 as2 = some s' ∧
      s1.trace = s.trace ++ u1 ∧ s'.trace = s1.trace ++ u2 := by
  induction u1 generalizing s as with
  | nil => exact ⟨[], as, s, rfl, rfl, h, by simp, by simpa using ht⟩
  | cons ev u1 ih =>
    obtain ⟨as1, a, as2, s1, s2, rfl, e2, e3, e4, e5, e6, e7⟩ := exec_next (u := u1 ++ u2) h (by simpa using ht)
    obtain ⟨bs1, bs2, s3, rfl, f2, f3, f4, f5⟩ := ih e6 e7
    refine ⟨as1 ++ a :: bs1, bs2, s3, by simp, ?_, f3, by rw [f4, e5, e3]; simp, f5⟩
    rw [exec_append, e2]
    show exec s1 (a :: bs1) = some s3
    simp only [exec, e4]
    exact f2

/-- Invariants of a segment whose events are restricted. -/
theorem exec_inv (P : State → Prop) (Q : Ev → Prop)
    (hstep : ∀ s i g s' evs, Inv s → P s → s.gs[i]? = some g → T s i g s' →
      s'.trace = s.trace ++ evs → (∀ ev ∈ evs, Q ev) → P s')
    {s s' : State} {as : List Action} (hi : Inv s) (hP : P s) (h : exec s as = some s')
    {u : List Ev} (ht : s'.trace = s.trace ++ u) (hQ : ∀ ev ∈ u, Q ev) : P s' := by
  induction as generalizing s u with
  | nil => cases h; exact hP
  | cons a as ih =>
    simp only [exec] at h
    cases h1 : step s a with
    | none => rw [h1] at h; cases h
    | some s1 =>
      rw [h1] at h
      have h : exec s1 as = some s' := h
      obtain ⟨g, hg, hT⟩ := step_T h1
      obtain ⟨e1, he1, _⟩ := T_trace hT
      obtain ⟨e2, he2⟩ := exec_trace h
      have hu : u = e1 ++ e2 := by
        have : s.trace ++ u = s.trace ++ (e1 ++ e2) := by rw [← ht, he2, he1, List.append_assoc]
        exact List.append_cancel_left this
      subst hu
      exact ih (inv_step hi h1) (hstep s _ g s1 e1 hi hP hg hT he1 (fun ev hev => hQ ev (by simp [hev]))) h he2
        (fun ev hev => hQ ev (by simp [hev]))

end Verif.View.ReportConc
