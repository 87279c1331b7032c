import Verif.Grpc.Panics

/-!
# C119: what the gRPC handlers record around panics

The specification sees the history only: which contexts `TagRPC` made (`made`), and the calls of `HandleRPC` that were made with one
(`own`). What is recorded for an RPC is a function of these.
-/

namespace Verif.Props.GrpcPanics
open Verif Verif.Grpc.Panics

/-- The contexts that `TagRPC` returned, each with whether its span is sampled. -/
def made : List Op → List Bool
  | [] => []
  | .tag true false b :: os => b :: made os
  | _ :: os => made os

/-- The calls of `HandleRPC` with context `c`, once it is made; `n` contexts are made already. -/
def own (c : Nat) : Nat → List Op → List (Event × Bool)
  | _, [] => []
  | n, .tag i p _ :: os => own c (if i ∧ ¬ p then n + 1 else n) os
  | n, .handle d e p :: os => if d = c ∧ c < n then (e, p) :: own c n os else own c n os

/-- The bytes of the messages sent. -/
def sent (l : List (Event × Bool)) : List Nat := l.filterMap fun x => match x.1 with | .out n => some n | _ => none

/-- The bytes of the messages received. -/
def received (l : List (Event × Bool)) : List Nat := l.filterMap fun x => match x.1 with | .inp n => some n | _ => none

/-- Was there an `End`? -/
def Ended (l : List (Event × Bool)) : Prop := ∃ b, (Event.fin, b) ∈ l

instance (l : List (Event × Bool)) : Decidable (Ended l) :=
  decidable_of_iff (l.any (fun x => x.1 == .fin) = true) <| by
    simp only [List.any_eq_true, beq_iff_eq, Ended]
    exact ⟨fun ⟨x, h, e⟩ => ⟨x.2, by rw [← e]; exact h⟩, fun ⟨b, h⟩ => ⟨_, h, rfl⟩⟩

/-- The counts that the `End` events of the calls `l` record, after the calls `p`: for each the totals so far, but nothing if it is the first of
a sampled RPC and an exporter panics. -/
def done (sampled : Bool) : List (Event × Bool) → List (Event × Bool) → List (Nat × Nat × Nat × Nat)
  | _, [] => []
  | p, x :: l =>
    if x.1 = .fin ∧ ¬ (sampled ∧ x.2 ∧ ¬ Ended p) then
      ((sent p).sum, (sent p).length, (received p).sum, (received p).length) :: done sampled (p ++ [x]) l
    else done sampled (p ++ [x]) l

/-- The counts in the log for context `c`. -/
def completions (c : Nat) (log : List Ev) : List (Nat × Nat × Nat × Nat) :=
  log.filterMap fun e => match e with
    | .completed d a b x y => if d = c then some (a, b, x, y) else none
    | _ => none

/-- Does this call panic, after this history? -/
def Panics (ops : List Op) : Op → Prop
  | .tag i p _ => i = false ∨ p = true
  | .handle c .begin _ => (made ops).length ≤ c
  | .handle c .fin b => b = true ∧ (made ops)[c]? = some true ∧ ¬ Ended (own c 0 ops)
  | .handle _ _ _ => False

/-! ## Lemmas -/

theorem made_append (a b : List Op) : made (a ++ b) = made a ++ made b := by
  induction a with
  | nil => rfl
  | cons o a ih =>
    match o with
    | .tag true false _ => simp [made, ih]
    | .tag true true _ => simpa [made] using ih
    | .tag false _ _ => simpa [made] using ih
    | .handle _ _ _ => simpa [made] using ih

theorem own_append (c : Nat) (a b : List Op) : ∀ n, own c n (a ++ b) = own c n a ++ own c (n + (made a).length) b := by
  induction a with
  | nil => intro n; rfl
  | cons o a ih =>
    intro n
    match o with
    | .tag true false _ => simp [made, own, ih, Nat.add_assoc, Nat.add_comm 1]
    | .tag true true _ => simp [made, own, ih]
    | .tag false _ _ => simp [made, own, ih]
    | .handle _ _ _ =>
      simp only [List.cons_append, own, ih, made]
      split <;> simp

theorem own_nil (c : Nat) (a : List Op) : ∀ n, n + (made a).length ≤ c → own c n a = [] := by
  induction a with
  | nil => intro n _; rfl
  | cons o a ih =>
    intro n h
    match o with
    | .tag true false _ =>
      simp only [made, List.length_cons] at h
      simp only [own]
      exact ih _ (by simp; omega)
    | .tag true true _ => simpa [own] using ih n h
    | .tag false _ _ => simpa [own] using ih n h
    | .handle d _ _ =>
      simp only [made] at h
      simp only [own]
      rw [if_neg (by omega)]
      exact ih n h

theorem done_append (s : Bool) (l m : List (Event × Bool)) : ∀ p, done s p (l ++ m) = done s p l ++ done s (p ++ l) m := by
  induction l with
  | nil => intro p; simp [done]
  | cons x l ih =>
    intro p
    simp only [List.cons_append, done, ih, List.append_assoc, List.singleton_append, List.nil_append]
    split <;> simp

theorem done_none (b : Bool) (m : List (Event × Bool)) : ∀ p, (∀ x ∈ m, x.1 ≠ .fin) → done b p m = [] := by
  induction m with
  | nil => intro p _; rfl
  | cons x m ih =>
    intro p hm
    simp only [done]
    rw [if_neg (fun hx => hm x (by simp) hx.1)]
    exact ih _ (fun y hy => hm y (by simp [hy]))

theorem run_append (a b : List Op) : ∀ s, run s (a ++ b) = ((run (run s a).1 b).1, (run s a).2 ++ (run (run s a).1 b).2) := by
  induction a with
  | nil => intro s; rfl
  | cons o a ih => intro s; simp [run, ih]

theorem run_length (a : List Op) : ∀ s, (run s a).2.length = a.length := by
  induction a with
  | nil => intro s; rfl
  | cons o a ih => intro s; simp [run, ih]

/-- The state of a context whose span is sampled or not, after the calls `l`. -/
def rpcOf (l : List (Event × Bool)) (b : Bool) : Rpc :=
  ⟨b, b && decide (Ended l), (sent l).sum, (sent l).length, (received l).sum, (received l).length⟩

/-- What is kept for each context. -/
structure Inv (ops : List Op) (s : State) : Prop where
  rpcs : ∀ c, s.rpcs[c]? = (made ops)[c]?.map (rpcOf (own c 0 ops))
  started : ∀ c, s.log.count (.started c) = (own c 0 ops).countP (fun x => x.1 == .begin)
  exported : ∀ c, s.log.count (.exported c) = if (made ops)[c]? = some true ∧ Ended (own c 0 ops) then 1 else 0
  completed : ∀ c, completions c s.log = done (((made ops)[c]?).getD false) [] (own c 0 ops)

theorem made_handle (ops : List Op) (c : Nat) (e : Event) (p : Bool) : made (ops ++ [.handle c e p]) = made ops := by
  rw [made_append]; simp [made]

theorem own_handle (ops : List Op) (d c : Nat) (e : Event) (p : Bool) :
    own d 0 (ops ++ [.handle c e p]) = own d 0 ops ++ if c = d ∧ d < (made ops).length then [(e, p)] else [] := by
  rw [own_append]; simp only [own, Nat.zero_add]

theorem own_tag (ops : List Op) (d : Nat) (i p b : Bool) : own d 0 (ops ++ [.tag i p b]) = own d 0 ops := by
  rw [own_append]; simp [own]

theorem ended_append (l m : List (Event × Bool)) : Ended (l ++ m) ↔ Ended l ∨ Ended m := by
  simp [Ended, exists_or]

theorem completions_append (c : Nat) (a b : List Ev) : completions c (a ++ b) = completions c a ++ completions c b := by
  simp [completions]

theorem ended_one (e : Event) (p : Bool) : Ended [(e, p)] ↔ e = .fin := by
  simp only [Ended, List.mem_singleton, Prod.mk.injEq]
  exact ⟨fun ⟨_, h, _⟩ => h.symm, fun h => ⟨p, h.symm, rfl⟩⟩

theorem inv_tag {ops : List Op} {s : State} (h : Inv ops s) (i p b : Bool) : Inv (ops ++ [.tag i p b]) (step s (.tag i p b)).1 := by
  have same : made (ops ++ [.tag i p b]) = made ops → (step s (.tag i p b)).1 = s → Inv (ops ++ [.tag i p b]) (step s (.tag i p b)).1 := by
    intro hm hs
    rw [hs]
    constructor
    · intro c; rw [hm, own_tag]; exact h.rpcs c
    · intro c; rw [own_tag]; exact h.started c
    · intro c; rw [hm, own_tag]; exact h.exported c
    · intro c; rw [hm, own_tag]; exact h.completed c
  match i, p with
  | false, _ => exact same (by rw [made_append]; simp [made]) rfl
  | true, true => exact same (by rw [made_append]; simp [made]) rfl
  | true, false =>
    have hm : made (ops ++ [.tag true false b]) = made ops ++ [b] := by rw [made_append]; rfl
    have hs : (step s (.tag true false b)).1 = { s with rpcs := s.rpcs ++ [⟨b, false, 0, 0, 0, 0⟩] } := rfl
    have hl : s.rpcs.length = (made ops).length := by
      have h1 := h.rpcs s.rpcs.length
      have h2 := h.rpcs (made ops).length
      simp only [List.getElem?_eq_none (Nat.le_refl _), Option.map_none] at h1 h2
      have h3 : (made ops)[s.rpcs.length]? = none := by simpa using h1.symm
      have h4 := List.getElem?_eq_none_iff.mp h3
      have h5 := List.getElem?_eq_none_iff.mp h2
      omega
    have hnew : ∀ c, (made ops).length ≤ c → own c 0 ops = [] := fun c hc => own_nil c ops 0 (by omega)
    rw [hs]
    constructor
    · intro c
      rw [hm, own_tag]
      by_cases hc : c < (made ops).length
      · rw [List.getElem?_append_left (by show c < s.rpcs.length; omega), List.getElem?_append_left hc]; exact h.rpcs c
      · rw [List.getElem?_append_right (by show s.rpcs.length ≤ c; omega), List.getElem?_append_right (by omega), hnew c (by omega), hl]
        by_cases h0 : c - (made ops).length = 0
        · simp [h0, rpcOf, Ended, sent, received]
        · have : 1 ≤ c - (made ops).length := by omega
          rw [List.getElem?_eq_none (by simpa using this), List.getElem?_eq_none (by simpa using this)]; rfl
    · intro c; rw [own_tag]; exact h.started c
    · intro c
      rw [hm, own_tag]
      show s.log.count _ = _
      rw [h.exported c]
      by_cases hc : c < (made ops).length
      · rw [List.getElem?_append_left hc]
      · rw [hnew c (by omega)]; simp [Ended]
    · intro c
      rw [hm, own_tag]
      show completions c s.log = _
      rw [h.completed c]
      by_cases hc : c < (made ops).length
      · rw [List.getElem?_append_left hc]
      · rw [hnew c (by omega)]; simp [done]

theorem inv_handle {ops : List Op} {s : State} (h : Inv ops s) (c : Nat) (e : Event) (p : Bool) :
    Inv (ops ++ [.handle c e p]) (step s (.handle c e p)).1 := by
  by_cases hc : c < (made ops).length
  · obtain ⟨b, hb⟩ : ∃ b, (made ops)[c]? = some b := ⟨_, List.getElem?_eq_getElem hc⟩
    have hr : s.rpcs[c]? = some (rpcOf (own c 0 ops) b) := by rw [h.rpcs c, hb]; rfl
    have hlt : c < s.rpcs.length := (List.getElem?_eq_some_iff.mp hr).1
    have hoc : own c 0 (ops ++ [.handle c e p]) = own c 0 ops ++ [(e, p)] := by rw [own_handle, if_pos ⟨rfl, hc⟩]
    have hod : ∀ d, d ≠ c → own d 0 (ops ++ [.handle c e p]) = own d 0 ops := by
      intro d hd; rw [own_handle, if_neg (by omega), List.append_nil]
    -- it is enough to look at the context itself, if the others are as before
    have key : ∀ s' : State, (∀ d, d ≠ c → s'.rpcs[d]? = s.rpcs[d]?) →
        (∀ d, d ≠ c → s'.log.count (.started d) = s.log.count (.started d) ∧ s'.log.count (.exported d) = s.log.count (.exported d) ∧
          completions d s'.log = completions d s.log) →
        s'.rpcs[c]? = some (rpcOf (own c 0 ops ++ [(e, p)]) b) →
        s'.log.count (.started c) = s.log.count (.started c) + (if e = .begin then 1 else 0) →
        s'.log.count (.exported c) = (if b = true ∧ (Ended (own c 0 ops) ∨ e = .fin) then 1 else 0) →
        completions c s'.log = completions c s.log ++ done b (own c 0 ops) [(e, p)] →
        Inv (ops ++ [.handle c e p]) s' := by
      intro s' h1 h2 h3 h4 h5 h6
      constructor
      · intro d
        rw [made_handle]
        by_cases hd : d = c
        · subst hd; rw [hoc, h3, hb]; rfl
        · rw [h1 d hd, hod d hd]; exact h.rpcs d
      · intro d
        by_cases hd : d = c
        · subst hd; rw [hoc, h4, h.started, List.countP_append]; cases e <;> rfl
        · rw [hod d hd, (h2 d hd).1]; exact h.started d
      · intro d
        rw [made_handle]
        by_cases hd : d = c
        · subst hd; rw [hoc, h5, hb]; simp only [Option.some.injEq, ended_append, ended_one]
        · rw [hod d hd, (h2 d hd).2.1]; exact h.exported d
      · intro d
        rw [made_handle]
        by_cases hd : d = c
        · subst hd; rw [hoc, h6, h.completed, done_append, hb]; rfl
        · rw [hod d hd, (h2 d hd).2.2]; exact h.completed d
    have hex := h.exported c
    rw [hb] at hex
    simp only [Option.some.injEq] at hex
    have hset : ∀ (r : Rpc) d, d ≠ c → (s.rpcs.set c r)[d]? = s.rpcs[d]? := fun r d hd => List.getElem?_set_ne (Ne.symm hd)
    have hsetc : ∀ r : Rpc, (s.rpcs.set c r)[c]? = some r := fun r => by simp [hlt]
    cases e with
    | begin =>
      have hs : (step s (.handle c .begin p)).1 = { s with log := s.log ++ [.started c] } := by simp [step, handleRPC, hr]
      rw [hs]
      refine key _ (fun d _ => rfl) (fun d hd => ?_) ?_ ?_ ?_ ?_
      · simp [completions_append, completions, Ne.symm hd]
      · show s.rpcs[c]? = _
        rw [hr]; simp [rpcOf, ended_append, ended_one, sent, received]
      · simp
      · simp [hex]
      · simp [completions_append, completions, done]
    | out n =>
      have hs : (step s (.handle c (.out n) p)).1 = { s with rpcs := s.rpcs.set c (rpcOf (own c 0 ops ++ [(.out n, p)]) b) } := by
        simp [step, handleRPC, hr, rpcOf, ended_append, ended_one, sent, received]
      rw [hs]
      refine key _ (fun d hd => hset _ d hd) (fun d hd => ⟨rfl, rfl, rfl⟩) (hsetc _) (by simp) (by simp [hex]) (by simp [done])
    | inp n =>
      have hs : (step s (.handle c (.inp n) p)).1 = { s with rpcs := s.rpcs.set c (rpcOf (own c 0 ops ++ [(.inp n, p)]) b) } := by
        simp [step, handleRPC, hr, rpcOf, ended_append, ended_one, sent, received]
      rw [hs]
      refine key _ (fun d hd => hset _ d hd) (fun d hd => ⟨rfl, rfl, rfl⟩) (hsetc _) (by simp) (by simp [hex]) (by simp [done])
    | fin =>
      by_cases hf : b = true ∧ ¬ Ended (own c 0 ops)
      · obtain ⟨rfl, hn⟩ := hf
        have hx : rpcOf (own c 0 ops ++ [(.fin, p)]) true = { rpcOf (own c 0 ops) true with ended := true } := by
          simp [rpcOf, ended_append, ended_one, sent, received]
        cases p with
        | true =>
          have hs : (step s (.handle c .fin true)).1 = ⟨s.rpcs.set c (rpcOf (own c 0 ops ++ [(.fin, true)]) true), s.log ++ [.exported c]⟩ := by
            rw [hx]
            simp [step, handleRPC, hr, endSpan, rpcOf, hn]
          rw [hs]
          refine key _ (fun d hd => hset _ d hd) (fun d hd => ?_) (hsetc _) ?_ ?_ ?_
          · simp [completions_append, completions, Ne.symm hd]
          · simp
          · simp [hex, hn]
          · simp [completions_append, completions, done, hn]
        | false =>
          have hs : (step s (.handle c .fin false)).1 = ⟨s.rpcs.set c (rpcOf (own c 0 ops ++ [(.fin, false)]) true),
              s.log ++ [.exported c] ++ [.completed c (sent (own c 0 ops)).sum (sent (own c 0 ops)).length (received (own c 0 ops)).sum
                (received (own c 0 ops)).length]⟩ := by
            rw [hx]
            simp [step, handleRPC, hr, endSpan, endStats, rpcOf, hn]
          rw [hs]
          refine key _ (fun d hd => hset _ d hd) (fun d hd => ?_) (hsetc _) ?_ ?_ ?_
          · simp [completions_append, completions, Ne.symm hd]
          · simp
          · simp [hex, hn]
          · simp [completions_append, completions, done]
      · have hx : rpcOf (own c 0 ops ++ [(.fin, p)]) b = rpcOf (own c 0 ops) b := by
          cases b with
          | false => simp [rpcOf, sent, received]
          | true =>
            have : Ended (own c 0 ops) := Classical.byContradiction fun hn => hf ⟨rfl, hn⟩
            simp [rpcOf, ended_append, ended_one, sent, received, this]
        have hs : (step s (.handle c .fin p)).1 = { s with log := s.log ++ [.completed c (sent (own c 0 ops)).sum
            (sent (own c 0 ops)).length (received (own c 0 ops)).sum (received (own c 0 ops)).length] } := by
          have hg : ((rpcOf (own c 0 ops) b).sampled && !(rpcOf (own c 0 ops) b).ended) = false := by
            cases b with
            | false => rfl
            | true =>
              have : Ended (own c 0 ops) := Classical.byContradiction fun hn => hf ⟨rfl, hn⟩
              simp [rpcOf, this]
          simp only [step, handleRPC, hr, endSpan, hg]
          simp [endStats, rpcOf]
        rw [hs]
        refine key _ (fun d _ => rfl) (fun d hd => ?_) ?_ ?_ ?_ ?_
        · simp [completions_append, completions, Ne.symm hd]
        · rw [hx]; exact hr
        · simp
        · rw [List.count_append, hex]
          cases b with
          | false => simp
          | true =>
            have : Ended (own c 0 ops) := Classical.byContradiction fun hn => hf ⟨rfl, hn⟩
            simp [this]
        · have hg : ¬ (b = true ∧ p = true ∧ ¬ Ended (own c 0 ops)) := fun ⟨h1, _, h3⟩ => hf ⟨h1, h3⟩
          rw [completions_append]
          unfold done
          rw [if_pos (show (Event.fin = Event.fin ∧ _) from ⟨rfl, hg⟩)]
          simp [completions, done]
  · have ho : ∀ d, own d 0 (ops ++ [.handle c e p]) = own d 0 ops := by
      intro d; rw [own_handle, if_neg (by rintro ⟨rfl, h'⟩; exact hc h'), List.append_nil]
    have hr : s.rpcs[c]? = none := by rw [h.rpcs c, List.getElem?_eq_none (by omega)]; rfl
    have hs : (step s (.handle c e p)).1 = s := by
      simp only [step, handleRPC, hr]
      cases e <;> rfl
    rw [hs]
    constructor
    · intro d; rw [made_handle, ho]; exact h.rpcs d
    · intro d; rw [ho]; exact h.started d
    · intro d; rw [made_handle, ho]; exact h.exported d
    · intro d; rw [made_handle, ho]; exact h.completed d

theorem inv_run (ops : List Op) : Inv ops (run State.init ops).1 := by
  have gen : ∀ (b a : List Op) (s : State), Inv a s → Inv (a ++ b) (run s b).1 := by
    intro b
    induction b with
    | nil => intro a s h; simpa [run] using h
    | cons o b ih =>
      intro a s h
      have h' : Inv (a ++ [o]) (step s o).1 := by
        cases o with
        | tag i p x => exact inv_tag h i p x
        | handle c e p => exact inv_handle h c e p
      have := ih _ _ h'
      rw [List.append_assoc] at this
      exact this
  exact gen ops [] State.init ⟨fun c => by simp [State.init, made], fun c => by simp [State.init, own],
    fun c => by simp [State.init, made], fun c => by simp [State.init, own, done, completions]⟩

/-! ## The claim -/

/-- **C119.** Each RPC is counted as started once per `Begin` event. -/
theorem started (ops : List Op) (c : Nat) :
    (run State.init ops).1.log.count (.started c) = (own c 0 ops).countP (fun x => x.1 == .begin) := (inv_run ops).started c

/-- **C119.** The span of an RPC is given to the exporters once if it is sampled and there was an `End`, whoever panicked, and never
otherwise. -/
theorem exported (ops : List Op) (c : Nat) :
    (run State.init ops).1.log.count (.exported c) = if (made ops)[c]? = some true ∧ Ended (own c 0 ops) then 1 else 0 :=
  (inv_run ops).exported c

/-- **C119.** The counts that are recorded for an RPC are those of `done`: a function of its own calls, whatever is done with others. -/
theorem recorded (ops : List Op) (c : Nat) :
    completions c (run State.init ops).1.log = done (((made ops)[c]?).getD false) [] (own c 0 ops) := (inv_run ops).completed c

/-- **C119.** For an RPC with one `End`, last, whose exporters do not panic, the totals of all its messages are recorded, once. -/
theorem completed_partial {ops : List Op} {c : Nat} {l : List (Event × Bool)} (hl : ∀ x ∈ l, x.1 ≠ .fin)
    (h : own c 0 ops = l ++ [(.fin, false)]) : completions c (run State.init ops).1.log =
      [((sent l).sum, (sent l).length, (received l).sum, (received l).length)] := by
  rw [recorded, h, done_append]
  rw [done_none _ l _ hl]
  simp [done]

/-- **C119.** If an exporter panics in the only `End` of a sampled RPC nothing is recorded for it. -/
theorem exporter_loses_counts {ops : List Op} {c : Nat} {l : List (Event × Bool)} (hc : (made ops)[c]? = some true)
    (hl : ∀ x ∈ l, x.1 ≠ .fin) (h : own c 0 ops = l ++ [(.fin, true)]) : completions c (run State.init ops).1.log = [] ∧
      (run State.init ops).1.log.count (.exported c) = 1 := by
  constructor
  · rw [recorded, h, done_append, hc]
    have hn : ¬ Ended l := fun ⟨b, hb⟩ => hl _ hb rfl
    rw [done_none _ l _ hl]
    simp [done, hn]
  · rw [exported, h, hc, if_pos ⟨rfl, true, by simp⟩]

/-- **C119.** A call panics exactly if `TagRPC` has no info or its sampler panics, or it is `Begin` with a context that `TagRPC` did not
return, or an exporter panics in the first `End` of a sampled RPC. -/
theorem panics_iff (a b : List Op) (o : Op) : (run State.init (a ++ o :: b)).2[a.length]? = some true ↔ Panics a o := by
  have h := inv_run a
  rw [run_append]
  rw [List.getElem?_append_right (by rw [run_length]; exact Nat.le_refl _), run_length, Nat.sub_self]
  simp only [run, List.getElem?_cons_zero, Option.some.injEq]
  cases o with
  | tag i p x => cases i <;> cases p <;> simp [step, tagRPC, Panics]
  | handle c e p =>
    have hr := h.rpcs c
    by_cases hc : c < (made a).length
    · obtain ⟨x, hx⟩ : ∃ x, (made a)[c]? = some x := ⟨_, List.getElem?_eq_getElem hc⟩
      rw [hx] at hr
      simp only [Option.map_some] at hr
      cases e with
      | begin => simp [step, handleRPC, hr, Panics, hc]
      | out n => simp [step, handleRPC, hr, Panics]
      | inp n => simp [step, handleRPC, hr, Panics]
      | fin =>
        simp only [step, handleRPC, hr, Panics, endSpan, hx]
        by_cases hn : Ended (own c 0 a) <;> cases x <;> cases p <;> simp [rpcOf, hn]
    · rw [List.getElem?_eq_none (Nat.le_of_not_lt hc : (made a).length ≤ c)] at hr
      simp only [Option.map_none] at hr
      cases e with
      | begin => simp [step, handleRPC, hr, Panics]; omega
      | out n => simp [step, handleRPC, hr, Panics]
      | inp n => simp [step, handleRPC, hr, Panics]
      | fin => simp [step, handleRPC, hr, Panics, List.getElem?_eq_none (Nat.le_of_not_lt hc)]

/-- **C119.** So, that an RPC with one `End` has its counts recorded, is false. -/
theorem completed_fails : ¬ ∀ (ops : List Op) (c : Nat), c < (made ops).length → Ended (own c 0 ops) →
    completions c (run State.init ops).1.log ≠ [] := by
  intro h
  exact h [.tag true false true, .handle 0 .begin false, .handle 0 .fin true] 0 (by decide) (by decide) (by decide)

/-- **C119.** Each `End` records: an RPC that is ended twice is counted twice, though its span is exported once. -/
theorem ended_twice : (run State.init [.tag true false true, .handle 0 .begin false, .handle 0 (.out 5) false, .handle 0 .fin false,
    .handle 0 .fin false]).1.log = [.started 0, .exported 0, .completed 0 5 1 0 0, .completed 0 5 1 0 0] := by decide

/-- The hypotheses can be met: two RPCs whose calls are mixed, one of which meets a panicking exporter; a third one without a context. -/
example : let ops : List Op := [.tag true false true, .tag true true true, .tag true false true, .handle 0 .begin false, .handle 1 .begin false,
      .handle 1 (.out 5) false, .handle 0 (.inp 2) true, .handle 1 .fin true, .handle 0 (.out 7) false, .handle 9 .begin false,
      .handle 0 .fin false, .tag false false true]
    own 0 0 ops = [(.begin, false), (.inp 2, true), (.out 7, false)] ++ [(.fin, false)] ∧
    own 1 0 ops = [(.begin, false), (.out 5, false)] ++ [(.fin, true)] ∧ (made ops)[1]? = some true ∧
    (run State.init ops).2 = [false, true, false, false, false, false, false, true, false, true, false, true] ∧
    (run State.init ops).1.log = [.started 0, .started 1, .exported 1, .exported 0, .completed 0 7 1 2 1] := by decide

end Verif.Props.GrpcPanics
