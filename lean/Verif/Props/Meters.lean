import Verif.View.Meters
import Verif.View.ConcLemmas
import Verif.Props.Program

/-!
# C106: meters are separate

What the views of one meter say when a process has several meters, and what of the other meters still shows.
-/

namespace Verif.Props.Meters
open Verif Verif.Tag Verif.Stats Verif.View Verif.View.Meters Verif.Metric
open Verif.Props.Tag Verif.Props.Recording
open Verif.Props.Program (Spec lastOf mutatorsOf attachmentsOf measurementsOf ownRecorder MetricsFor options_eq forall₂_get)

/-! ## Specification -/

/-- The meter a recording is for: that of the last option that names one, else the default meter. -/
def meterOf (ros : List Option') : Meter := lastOf (fun | .recorder r => some r | _ => none) ros

/-- The options but for the recorder. -/
def plain (ros : List Option') : List Option' := ros.filter fun | .recorder _ => false | _ => true

/-- A call as it would be in a program that has no meter but `k`, the default one there: `none` if it is the business of
another meter. -/
def alone (k : Meter) : Call → Option Program.Call
  | .newTags iter i mus => some (.newTags iter i mus)
  | .forward iter i j => some (.forward iter i j)
  | .register k' now vs => if k' = k then some (.register now vs) else none
  | .unregister k' now ns => if k' = k then some (.unregister now ns) else none
  | .record iter i t ros => if meterOf ros = k then some (.record iter i t (plain ros)) else none
  | .read k' now => if k' = k then some (.read now) else none

/-- What was recorded for the views of meter `k` (by the specification of C81, for one meter). -/
noncomputable def specOf (k : Meter) (cs : List Call) : Spec := Spec.init.run (cs.filterMap (alone k))

/-- As `Program.Good`. -/
def Good (reg : Measures) : Call → Prop
  | .newTags iter _ mus => (∀ m, (iter m).Perm m) ∧ ∀ mu ∈ mus, GoodMutKey mu
  | .forward iter _ _ => ∀ m, (iter m).Perm m
  | .register _ _ vs => ∀ v ∈ vs, View.Spec.GoodView reg v
  | .record iter _ _ ros => (∀ m, (iter m).Perm m) ∧ (∀ mu ∈ mutatorsOf ros, GoodMutKey mu) ∧
      RealMeasurements reg (measurementsOf ros)
  | _ => True

/-- A call cannot be made: it names a context that there is not, or encoded tags would have 2^63 bytes. -/
def Impossible (s : State) : Call → Prop
  | .newTags _ i _ => s.ctxs.length ≤ i
  | .forward iter i j => s.ctxs.length ≤ i ∨ s.ctxs.length ≤ j ∨
      ∃ c bytes, s.ctxs[j]? = some c ∧ Program.encodeCtx iter s.heap c = .ok bytes ∧ 2 ^ 63 ≤ bytes.length
  | .record _ i _ _ => s.ctxs.length ≤ i
  | _ => False

/-! ## Proof: one meter of a state -/

/-- The program as meter `k` has it. -/
def proj (k : Meter) (s : State) : Program.State := ⟨s.heap, s.ctxs, s.ws k, s.reg, s.out k⟩

abbrev PInv := @Program.Inv

theorem lastOf_plain {β : Type} (f : Option' → Option β) (hf : ∀ r, f (.recorder r) = none) (ros : List Option') :
    lastOf f (plain ros) = lastOf f ros := by
  unfold lastOf plain
  rw [List.filterMap_filter]
  congr 2
  funext o
  cases o <;> simp [hf]

theorem mutators_plain (ros : List Option') : mutatorsOf (plain ros) = mutatorsOf ros := by
  unfold mutatorsOf; rw [lastOf_plain _ fun _ => rfl]

theorem attachments_plain (ros : List Option') : attachmentsOf (plain ros) = attachmentsOf ros := by
  unfold attachmentsOf; rw [lastOf_plain _ fun _ => rfl]

theorem measurements_plain (ros : List Option') : measurementsOf (plain ros) = measurementsOf ros := by
  unfold measurementsOf; rw [lastOf_plain _ fun _ => rfl]

theorem recorder_eq (ros : List Option') : (createRecordOption ros).recorder = meterOf ros := by
  induction ros using List.reverseRecOn with
  | nil => rfl
  | append_singleton ros o ih =>
    unfold createRecordOption meterOf at *
    rw [Program.lastOf_append, List.foldl_append, List.foldl_cons, List.foldl_nil]
    cases o <;> simp [applyOption, ih]

theorem plain_none (ros : List Option') : meterOf (plain ros) = none := by
  unfold meterOf lastOf plain
  rw [List.getLast?_eq_none_iff, List.filterMap_eq_nil_iff]
  intro o ho
  have := (List.mem_filter.mp ho).2
  cases o <;> simp_all

theorem plain_option (ros : List Option') :
    createRecordOption (plain ros) = { createRecordOption ros with recorder := none } := by
  obtain ⟨a1, a2, a3, _⟩ := options_eq ros
  obtain ⟨b1, b2, b3, _⟩ := options_eq (plain ros)
  rw [mutators_plain, a1] at b1
  rw [attachments_plain, a2] at b2
  rw [measurements_plain, a3] at b3
  have b4 := recorder_eq (plain ros)
  rw [plain_none] at b4
  generalize createRecordOption (plain ros) = o at *
  generalize createRecordOption ros = o' at *
  cases o; cases o'
  simp only at b1 b2 b3 b4
  subst b1 b2 b3 b4
  rfl

theorem other_option (ros : List Option') (r : Nat) :
    createRecordOption (plain ros ++ [.recorder r]) = { createRecordOption ros with recorder := some r } := by
  have : createRecordOption (plain ros ++ [.recorder r]) = { createRecordOption (plain ros) with recorder := some r } := by
    simp [createRecordOption, applyOption]
  rw [this, plain_option]

/-- What `RecordWithOptions` does but for the recorder. -/
theorem record_same {iter : Program.Order} {reg : Measures} {h : Heap} {c : Ctx Unit} {ros ros' : List Option'} {r : Option Nat}
    (ho : createRecordOption ros' = { createRecordOption ros with recorder := r }) :
    recordWithOptions iter reg h c ros' = (recordWithOptions iter reg h c ros).bind fun (h, res) =>
      .ok (h, ⟨res.err, res.sent.map fun q => (r, q.2)⟩) := by
  unfold recordWithOptions
  rw [ho]
  simp only
  split
  · rfl
  · cases anySubscribed reg (createRecordOption ros).measurements with
    | err => rfl
    | panic => rfl
    | ok b =>
      simp only [Res.bind]
      split
      · rfl
      · split
        · rcases new iter h c (createRecordOption ros).mutators with ⟨h', c', _ | e⟩ <;> rfl
        · rfl

/-- What `RecordWithOptions` sends goes to the recorder of the options. -/
theorem record_to {iter : Program.Order} {reg : Measures} {h h' : Heap} {c : Ctx Unit} {ros : List Option'} {res : RecordResult}
    (hr : recordWithOptions iter reg h c ros = .ok (h', res)) {q : Option Nat × RecordReq} (hs : res.sent = some q) :
    q.1 = meterOf ros := by
  have hself := record_same (iter := iter) (reg := reg) (h := h) (c := c) (ros := ros) (ros' := ros)
    (r := (createRecordOption ros).recorder) rfl
  rw [hr] at hself
  simp only [Res.bind, Res.ok.injEq, Prod.mk.injEq, true_and] at hself
  rw [hself] at hs
  simp only at hs
  obtain ⟨q', _, rfl⟩ := Option.map_eq_some_iff.mp hs
  exact recorder_eq ros

/-- Subscriptions by others are no matter for a worker. -/
theorem foreign {reg0 reg' : Measures} {s : Program.State} {p : Spec} (h : PInv reg0 s p)
    (hm : ∀ k, (GoMap.get s.reg k).isSome → (GoMap.get reg' k).isSome)
    (hs : ∀ k d, GoMap.get s.reg k = some d → d.subs = true → ∃ d', GoMap.get reg' k = some d' ∧ d'.subs = true) :
    PInv reg0 { s with reg := reg' } p := by
  obtain ⟨σ, hr, h1, h2⟩ := h.views
  refine ⟨h.ctxs, ⟨σ, ⟨hr.none_iff, hr.some_iff, hr.nodup, hr.refs, ?_, hr.wf⟩, h1, h2⟩, fun k hk => hm k (h.mono k hk), h.out⟩
  intro n x hx
  obtain ⟨d, hd, hd'⟩ := hr.subs n x hx
  exact hs _ d hd hd'

/-- The specification of a meter after one more call. -/
noncomputable def stepOf (k : Meter) (p : Spec) (c : Call) : Spec := match alone k c with
  | none => p
  | some c => p.step c

theorem handle_isSome {reg0 : Measures} {s : Program.State} {p : Spec} (h : PInv reg0 s p) {cmd : Cmd}
    (hg : View.Spec.GoodCmd reg0 cmd) {w : Worker} {reg : Measures} {r : Reply × List Export}
    (hh : handle s.w s.reg cmd = .ok (w, reg, r)) :
    ∀ k, (GoMap.get s.reg k).isSome → (GoMap.get reg k).isSome := by
  obtain ⟨σ, hr, _, _⟩ := h.views
  obtain ⟨w', reg', r', es, e1, _, _, e4⟩ := handle_rel hr cmd (Worker.goodCmd_mono h.mono hg)
  rw [hh] at e1
  cases e1
  exact e4

theorem step_ok {reg0 : Measures} {s : State} {p : Meter → Spec} (h : ∀ k, PInv reg0 (proj k s) (p k)) {c : Call}
    (hg : Good reg0 c) :
    (step s c = .err ∧ Impossible s c) ∨
      ∃ s', step s c = .ok s' ∧ ∀ k, PInv reg0 (proj k s') (stepOf k (p k) c) := by
  cases c with
  | newTags iter i mus =>
    cases hc : s.ctxs[i]? with
    | none => exact .inl ⟨by simp [step, hc], List.getElem?_eq_none_iff.mp hc⟩
    | some x =>
      refine .inr ⟨_, by simp only [step, hc]; rfl, fun k => ?_⟩
      rcases Program.step_new (h k) (iter := iter) (i := i) (mus := mus) hg with ⟨e, _⟩ | ⟨s', e1, e2⟩
      · simp [Program.step, proj, hc] at e
      · simp only [Program.step, proj, hc, Res.ok.injEq] at e1
        subst e1
        exact e2
  | forward iter i j =>
    have sim : ∀ k, Program.step (proj k s) (.forward iter i j) = (step s (.forward iter i j)).bind fun s' =>
        .ok (proj k s') := by
      intro k
      simp only [Program.step, step, proj]
      cases s.ctxs[i]? with
      | none => rfl
      | some x =>
        cases s.ctxs[j]? with
        | none => rfl
        | some y =>
          simp only
          cases Program.encodeCtx iter s.heap y with
          | err => rfl
          | panic => rfl
          | ok bytes =>
            simp only [Res.bind]
            split
            · cases decode bytes <;> rfl
            · rfl
    rcases Program.step_forward (h none) (iter := iter) (i := i) (j := j) hg with ⟨e1, e2⟩ | ⟨s1, e1, _⟩
    · refine .inl ⟨?_, e2⟩
      rw [sim] at e1
      cases hs : step s (.forward iter i j) <;> simp [hs, Res.bind] at e1 ⊢
    · rw [sim] at e1
      cases hs : step s (.forward iter i j) with
      | err => simp [hs, Res.bind] at e1
      | panic => simp [hs, Res.bind] at e1
      | ok s' =>
        refine .inr ⟨s', rfl, fun k => ?_⟩
        rcases Program.step_forward (h k) (iter := iter) (i := i) (j := j) hg with ⟨f1, _⟩ | ⟨s2, f1, f2⟩
        · rw [sim, hs] at f1; cases f1
        · rw [sim, hs] at f1
          cases f1
          exact f2
  | register k now vs =>
    right
    rcases Program.step_ok (h k) (c := .register now vs) hg with ⟨_, e⟩ | ⟨s', e1, e2⟩
    · exact absurd e (by simp [Program.Impossible])
    · simp only [Program.step, proj] at e1
      cases hh : handle (s.ws k) s.reg (.register now vs) with
      | err => simp [hh, Res.bind] at e1
      | panic => simp [hh, Res.bind] at e1
      | ok q =>
        obtain ⟨w, reg, r⟩ := q
        simp only [hh, Res.bind, Res.ok.injEq] at e1
        subst e1
        refine ⟨_, by simp only [step, hh, Res.bind]; rfl, fun j => ?_⟩
        by_cases hj : j = k
        · subst hj
          simpa [proj, put, stepOf, alone] using e2
        · have := foreign (h j) (handle_isSome (h k) (cmd := .register now vs) hg hh) (Conc.handle_subs hh).1
          simpa [proj, put, stepOf, alone, hj, Ne.symm hj] using this
  | unregister k now ns =>
    right
    rcases Program.step_ok (h k) (c := .unregister now ns) hg with ⟨_, e⟩ | ⟨s', e1, e2⟩
    · exact absurd e (by simp [Program.Impossible])
    · simp only [Program.step, proj] at e1
      cases hh : handle (s.ws k) s.reg (.unregister now ns) with
      | err => simp [hh, Res.bind] at e1
      | panic => simp [hh, Res.bind] at e1
      | ok q =>
        obtain ⟨w, reg, r⟩ := q
        simp only [hh, Res.bind, Res.ok.injEq] at e1
        subst e1
        refine ⟨_, by simp only [step, hh, Res.bind]; rfl, fun j => ?_⟩
        by_cases hj : j = k
        · subst hj
          simpa [proj, put, stepOf, alone] using e2
        · have := foreign (h j) (handle_isSome (h k) (cmd := .unregister now ns) trivial hh) (Conc.handle_subs hh).1
          simpa [proj, put, stepOf, alone, hj, Ne.symm hj] using this
  | read k now =>
    right
    rcases Program.step_ok (h k) (c := .read now) trivial with ⟨_, e⟩ | ⟨s', e1, e2⟩
    · exact absurd e (by simp [Program.Impossible])
    · simp only [Program.step, proj] at e1
      cases hh : (s.ws k).read now with
      | err => simp [hh, Res.bind] at e1
      | panic => simp [hh, Res.bind] at e1
      | ok ms =>
        simp only [hh, Res.bind, Res.ok.injEq] at e1
        subst e1
        refine ⟨_, by simp only [step, hh, Res.bind]; rfl, fun j => ?_⟩
        by_cases hj : j = k
        · subst hj
          simpa [proj, put, stepOf, alone] using e2
        · simpa [proj, put, stepOf, alone, hj, Ne.symm hj] using h j
  | record iter i t ros =>
    cases hc : s.ctxs[i]? with
    | none => exact .inl ⟨by simp [step, hc], List.getElem?_eq_none_iff.mp hc⟩
    | some x =>
      right
      -- the call as each meter has it
      have good : ∀ l, mutatorsOf l = mutatorsOf ros → measurementsOf l = measurementsOf ros →
          Program.Good reg0 (.record iter i t l) := by
        intro l h1 h2
        exact ⟨hg.1, by rw [h1]; exact hg.2.1, by rw [h2]; exact hg.2.2⟩
      have gp := good (plain ros) (mutators_plain ros) (measurements_plain ros)
      have others : ∀ j, j ≠ meterOf ros → ∀ h' res, recordWithOptions iter s.reg s.heap x ros = .ok (h', res) →
          PInv reg0 { proj j s with heap := h' } (stepOf j (p j) (.record iter i t ros)) := by
        intro j hj h' res hr
        have go := good (plain ros ++ [.recorder 0])
          (by rw [(options_eq _).1, other_option, (options_eq _).1]) (by rw [(options_eq _).2.2.1, other_option, (options_eq _).2.2.1])
        rcases Program.step_record (h j) (iter := iter) (i := i) (t := t) go with ⟨_, e⟩ | ⟨s1, e1, e2⟩
        · exact absurd (List.getElem?_eq_some_iff.mp hc).1 (by simpa [Program.Impossible, proj] using e)
        · have hp : (p j).step (.record iter i t (plain ros ++ [.recorder 0])) = p j := by
            simp only [Program.Spec.step]
            split
            · rfl
            · rw [if_neg]
              rintro ⟨e, _⟩
              simp [ownRecorder] at e
          have hs1 : s1 = { proj j s with heap := h' } := by
            simp only [Program.step, proj, hc, record_same (other_option ros 0), hr, Res.bind] at e1
            cases hsn : res.sent <;> simp [hsn, Program.sendRecord] at e1 <;> exact e1.symm
          rw [hp, hs1] at e2
          simpa [stepOf, alone, Ne.symm hj] using e2
      have own : ∀ s1, PInv reg0 s1 ((p (meterOf ros)).step (.record iter i t (plain ros))) →
          PInv reg0 s1 (stepOf (meterOf ros) (p (meterOf ros)) (.record iter i t ros)) := by
        intro s1 e; simpa [stepOf, alone] using e
      rcases Program.step_record (h (meterOf ros)) (iter := iter) (i := i) (t := t) gp with ⟨_, e⟩ | ⟨s1, e1, e2⟩
      · exact absurd (List.getElem?_eq_some_iff.mp hc).1 (by simpa [Program.Impossible, proj] using e)
      · simp only [Program.step, proj, hc, record_same (plain_option ros)] at e1
        cases hr : recordWithOptions iter s.reg s.heap x ros with
        | err => simp [hr, Res.bind] at e1
        | panic => simp [hr, Res.bind] at e1
        | ok q =>
          obtain ⟨h', res⟩ := q
          simp only [hr, Res.bind] at e1
          cases hsn : res.sent with
          | none =>
            simp only [hsn, Option.map_none, Program.sendRecord, Res.ok.injEq] at e1
            subst e1
            refine ⟨_, by simp only [step, hc, hr, Res.bind, hsn, sendRecord]; rfl, fun j => ?_⟩
            by_cases hj : j = meterOf ros
            · subst hj; exact own _ e2
            · exact others j hj h' res hr
          | some q =>
            obtain ⟨m, req⟩ := q
            have hm : m = meterOf ros := record_to hr hsn
            subst hm
            simp only [hsn, Option.map_some, Program.sendRecord] at e1
            cases hw : (s.ws (meterOf ros)).record req t with
            | err => simp [hw] at e1
            | panic => simp [hw] at e1
            | ok w =>
              simp only [hw, Res.ok.injEq] at e1
              subst e1
              refine ⟨_, by simp only [step, hc, hr, Res.bind, hsn, sendRecord, hw]; rfl, fun j => ?_⟩
              by_cases hj : j = meterOf ros
              · subst hj
                have := own _ e2
                simpa [proj, put] using this
              · have := others j hj h' res hr
                simpa [proj, put, hj] using this

theorem specOf_snoc (k : Meter) (cs : List Call) (c : Call) : specOf k (cs ++ [c]) = stepOf k (specOf k cs) c := by
  have run_append : ∀ (l l' : List Program.Call) (p : Spec), p.run (l ++ l') = (p.run l).run l' := by
    intro l l'
    induction l with
    | nil => intro p; rfl
    | cons c l ih => intro p; exact ih _
  unfold specOf stepOf
  rw [List.filterMap_append, run_append]
  cases hc : alone k c <;> simp [hc, Program.Spec.run]

theorem run_snoc (s : State) (cs : List Call) (c : Call) : run s (cs ++ [c]) = (run s cs).bind fun s => step s c := by
  induction cs generalizing s with
  | nil => simp only [List.nil_append, run, Res.bind]; cases step s c <;> rfl
  | cons d cs ih =>
    simp only [List.cons_append, run]
    cases step s d with
    | ok s' => exact ih s'
    | err => rfl
    | panic => rfl

theorem run_ok (reg0 : Measures) (cs : List Call) (hg : ∀ c ∈ cs, Good reg0 c) :
    (run (init reg0) cs = .err ∧ ∃ pre c s', pre ++ [c] <+: cs ∧ run (init reg0) pre = .ok s' ∧ Impossible s' c) ∨
      ∃ s', run (init reg0) cs = .ok s' ∧ ∀ k, PInv reg0 (proj k s') (specOf k cs) := by
  induction cs using List.reverseRecOn with
  | nil => exact .inr ⟨_, rfl, fun k => Program.inv_init reg0⟩
  | append_singleton cs c ih =>
    rcases ih fun d hd => hg d (by simp [hd]) with ⟨e1, pre, d, s', e2, e3⟩ | ⟨s', e1, e2⟩
    · exact .inl ⟨by simp [run_snoc, e1, Res.bind], pre, d, s', e2.trans (List.prefix_append _ _), e3⟩
    · rcases step_ok e2 (hg c (by simp)) with ⟨f1, f2⟩ | ⟨s2, f1, f2⟩
      · exact .inl ⟨by simp [run_snoc, e1, Res.bind, f1], cs, c, s', List.prefix_rfl, e1, f2⟩
      · exact .inr ⟨s2, by simp [run_snoc, e1, Res.bind, f1], fun k => by rw [specOf_snoc]; exact f2 k⟩

/-! ## Proof: subscriptions -/

theorem subscribe_only {reg reg' : Measures} {name n : Bytes} {d : Desc} (h : subscribe reg name = .ok reg')
    (hd : GoMap.get reg' n = some d) (hs : d.subs = true) :
    (∃ d0, GoMap.get reg n = some d0 ∧ d0.subs = true) ∨ n = name := by
  unfold subscribe at h
  cases hn : GoMap.get reg name with
  | none => rw [hn] at h; cases h
  | some d0 =>
    rw [hn] at h
    simp only [Res.ok.injEq] at h
    subst h
    rw [GoMap.get_set] at hd
    split at hd
    · next e => exact .inr (by first | exact e | exact e.symm)
    · exact .inl ⟨d, hd, hs⟩

theorem registerAll_only (vs : List ViewDef) {w w' : Worker} {reg reg' : Measures} {now : Int} {errs : List Bytes}
    (h : w.registerAll reg now vs = .ok (w', reg', errs)) {n : Bytes} {d : Desc}
    (hd : GoMap.get reg' n = some d) (hs : d.subs = true) :
    (∃ d0, GoMap.get reg n = some d0 ∧ d0.subs = true) ∨ ∃ v ∈ vs, ∃ m, v.measure = some m ∧ m.name = n := by
  induction vs generalizing w reg errs with
  | nil =>
    simp only [Worker.registerAll, Res.ok.injEq, Prod.mk.injEq] at h
    obtain ⟨_, rfl, _⟩ := h
    exact .inl ⟨d, hd, hs⟩
  | cons v vs ih =>
    simp only [Worker.registerAll] at h
    obtain ⟨⟨w1, r⟩, _, h⟩ := Conc.bind_eq_ok h
    cases r with
    | none =>
      obtain ⟨⟨w2, reg2, errs2⟩, h1, h⟩ := Conc.bind_eq_ok h
      cases h
      rcases ih h1 with h | ⟨v', hv', h⟩
      · exact .inl h
      · exact .inr ⟨v', by simp [hv'], h⟩
    | some a =>
      simp only at h
      cases hm : v.measure with
      | none => rw [hm] at h; cases h
      | some m =>
        rw [hm] at h
        obtain ⟨reg1, h1, h⟩ := Conc.bind_eq_ok h
        rcases ih h with ⟨d0, g1, g2⟩ | ⟨v', hv', h⟩
        · rcases subscribe_only h1 g1 g2 with h | rfl
          · exact .inl h
          · exact .inr ⟨v, by simp, m, hm, rfl⟩
        · exact .inr ⟨v', by simp [hv'], h⟩

theorem canonicalizeAll_from {vs vs' : List ViewDef} (h : canonicalizeAll vs = .ok vs') :
    ∀ v' ∈ vs', ∃ v ∈ vs, v'.measure = v.measure := by
  induction vs generalizing vs' with
  | nil => cases h; simp
  | cons v vs ih =>
    simp only [canonicalizeAll] at h
    rcases hc : canonicalize v with ⟨v1, _ | e⟩
    · rw [hc] at h
      simp only at h
      rcases hr : canonicalizeAll vs with e | vs1
      · rw [hr] at h; cases h
      · rw [hr] at h
        cases h
        obtain ⟨m, a, a', h1, h2, _⟩ := canonicalize_ok hc
        intro u hu
        rcases List.mem_cons.mp hu with rfl | hu
        · exact ⟨v, by simp, by rw [h1, h2]⟩
        · obtain ⟨v', hv', he⟩ := ih hr u hu
          exact ⟨v', by simp [hv'], he⟩
    · rw [hc] at h; cases h

/-- A flag that is set. -/
def Subs (reg : Measures) (n : Bytes) : Prop := ∃ d, GoMap.get reg n = some d ∧ d.subs = true

theorem step_subs {s s' : State} {c : Call} (h : step s c = .ok s') (n : Bytes) :
    (Subs s.reg n → Subs s'.reg n) ∧
      (Subs s'.reg n → Subs s.reg n ∨ ∃ k now vs, c = .register k now vs ∧ ∃ v ∈ vs, ∃ m, v.measure = some m ∧ m.name = n) := by
  cases c with
  | newTags iter i mus =>
    simp only [step] at h
    split at h
    · cases h
    · cases h; exact ⟨id, .inl⟩
  | forward iter i j =>
    simp only [step] at h
    split at h
    · obtain ⟨bytes, _, h⟩ := Conc.bind_eq_ok h
      split at h
      · obtain ⟨m, _, h⟩ := Conc.bind_eq_ok h
        cases h; exact ⟨id, .inl⟩
      · cases h
    · cases h
  | register k now vs =>
    simp only [step] at h
    obtain ⟨⟨w, reg, r, es⟩, hh, h⟩ := Conc.bind_eq_ok h
    cases h
    refine ⟨fun ⟨d, h1, h2⟩ => (Conc.handle_subs hh).1 n d h1 h2, fun ⟨d, h1, h2⟩ => ?_⟩
    simp only [handle, Worker.register] at hh
    obtain ⟨⟨w', reg', r'⟩, hk, e⟩ := Conc.bind_eq_ok hh
    cases e
    cases hc : canonicalizeAll vs with
    | error e =>
      rw [hc] at hk
      cases hk
      exact .inl ⟨d, h1, h2⟩
    | ok vs' =>
      rw [hc] at hk
      simp only at hk
      obtain ⟨⟨w1, reg1, errs⟩, h3, e⟩ := Conc.bind_eq_ok hk
      cases e
      rcases registerAll_only vs' h3 h1 h2 with h | ⟨v', hv', m, hm, hn⟩
      · exact .inl h
      · obtain ⟨v, hv, e⟩ := canonicalizeAll_from hc v' hv'
        exact .inr ⟨k, now, vs, rfl, v, hv, m, by rw [← e, hm], hn⟩
  | unregister k now ns =>
    simp only [step, handle] at h
    obtain ⟨⟨w, reg, r, es⟩, hh, h⟩ := Conc.bind_eq_ok h
    obtain ⟨⟨w', es'⟩, _, e⟩ := Conc.bind_eq_ok hh
    cases e
    cases h
    exact ⟨id, .inl⟩
  | record iter i t ros =>
    simp only [step] at h
    split at h
    · cases h
    · obtain ⟨⟨h', res⟩, _, h⟩ := Conc.bind_eq_ok h
      obtain ⟨ws, _, h⟩ := Conc.bind_eq_ok h
      cases h; exact ⟨id, .inl⟩
  | read k now =>
    simp only [step] at h
    obtain ⟨ms, _, h⟩ := Conc.bind_eq_ok h
    cases h; exact ⟨id, .inl⟩

theorem run_subs {s s' : State} {cs : List Call} (h : run s cs = .ok s') {n : Bytes} (hs : Subs s.reg n) : Subs s'.reg n := by
  induction cs generalizing s with
  | nil => cases h; exact hs
  | cons c cs ih =>
    obtain ⟨s1, h1, h2⟩ := Conc.bind_eq_ok h
    exact ih h2 ((step_subs h1 n).1 hs)

theorem run_subs_only {s s' : State} {cs : List Call} (h : run s cs = .ok s') {n : Bytes} (hs : Subs s'.reg n) :
    Subs s.reg n ∨ ∃ k now vs, .register k now vs ∈ cs ∧ ∃ v ∈ vs, ∃ m, v.measure = some m ∧ m.name = n := by
  induction cs generalizing s with
  | nil => cases h; exact .inl hs
  | cons c cs ih =>
    obtain ⟨s1, h1, h2⟩ := Conc.bind_eq_ok h
    rcases ih h2 with h | ⟨k, now, vs, hm, hv⟩
    · rcases (step_subs h1 n).2 h with h | ⟨k, now, vs, rfl, hv⟩
      · exact .inl h
      · exact .inr ⟨k, now, vs, by simp, hv⟩
    · exact .inr ⟨k, now, vs, by simp [hm], hv⟩

theorem run_append (s : State) (cs ds : List Call) : run s (cs ++ ds) = (run s cs).bind fun s => run s ds := by
  induction cs generalizing s with
  | nil => rfl
  | cons d cs ih =>
    simp only [List.cons_append, run]
    cases step s d with
    | ok s' => exact ih s'
    | err => rfl
    | panic => rfl

/-- A view that was ever registered has its measure's flag set for ever. -/
theorem registered_subs {reg0 : Measures} {cs : List Call} (hg : ∀ c ∈ cs, Good reg0 c) {s : State}
    (h : run (init reg0) cs = .ok s) {pre : List Call} (hp : pre <+: cs) {k : Meter} {name : Bytes} {x : Program.PView}
    (hx : (specOf k pre).views name = some x) : Subs s.reg x.measure.name := by
  obtain ⟨rest, rfl⟩ := hp
  rw [run_append] at h
  obtain ⟨s1, h1, h2⟩ := Conc.bind_eq_ok h
  apply run_subs h2
  rcases run_ok reg0 pre fun c hc => hg c (by simp [hc]) with ⟨e, _⟩ | ⟨s', e1, e2⟩
  · rw [h1] at e; cases e
  · rw [h1] at e1
    cases e1
    obtain ⟨σ, hr, hσ, _⟩ := (e2 k).views
    rw [hσ] at hx
    obtain ⟨y, hy, rfl⟩ := Option.map_eq_some_iff.mp hx
    exact hr.subs name y hy

/-- What error a recording returns. -/
theorem record_err {reg0 : Measures} {s s' : State} {p : Spec} {iter : Program.Order} {i : Nat} {t : Int} {ros : List Option'}
    (h : PInv reg0 (proj none s) p) (hg : Good reg0 (.record iter i t ros)) (hs : step s (.record iter i t ros) = .ok s') :
    ∃ e, s'.errs = s.errs ++ [e] ∧ (e ≠ none ↔
      (∃ m, some m ∈ measurementsOf ros ∧ Subs s.reg m.m.name) ∧ ∃ mu ∈ mutatorsOf ros, ¬ GoodMut mu) := by
  simp only [step] at hs
  cases hc : s.ctxs[i]? with
  | none => rw [hc] at hs; cases hs
  | some c =>
    rw [hc] at hs
    obtain ⟨⟨h', res⟩, hr, hs⟩ := Conc.bind_eq_ok hs
    obtain ⟨ws, _, hs⟩ := Conc.bind_eq_ok hs
    cases hs
    refine ⟨res.err, rfl, ?_⟩
    obtain ⟨v, hv, c1, c2, c3⟩ := forall₂_get h.ctxs hc
    change CtxOK s.heap c at c1
    change view s.heap c = v at c2
    obtain ⟨o1, o2, o3, _⟩ := options_eq ros
    have hreal : RealMeasurements s.reg (createRecordOption ros).measurements := by
      intro m hm
      rw [← o3] at hm
      obtain ⟨x, d, e1, e2⟩ := hg.2.2 m hm
      obtain ⟨d', hd'⟩ := Option.isSome_iff_exists.mp (h.mono x.m.name (by simp [e2]))
      exact ⟨x, d', e1, hd'⟩
    rw [o1, o3]
    unfold recordWithOptions at hr
    obtain ⟨b, hb, hiff⟩ := anySubscribed_eq hreal
    have hiff' : b = true ↔ ∃ m, some m ∈ (createRecordOption ros).measurements ∧ Subs s.reg m.m.name := by
      rw [hiff]
      constructor
      · rintro ⟨x, d, h1, h2, h3⟩; exact ⟨x, h1, d, h2, h3⟩
      · rintro ⟨x, h1, d, h2, h3⟩; exact ⟨x, d, h1, h2, h3⟩
    rw [← hiff']
    simp only at hr
    split at hr
    · next h0 =>
      cases hr
      rw [List.length_eq_zero_iff.mp h0] at hb
      cases hb
      simp
    · rw [hb] at hr
      simp only [Res.bind] at hr
      cases b with
      | false => cases hr; simp
      | true =>
        simp only [Bool.not_true, Bool.false_eq_true, if_false] at hr
        split at hr
        · have hfail := new_fails_iff iter hg.1 s.heap c c1 (createRecordOption ros).mutators
          rcases hn : new iter s.heap c (createRecordOption ros).mutators with ⟨heap', ctx', _ | e⟩
          · rw [hn] at hr hfail
            cases hr
            simp only [ne_eq, not_true_eq_false, true_and, false_iff]
            intro hbad
            obtain ⟨e, he⟩ := hfail.mpr (.inr hbad)
            cases he
          · rw [hn] at hr hfail
            cases hr
            simp only [ne_eq, reduceCtorEq, not_false_eq_true, true_and, true_iff]
            rcases hfail.mp ⟨e, rfl⟩ with ⟨k, b, t, hkb, hbad⟩ | hbad
            · rw [c2] at hkb
              exact absurd (c3 k b t hkb) hbad
            · exact hbad
        · next hmu =>
          cases hr
          have : (createRecordOption ros).mutators = [] := List.length_eq_zero_iff.mp (by omega)
          simp [this]

/-! ## The theorems -/

/-- C106. Whatever a process does with its meters, no call panics, and what is read from a meter is, at each read, what C81 says
of the program that has no meter but this one: registrations, recordings and reads with other meters leave no trace in it.
(The other case: a call names a context that there is not, or would need a slice of 2^63 bytes.) -/
theorem separate (reg : Measures) (cs : List Call) (hg : ∀ c ∈ cs, Good reg c) :
    (∃ s, run (init reg) cs = .ok s ∧
      ∀ k, List.Forall₂ (fun q ms => MetricsFor q.2 q.1 ms) (specOf k cs).reads (s.out k)) ∨
    (run (init reg) cs = .err ∧
      ∃ pre c s, pre ++ [c] <+: cs ∧ run (init reg) pre = .ok s ∧ Impossible s c) := by
  rcases run_ok reg cs hg with h | ⟨s, h1, h2⟩
  · exact .inr h
  · exact .inl ⟨s, h1, fun k => (h2 k).out⟩

/-- A recording with a bad mutator returns an error if a view of one of its measures was ever registered, with any meter. -/
theorem error_if (reg : Measures) (cs : List Call) (iter : Program.Order) (i : Nat) (t : Int) (ros : List Option')
    (hg : ∀ c ∈ cs ++ [.record iter i t ros], Good reg c) {s s' : State} (hr : run (init reg) cs = .ok s)
    (hs : step s (.record iter i t ros) = .ok s') {mu : Mutator} (hmu : mu ∈ mutatorsOf ros) (hbad : ¬ GoodMut mu)
    {pre : List Call} (hp : pre <+: cs) {k : Meter} {name : Bytes} {x : Program.PView} (hx : (specOf k pre).views name = some x)
    {m : Measurement} (hm : some m ∈ measurementsOf ros) (hn : m.m.name = x.measure.name) :
    ∃ e, s'.errs = s.errs ++ [some e] := by
  rcases run_ok reg cs fun c hc => hg c (by simp [hc]) with ⟨e, _⟩ | ⟨s1, e1, e2⟩
  · rw [hr] at e; cases e
  · rw [hr] at e1
    cases e1
    obtain ⟨e, h1, h2⟩ := record_err (e2 none) (hg _ (by simp)) hs
    have := h2.mpr ⟨⟨m, hm, by rw [hn]; exact registered_subs (fun c hc => hg c (by simp [hc])) hr hp hx⟩, mu, hmu, hbad⟩
    obtain ⟨e', rfl⟩ := Option.ne_none_iff_exists'.mp this
    exact ⟨e', h1⟩

/-- A recording returns an error only if it has a bad mutator and one of its measures was in a view given to a `Register`, of any
meter. -/
theorem error_only_if (reg : Measures) (hreg : ∀ n d, GoMap.get reg n = some d → d.subs = false) (cs : List Call)
    (iter : Program.Order) (i : Nat) (t : Int) (ros : List Option')
    (hg : ∀ c ∈ cs ++ [.record iter i t ros], Good reg c) {s s' : State} (hr : run (init reg) cs = .ok s)
    (hs : step s (.record iter i t ros) = .ok s') {e : Err} (he : s'.errs = s.errs ++ [some e]) :
    (∃ mu ∈ mutatorsOf ros, ¬ GoodMut mu) ∧ ∃ m, some m ∈ measurementsOf ros ∧
      ∃ k now vs, .register k now vs ∈ cs ∧ ∃ v ∈ vs, ∃ m', v.measure = some m' ∧ m'.name = m.m.name := by
  rcases run_ok reg cs fun c hc => hg c (by simp [hc]) with ⟨e, _⟩ | ⟨s1, e1, e2⟩
  · rw [hr] at e; cases e
  · rw [hr] at e1
    cases e1
    obtain ⟨e', h1, h2⟩ := record_err (e2 none) (hg _ (by simp)) hs
    rw [he, List.append_cancel_left_eq, List.cons.injEq] at h1
    obtain ⟨⟨m, hm, hsub⟩, hbad⟩ := h2.mp (by rw [← h1.1]; simp)
    refine ⟨hbad, m, hm, ?_⟩
    rcases run_subs_only hr hsub with ⟨d, h1, h2⟩ | h
    · rw [hreg _ d h1] at h2; cases h2
    · exact h

/-! ## Instances, and what the other meters still change -/

open Verif.Props.Program (keyA keyB)
open Verif.Props.ViewMetric

theorem run_ctxs {s s' : State} {cs : List Call} (h : run s cs = .ok s') : s.ctxs.length ≤ s'.ctxs.length := by
  have one : ∀ {s s' : State} {c : Call}, step s c = .ok s' → s.ctxs.length ≤ s'.ctxs.length := by
    intro s s' c h
    cases c with
    | newTags iter i mus =>
      simp only [step] at h
      split at h
      · cases h
      · cases h; simp
    | forward iter i j =>
      simp only [step] at h
      split at h
      · obtain ⟨bytes, _, h⟩ := Conc.bind_eq_ok h
        split at h
        · obtain ⟨m, _, h⟩ := Conc.bind_eq_ok h
          cases h; simp
        · cases h
      · cases h
    | register k now vs =>
      simp only [step] at h
      obtain ⟨q, hh, h⟩ := Conc.bind_eq_ok h
      cases h; exact Nat.le_refl _
    | unregister k now ns =>
      simp only [step] at h
      obtain ⟨q, hh, h⟩ := Conc.bind_eq_ok h
      cases h; exact Nat.le_refl _
    | record iter i t ros =>
      simp only [step] at h
      split at h
      · cases h
      · obtain ⟨q, _, h⟩ := Conc.bind_eq_ok h
        obtain ⟨ws, _, h⟩ := Conc.bind_eq_ok h
        cases h; exact Nat.le_refl _
    | read k now =>
      simp only [step] at h
      obtain ⟨ms, _, h⟩ := Conc.bind_eq_ok h
      cases h; exact Nat.le_refl _
  induction cs generalizing s with
  | nil => cases h; exact Nat.le_refl _
  | cons c cs ih =>
    obtain ⟨s1, h1, h2⟩ := Conc.bind_eq_ok h
    exact Nat.le_trans (one h1) (ih h2)

/-- Calls that need no context but the first. -/
def Plain : Call → Prop
  | .newTags .. => False
  | .forward .. => False
  | .record _ i _ _ => i = 0
  | _ => True

theorem run_plain {reg : Measures} {cs : List Call} (hg : ∀ c ∈ cs, Good reg c) (hp : ∀ c ∈ cs, Plain c) :
    ∃ s, run (init reg) cs = .ok s := by
  rcases run_ok reg cs hg with ⟨_, pre, c, s, h1, h2, h3⟩ | ⟨s, h, _⟩
  · have hc := hp c (h1.subset (by simp))
    have hl := run_ctxs h2
    cases c <;> simp only [Plain, Impossible] at hc h3
    simp only [init, List.length_cons, List.length_nil] at hl
    omega
  · exact ⟨s, h⟩

/-- The default meter and another one have a view of the same name; one recording is for each, the second with the other meter
as recorder; the other meter's view is unregistered before the reads. -/
def two : List Call :=
  [.register none 5 [view1], .register (some 1) 5 [view1],
    .record id 0 7 [.measurements [some ⟨.fin 7, latency⟩]],
    .record id 0 8 [.recorder 1, .measurements [some ⟨.fin 3, latency⟩]],
    .read (some 1) 9, .unregister (some 1) 10 [str "latency"],
    .record id 0 11 [.measurements [some ⟨.fin 4, latency⟩]],
    .read none 12, .read (some 1) 13]

theorem view1_good : ∀ v ∈ [view1], View.Spec.GoodView regUnsub v := by
  intro v hv
  simp only [List.mem_singleton] at hv; subst hv
  refine ⟨?_, ?_⟩
  · intro m hm; simp only [view1, Option.some.injEq] at hm; subst hm
    exact ⟨by decide, _, rfl⟩
  · intro a ha; simp only [view1, Option.some.injEq] at ha; subst ha
    exact ⟨rfl, by decide⟩

theorem latency_real (x : F64) : RealMeasurements regUnsub [some ⟨x, latency⟩] := by
  intro m hm
  simp only [List.mem_singleton] at hm
  exact ⟨_, ⟨false, str "latency", [], str "ms"⟩, hm, rfl⟩

theorem two_good : ∀ c ∈ two, Good regUnsub c := by
  intro c hc
  simp only [two, List.mem_cons, List.not_mem_nil, or_false] at hc
  rcases hc with rfl | rfl | rfl | rfl | rfl | rfl | rfl | rfl | rfl
  · exact view1_good
  · exact view1_good
  · exact ⟨fun m => .refl m, by simp [mutatorsOf, lastOf], latency_real _⟩
  · exact ⟨fun m => .refl m, by simp [mutatorsOf, lastOf], latency_real _⟩
  · trivial
  · trivial
  · exact ⟨fun m => .refl m, by simp [mutatorsOf, lastOf], latency_real _⟩
  · trivial
  · trivial

/-- Two reads of the other meter, with its own sample and with nothing; one of the default meter, with its two samples. -/
theorem two_reads :
    (∃ σ σ' x f, (specOf (some 1) two).reads = [(9, σ), (13, σ')] ∧ σ (str "latency") = some x ∧
      x.recs = [(f, ⟨.fin 3, [], 8⟩)] ∧ σ' (str "latency") = none) ∧
    ∃ σ x f, (specOf none two).reads = [(12, σ)] ∧ σ (str "latency") = some x ∧
      x.recs = [(f, ⟨.fin 7, [], 7⟩), (f, ⟨.fin 4, [], 11⟩)] := by
  have c1 : canonicalizeAll [view1] = .ok [view1'] := by simp [canonicalizeAll, canon_view1]
  have g3 : ∀ mu ∈ ([] : List Mutator), GoodMut mu := by simp
  have e1 : two.filterMap (alone (some 1)) = [.register 5 [view1], .record id 0 8 [.measurements [some ⟨.fin 3, latency⟩]],
      .read 9, .unregister 10 [str "latency"], .read 13] := rfl
  have e2 : two.filterMap (alone none) = [.register 5 [view1], .record id 0 7 [.measurements [some ⟨.fin 7, latency⟩]],
      .record id 0 11 [.measurements [some ⟨.fin 4, latency⟩]], .read 12] := rfl
  have m1 : ∀ x, mutatorsOf [.measurements [some ⟨.fin x, latency⟩]] = [] := fun _ => rfl
  constructor
  · simp only [specOf, e1, Program.Spec.run, Program.Spec.step, Program.Spec.init, List.getElem?_cons_zero, c1, m1]
    rw [if_pos ⟨rfl, g3⟩]
    simp only [List.nil_append]
    exact ⟨_, _, _, _, rfl, rfl, rfl, rfl⟩
  · simp only [specOf, e2, Program.Spec.run, Program.Spec.step, Program.Spec.init, List.getElem?_cons_zero, c1, m1]
    rw [if_pos ⟨rfl, g3⟩]
    simp only [List.getElem?_cons_zero, m1]
    rw [if_pos ⟨rfl, g3⟩]
    simp only [List.nil_append]
    exact ⟨_, _, _, rfl, rfl, rfl⟩

example : ∃ s, run (init regUnsub) two = .ok s ∧
    ∀ k, List.Forall₂ (fun q ms => MetricsFor q.2 q.1 ms) (specOf k two).reads (s.out k) := by
  rcases separate regUnsub two two_good with h | ⟨h, _⟩
  · exact h
  · obtain ⟨s, e⟩ := run_plain two_good (by simp [two, Plain])
    rw [h] at e; cases e

/-- A recording for the default meter, with a value that no tag can have. -/
def badRecord : Call := .record id 0 7 [.tags [.upsert keyA [7] []], .measurements [some ⟨.fin 7, latency⟩]]

theorem badRecord_good : Good regUnsub badRecord := by
  refine ⟨fun m => .refl m, fun mu hmu => ?_, latency_real _⟩
  simp only [mutatorsOf, lastOf, List.filterMap_cons, List.filterMap_nil, List.getLast?_singleton, Option.getD_some,
    List.mem_singleton] at hmu
  subst hmu
  change GoodName keyA.name
  unfold GoodName; decide

theorem others_good : ∀ c ∈ [.register (some 1) 5 [view1], badRecord], Good regUnsub c := by
  intro c hc
  simp only [List.mem_cons, List.not_mem_nil, or_false] at hc
  rcases hc with rfl | rfl
  · exact view1_good
  · exact badRecord_good

/-- It fails if another meter has a view of the measure. -/
theorem badRecord_fails : ∃ s s' e, run (init regUnsub) [.register (some 1) 5 [view1]] = .ok s ∧
    step s badRecord = .ok s' ∧ s.errs = [] ∧ s'.errs = s.errs ++ [some e] := by
  obtain ⟨s', h2⟩ := run_plain others_good (by simp [badRecord, Plain])
  obtain ⟨s1, g1, g2⟩ := Conc.bind_eq_ok h2
  obtain ⟨s2, g3, g4⟩ := Conc.bind_eq_ok g2
  cases g4
  have c1 : canonicalizeAll [view1] = .ok [view1'] := by simp [canonicalizeAll, canon_view1]
  have hpre : run (init regUnsub) [.register (some 1) 5 [view1]] = .ok s1 := by simp only [run, g1, Res.bind]
  have herr1 : s1.errs = [] := by
    simp only [step] at g1
    obtain ⟨q, _, g1⟩ := Conc.bind_eq_ok g1
    cases g1; rfl
  obtain ⟨e, he⟩ := error_if regUnsub [.register (some 1) 5 [view1]] _ _ _ _ others_good hpre g3
    (mu := .upsert keyA [7] []) (by simp [mutatorsOf, lastOf]) (by simp [GoodMut, GoodValue])
    (List.prefix_refl _) (k := some 1) (name := str "latency") (x := ⟨view1', _, latency, []⟩)
    (by
      simp only [specOf, alone, List.filterMap_cons, if_pos, List.filterMap_nil, Program.Spec.run, Program.Spec.step, c1]
      rfl)
    (m := ⟨.fin 7, latency⟩) (by simp [measurementsOf, lastOf]) rfl
  exact ⟨s1, s', e, hpre, g3, herr1, he⟩

example : ∃ m, some m ∈ [some (⟨.fin 7, latency⟩ : Measurement)] ∧
    ∃ k now vs, .register k now vs ∈ [Call.register (some 1) 5 [view1]] ∧
      ∃ v ∈ vs, ∃ m', v.measure = some m' ∧ m'.name = m.m.name := by
  obtain ⟨s, s', e, h1, h2, _, h3⟩ := badRecord_fails
  refine (error_only_if regUnsub ?_ _ _ _ _ _ others_good h1 h2 h3).2
  intro n d h
  simp only [regUnsub, GoMap.get] at h
  split at h
  · cases h; rfl
  · cases h

/-- The error that a recording for one meter returns depends on what was registered with another: for the meter of the recording
these two programs are the same. -/
theorem error_shared : ∃ reg cs cs' s s' e, (∀ c ∈ cs ++ cs', Good reg c) ∧
    cs.filterMap (alone none) = cs'.filterMap (alone none) ∧
    run (init reg) cs = .ok s ∧ run (init reg) cs' = .ok s' ∧ s.errs = [none] ∧ s'.errs = [some e] := by
  obtain ⟨s1, s', e, h1, h2, h3, h4⟩ := badRecord_fails
  refine ⟨regUnsub, [badRecord], [.register (some 1) 5 [view1], badRecord], _, s', e, ?_, rfl, rfl, ?_, rfl, by rw [h4, h3]; rfl⟩
  · intro c hc
    rcases List.mem_append.mp hc with hc | hc
    · rw [List.mem_singleton] at hc
      subst hc
      exact badRecord_good
    · exact others_good c hc
  · have := run_snoc (init regUnsub) [.register (some 1) 5 [view1]] badRecord
    rw [h1] at this
    exact this.trans h2

end Verif.Props.Meters
