import Verif.View.WorkerLemmas
import Verif.Props.Tag

/-!
# Properties of views and recording (C10, C16, C17, C20, C22)
-/

namespace Verif.Props.Worker
open Verif Verif.Tag Verif.Stats Verif.View Verif.View.Spec Verif.Props.Rows

/-! ## Histories -/

/-- The worker handling a history of commands one after the other; replies and exports of each. -/
def run (w : Worker) (reg : Measures) :
    List Cmd → Res (Worker × Measures × List (Reply × List Export))
  | [] => .ok (w, reg, [])
  | c :: cs => (handle w reg c).bind fun (w, reg, r, es) =>
      (run w reg cs).bind fun (w, reg, rs) => .ok (w, reg, (r, es) :: rs)

/-- The abstract state after a history. -/
def specRun (σ : SState) : List Cmd → SState
  | [] => σ
  | c :: cs => specRun (Spec.step σ c) cs

/-- The replies to a history. -/
def RepliesOK (σ : SState) : List Cmd → List Reply → Prop
  | [], rs => rs = []
  | c :: cs, rs => ∃ r rs', rs = r :: rs' ∧ ReplyOK σ c r ∧ RepliesOK (Spec.step σ c) cs rs'

/-- The samples one recording gives the views of a measure. -/
def recorded (tm : Option TMap) (att : Attachments) (t : Int) (measure : Bytes)
    (ms : List (Option Measurement)) : List (Option TMap × Sample F64) :=
  ms.filterMap fun m => match m with
    | some m => if m.m.name = measure then some (tm, ⟨m.v, att, t⟩) else none
    | none => none

/-- What a history records for a measure: every measurement of it, with the tags, attachments and
time of its `Record` call, in order. -/
def samplesOf (measure : Bytes) : List Cmd → List (Option TMap × Sample F64)
  | [] => []
  | .record t r :: cs =>
    recorded r.tags r.attachments t measure r.ms ++ samplesOf measure cs
  | _ :: cs => samplesOf measure cs

/-- The command unregisters the view named `n`. -/
def Unregisters (n : Bytes) : Cmd → Prop
  | .unregister _ ns => n ∈ ns
  | _ => False

/-- The command tries to register a view that is named `n` after filling in the default name. -/
def Registers (n : Bytes) : Cmd → Prop
  | .register _ vs => ∃ v ∈ vs, v.name = n ∨ (v.name = [] ∧ ∃ m, v.measure = some m ∧ m.name = n)
  | _ => False

theorem specRun_append (σ : SState) (xs ys : List Cmd) :
    specRun σ (xs ++ ys) = specRun (specRun σ xs) ys := by
  induction xs generalizing σ with
  | nil => rfl
  | cons x xs ih => exact ih _

theorem goodCmd_mono {reg reg' : Measures} {c : Cmd}
    (hr : ∀ k, (GoMap.get reg k).isSome → (GoMap.get reg' k).isSome) (h : GoodCmd reg c) :
    GoodCmd reg' c := by
  cases c with
  | register now vs => exact fun v hv => goodView_mono hr (h v hv)
  | record t r => exact h
  | _ => exact True.intro

theorem run_rel {w : Worker} {reg : Measures} {σ : SState} (h : Rel w reg σ) (cs : List Cmd)
    (hg : ∀ c ∈ cs, GoodCmd reg c) :
    ∃ w' reg' rs, run w reg cs = .ok (w', reg', rs) ∧ Rel w' reg' (specRun σ cs) ∧
      RepliesOK σ cs (rs.map Prod.fst) ∧ (∀ k, (GoMap.get reg k).isSome → (GoMap.get reg' k).isSome) := by
  induction cs generalizing w reg σ with
  | nil => exact ⟨w, reg, [], rfl, h, rfl, fun _ hk => hk⟩
  | cons c cs ih =>
    obtain ⟨w1, reg1, r, es, h1, h2, h3, h4⟩ := handle_rel h c (hg c (by simp))
    obtain ⟨w2, reg2, rs, h5, h6, h7, h8⟩ := ih h2 (fun c hc => goodCmd_mono h4 (hg c (by simp [hc])))
    refine ⟨w2, reg2, (r, es) :: rs, ?_, h6, ⟨r, _, rfl, h3, h7⟩, fun k hk => h8 k (h4 k hk)⟩
    simp only [run, h1, h5, Res.bind]

/-- C16, C17. For every history of commands the worker does not panic, and every reply is the one
of the abstract machine, in which a view is its definition and the list of its recordings. -/
theorem worker_refines_spec (reg : Measures) (cs : List Cmd) (hg : ∀ c ∈ cs, GoodCmd reg c) :
    ∃ w' reg' rs, run newWorker reg cs = .ok (w', reg', rs) ∧
      RepliesOK Spec.empty cs (rs.map Prod.fst) := by
  obtain ⟨w', reg', rs, h1, _, h3, _⟩ := run_rel (rel_init reg) cs hg
  exact ⟨w', reg', rs, h1, h3⟩

theorem repliesOK_append {σ : SState} {xs ys : List Cmd} {rs : List Reply}
    (h : RepliesOK σ (xs ++ ys) rs) :
    ∃ rs1 rs2, rs = rs1 ++ rs2 ∧ rs1.length = xs.length ∧ RepliesOK σ xs rs1 ∧
      RepliesOK (specRun σ xs) ys rs2 := by
  induction xs generalizing σ rs with
  | nil => exact ⟨[], rs, rfl, rfl, rfl, h⟩
  | cons x xs ih =>
    obtain ⟨r, rs', rfl, h1, h2⟩ := h
    obtain ⟨rs1, rs2, rfl, h3, h4, h5⟩ := ih h2
    exact ⟨r :: rs1, rs2, rfl, by simp [h3], ⟨r, rs1, rfl, h1, h4⟩, h5⟩

/-! ## The abstract machine, by history -/

theorem registerAll_keeps (vs : List ViewDef) (σ : SState) {n : Bytes} {x : SView}
    (h : σ n = some x) : (Spec.registerAll σ vs).1 n = some x := by
  induction vs generalizing σ with
  | nil => exact h
  | cons v vs ih =>
    simp only [Spec.registerAll]
    split
    · split
      · exact ih σ h
      · exact ih σ h
    · next hn _ _ =>
      apply ih
      simp only [Spec.update]
      split
      · next he => subst he; rw [h] at hn; simp at hn
      · exact h
    · exact ih σ h

theorem registerAll_absent (vs : List ViewDef) (σ : SState) {n : Bytes} (h : σ n = none)
    (hv : ∀ v ∈ vs, v.name ≠ n) : (Spec.registerAll σ vs).1 n = none := by
  induction vs generalizing σ with
  | nil => exact h
  | cons v vs ih =>
    have hv' : ∀ v ∈ vs, v.name ≠ n := fun u hu => hv u (by simp [hu])
    simp only [Spec.registerAll]
    split
    · split
      · exact ih σ h hv'
      · exact ih σ h hv'
    · apply ih _ _ hv'
      simp only [Spec.update]
      rw [if_neg (fun he => hv v (by simp) he.symm)]
      exact h
    · exact ih σ h hv'

theorem unregister_get (ns : List Bytes) (σ : SState) (n : Bytes) :
    Spec.unregister σ ns n = if n ∈ ns then none else σ n := by
  induction ns generalizing σ with
  | nil => simp [Spec.unregister]
  | cons m ns ih =>
    simp only [Spec.unregister, ih, Spec.update, List.mem_cons]
    by_cases h1 : n ∈ ns <;> by_cases h2 : n = m <;> simp [h1, h2]

theorem record_get (ms : List (Option Measurement)) (σ : SState) (tm : Option TMap) (att : Attachments)
    (t : Int) (n : Bytes) :
    Spec.record σ tm att t ms n = (σ n).map fun x =>
      { x with recs := x.recs ++ recorded tm att t x.measure.name ms } := by
  induction ms generalizing σ with
  | nil => cases hx : σ n <;> simp [Spec.record, hx, recorded]
  | cons m ms ih =>
    cases m with
    | none => simp only [Spec.record, ih, recorded, List.filterMap_cons]
    | some m =>
      simp only [Spec.record, ih, addRec, recorded]
      cases hx : σ n with
      | none => simp
      | some x =>
        by_cases hm : x.measure.name = m.m.name
        · simp [hm]
        · simp [hm, Ne.symm hm]

theorem step_keeps {σ : SState} {n : Bytes} {x : SView} (h : σ n = some x) {c : Cmd}
    (hc : ¬ Unregisters n c) :
    Spec.step σ c n = some { x with recs := x.recs ++ samplesOf x.measure.name [c] } := by
  cases c with
  | register now vs =>
    simp only [Spec.step, samplesOf, List.append_nil]
    cases canonicalizeAll vs with
    | error e => exact h
    | ok vs' => exact registerAll_keeps _ _ h
  | unregister now ns =>
    simp only [Unregisters] at hc
    simp [Spec.step, samplesOf, unregister_get, hc, h]
  | record t r => simp [Spec.step, samplesOf, record_get, h]
  | _ => simpa [Spec.step, samplesOf] using h

theorem samplesOf_cons (mn : Bytes) (c : Cmd) (cs : List Cmd) :
    samplesOf mn (c :: cs) = samplesOf mn [c] ++ samplesOf mn cs := by
  cases c <;> simp [samplesOf]

/-- A registered view that is not unregistered collects exactly what is recorded for its measure. -/
theorem specRun_collects {σ : SState} {n : Bytes} {x : SView} (h : σ n = some x) (cs : List Cmd)
    (hc : ∀ c ∈ cs, ¬ Unregisters n c) :
    specRun σ cs n = some { x with recs := x.recs ++ samplesOf x.measure.name cs } := by
  induction cs generalizing σ x with
  | nil => simpa [specRun, samplesOf] using h
  | cons c cs ih =>
    have := ih (step_keeps h (hc c (by simp))) (fun c hc' => hc c (by simp [hc']))
    rw [specRun, this, samplesOf_cons x.measure.name c cs, ← List.append_assoc]

theorem canonicalize_name {v v' : ViewDef} (h : canonicalize v = (v', none)) :
    v'.name = v.name ∨ (v.name = [] ∧ ∃ m, v.measure = some m ∧ m.name = v'.name) := by
  unfold canonicalize at h
  rcases hm : v.measure with _ | m
  · simp [hm] at h
  · rcases ha : v.agg with _ | a
    · simp [hm, ha] at h
    · simp only [hm, ha] at h
      split at h
      · simp at h
      · split at h
        · simp at h
        · simp only [Prod.mk.injEq, and_true] at h
          subst h
          simp only [withDefaults]
          split
          · next he => exact Or.inr ⟨he, m, rfl, rfl⟩
          · exact Or.inl rfl

theorem canonicalizeAll_names {vs vs' : List ViewDef} (h : canonicalizeAll vs = .ok vs') :
    ∀ v' ∈ vs', ∃ v ∈ vs, v'.name = v.name ∨ (v.name = [] ∧ ∃ m, v.measure = some m ∧ m.name = v'.name) := by
  induction vs generalizing vs' with
  | nil => simp only [canonicalizeAll, Except.ok.injEq] at h; subst h; simp
  | cons v vs ih =>
    simp only [canonicalizeAll] at h
    rcases hc : canonicalize v with ⟨v1, _ | e⟩
    · rw [hc] at h
      simp only at h
      rcases hr : canonicalizeAll vs with e | vs1
      · rw [hr] at h; simp at h
      · rw [hr] at h
        simp only [Except.ok.injEq] at h
        subst h
        intro u hu
        simp only [List.mem_cons] at hu
        rcases hu with rfl | hu
        · exact ⟨v, by simp, canonicalize_name hc⟩
        · obtain ⟨w, hw, h1⟩ := ih hr u hu
          exact ⟨w, by simp [hw], h1⟩
    · rw [hc] at h; simp at h

theorem step_absent {σ : SState} {n : Bytes} (h : σ n = none) {c : Cmd} (hc : ¬ Registers n c) :
    Spec.step σ c n = none := by
  cases c with
  | register now vs =>
    simp only [Spec.step]
    cases he : canonicalizeAll vs with
    | error e => exact h
    | ok vs' =>
      apply registerAll_absent _ _ h
      intro v' hv' hn
      obtain ⟨v, hv, h1⟩ := canonicalizeAll_names he v' hv'
      apply hc
      refine ⟨v, hv, ?_⟩
      rw [hn] at h1
      rcases h1 with h1 | h1
      · exact Or.inl h1.symm
      · exact Or.inr h1
  | unregister now ns => simp only [Spec.step, unregister_get, h]; split <;> rfl
  | record t r => simp [Spec.step, record_get, h]
  | _ => simpa [Spec.step] using h

theorem specRun_absent {σ : SState} {n : Bytes} (h : σ n = none) (cs : List Cmd)
    (hc : ∀ c ∈ cs, ¬ Registers n c) : specRun σ cs n = none := by
  induction cs generalizing σ with
  | nil => exact h
  | cons c cs ih => exact ih (step_absent h (hc c (by simp))) (fun c hc' => hc c (by simp [hc']))

/-! ## C17 -/

/-- C17. A view registered after any history in which its name was free, and not unregistered since,
reports exactly the rows of the recordings made for its measure since it was registered: one
aggregated row per distinct tag values, every sample once; nothing recorded earlier is in it. -/
theorem view_collects_exactly (reg : Measures) (pre mid : List Cmd) (now : Int) (v v' : ViewDef)
    (hg : ∀ c ∈ pre ++ [.register now [v]] ++ mid ++ [.retrieve v'.name], GoodCmd reg c)
    (hv : canonicalize v = (v', none)) (hfree : specRun Spec.empty pre v'.name = none)
    (hmid : ∀ c ∈ mid, ¬ Unregisters v'.name c) :
    ∃ w reg' rs a m rows,
      run newWorker reg (pre ++ [.register now [v]] ++ mid ++ [.retrieve v'.name]) = .ok (w, reg', rs) ∧
      v'.agg = some a ∧ v'.measure = some m ∧
      (rs.map Prod.fst).getLast? = some (.rows (some rows)) ∧
      RowsOf a v'.tagKeys (samplesOf m.name mid) rows := by
  obtain ⟨w, reg', rs, h1, h2⟩ := worker_refines_spec reg _ hg
  obtain ⟨m, a0, a, _, hm, _, ha, _⟩ := canonicalize_ok hv
  obtain ⟨rs1, rs2, hrs, _, _, h3⟩ := repliesOK_append h2
  obtain ⟨r, rs', rfl, hr, he⟩ := h3
  cases he
  have hσ : specRun Spec.empty (pre ++ [.register now [v]] ++ mid) v'.name =
      some ⟨v', a, m, samplesOf m.name mid⟩ := by
    rw [specRun_append, specRun_append]
    have h4 : specRun (specRun Spec.empty pre) [.register now [v]] v'.name = some ⟨v', a, m, []⟩ := by
      simp [specRun, Spec.step, canonicalizeAll, hv, Spec.registerAll, hfree, ha, hm, Spec.update]
    simpa using specRun_collects h4 mid hmid
  simp only [ReplyOK, hσ] at hr
  obtain ⟨rows, rfl, h5⟩ := hr
  exact ⟨w, reg', rs, a, m, rows, h1, ha, hm, by rw [hrs]; simp, h5⟩

/-- C17. Once a view is unregistered, and as long as no view of that name is registered again,
nothing is collected or reported for it. -/
theorem unregistered_view_gone (reg : Measures) (pre mid : List Cmd) (now : Int) (n : Bytes)
    (ns : List Bytes) (hn : n ∈ ns)
    (hg : ∀ c ∈ pre ++ [.unregister now ns] ++ mid ++ [.retrieve n], GoodCmd reg c)
    (hmid : ∀ c ∈ mid, ¬ Registers n c) :
    ∃ w reg' rs, run newWorker reg (pre ++ [.unregister now ns] ++ mid ++ [.retrieve n]) = .ok (w, reg', rs) ∧
      (rs.map Prod.fst).getLast? = some (.rows none) := by
  obtain ⟨w, reg', rs, h1, h2⟩ := worker_refines_spec reg _ hg
  obtain ⟨rs1, rs2, hrs, _, _, h3⟩ := repliesOK_append h2
  obtain ⟨r, rs', rfl, hr, he⟩ := h3
  cases he
  have hσ : specRun Spec.empty (pre ++ [.unregister now ns] ++ mid) n = none := by
    rw [specRun_append, specRun_append]
    apply specRun_absent _ _ hmid
    simp [specRun, Spec.step, unregister_get, hn]
  simp only [ReplyOK, hσ] at hr
  exact ⟨w, reg', rs, h1, by rw [hrs]; simp [hr]⟩

/-- C17. An unregistered view name, never registered, has no data. -/
theorem never_registered_no_data (reg : Measures) (cs : List Cmd) (n : Bytes)
    (hg : ∀ c ∈ cs ++ [.retrieve n], GoodCmd reg c) (hcs : ∀ c ∈ cs, ¬ Registers n c) :
    ∃ w reg' rs, run newWorker reg (cs ++ [.retrieve n]) = .ok (w, reg', rs) ∧
      (rs.map Prod.fst).getLast? = some (.rows none) := by
  obtain ⟨w, reg', rs, h1, h2⟩ := worker_refines_spec reg _ hg
  obtain ⟨rs1, rs2, hrs, _, _, h3⟩ := repliesOK_append h2
  obtain ⟨r, rs', rfl, hr, he⟩ := h3
  cases he
  have hσ : specRun Spec.empty cs n = none := specRun_absent rfl _ hcs
  simp only [ReplyOK, hσ] at hr
  exact ⟨w, reg', rs, h1, by rw [hrs]; simp [hr]⟩

/-! ## C16 -/

/-- C16. Registering one view under a name already registered, after any history: if it is the same
view (the same object, or the same aggregation object on the same measure) `Register` succeeds,
otherwise it reports the conflict; in both cases every later reply is what it would have been without
the call, so the registered view and its data are untouched. -/
theorem register_existing (reg : Measures) (pre post : List Cmd) (now : Int) (v v' : ViewDef) (x : SView)
    (hg : ∀ c ∈ pre ++ [.register now [v]] ++ post, GoodCmd reg c)
    (hv : canonicalize v = (v', none)) (hx : specRun Spec.empty pre v'.name = some x) :
    ∃ w reg' rs1 rs2, run newWorker reg (pre ++ [.register now [v]] ++ post) = .ok (w, reg', rs1 ++ rs2) ∧
      (rs1.map Prod.fst).getLast? = some (.registered (if Same x v' then .ok else .conflict [v'.name])) ∧
      RepliesOK (specRun Spec.empty pre) post (rs2.map Prod.fst) := by
  obtain ⟨w, reg', rs, h1, h2⟩ := worker_refines_spec reg _ hg
  obtain ⟨q1, q2, hrs, hl, h3, h4⟩ := repliesOK_append h2
  obtain ⟨p1, p2, rfl, _, _, h6⟩ := repliesOK_append h3
  obtain ⟨r, rs', rfl, hr, he⟩ := h6
  cases he
  refine ⟨w, reg', rs.take (p1 ++ [r]).length, rs.drop (p1 ++ [r]).length, by rw [List.take_append_drop]; exact h1, ?_, ?_⟩
  · rw [List.map_take, hrs, List.take_left']
    · simp only [List.getLast?_append, List.getLast?_singleton, Option.some_or, Option.some.injEq]
      simp only [ReplyOK, canonicalizeAll, hv, Spec.registerAll, hx] at hr
      rw [hr]
      by_cases hS : Same x v' <;> simp [hS]
    · rfl
  · rw [List.map_drop, hrs, List.drop_left']
    · have hσ : specRun Spec.empty (pre ++ [.register now [v]]) = specRun Spec.empty pre := by
        rw [specRun_append]
        simp only [specRun, Spec.step, canonicalizeAll, hv, Spec.registerAll, hx]
        split <;> rfl
      rw [hσ] at h4; exact h4
    · rfl

end Verif.Props.Worker
