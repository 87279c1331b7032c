import Verif.Props.Crash

/-!
# C111: what a meter keeps does not grow with the number of records

The rows of a view are bounded by the tag maps in use, the references of measures by the measures in use, the rest by the registered
views; after the views are unregistered nothing of them is left.
-/

namespace Verif.Props.BoundedMeter
open Verif Verif.Tag Verif.Stats Verif.View Verif.View.Crash
open Verif.Props.Crash
open Verif.View.Spec (TagsFit)

/-! ## Specification -/

/-- What a program uses: tag maps of its records, names of measures of its records and views. -/
structure Use where
  tags : List (Option TMap)
  measures : List Bytes

/-- A call within that. -/
def Within (U : Use) : Call → Prop
  | .record _ r => r.tags ∈ U.tags ∧ ∀ m, some m ∈ r.ms → m.m.name ∈ U.measures
  | .register _ ps => ∀ v, some v ∈ ps → ∀ m, v.measure = some m → m.name ∈ U.measures
  | _ => True

/-- The values that a view keeps apart: those of its keys. -/
def apart (v : ViewDef) (tm : Option TMap) : List Bytes := v.tagKeys.map (valueOf tm)

/-! ## Invariant -/

/-- Rows have the tags of a record. -/
structure Rows (U : Use) (vi : VI) : Prop where
  wf : GoMap.WF vi.collector.signatures
  keys : ∀ p ∈ vi.collector.signatures, ∃ tm ∈ U.tags, p.1 = sigOf (apart vi.view tm)

structure Slim (U : Use) (w : Worker) : Prop where
  rows : ∀ (a : Nat) (vi : VI), w.vis[a]? = some vi → Rows U vi
  starts : ∀ p ∈ w.viewStartTimes, ∃ n, GoMap.get w.views n = some p.1
  swf : GoMap.WF w.viewStartTimes
  measures : ∀ p ∈ w.measures, p.1 ∈ U.measures
  mwf : GoMap.WF w.measures

theorem slim_init (U : Use) : Slim U newWorker := by
  constructor <;> simp [newWorker, GoMap.WF]

theorem bind_ok {α β : Type} {r : Res α} {f : α → Res β} {b : β} (h : r.bind f = .ok b) : ∃ a, r = .ok a ∧ f a = .ok b := by
  cases r with
  | ok a => exact ⟨a, rfl, h⟩
  | err => cases h
  | panic => cases h

theorem addSample_rows {U : Use} {vi vi' : VI} {tm : Option TMap} {s : Sample F64} (hr : Rows U vi) (ht : tm ∈ U.tags)
    (h : vi.addSample tm s = .ok vi') : Rows U vi' := by
  unfold VI.addSample at h
  split at h
  · cases h; exact hr
  rw [encodeWithKeys_eq] at h
  obtain ⟨sig, h0, h⟩ := bind_ok h
  cases h0
  obtain ⟨c, h1, h2⟩ := bind_ok h
  cases h2
  have key : ∀ d, Rows U { vi with collector := { vi.collector with signatures := GoMap.set vi.collector.signatures (sigOf (vi.view.tagKeys.map (valueOf tm))) d } } := by
    intro d
    refine ⟨GoMap.WF_set hr.wf _ _, fun p hp => ?_⟩
    rcases GoMap.mem_set hp with rfl | hp
    · exact ⟨tm, ht, rfl⟩
    · exact hr.keys p hp
  unfold Collector.addSample at h1
  split at h1
  · obtain ⟨d, _, h3⟩ := bind_ok h1
    cases h3; exact key _
  · obtain ⟨d, _, h3⟩ := bind_ok h1
    obtain ⟨d', _, h4⟩ := bind_ok h3
    cases h4; exact key _

theorem addToViews_slim {U : Use} {tm : Option TMap} (ht : tm ∈ U.tags) {s : Sample F64} : ∀ {l : List Nat} {w w' : Worker}, Slim U w →
    w.addToViews tm s l = .ok w' → Slim U w'
  | [], w, w', hw, h => by cases h; exact hw
  | a :: as, w, w', hw, h => by
    simp only [Worker.addToViews] at h
    cases ha : w.vis[a]? with
    | none => simp [ha] at h
    | some vi =>
      simp only [ha] at h
      obtain ⟨vi', h1, h2⟩ := bind_ok h
      suffices hs : Slim U { w with vis := w.vis.set a vi' } from addToViews_slim ht hs h2
      refine ⟨fun b x hb => ?_, hw.starts, hw.swf, hw.measures, hw.mwf⟩
      simp only [List.getElem?_set] at hb
      split at hb
      · split at hb
        · cases hb; exact addSample_rows (hw.rows a vi ha) ht h1
        · cases hb
      · exact hw.rows b x hb

theorem getMeasureRef_slim {U : Use} {w : Worker} (hw : Slim U w) {mn : Bytes} (hm : mn ∈ U.measures) : Slim U (w.getMeasureRef mn).1 := by
  unfold Worker.getMeasureRef
  split
  · exact hw
  · refine ⟨hw.rows, hw.starts, hw.swf, fun p hp => ?_, GoMap.WF_set hw.mwf _ _⟩
    rcases GoMap.mem_set hp with rfl | hp
    · exact hm
    · exact hw.measures p hp

theorem recordLoop_slim {U : Use} {tm : Option TMap} (ht : tm ∈ U.tags) {att : Attachments} {t : Int} : ∀ {ms : List (Option Measurement)}
    {w w' : Worker}, Slim U w → (∀ m, some m ∈ ms → m.m.name ∈ U.measures) → w.recordLoop tm att t ms = .ok w' → Slim U w'
  | [], w, w', hw, _, h => by cases h; exact hw
  | none :: ms, w, w', hw, hm, h => recordLoop_slim ht (ms := ms) hw (fun m h => hm m (by simp [h])) h
  | some m :: ms, w, w', hw, hm, h => by
    simp only [Worker.recordLoop] at h
    obtain ⟨w1, h1, h2⟩ := bind_ok h
    have h3 := addToViews_slim ht (getMeasureRef_slim hw (hm m (by simp))) h1
    exact recordLoop_slim ht (ms := ms) h3 (fun m h => hm m (by simp [h])) h2

theorem setSubscribed_slim {U : Use} {w : Worker} (hw : Slim U w) (a : Nat) (b : Bool) : Slim U (w.setSubscribed a b) := by
  refine ⟨fun c x hc => ?_, hw.starts, hw.swf, hw.measures, hw.mwf⟩
  simp only [Worker.setSubscribed, List.getElem?_modify] at hc
  cases hx : w.vis[c]? with
  | none => simp [hx] at hc
  | some y =>
    have := hw.rows c y hx
    simp only [hx, Option.map_eq_map, Option.map_some, Option.some.injEq] at hc
    split at hc <;> subst hc
    · exact ⟨this.wf, this.keys⟩
    · exact this

theorem clearRows_slim {U : Use} {w : Worker} (hw : Slim U w) (a : Nat) : Slim U (w.clearRows a) := by
  refine ⟨fun c x hc => ?_, hw.starts, hw.swf, hw.measures, hw.mwf⟩
  simp only [Worker.clearRows, List.getElem?_modify] at hc
  cases hx : w.vis[c]? with
  | none => simp [hx] at hc
  | some y =>
    have := hw.rows c y hx
    simp only [hx, Option.map_eq_map, Option.map_some, Option.some.injEq] at hc
    split at hc <;> subst hc
    · exact ⟨GoMap.WF_nil, fun p hp => by cases hp⟩
    · exact this

theorem tryRegister_slim {U : Use} {w w' : Worker} (hw : Slim U w) {v : ViewDef} (hm : ∀ m, v.measure = some m → m.name ∈ U.measures) {now : Int}
    {r : Option Nat} (h : w.tryRegisterView v now = .ok (w', r)) : Slim U w' := by
  unfold Worker.tryRegisterView at h
  obtain ⟨vi, h1, h2⟩ := bind_ok h
  have hvi : vi.collector.signatures = [] := by
    unfold newViewInternal at h1
    split at h1
    · cases h1
    · obtain ⟨d, _, h3⟩ := bind_ok h1
      cases h3; rfl
  cases hg : GoMap.get w.views v.name with
  | some a =>
    simp only [hg] at h2
    split at h2
    · cases h2
    · split at h2 <;> cases h2 <;> exact hw
  | none =>
    simp only [hg] at h2
    cases hvm : v.measure with
    | none => simp [hvm] at h2
    | some m =>
      simp only [hvm] at h2
      have hn := hm m hvm
      have hs : Slim U { w with vis := w.vis ++ [vi], views := GoMap.set w.views v.name w.vis.length, viewStartTimes := GoMap.set w.viewStartTimes w.vis.length now } := by
        refine ⟨fun a x ha => ?_, fun p hp => ?_, GoMap.WF_set hw.swf _ _, hw.measures, hw.mwf⟩
        · rw [List.getElem?_append] at ha
          split at ha
          · exact hw.rows a x ha
          · rw [List.getElem?_singleton] at ha
            split at ha <;> cases ha
            exact ⟨by rw [hvi]; exact GoMap.WF_nil, fun p hp => by rw [hvi] at hp; cases hp⟩
        · rcases GoMap.mem_set hp with rfl | hp
          · exact ⟨v.name, GoMap.get_set_same _ _ _⟩
          · obtain ⟨n, h3⟩ := hw.starts p hp
            refine ⟨n, ?_⟩
            rw [GoMap.get_set_other _ _ (by rintro rfl; rw [hg] at h3; cases h3)]
            exact h3
      have hs := getMeasureRef_slim hs hn
      cases h2
      refine ⟨hs.rows, hs.starts, hs.swf, fun p hp => ?_, GoMap.WF_set hs.mwf _ _⟩
      rcases GoMap.mem_set hp with rfl | hp
      · exact hn
      · exact hs.measures p hp

theorem registerAll_slim {U : Use} {now : Int} : ∀ {vs : List ViewDef} {w w' : Worker} {reg reg' : Measures} {es : List Bytes}, Slim U w →
    (∀ v ∈ vs, ∀ m, v.measure = some m → m.name ∈ U.measures) → w.registerAll reg now vs = .ok (w', reg', es) → Slim U w'
  | [], w, w', reg, reg', es, hw, _, h => by cases h; exact hw
  | v :: vs, w, w', reg, reg', es, hw, hm, h => by
    simp only [Worker.registerAll] at h
    obtain ⟨⟨w1, r⟩, h1, h2⟩ := bind_ok h
    have hs := tryRegister_slim hw (hm v (by simp)) h1
    have hm' : ∀ v ∈ vs, ∀ m, v.measure = some m → m.name ∈ U.measures := fun x hx => hm x (by simp [hx])
    cases r with
    | none =>
      obtain ⟨⟨w2, reg2, es2⟩, h3, h4⟩ := bind_ok h2
      cases h4
      exact registerAll_slim hs hm' h3
    | some a =>
      cases hvm : v.measure with
      | none => simp [hvm] at h2
      | some m =>
        simp only [hvm] at h2
        obtain ⟨reg2, _, h4⟩ := bind_ok h2
        exact registerAll_slim (setSubscribed_slim hs a true) hm' h4

theorem unregisterView_slim {U : Use} {w : Worker} (hw : Slim U w) {a : Nat} {n : Bytes} {vi : VI} (ha : w.vis[a]? = some vi) (hn : vi.view.name = n)
    (hg : GoMap.get w.views n = some a) (hm : ∀ p ∈ w.measures, p.1 ∈ U.measures) : Slim U (w.unregisterView a) := by
  have hs : Slim U { w with views := GoMap.del w.views vi.view.name, viewStartTimes := GoMap.del w.viewStartTimes a } := by
    refine ⟨hw.rows, fun p hp => ?_, GoMap.WF_del hw.swf _, hw.measures, hw.mwf⟩
    obtain ⟨k, hk⟩ := hw.starts p (GoMap.mem_del hp)
    have hne : p.1 ≠ a := by
      have h1 : p.1 ∈ GoMap.keys (GoMap.del w.viewStartTimes a) := List.mem_map.mpr ⟨p, hp, rfl⟩
      exact ((GoMap.keys_del_mem _ _ _).mp h1).1
    refine ⟨k, ?_⟩
    rw [GoMap.get_del_other _ (by rintro rfl; rw [hn, hg] at hk; cases hk; exact hne rfl)]
    exact hk
  unfold Worker.unregisterView
  simp only [ha]
  split
  · exact hs
  · next m _ =>
    split
    · exact hs
    · next ref href =>
      refine ⟨hs.rows, hs.starts, hs.swf, fun p hp => ?_, GoMap.WF_set hs.mwf _ _⟩
      rcases GoMap.mem_set hp with rfl | hp
      · exact hw.measures (m.name, ref) (GoMap.mem_of_get href)
      · exact hs.measures p hp

theorem unregister_slim {U : Use} {now : Int} : ∀ {ns : List Bytes} {w w' : Worker} {σ : State} {es : List Export}, Inv w σ → Slim U w →
    w.unregister now ns = .ok (w', es) → Slim U w'
  | [], w, w', σ, es, _, hw, h => by cases h; exact hw
  | n :: ns, w, w', σ, es, hi, hw, h => by
    simp only [Worker.unregister] at h
    cases hg : GoMap.get w.views n with
    | none => simp only [hg] at h; exact unregister_slim hi hw h
    | some a =>
      simp only [hg] at h
      obtain ⟨es1, _, h2⟩ := bind_ok h
      obtain ⟨⟨w2, es2⟩, h3, h4⟩ := bind_ok h2
      cases h4
      obtain ⟨vi, m, ref, h5, _, h6, _⟩ := hi.reg n a hg
      have hs := clearRows_slim (setSubscribed_slim hw a false) a
      refine unregister_slim (unregister_one hi hg) (unregisterView_slim hs (vi := { vi with subscribed := false, collector := vi.collector.clearRows })
        (n := n) ?_ h6 hg hs.measures) h3
      simp [Worker.clearRows, Worker.setSubscribed, List.getElem?_modify, h5]

theorem canonicalize_measure {v v' : ViewDef} (h : canonicalize v = (v', none)) : v'.measure = v.measure := by
  unfold canonicalize at h
  split at h
  · cases h
  · next m hm =>
    split at h
    · cases h
    · simp only at h
      split at h
      · cases h
      · split at h
        · cases h
        · cases h; simp [withDefaults]

theorem canonicalizePtrs_measure : ∀ {ps : List (Option ViewDef)} {vs : List ViewDef}, canonicalizePtrs ps = .ok (.ok vs) →
    ∀ v ∈ vs, ∃ v', some v' ∈ ps ∧ v.measure = v'.measure
  | [], vs, h => by cases h; simp
  | none :: ps, vs, h => by cases h
  | some v :: ps, vs, h => by
    simp only [canonicalizePtrs] at h
    split at h
    · cases h
    · next v' hc =>
      obtain ⟨r, h1, h2⟩ := bind_ok h
      cases r with
      | error e => cases h2
      | ok vs' =>
        cases h2
        intro u hu
        rcases List.mem_cons.mp hu with rfl | hu
        · exact ⟨v, by simp, canonicalize_measure hc⟩
        · obtain ⟨x, h3, h4⟩ := canonicalizePtrs_measure h1 u hu
          exact ⟨x, by simp [h3], h4⟩

theorem handle_slim {U : Use} {w w' : Worker} {reg reg' : Measures} {σ : State} (hi : Inv w σ) (hw : Slim U w) {c : Call} (hc : Within U c)
    (h : Crash.handle w reg c = .ok (w', reg')) : Slim U w' := by
  cases c with
  | register now ps =>
    obtain ⟨r, h1, h2⟩ := bind_ok h
    cases r with
    | error e => cases h2; exact hw
    | ok vs =>
      obtain ⟨⟨w2, reg2, es⟩, h3, h4⟩ := bind_ok h2
      cases h4
      refine registerAll_slim hw (fun v hv m hm => ?_) h3
      obtain ⟨v', h5, h6⟩ := canonicalizePtrs_measure h1 v hv
      exact hc v' h5 m (h6 ▸ hm)
  | unregister now ns =>
    obtain ⟨⟨w2, es⟩, h1, h2⟩ := bind_ok h
    cases h2
    exact unregister_slim hi hw h1
  | retrieve n => obtain ⟨_, _, h2⟩ := bind_ok h; cases h2; exact hw
  | record t r =>
    obtain ⟨w2, h1, h2⟩ := bind_ok h
    cases h2
    exact recordLoop_slim hc.1 hw hc.2 h1
  | find n => obtain ⟨_, _, h2⟩ := bind_ok h; cases h2; exact hw
  | tick now => obtain ⟨_, _, h2⟩ := bind_ok h; cases h2; exact hw

theorem run_slim {U : Use} : ∀ {cs : List Call} {w w' : Worker} {reg reg' : Measures} {σ : State}, Inv w σ → Slim U w → (∀ c ∈ cs, Fit c) →
    (∀ c ∈ cs, Within U c) → run w reg cs = .ok (w', reg') → Inv w' (steps σ cs) ∧ Slim U w'
  | [], w, w', reg, reg', σ, hi, hw, _, _, h => by cases h; exact ⟨hi, hw⟩
  | c :: cs, w, w', reg, reg', σ, hi, hw, hf, hc, h => by
    obtain ⟨⟨w1, reg1⟩, h1, h2⟩ := bind_ok h
    obtain ⟨d1, d2⟩ := handle_spec (reg := reg) hi (hf c (by simp))
    have hd : ¬ Deadly reg σ c := fun hd => by rw [d1 hd] at h1; cases h1
    obtain ⟨w2, reg2, h3, h4, _⟩ := d2 hd
    rw [h1] at h3
    cases h3
    have := handle_slim hi hw (hc c (by simp)) h1
    exact run_slim (cs := cs) h4 this (fun c h => hf c (by simp [h])) (fun c h => hc c (by simp [h])) h2

/-! ## Theorems -/

theorem collectRows_length {keys : List Key} : ∀ {m : GoMap Bytes (AggData F64)} {rows : List (Row F64)}, collectRows keys m = .ok rows →
    rows.length = m.length
  | [], rows, h => by cases h; rfl
  | (sig, d) :: m, rows, h => by
    obtain ⟨tags, _, h1⟩ := bind_ok h
    obtain ⟨rows', h2, h3⟩ := bind_ok h1
    cases h3
    simp [collectRows_length h2]

/-- The names of measures in a call. -/
def named : Call → List Bytes
  | .record _ r => r.ms.filterMap fun m => m.map fun m => m.m.name
  | .register _ ps => ps.filterMap fun v => v.bind fun v => v.measure.map fun m => m.name
  | _ => []

/-- What the calls use. -/
def used (cs : List Call) : Use := ⟨cs.filterMap fun c => match c with
  | .record _ r => some r.tags
  | _ => none, (cs.map named).flatten⟩

theorem all_within (cs : List Call) : ∀ c ∈ cs, Within (used cs) c := by
  intro c hc
  cases c with
  | record t r =>
    refine ⟨List.mem_filterMap.mpr ⟨_, hc, rfl⟩, fun m hm => List.mem_flatten.mpr ⟨_, List.mem_map.mpr ⟨_, hc, rfl⟩, ?_⟩⟩
    exact List.mem_filterMap.mpr ⟨_, hm, rfl⟩
  | register now ps =>
    intro v hv m hm
    refine List.mem_flatten.mpr ⟨_, List.mem_map.mpr ⟨_, hc, rfl⟩, ?_⟩
    exact List.mem_filterMap.mpr ⟨_, hv, by simp [hm]⟩
  | _ => trivial

/-- The number of different lists of values of a view's keys among the tag maps. -/
def distinct (U : Use) (v : ViewDef) : Nat := (U.tags.map (apart v)).dedup.length

theorem length_le {α β V : Type} [DecidableEq α] [DecidableEq β] {m : GoMap β V} (hw : GoMap.WF m) {l : List α} (f : α → β)
    (h : ∀ p ∈ m, ∃ x ∈ l, p.1 = f x) : m.length ≤ l.dedup.length := by
  have : (GoMap.keys m).length ≤ (l.dedup.map f).length := (List.subperm_of_subset hw fun k hk => by
    obtain ⟨p, hp, rfl⟩ := List.mem_map.mp hk
    obtain ⟨x, hx, e⟩ := h p hp
    exact List.mem_map.mpr ⟨x, List.mem_dedup.mpr hx, e.symm⟩).length_le
  simpa [GoMap.keys] using this

/-- C111. However many measurements are recorded: reading a view gives no more rows than the records have different lists of values
for the view's keys, so no more than there are tag maps. -/
theorem rows_bounded {U : Use} (reg : Measures) {cs : List Call} (hf : ∀ c ∈ cs, Fit c) (hc : ∀ c ∈ cs, Within U c) {w : Worker} {reg' : Measures}
    (h : run newWorker reg cs = .ok (w, reg')) {n : Bytes} {rows : List (Row F64)} (hr : w.retrieveData n = .ok (some rows)) :
    ∃ v, steps (fun _ => none) cs n = some v ∧ rows.length ≤ distinct U v ∧ distinct U v ≤ U.tags.length := by
  obtain ⟨hi, hw⟩ := run_slim inv_init (slim_init U) hf hc h
  unfold Worker.retrieveData at hr
  cases hg : GoMap.get w.views n with
  | none => simp [hg] at hr
  | some a =>
    simp only [hg] at hr
    cases ha : w.vis[a]? with
    | none => simp [ha] at hr
    | some vi =>
      simp only [ha] at hr
      split at hr
      · cases hr
      · obtain ⟨rows', h1, h2⟩ := bind_ok hr
        cases h2
        refine ⟨vi.view, ?_, ?_, ?_⟩
        · rw [← hi.found n, hg]; simp [viewAt, ha]
        · rw [collectRows_length h1]
          refine length_le (hw.rows a vi ha).wf sigOf fun p hp => ?_
          obtain ⟨tm, h3, h4⟩ := (hw.rows a vi ha).keys p hp
          exact ⟨_, List.mem_map.mpr ⟨tm, h3, rfl⟩, h4⟩
        · have := (List.dedup_sublist (U.tags.map (apart vi.view))).length_le
          simpa [distinct] using this

/-- C111. A meter keeps no more references of measures than there are measures in use, and no more start times than there are
registered views. -/
theorem refs_bounded {U : Use} (reg : Measures) {cs : List Call} (hf : ∀ c ∈ cs, Fit c) (hc : ∀ c ∈ cs, Within U c) {w : Worker} {reg' : Measures}
    (h : run newWorker reg cs = .ok (w, reg')) : w.measures.length ≤ U.measures.dedup.length ∧ w.viewStartTimes.length ≤ w.views.length := by
  obtain ⟨hi, hw⟩ := run_slim inv_init (slim_init U) hf hc h
  refine ⟨length_le hw.mwf id fun p hp => ⟨p.1, hw.measures p hp, rfl⟩, ?_⟩
  have : (GoMap.keys w.viewStartTimes).length ≤ (w.views.map Prod.snd).length := (List.subperm_of_subset hw.swf fun k hk => by
    obtain ⟨p, hp, rfl⟩ := List.mem_map.mp hk
    obtain ⟨n, hn⟩ := hw.starts p hp
    exact List.mem_map.mpr ⟨(n, p.1), GoMap.mem_of_get hn, rfl⟩).length_le
  simpa [GoMap.keys] using this

/-- C111. When every view is unregistered the meter keeps no view, no start time and no reference of a measure to a view. -/
theorem unregistered_let_go (reg : Measures) {cs : List Call} (hf : ∀ c ∈ cs, Fit c) {w : Worker} {reg' : Measures}
    (h : run newWorker reg cs = .ok (w, reg')) (hn : ∀ n, steps (fun _ => none) cs n = none) :
    w.views = [] ∧ w.viewStartTimes = [] ∧ ∀ p ∈ w.measures, p.2 = [] := by
  obtain ⟨hi, hw⟩ := run_slim inv_init (slim_init (used cs)) hf (all_within cs) h
  have hv : ∀ n, GoMap.get w.views n = none := fun n => by
    cases hg : GoMap.get w.views n with
    | none => rfl
    | some a =>
      obtain ⟨vi, _, _, h1, _⟩ := hi.reg n a hg
      have := hi.found n
      rw [hg, hn n] at this
      simp [viewAt, h1] at this
  refine ⟨?_, ?_, fun p hp => ?_⟩
  · cases hvs : w.views with
    | nil => rfl
    | cons q l => exact absurd (by rw [hvs]; simp) ((GoMap.get_eq_none_iff _ _).mp (hv q.1))
  · cases hvs : w.viewStartTimes with
    | nil => rfl
    | cons q l =>
      obtain ⟨n, h1⟩ := hw.starts q (by rw [hvs]; simp)
      rw [hv n] at h1; cases h1
  · cases he : p.2 with
    | nil => rfl
    | cons a l =>
      obtain ⟨vi, _, _, _, _, h1⟩ := hi.refs p.1 p.2 a (GoMap.get_of_mem hw.mwf hp) (by rw [he]; simp)
      rw [hv] at h1; cases h1

/-! ### References stay -/

/-- No reference is lost. -/
def Grows (w w' : Worker) : Prop := ∀ k ∈ GoMap.keys w.measures, k ∈ GoMap.keys w'.measures

theorem addToViews_measures {tm : Option TMap} {s : Sample F64} : ∀ {l : List Nat} {w w' : Worker}, w.addToViews tm s l = .ok w' →
    w'.measures = w.measures
  | [], w, w', h => by cases h; rfl
  | a :: as, w, w', h => by
    simp only [Worker.addToViews] at h
    cases ha : w.vis[a]? with
    | none => simp [ha] at h
    | some vi =>
      simp only [ha] at h
      obtain ⟨vi', _, h2⟩ := bind_ok h
      have := addToViews_measures h2
      exact this

theorem getMeasureRef_grows (w : Worker) (mn : Bytes) : Grows w (w.getMeasureRef mn).1 ∧ mn ∈ GoMap.keys (w.getMeasureRef mn).1.measures := by
  unfold Worker.getMeasureRef
  split
  · next vs h => exact ⟨fun _ h => h, List.mem_map.mpr ⟨_, GoMap.mem_of_get h, rfl⟩⟩
  · exact ⟨fun k hk => (GoMap.keys_set_mem _ _ _ _).mpr (.inr hk), (GoMap.keys_set_mem _ _ _ _).mpr (.inl rfl)⟩

theorem recordLoop_grows {tm : Option TMap} {att : Attachments} {t : Int} : ∀ {ms : List (Option Measurement)} {w w' : Worker},
    w.recordLoop tm att t ms = .ok w' → Grows w w' ∧ ∀ m, some m ∈ ms → m.m.name ∈ GoMap.keys w'.measures
  | [], w, w', h => by cases h; exact ⟨fun _ h => h, by simp⟩
  | none :: ms, w, w', h => by
    obtain ⟨h1, h2⟩ := recordLoop_grows (ms := ms) h
    exact ⟨h1, fun m hm => h2 m (by simpa using hm)⟩
  | some m :: ms, w, w', h => by
    simp only [Worker.recordLoop] at h
    obtain ⟨w1, h1, h2⟩ := bind_ok h
    obtain ⟨h3, h4⟩ := recordLoop_grows (ms := ms) h2
    obtain ⟨h5, h6⟩ := getMeasureRef_grows w m.m.name
    have e := addToViews_measures h1
    refine ⟨fun k hk => h3 k (by rw [e]; exact h5 k hk), fun x hx => ?_⟩
    rcases List.mem_cons.mp hx with hx | hx
    · cases hx; exact h3 _ (by rw [e]; exact h6)
    · exact h4 x hx

theorem tryRegister_grows {w w' : Worker} {v : ViewDef} {now : Int} {r : Option Nat} (h : w.tryRegisterView v now = .ok (w', r)) : Grows w w' := by
  unfold Worker.tryRegisterView at h
  obtain ⟨vi, h1, h2⟩ := bind_ok h
  split at h2
  · split at h2
    · cases h2
    · split at h2 <;> cases h2 <;> exact fun _ h => h
  · split at h2
    · cases h2
    · cases h2
      intro k hk
      exact (GoMap.keys_set_mem _ _ _ _).mpr (.inr ((getMeasureRef_grows _ _).1 k hk))

theorem registerAll_grows {now : Int} : ∀ {vs : List ViewDef} {w w' : Worker} {reg reg' : Measures} {es : List Bytes},
    w.registerAll reg now vs = .ok (w', reg', es) → Grows w w'
  | [], w, w', reg, reg', es, h => by cases h; exact fun _ h => h
  | v :: vs, w, w', reg, reg', es, h => by
    simp only [Worker.registerAll] at h
    obtain ⟨⟨w1, r⟩, h1, h2⟩ := bind_ok h
    have hs := tryRegister_grows h1
    cases r with
    | none =>
      obtain ⟨⟨w2, reg2, es2⟩, h3, h4⟩ := bind_ok h2
      cases h4
      exact fun k hk => registerAll_grows h3 k (hs k hk)
    | some a =>
      cases hvm : v.measure with
      | none => simp [hvm] at h2
      | some m =>
        simp only [hvm] at h2
        obtain ⟨reg2, _, h4⟩ := bind_ok h2
        exact fun k hk => registerAll_grows h4 k (hs k hk)

theorem unregisterView_grows (w : Worker) (a : Nat) : Grows w (w.unregisterView a) := by
  unfold Worker.unregisterView
  intro k hk
  split
  · exact hk
  · simp only
    split
    · exact hk
    · split
      · exact hk
      · exact (GoMap.keys_set_mem _ _ _ _).mpr (.inr hk)

theorem unregister_grows {now : Int} : ∀ {ns : List Bytes} {w w' : Worker} {es : List Export}, w.unregister now ns = .ok (w', es) → Grows w w'
  | [], w, w', es, h => by cases h; exact fun _ h => h
  | n :: ns, w, w', es, h => by
    simp only [Worker.unregister] at h
    split at h
    · exact unregister_grows h
    · obtain ⟨es1, _, h2⟩ := bind_ok h
      obtain ⟨⟨w2, es2⟩, h3, h4⟩ := bind_ok h2
      cases h4
      exact fun k hk => unregister_grows h3 k (unregisterView_grows _ _ k hk)

theorem handle_grows {w w' : Worker} {reg reg' : Measures} {c : Call} (h : Crash.handle w reg c = .ok (w', reg')) : Grows w w' := by
  cases c with
  | register now ps =>
    obtain ⟨r, h1, h2⟩ := bind_ok h
    cases r with
    | error e => cases h2; exact fun _ h => h
    | ok vs =>
      obtain ⟨⟨w2, reg2, es⟩, h3, h4⟩ := bind_ok h2
      cases h4
      exact registerAll_grows h3
  | unregister now ns =>
    obtain ⟨⟨w2, es⟩, h1, h2⟩ := bind_ok h
    cases h2
    exact unregister_grows h1
  | record t r =>
    obtain ⟨w2, h1, h2⟩ := bind_ok h
    cases h2
    exact (recordLoop_grows h1).1
  | retrieve n => obtain ⟨_, _, h2⟩ := bind_ok h; cases h2; exact fun _ h => h
  | find n => obtain ⟨_, _, h2⟩ := bind_ok h; cases h2; exact fun _ h => h
  | tick now => obtain ⟨_, _, h2⟩ := bind_ok h; cases h2; exact fun _ h => h

theorem run_grows : ∀ {cs : List Call} {w w' : Worker} {reg reg' : Measures}, run w reg cs = .ok (w', reg') →
    Grows w w' ∧ ∀ t r, Call.record t r ∈ cs → ∀ m, some m ∈ r.ms → m.m.name ∈ GoMap.keys w'.measures
  | [], w, w', reg, reg', h => by cases h; exact ⟨fun _ h => h, by simp⟩
  | c :: cs, w, w', reg, reg', h => by
    obtain ⟨⟨w1, reg1⟩, h1, h2⟩ := bind_ok h
    obtain ⟨h3, h4⟩ := run_grows (cs := cs) h2
    refine ⟨fun k hk => h3 k (handle_grows h1 k hk), fun t r hr m hm => ?_⟩
    rcases List.mem_cons.mp hr with hr | hr
    · subst hr
      obtain ⟨w2, h5, h6⟩ := bind_ok h1
      cases h6
      exact h3 _ ((recordLoop_grows h5).2 m hm)
    · exact h4 t r hr m hm

/-- C111. Every measure that a record of the meter ever named keeps its reference for as long as the meter runs, whatever views were or
are registered. -/
theorem recorded_kept (reg : Measures) {cs : List Call} {w : Worker} {reg' : Measures} (h : run newWorker reg cs = .ok (w, reg'))
    {t : Int} {r : RecordReq} (hr : Call.record t r ∈ cs) {m : Measurement} (hm : some m ∈ r.ms) : m.m.name ∈ GoMap.keys w.measures :=
  (run_grows h).2 t r hr m hm

/-! ## Examples -/

def path : Key := ⟨str "path"⟩

/-- A view by path. -/
def byPath : ViewDef := { good with tagKeys := [path] }

def at1 (p : String) : Option TMap := some [(path, ⟨str p, ⟨-1⟩⟩)]

def rec (p : String) : Call := .record 0 ⟨at1 p, [some ⟨.fin 7, latency⟩], []⟩

def use : Use := ⟨[at1 "/a", at1 "/b"], [str "latency"]⟩

def calls : List Call := [.register 0 [some byPath], rec "/a", rec "/b", rec "/a", rec "/b", rec "/a"]

/-- The number of rows of the view, and of references and start times. -/
def sizes (cs : List Call) : Option (Nat × Nat × Nat) := match run newWorker reg0 cs with
  | .ok (w, _) => match w.retrieveData (str "v") with
    | .ok (some rows) => some (rows.length, w.measures.length, w.viewStartTimes.length)
    | .ok none => some (0, w.measures.length, w.viewStartTimes.length)
    | _ => none
  | _ => none

/-- Five records, two rows; they are let go with the view, the reference of the measure is not. -/
example : sizes calls = some (2, 1, 1) ∧ sizes (calls ++ [.unregister 5 [str "v"]]) = some (0, 1, 0) := by decide +kernel

example : (∀ c ∈ calls, Fit c) ∧ ∀ c ∈ calls, Within use c := by
  have hf : ∀ p : String, (str p).length ≤ 255 → TagsFit (at1 p) := by
    intro p hp tm h q hq
    cases h
    simp only [List.mem_singleton] at hq
    subst hq; exact hp
  refine ⟨fun c hc => ?_, fun c hc => ?_⟩ <;> simp only [calls, List.mem_cons, List.not_mem_nil, or_false] at hc <;>
    rcases hc with rfl | rfl | rfl | rfl | rfl | rfl
  · trivial
  · exact hf _ (by decide)
  · exact hf _ (by decide)
  · exact hf _ (by decide)
  · exact hf _ (by decide)
  · exact hf _ (by decide)
  all_goals simp [rec, Within, use, latency, byPath, good]

example : distinct use byPath = 2 := by decide +kernel

end Verif.Props.BoundedMeter
