import Verif.Props.PluginViews
import Verif.Props.Agg

/-!
# What a count or distribution view shows of recordings made by many goroutines

Helper lemmas for the theorems about the views of the plugins.
-/

namespace Verif.Props.ViewCounts
open Verif Verif.Tag Verif.Stats Verif.View Verif.View.Spec Verif.Props.Rows Verif.Props.Worker

/-! ## Specification -/

/-- `l` is an interleaving of the lists `ls`: what one queue receives from several goroutines. -/
inductive Inter {α : Type} : List (List α) → List α → Prop where
  | done {ls : List (List α)} : (∀ l ∈ ls, l = []) → Inter ls []
  | pick {xs ys : List (List α)} {a : α} {as r : List α} :
      Inter (xs ++ as :: ys) r → Inter (xs ++ (a :: as) :: ys) (a :: r)

/-- The number in the row with these tags; 0 if there is no such row. -/
def countShown (rows : List (Row F64)) (tags : List (Key × Bytes)) : Int :=
  match rows.find? fun r => decide (r.tags = tags) with
  | some ⟨_, .count _ n⟩ => n
  | _ => 0

/-- The number in the `i`-th bucket of the row with these tags; 0 if there is no such row. -/
def bucketShown (rows : List (Row F64)) (tags : List (Key × Bytes)) (i : Nat) : Int :=
  match rows.find? fun r => decide (r.tags = tags) with
  | some ⟨_, .dist d⟩ => d.cpb[i]?.getD 0
  | _ => 0

/-- The `count` of the row with these tags; 0 if there is no such row. -/
def totalShown (rows : List (Row F64)) (tags : List (Key × Bytes)) : Int :=
  match rows.find? fun r => decide (r.tags = tags) with
  | some ⟨_, .dist d⟩ => d.count
  | _ => 0

/-- The command records nothing for the measure. -/
def Foreign (measure : Bytes) : Cmd → Prop
  | .record _ r => ∀ m, some m ∈ r.ms → m.m.name ≠ measure
  | _ => True

/-- A run of a program that uses the predefined view `v`: after any history `pre` that leaves the names free, it registers
the views `vs`, and then goroutines send the worker commands, those of a plugin (`cmds`) and `others`, which neither
unregister the view nor record its measure. -/
structure Program (v : ViewDef) where
  reg : Measures
  pre : List Cmd
  now : Int
  vs : List ViewDef
  others : List Cmd
  cmds : List (List Cmd)
  mid : List Cmd
  measures : ∀ m ∈ Plugins.measures, ∃ d, GoMap.get reg m.name = some d
  good : ∀ c ∈ pre ++ others, GoodCmd reg c
  predefined : ∀ v ∈ vs, v ∈ Plugins.views
  free : ∀ v ∈ vs, specRun Spec.empty pre v.name = none
  mem : v ∈ vs
  kept : ∀ c ∈ others, ¬ Unregisters v.name c
  foreign : ∀ m, v.measure = some m → ∀ c ∈ others, Foreign m.name c
  inter : Inter (others :: cmds) mid

/-- `RetrieveData` of the view returns these rows in the end. -/
def Program.Shows {v : ViewDef} (p : Program v) (rows : List (Row F64)) : Prop :=
  ∃ w reg' rs, run newWorker p.reg (p.pre ++ [.register p.now p.vs] ++ p.mid ++ [.retrieve v.name]) = .ok (w, reg', rs) ∧
    (rs.map Prod.fst).getLast? = some (.rows (some rows))

/-! ## Interleavings -/

theorem inter_perm {α : Type} {ls : List (List α)} {r : List α} (h : Inter ls r) : r.Perm ls.flatten := by
  induction h with
  | done h =>
    rw [List.flatten_eq_nil_iff.mpr h]
  | @pick xs ys a as r _ ih =>
    simp only [List.flatten_append, List.flatten_cons] at ih ⊢
    refine (ih.cons a).trans ?_
    rw [← List.cons_append]
    have := @List.perm_middle _ a xs.flatten (as ++ ys.flatten)
    simpa using this.symm

theorem samplesOf_append (m : Bytes) (xs ys : List Cmd) : samplesOf m (xs ++ ys) = samplesOf m xs ++ samplesOf m ys := by
  induction xs with
  | nil => rfl
  | cons c cs ih => rw [List.cons_append, samplesOf_cons, samplesOf_cons m c cs, ih, List.append_assoc]

theorem samplesOf_flatMap (m : Bytes) (cs : List Cmd) : samplesOf m cs = cs.flatMap fun c => samplesOf m [c] := by
  induction cs with
  | nil => rfl
  | cons c cs ih => rw [samplesOf_cons, ih, List.flatMap_cons]

theorem samplesOf_perm (m : Bytes) {xs ys : List Cmd} (h : xs.Perm ys) : (samplesOf m xs).Perm (samplesOf m ys) := by
  rw [samplesOf_flatMap, samplesOf_flatMap m ys]
  exact h.flatMap_right _

theorem samplesOf_inter (m : Bytes) {ls : List (List Cmd)} {r : List Cmd} (h : Inter ls r) :
    (samplesOf m r).Perm (ls.flatMap (samplesOf m)) := by
  refine (samplesOf_perm m (inter_perm h)).trans ?_
  have : ∀ ls : List (List Cmd), samplesOf m ls.flatten = ls.flatMap (samplesOf m) := by
    intro ls
    induction ls with
    | nil => rfl
    | cons l ls ih => rw [List.flatten_cons, samplesOf_append, ih, List.flatMap_cons]
  rw [this]

/-! ## Rows -/

/-- The row with given tags. -/
theorem row_of {a : Aggregation F64} (hu : a.Usable) {keys : List Key} {recs : List (Option TMap × Sample F64)} {rows : List (Row F64)}
    (h : RowsOf a keys recs rows) (tags : List (Key × Bytes)) :
    match rows.find? fun r => decide (r.tags = tags) with
    | none => recs.filter (fun r => decide (specTags keys r.1 = tags)) = []
    | some row => ∃ s0 ss d0, (recs.filter (fun r => decide (specTags keys r.1 = tags))).map Prod.snd = s0 :: ss ∧
        a.mkData s0.t = .ok d0 ∧ d0.addAll (s0 :: ss) = .ok row.data := by
  obtain ⟨_, hrows⟩ := h
  cases hf : rows.find? fun r => decide (r.tags = tags) with
  | some row =>
    have h1 : row.tags = tags := by simpa using List.find?_some hf
    obtain ⟨r, hr, h2, s0, ss, d0, h3, h4, h5⟩ := (hrows row).mp (List.mem_of_find?_eq_some hf)
    refine ⟨s0, ss, d0, ?_, h4, h5⟩
    rw [← h3]
    unfold rowSamples
    congr 1
    apply List.filter_congr
    intro x _
    rw [← h1, h2]
    simp only [same_tags_iff]
  | none =>
    rw [List.filter_eq_nil_iff]
    intro r hr hc
    have hc : specTags keys r.1 = tags := by simpa using hc
    -- the row of `r` would have these tags
    have hne : rowSamples keys recs r.1 ≠ [] := by
      intro h
      unfold rowSamples at h
      have := List.filter_eq_nil_iff.mp (List.map_eq_nil_iff.mp h) r hr
      exact this (by simp [Agree])
    obtain ⟨s0, ss, hs⟩ := List.exists_cons_of_ne_nil hne
    obtain ⟨d0, hd⟩ := Aggregation.mkData_ok hu s0.t
    have hrow := (hrows ⟨specTags keys r.1, (s0 :: ss).foldl AggData.next d0⟩).mpr
      ⟨r, hr, rfl, s0, ss, d0, hs, hd, AggData.addAll_eq _ (mkData_shape hd) _⟩
    have := List.find?_eq_none.mp hf _ hrow
    exact this (by simpa using hc)

theorem length_filter_snd (keys : List Key) (recs : List (Option TMap × Sample F64)) (tags : List (Key × Bytes)) :
    ((recs.filter (fun r => decide (specTags keys r.1 = tags))).map Prod.snd).length =
      recs.countP fun r => decide (specTags keys r.1 = tags) := by
  rw [List.length_map, List.countP_eq_length_filter]

/-- A count view shows, for any tags, how many recordings had them. -/
theorem rows_count {a : Aggregation F64} (ha : a.newData = some .count) {keys : List Key}
    {recs : List (Option TMap × Sample F64)} {rows : List (Row F64)} (h : RowsOf a keys recs rows)
    (hlen : recs.length < 2 ^ 63) (tags : List (Key × Bytes)) :
    countShown rows tags = (recs.countP fun r => decide (specTags keys r.1 = tags) : Int) ∧
    ((∃ row ∈ rows, row.tags = tags) ↔ ∃ r ∈ recs, specTags keys r.1 = tags) := by
  have hu : a.Usable := ⟨_, ha, by decide⟩
  have h1 := row_of hu h tags
  have h2 := length_filter_snd keys recs tags
  unfold countShown
  cases hf : rows.find? fun r => decide (r.tags = tags) with
  | none =>
    rw [hf] at h1
    simp only at h1 ⊢
    rw [h1] at h2
    refine ⟨by rw [← h2]; rfl, ?_⟩
    constructor
    · rintro ⟨row, hr, ht⟩
      exact absurd (List.find?_eq_none.mp hf row hr) (by simpa using ht)
    · rintro ⟨r, hr, ht⟩
      exact absurd (List.filter_eq_nil_iff.mp h1 r hr) (by simpa using ht)
  | some row =>
    rw [hf] at h1
    obtain ⟨s0, ss, d0, e1, e2, e3⟩ := h1
    simp only [Aggregation.mkData, ha] at e2
    cases e2
    have hl : (s0 :: ss).length < 2 ^ 63 := by
      rw [← e1, h2]
      exact lt_of_le_of_lt List.countP_le_length hlen
    rw [Agg.count_data s0.t (s0 :: ss) hl] at e3
    obtain ⟨rt, rd⟩ := row
    simp only at e3
    cases e3
    rw [e1] at h2
    refine ⟨by simp only; rw [← h2], ?_⟩
    constructor
    · intro _
      have : s0 ∈ (recs.filter (fun r => decide (specTags keys r.1 = tags))).map Prod.snd := by rw [e1]; simp
      obtain ⟨r, hr, _⟩ := List.mem_map.mp this
      rw [List.mem_filter] at hr
      exact ⟨r, hr.1, by simpa using hr.2⟩
    · intro _
      exact ⟨_, List.mem_of_find?_eq_some hf, by simpa using List.find?_some hf⟩

theorem foldl_dist (ss : List (Sample F64)) (d : Dist F64) :
    ss.foldl AggData.next (.dist d) = .dist (ss.foldl Dist.next d) := by
  induction ss generalizing d with
  | nil => rfl
  | cons s ss ih => exact ih _

/-- A distribution view shows, for any tags, how many recordings had them, and how many of those had a value in
each bucket. -/
theorem rows_dist {a : Aggregation F64} (ha : a.newData = some .distribution) (hs : Agg.SortedBounds a.buckets)
    {keys : List Key} {recs : List (Option TMap × Sample F64)} {rows : List (Row F64)} (h : RowsOf a keys recs rows)
    (hlen : recs.length < 2 ^ 63) (tags : List (Key × Bytes)) :
    totalShown rows tags = (recs.countP fun r => decide (specTags keys r.1 = tags) : Int) ∧
    ∀ i ≤ a.buckets.length, bucketShown rows tags i =
      (recs.countP fun r => decide (specTags keys r.1 = tags ∧ Agg.InBucket a.buckets i r.2.v) : Int) := by
  have hu : a.Usable := ⟨_, ha, by decide⟩
  have h1 := row_of hu h tags
  have h2 := length_filter_snd keys recs tags
  have h3 : ∀ i, ((recs.filter (fun r => decide (specTags keys r.1 = tags))).map Prod.snd).countP
      (fun s => decide (Agg.InBucket a.buckets i s.v)) =
      recs.countP fun r => decide (specTags keys r.1 = tags ∧ Agg.InBucket a.buckets i r.2.v) := by
    intro i
    rw [List.countP_map, List.countP_filter]
    apply List.countP_congr
    intro r _
    simp [and_comm]
  unfold totalShown bucketShown
  cases hf : rows.find? fun r => decide (r.tags = tags) with
  | none =>
    rw [hf] at h1
    simp only at h1 ⊢
    rw [h1] at h2 h3
    refine ⟨by rw [← h2]; rfl, fun i _ => by rw [← h3]; rfl⟩
  | some row =>
    rw [hf] at h1
    obtain ⟨s0, ss, d0, e1, e2, e3⟩ := h1
    simp only [Aggregation.mkData, ha] at e2
    cases e2
    have hl : (s0 :: ss).length < 2 ^ 63 := by
      rw [← e1, h2]
      exact lt_of_le_of_lt List.countP_le_length hlen
    rw [AggData.addAll_eq _ (by exact newDistributionData_shape _ _), foldl_dist] at e3
    obtain ⟨d, g1, g2, g3⟩ := Agg.dist_buckets_count a.buckets hs s0.t (s0 :: ss) hl
    obtain ⟨d', g4, g5, _⟩ := Agg.dist_buckets_sum a.buckets s0.t (s0 :: ss) hl
    rw [Dist.addAll_eq _ (newDistributionData_shape _ _)] at g1 g4
    obtain ⟨rt, rd⟩ := row
    simp only at e3
    cases e3
    cases g1; cases g4
    rw [e1] at h2 h3
    refine ⟨by simp only; rw [g5, ← h2], fun i hi => ?_⟩
    simp only
    rw [g3 i hi, ← h3]
    rfl

/-! ## Collection -/

theorem sorted_of_nice {a : Aggregation F64} (h : PluginViews.NiceBounds a) : Agg.SortedBounds a.buckets := by
  obtain ⟨qs, h1, h2, h3⟩ := h
  rw [h1]
  refine ⟨?_, ?_⟩
  · intro b hb
    obtain ⟨q, hq, rfl⟩ := List.mem_map.mp hb
    have := PluginViews.rnd_pos (h3 q hq)
    cases hr : F64.rnd q with
    | nan => rw [hr] at this; simp [F64.lt] at this
    | _ => simp [F64.IsNum]
  · rw [List.pairwise_map]
    exact h2.imp fun h => F64.rnd_mono h

/-- A predefined view registered with others, and not unregistered since, reports exactly the rows of the recordings
made for its measure since. -/
theorem collects (reg : Measures) (hreg : ∀ m ∈ Plugins.measures, ∃ d, GoMap.get reg m.name = some d)
    (pre mid : List Cmd) (hpre : ∀ c ∈ pre ++ mid, GoodCmd reg c) (vs : List ViewDef) (hvs : ∀ v ∈ vs, v ∈ Plugins.views)
    (hfree : ∀ v ∈ vs, specRun Spec.empty pre v.name = none) (now : Int) (v : ViewDef) (hv : v ∈ vs)
    (hmid : ∀ c ∈ mid, ¬ Unregisters v.name c) {a : Aggregation F64} (ha : v.agg = some a) {m : Measure}
    (hm : v.measure = some m) :
    ∃ w reg' rs rows, run newWorker reg (pre ++ [.register now vs] ++ mid ++ [.retrieve v.name]) = .ok (w, reg', rs) ∧
      (rs.map Prod.fst).getLast? = some (.rows (some rows)) ∧ RowsOf a v.tagKeys (samplesOf m.name mid) rows := by
  have hg : ∀ c ∈ pre ++ [.register now vs] ++ mid ++ [.retrieve v.name], GoodCmd reg c := by
    intro c hc
    simp only [List.mem_append, List.mem_singleton] at hc hpre
    rcases hc with ((hc | rfl) | hc) | rfl
    · exact hpre c (.inl hc)
    · exact fun v hv => PluginViews.good hreg (hvs v hv)
    · exact hpre c (.inr hc)
    · trivial
  obtain ⟨w, reg', rs, h1, h2⟩ := worker_refines_spec reg _ hg
  obtain ⟨rs1, rs2, hrs, _, _, h3⟩ := repliesOK_append h2
  obtain ⟨r, rs', rfl, hr, he⟩ := h3
  cases he
  obtain ⟨_, e2, _⟩ := PluginViews.registerAll_spec vs hvs (specRun Spec.empty pre)
    (fun v hv x hx => by rw [hfree v hv] at hx; cases hx)
  obtain ⟨x, hx1, hx2, hx3⟩ := e2 v hv
  obtain ⟨x3, x4, x5⟩ := hx3 (hfree v hv)
  obtain ⟨xv, xa, xm, xr⟩ := x
  simp only at hx2 x3 x4 x5
  subst hx2 x5
  rw [ha] at x3; cases x3
  rw [hm] at x4; cases x4
  have hσ : specRun Spec.empty (pre ++ [.register now vs] ++ mid) xv.name = some ⟨xv, a, m, samplesOf m.name mid⟩ := by
    rw [specRun_append, specRun_append]
    have h4 : specRun (specRun Spec.empty pre) [.register now vs] xv.name = some ⟨xv, a, m, []⟩ := by
      simp only [specRun, Spec.step, PluginViews.canonAll hvs]
      exact hx1
    simpa using specRun_collects h4 mid hmid
  simp only [ReplyOK, hσ] at hr
  obtain ⟨rows, rfl, h5⟩ := hr
  exact ⟨w, reg', rs, rows, h1, by rw [hrs]; simp, h5⟩

/-! ## Recordings of many parts -/

theorem samplesOf_foreign {measure : Bytes} {cs : List Cmd} (h : ∀ c ∈ cs, Foreign measure c) : samplesOf measure cs = [] := by
  rw [samplesOf_flatMap, List.flatMap_eq_nil_iff]
  intro c hc
  have hf := h c hc
  cases c with
  | record t r =>
    simp only [samplesOf, List.append_nil, recorded, List.filterMap_eq_nil_iff]
    intro m hm
    cases m with
    | none => rfl
    | some m => simp only; rw [if_neg (hf m hm)]
  | _ => rfl

/-- The recordings of a measure, when every one is made by one of the parts `xs`. -/
theorem count_parts {α : Type} {measure : Bytes} {others mid : List Cmd} {cmds : List (List Cmd)} {xs : List α}
    (hmid : Inter (others :: cmds) mid) (ho : ∀ c ∈ others, Foreign measure c)
    (P : Option TMap × Sample F64 → Bool) (Q : α → Bool)
    (h : List.Forall₂ (fun x cs => (samplesOf measure cs).countP P = if Q x then 1 else 0) xs cmds) :
    (samplesOf measure mid).countP P = xs.countP Q := by
  rw [(samplesOf_inter measure hmid).countP_eq, List.flatMap_cons, samplesOf_foreign ho, List.nil_append]
  clear hmid
  induction h with
  | nil => rfl
  | @cons x cs xs cmds hx _ ih =>
    rw [List.flatMap_cons, List.countP_append, hx, ih, List.countP_cons, Nat.add_comm]

theorem length_parts {α : Type} {measure : Bytes} {others mid : List Cmd} {cmds : List (List Cmd)} {xs : List α}
    (hmid : Inter (others :: cmds) mid) (ho : ∀ c ∈ others, Foreign measure c)
    (h : List.Forall₂ (fun _ cs => (samplesOf measure cs).length ≤ 1) xs cmds) :
    (samplesOf measure mid).length ≤ xs.length := by
  rw [(samplesOf_inter measure hmid).length_eq, List.flatMap_cons, samplesOf_foreign ho, List.nil_append]
  clear hmid
  induction h with
  | nil => simp
  | @cons x cs xs cmds hx _ ih =>
    rw [List.flatMap_cons, List.length_append, List.length_cons]
    omega

theorem Program.collected {v : ViewDef} (p : Program v)
    (hc : ∀ cs ∈ p.cmds, ∀ c ∈ cs, ∃ t r, c = .record t r ∧ TagsFit r.tags) {a : Aggregation F64} (ha : v.agg = some a)
    {m : Measure} (hm : v.measure = some m) :
    ∃ rows, p.Shows rows ∧ RowsOf a v.tagKeys (samplesOf m.name p.mid) rows := by
  have hperm := inter_perm p.inter
  have hmem : ∀ c ∈ p.mid, c ∈ p.others ∨ ∃ t r, c = .record t r ∧ TagsFit r.tags := by
    intro c h
    have := hperm.mem_iff.mp h
    rw [List.flatten_cons, List.mem_append] at this
    rcases this with h | h
    · exact .inl h
    · obtain ⟨cs, h1, h2⟩ := List.mem_flatten.mp h
      exact .inr (hc cs h1 c h2)
  obtain ⟨w, reg', rs, rows, h1, h2, h3⟩ := collects p.reg p.measures p.pre p.mid (by
      intro c h
      rcases List.mem_append.mp h with h | h
      · exact p.good c (by simp [h])
      · rcases hmem c h with h | ⟨t, r, rfl, hf⟩
        · exact p.good c (by simp [h])
        · exact hf) p.vs p.predefined p.free p.now v p.mem (by
      intro c h
      rcases hmem c h with h | ⟨t, r, rfl, h⟩
      · exact p.kept c h
      · simp [Unregisters]) ha hm
  exact ⟨rows, ⟨w, reg', rs, h1, h2⟩, h3⟩

/-! ## An example of a program -/

/-- One goroutine after the other is an interleaving. -/
theorem inter_flatten {α : Type} (ls : List (List α)) : Inter ls ls.flatten := by
  have skip : ∀ (es ls : List (List α)), (∀ l ∈ es, l = []) → Inter (es ++ ls) ls.flatten := by
    intro es ls
    induction ls generalizing es with
    | nil => intro h; exact .done (by simpa using h)
    | cons l ls ih =>
      intro h
      induction l with
      | nil =>
        have := ih (es ++ [[]]) (by
          intro l hl
          rcases List.mem_append.mp hl with hl | hl
          · exact h l hl
          · simpa using hl)
        simpa using this
      | cons a as iha =>
        rw [List.flatten_cons, List.cons_append]
        rw [List.flatten_cons] at iha
        exact .pick iha
  exact skip [] ls (by simp)

/-- A program that registers all the views of both plugins and then runs `cmds`. -/
def demoProgram (v : ViewDef) (hv : v ∈ Plugins.views) (cmds : List (List Cmd)) : Program v where
  reg := PluginViews.demoReg
  pre := [.setPeriod 5]
  now := 3
  vs := Plugins.views
  others := [.addExporter 1, .tick 7]
  cmds := cmds
  mid := ([.addExporter 1, .tick 7] :: cmds).flatten
  measures := PluginViews.demoReg_ok
  good := by intro c hc; simp at hc; rcases hc with rfl | rfl | rfl <;> trivial
  predefined := fun _ h => h
  free := fun _ _ => rfl
  mem := hv
  kept := by intro c hc; simp at hc; rcases hc with rfl | rfl <;> simp [Unregisters]
  foreign := by intro m _ c hc; simp at hc; rcases hc with rfl | rfl <;> trivial
  inter := inter_flatten _

end Verif.Props.ViewCounts
