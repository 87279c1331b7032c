import Verif.Props.Tracez

/-!
# C56: the summary page counts what the span store holds
-/

namespace Verif.Props.Tracez
open Verif Verif.Trace Verif.Zpages Verif.Props.Store Verif.Props.Bucket Verif.Props.Spans Verif.Props.Start

/-- `S'` has the names of `S` and `names`. -/
structure Grow (S S' : GoMap Bytes Trace.Store) (names : List Bytes) : Prop where
  wf : GoMap.WF S → GoMap.WF S'
  some : ∀ n, (GoMap.get S' n).isSome ↔ (GoMap.get S n).isSome ∨ n ∈ names

theorem Grow.rfl' {S : GoMap Bytes Trace.Store} : Grow S S [] := ⟨id, by simp⟩

theorem Grow.set {S : GoMap Bytes Trace.Store} (name : Bytes) (s : Trace.Store) : Grow S (GoMap.set S name s) [name] := by
  refine ⟨fun h => GoMap.WF_set h _ _, fun n => ?_⟩
  rw [GoMap.get_set]
  split
  · simp_all
  · simp_all

theorem Grow.set_old {S : GoMap Bytes Trace.Store} {name : Bytes} (s : Trace.Store) (h : (GoMap.get S name).isSome) :
    Grow S (GoMap.set S name s) [] := by
  refine ⟨(Grow.set name s).wf, fun n => ?_⟩
  rw [(Grow.set name s).some]
  constructor
  · rintro (h1 | h1)
    · exact .inl h1
    · simp only [List.mem_singleton] at h1; subst h1; exact .inl h
  · rintro (h1 | h1)
    · exact .inl h1
    · cases h1

theorem grow_configure {S S' : GoMap Bytes Trace.Store} {bcs : List BucketConfiguration}
    (h : configureBucketSizes S bcs = .ok S') : Grow S S' (bcs.map BucketConfiguration.name) := by
  induction bcs generalizing S with
  | nil => cases h; exact .rfl'
  | cons bc bcs ih =>
    obtain ⟨S1, h1, h2⟩ := Res_bind_ok h
    have g := ih h2
    have g1 : Grow S S1 [bc.name] := by
      unfold setSize at h1
      split at h1
      · obtain ⟨s', _, h1⟩ := Res_bind_ok h1; cases h1; exact .set _ _
      · cases h1; exact .set _ _
    refine ⟨fun hw => g.wf (g1.wf hw), fun n => ?_⟩
    rw [g.some, g1.some]
    simp [or_assoc]

/-- The names an operation makes a store for; `on` says whether the span store is enabled. -/
def opNames (on : Bool) (op : Op) : List Bytes :=
  match op with
  | .configure bcs => bcs.map BucketConfiguration.name
  | op => if on then (started op).map Started.name else []

theorem grow_step {st st' : State} (hg : Good st) {op : Op} (h : step st op = .ok st') :
    Grow st.stores st'.stores (opNames st.localStore op) := by
  have mod : ∀ (s : Option Nat) (f : Rec → Res Rec), KeepsData f →
      (onSpan st s fun i => modifyRec st i f) = .ok st' → Grow st.stores st'.stores (if st.localStore then [] else []) := by
    intro s f hf hm
    have : st'.stores = st.stores := by
      cases s with
      | none => cases hm; rfl
      | some i => rw [(modifyRec_ok hf hm).2.2]
    rw [this, ite_self]
    exact .rfl'
  have int : ∀ (st0 : State) (name : Bytes) (hp : Bool) (parent : SpanContext) (remote : Bool) (o : StartOptions) (tid sid : Bytes),
      startSpanInternal st0 name hp parent remote o tid sid = .ok st' →
        Grow st0.stores st'.stores (if st0.localStore then [name] else []) := by
    intro st0 name hp parent remote o tid sid hs
    unfold startSpanInternal at hs
    split at hs
    · simp at hs
    · split at hs
      · simp at hs
      · simp only at hs
        split at hs
        · next hc =>
          cases hs
          have : st0.localStore = false := by
            cases hl : st0.localStore with
            | false => rfl
            | true => simp [hl] at hc
          rw [this]; exact .rfl'
        · split at hs
          · next hl => cases hs; rw [if_pos hl]; exact .set _ _
          · next hl => cases hs; rw [if_neg hl]; exact .rfl'
  cases op with
  | start p name opts tid sid =>
    cases p with
    | none => exact int _ _ _ _ _ _ _ _ h
    | some p =>
      simp only [step, startSpan] at h
      cases hp : st.spans[p]? with
      | none => rw [hp] at h; simp at h
      | some ps =>
        rw [hp] at h
        simp only at h
        obtain ⟨st1, hm, h⟩ := Res_bind_ok h
        have := int _ _ _ _ _ _ _ _ h
        rw [(modifyRec_ok keeps_addChild hm).2.2] at this
        exact this
  | startRemote sc name opts tid sid => exact int _ _ _ _ _ _ _ _ h
  | setName s name => exact mod s _ (keeps_setName _) h
  | setStatus s x => exact mod s _ (keeps_setStatus _) h
  | addAttributes s l => exact mod s _ (keeps_addAttributes _) h
  | annotate s l m => exact mod s _ (keeps_annotate _ _ _) h
  | addMessageEvent s t a b c => exact mod s _ (keeps_addMessageEvent _ _ _ _ _) h
  | addLink s l => exact mod s _ (keeps_addLink _) h
  | endSpan s order =>
    simp only [opNames, started, List.map_nil, ite_self]
    cases s with
    | none => cases h; exact .rfl'
    | some i =>
      obtain ⟨s, hi, ⟨rfl, _⟩ | ⟨r, hd, he, hE⟩⟩ := endSpan_cases h
      · exact .rfl'
      · cases hE with
        | quiet => exact .rfl'
        | full r' sd hm stores hst =>
          rcases hst with ⟨_, rfl⟩ | ⟨name, store, store', _, h2, _, rfl⟩
          · exact .rfl'
          · exact .set_old _ (by rw [h2]; rfl)
  | registerExporter e => cases h; simp only [opNames, started, List.map_nil, ite_self]; exact .rfl'
  | unregisterExporter e => cases h; simp only [opNames, started, List.map_nil, ite_self]; exact .rfl'
  | applyConfig c => cases h; simp only [opNames, started, List.map_nil, ite_self]; exact .rfl'
  | configure bcs => obtain ⟨stores, h1, h⟩ := Res_bind_ok h; cases h; exact grow_configure h1
  | reportActive name orders =>
    obtain ⟨⟨st1, out⟩, h1, h⟩ := Res_bind_ok h
    cases h
    simp only [opNames, started, List.map_nil, ite_self]
    unfold reportActive at h1
    split at h1
    · cases h1; exact .rfl'
    · rw [(reportActiveLoop_spans h1).2.2]; exact .rfl'
  | enableStore => cases h; simp only [opNames, started, List.map_nil, ite_self]; exact .rfl'
  | tick d => cases h; simp only [opNames, started, List.map_nil, ite_self]; exact .rfl'

/-- A span was started with this name while the span store was enabled, or bucket sizes were configured
for it. -/
def Named (ops : List Op) (name : Bytes) : Prop :=
  (∃ c op d x, ops = c ++ op :: d ∧ started op = [x] ∧ x.name = name ∧ Op.enableStore ∈ c) ∨
    ∃ bcs, Op.configure bcs ∈ ops ∧ ∃ bc ∈ bcs, bc.name = name

theorem named_snoc {ops : List Op} {op : Op} {name : Bytes} {on : Bool} (hon : on = true ↔ Op.enableStore ∈ ops) :
    Named (ops ++ [op]) name ↔ Named ops name ∨ name ∈ opNames on op := by
  constructor
  · rintro (⟨c, o, d, x, h1, h2, h3, h4⟩ | ⟨bcs, h1, bc, h2, h3⟩)
    · rcases List.eq_nil_or_concat d with rfl | ⟨d', y, rfl⟩
      · have := List.append_inj' h1 rfl
        obtain ⟨rfl, h5⟩ := this
        cases h5
        right
        unfold opNames
        split
        · simp [started] at h2
        · rw [if_pos (hon.mpr h4), h2]; simp [h3]
      · left; left
        have : ops ++ [op] = (c ++ o :: d') ++ [y] := by simp [h1]
        have := List.append_inj' this rfl
        exact ⟨c, o, d', x, this.1, h2, h3, h4⟩
    · rcases List.mem_append.mp h1 with h1 | h1
      · exact .inl (.inr ⟨bcs, h1, bc, h2, h3⟩)
      · simp only [List.mem_singleton] at h1
        subst h1
        right
        exact List.mem_map.mpr ⟨bc, h2, h3⟩
  · rintro ((⟨c, o, d, x, h1, h2, h3, h4⟩ | ⟨bcs, h1, bc, h2, h3⟩) | h)
    · exact .inl ⟨c, o, d ++ [op], x, by simp [h1], h2, h3, h4⟩
    · exact .inr ⟨bcs, by simp [h1], bc, h2, h3⟩
    · unfold opNames at h
      split at h
      · next bcs =>
        obtain ⟨bc, h2, h3⟩ := List.mem_map.mp h
        exact .inr ⟨bcs, by simp, bc, h2, h3⟩
      · split at h
        · next hc =>
          obtain ⟨x, h2, h3⟩ := List.mem_map.mp h
          have : started op = [x] := by
            cases op with
            | start p _ _ _ _ => cases p <;> (simp only [started, List.mem_singleton] at h2 ⊢; rw [h2])
            | startRemote => simp only [started, List.mem_singleton] at h2 ⊢; rw [h2]
            | _ => simp [started] at h2
          exact .inl ⟨ops, op, [], x, rfl, this, h3, hon.mp hc⟩
        · cases h

theorem stores_run {t : Int} {ops : List Op} {st : State} (h : run (State.init t) ops = .ok st) :
    GoMap.WF st.stores ∧ ∀ name, (GoMap.get st.stores name).isSome ↔ Named ops name := by
  induction ops using List.reverseRecOn generalizing st with
  | nil =>
    cases h
    refine ⟨GoMap.WF_nil, fun name => ?_⟩
    simp [State.init, Named]
  | append_singleton ops op ih =>
    obtain ⟨mid, h1, h2⟩ := run_snoc_ok h
    obtain ⟨hw, hs⟩ := ih h1
    have hg := grow_step (good_run h1) h2
    refine ⟨hg.wf hw, fun name => ?_⟩
    rw [hg.some, named_snoc (localStore_run h1), hs]

/-- The spans of the error page of a name: those stored under any error code. -/
theorem error_page {t : Int} {ops : List Op} {st : State} (h : run (State.init t) ops = .ok st)
    (orders : List (List Bytes)) (name : Bytes) (subtype : Int) :
    ∃ out, traceSpans st orders name 2 subtype = .ok (st, out) ∧
      (∀ sd, sd ∈ out ↔ sd ∈ errorsOf st name sd.status.code) ∧ ∀ sd ∈ out, sd.status.code ≠ 0 := by
  refine ⟨reportByError st name 0, by simp [traceSpans], ?_⟩
  unfold reportByError errorsOf
  cases hs : GoMap.get st.stores name with
  | none => simp
  | some s =>
    have hok := SInv.ok (good_run h) name s hs
    simp only [ne_eq, not_true_eq_false, if_false, List.mem_flatMap]
    constructor
    · intro sd
      constructor
      · rintro ⟨e, he, hsd⟩
        obtain ⟨h0, xs, hr, hx⟩ := hok.errors e he
        have hm := hr.scan.mem_iff.mp hsd
        rw [(hx sd hm).1, GoMap.get_of_mem hok.errWF he]
        simp only
        rw [contents_of_rep hr]; exact hm
      · intro hm
        cases hg : GoMap.get s.errors sd.status.code with
        | none => rw [hg] at hm; simp at hm
        | some b =>
          rw [hg] at hm
          simp only at hm
          have he := GoMap.mem_of_get hg
          obtain ⟨h0, xs, hr, hx⟩ := hok.errors _ he
          rw [contents_of_rep hr] at hm
          exact ⟨_, he, hr.scan.mem_iff.mpr hm⟩
    · rintro sd ⟨e, he, hsd⟩
      obtain ⟨h0, xs, hr, hx⟩ := hok.errors e he
      rw [(hx sd (hr.scan.mem_iff.mp hsd)).1]; exact h0

theorem latencySummaries_ok : ∀ (bs : List (Bucket SpanData)) (i : Nat), i + bs.length = 9 →
    ∃ ls, latencySummaries i bs = .ok ls ∧ ls.map LatencySummary.size = bs.map Bucket.size ∧
      ls.map LatencySummary.min = (0 :: defaultLatencies).drop i := by
  intro bs
  induction bs with
  | nil =>
    intro i hi
    simp at hi
    subst hi
    exact ⟨[], rfl, rfl, rfl⟩
  | cons b bs ih =>
    intro i hi
    have hi' : i + 1 + bs.length = 9 := by simp at hi; omega
    obtain ⟨ls, h1, h2, h3⟩ := ih (i + 1) hi'
    have hlt : i < 9 := by simp at hi; omega
    have hb : ∃ lo hi, latencyBucketBounds i = .ok (lo, hi) ∧ (0 :: defaultLatencies).drop i = lo :: (0 :: defaultLatencies).drop (i + 1) := by
      interval_cases i <;> exact ⟨_, _, rfl, rfl⟩
    obtain ⟨lo, hi2, h4, h5⟩ := hb
    refine ⟨⟨lo, hi2, b.size⟩ :: ls, ?_, by simp [h2], by simp [h3, h5]⟩
    simp [latencySummaries, h4, h1, Res.bind]

/-- What a row has to say. -/
structure RowOK (ops : List Op) (st : State) (r : Row) : Prop where
  active : ∃ ids : List Nat, ids.Nodup ∧ (∀ i, i ∈ ids ↔ Active ops r.name i) ∧ r.active = ids.length
  latency : r.latency = (List.range 9).map fun k => (latencyOf st r.name k).length
  errors : ∀ orders subtype out, traceSpans st orders r.name 2 subtype = .ok (st, out) → r.errors = out.length

theorem row_ok {t : Int} {ops : List Op} {st : State} (h : run (State.init t) ops = .ok st) {name : Bytes} {s : Trace.Store}
    (hs : GoMap.get st.stores name = some s) :
    ∃ p, summaryOf s = .ok p ∧ RowOK ops st (rowOf (name, p)) ∧ p.latency.map LatencySummary.min = 0 :: defaultLatencies := by
  have hok := SInv.ok (good_run h) name s hs
  obtain ⟨ls, h1, h2, h3⟩ := latencySummaries_ok s.latency 0 (by simp [hok.nbuckets])
  refine ⟨⟨s.active.length, ls, s.errors.map fun e => (e.1, e.2.size)⟩, by simp [summaryOf, h1, Res.bind], ?_, h3⟩
  refine ⟨⟨s.active, hok.nodup, fun i => (hok.active i).trans (active_mem h name i), rfl⟩, ?_, ?_⟩
  · show ls.map LatencySummary.size = _
    rw [h2]
    apply List.ext_getElem?
    intro k
    simp only [List.getElem?_map]
    by_cases hk : k < 9
    · rw [List.getElem?_range hk]
      cases hb : s.latency[k]? with
      | none =>
        have := List.getElem?_eq_none_iff.mp hb
        rw [hok.nbuckets] at this
        omega
      | some b =>
        obtain ⟨xs, hr, _⟩ := hok.latency k b hb
        simp only [Option.map_some, rowOf, latencyOf, hs, hb]
        rw [hr.size, contents_of_rep hr]
    · rw [List.getElem?_eq_none (by rw [hok.nbuckets]; omega), List.getElem?_eq_none (by simp; omega)]
      rfl
  · intro orders subtype out hout
    simp only [traceSpans, rowOf] at hout
    rw [if_neg (by decide), if_neg (by decide), if_pos trivial] at hout
    cases hout
    unfold reportByError
    rw [hs]
    simp only [rowOf, ne_eq, not_true_eq_false, if_false, List.map_map]
    have : ∀ l : GoMap Int (Bucket SpanData), (∀ e ∈ l, ∃ xs, Rep e.2 xs) →
        (l.map (Prod.snd ∘ fun e => (e.1, e.2.size))).sum = (l.flatMap fun e => scan e.2.buffer).length := by
      intro l hl
      induction l with
      | nil => rfl
      | cons e l ih =>
        obtain ⟨xs, hr⟩ := hl e (by simp)
        rw [List.map_cons, List.sum_cons, List.flatMap_cons, List.length_append, ih fun e' he' => hl e' (by simp [he'])]
        simp only [Function.comp_apply]
        rw [hr.size, hr.scan.length_eq]
    exact this _ fun e he => by obtain ⟨_, xs, hr, _⟩ := hok.errors e he; exact ⟨xs, hr⟩

/-- After any program, whatever the order in which the map of span stores is read: the summary page has
one row for every span name used, sorted by name. Each row counts the active spans, the finished spans
of each latency column and the spans of the error page. The headers are the lower bounds of the
columns. -/
theorem summary_page {t : Int} {ops : List Op} {st : State} (h : run (State.init t) ops = .ok st)
    {l : GoMap Bytes Trace.Store} (hl : l.Perm st.stores) :
    ∃ hdr rows, getSummaryPageData l = .ok (hdr, rows) ∧
      rows.Pairwise (fun a b => a.name < b.name) ∧
      (∀ name, (∃ r ∈ rows, r.name = name) ↔ Named ops name) ∧
      (∀ r ∈ rows, RowOK ops st r) ∧
      (rows ≠ [] → hdr = [0, 10000, 100000, 1000000, 10000000, 100000000, 1000000000, 10000000000, 60000000000]) := by
  obtain ⟨hw, hnamed⟩ := stores_run h
  have hwl : GoMap.WF l := GoMap.WF_perm hl.symm hw
  have hall : ∀ e ∈ l, ∃ b : Bytes × Summary, ((summaryOf e.2).bind fun p => Res.ok (e.1, p)) = .ok b ∧
      (b.1 = e.1 ∧ RowOK ops st (rowOf b) ∧ b.2.latency.map LatencySummary.min = 0 :: defaultLatencies) := by
    intro e he
    have hs : GoMap.get st.stores e.1 = some e.2 := by
      rw [← GoMap.get_perm hl hwl]; exact GoMap.get_of_mem hwl he
    obtain ⟨p, h1, h2, h3⟩ := row_ok h hs
    exact ⟨(e.1, p), by simp [h1, Res.bind], rfl, h2, h3⟩
  obtain ⟨bs, h1, h2⟩ := mapRes_ok hall
  have hfst : bs.map Prod.fst = GoMap.keys l := by
    unfold GoMap.keys
    have : ∀ {l : List (Bytes × Trace.Store)} {bs : List (Bytes × Summary)},
        List.Forall₂ (fun e b => b.1 = e.1 ∧ RowOK ops st (rowOf b) ∧ b.2.latency.map LatencySummary.min = 0 :: defaultLatencies) l bs →
        bs.map Prod.fst = l.map Prod.fst := by
      intro l bs hf
      induction hf with
      | nil => rfl
      | cons h _ ih => simp [h.1, ih]
    exact this h2
  have hb : ∀ b ∈ bs, RowOK ops st (rowOf b) ∧ b.2.latency.map LatencySummary.min = 0 :: defaultLatencies := by
    intro b hb
    obtain ⟨i, hi⟩ := List.mem_iff_getElem?.mp hb
    obtain ⟨e, _, h3⟩ := forall₂_getElem? h2 hi
    exact h3.2
  have hperm := List.mergeSort_perm (bs.map rowOf) rowLe
  have hname : (bs.map rowOf).map Row.name = GoMap.keys l := by rw [List.map_map]; exact hfst
  refine ⟨_, _, by unfold getSummaryPageData reportSpansPerMethod; rw [h1]; rfl, ?_, ?_, ?_, ?_⟩
  · have hs := List.pairwise_mergeSort (le := rowLe)
      (fun a b c h1 h2 => by simp only [rowLe, decide_eq_true_eq] at *; exact List.le_trans h1 h2)
      (fun a b => by simp only [rowLe, Bool.or_eq_true, decide_eq_true_eq]; exact List.le_total _ _) (bs.map rowOf)
    have hn : ((bs.map rowOf).mergeSort rowLe).Pairwise (fun a b => a.name ≠ b.name) := by
      have : (((bs.map rowOf).mergeSort rowLe).map Row.name).Nodup := by
        refine (hperm.map Row.name).nodup_iff.mpr ?_
        rw [hname]; exact hwl
      exact List.pairwise_map.mp this
    refine (hs.and hn).imp ?_
    rintro a b ⟨h1, h2⟩
    simp only [rowLe, decide_eq_true_eq] at h1
    by_contra hc
    exact h2 (List.le_antisymm h1 (List.not_lt.mp hc))
  · intro name
    rw [← hnamed, ← GoMap.get_perm hl hwl]
    have : (∃ r ∈ (bs.map rowOf).mergeSort rowLe, r.name = name) ↔ name ∈ (bs.map rowOf).map Row.name := by
      simp only [hperm.mem_iff, List.mem_map (f := Row.name)]
    rw [this, hname]
    cases hg : GoMap.get l name with
    | none => simp [(GoMap.get_eq_none_iff l name).mp hg]
    | some s =>
      simp only [Option.isSome_some, iff_true]
      by_contra hc
      rw [(GoMap.get_eq_none_iff l name).mpr hc] at hg
      cases hg
  · intro r hr
    obtain ⟨b, hb1, rfl⟩ := List.mem_map.mp (hperm.mem_iff.mp hr)
    exact (hb b hb1).1
  · intro hne
    cases bs with
    | nil => simp at hne
    | cons b bs => exact (hb b (by simp)).2

/-- The page of the program with two finished spans, one failed and one active (`storeDemo`), and one
name only configured. -/
def summaryDemo : List Op := neverConfig :: storeDemo ++ [.configure [⟨[7], 3, 3⟩], .tick 5]

example : (match run (State.init 100) summaryDemo with
    | .ok st => match reportSpansPerMethod st.stores with
      | .ok l => l.map fun e => (e.1, (rowOf e).active, (rowOf e).latency, (rowOf e).errors)
      | _ => []
    | _ => []) = [([1], 1, [0, 0, 1, 0, 0, 0, 0, 0, 0], 1), ([7], 0, [0, 0, 0, 0, 0, 0, 0, 0, 0], 0)] := by decide +kernel

end Verif.Props.Tracez
