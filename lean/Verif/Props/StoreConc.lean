import Verif.Trace.StoreConc
import Verif.Trace.StoreInv
import Verif.Trace.MachineInv
import Mathlib.Data.List.Induction

/-!
# C77: reports of span stores beside goroutines that use them
-/

namespace Verif.Trace.StoreConc
open Verif Verif.Trace Verif.Zpages

/-! ## Specification: what the events so far say -/

/-- The store that a name has. -/
def named (n : Bytes) (l : List Ev) : Option Nat := (l.filterMap fun e => match e with
  | .created _ n' p _ _ => if n' = n then some p else none
  | _ => none).getLast?

/-- The spans that have been finished, in order. -/
def ended (l : List Ev) : List Nat := l.filterMap fun e => match e with
  | .finished _ i _ _ => some i
  | _ => none

/-- Span `i` has been added to store `p` and is not finished. -/
def ActiveIn (p i : Nat) (l : List Ev) : Prop := (∃ t r, Ev.added t i p r ∈ l) ∧ i ∉ ended l

/-- What span `i` holds. -/
def spanAt (i : Nat) (l : List Ev) : Option Rec := l.foldl (fun x e => match e with
  | .added _ j _ r => if j = i then some r else x
  | .mutated _ j f => if j = i then x.map f else x
  | .made _ j order _ => if j = i then x.map fun r => match r.makeSpanData order with
      | .ok (r, _) => r
      | _ => r
    else x
  | _ => x) none

/-- Store `p`: every operation on it, one by one. -/
def storeAt (p : Nat) (l : List Ev) : Store := l.foldl (fun x e => match e with
  | .created _ _ q lat err => if q = p then Store.new lat err else x
  | .added _ i q _ => if q = p then { x with active := x.active ++ [i] } else x
  | .resized _ q lat err => if q = p then orElse (x.resize lat err) x else x
  | .finished _ i q sd => if q = p then orElse (x.finished i sd) x else x
  | _ => x) (Store.new 0 0)

/-- At a moment behind the call that is number `id` of the log. -/
def At (id : Nat) (l : List Ev) (P : List Ev → Prop) : Prop := ∃ m, id < m ∧ m ≤ l.length ∧ P (l.take m)

/-- Goroutine `t` did `e` behind the call that is number `id` of the log. -/
def Did (id : Nat) (l : List Ev) (e : Ev) : Prop := ∃ j, id < j ∧ l[j]? = some e

/-- A right result `r` of a call `c` of goroutine `t`, number `id` of the log `l` that ends with it. -/
def Good (c : Call) (r : Result) (id t : Nat) (l : List Ev) : Prop := match c with
  | .start n x => ∃ i p, r = .span i ∧ named n l = some p ∧ Did id l (.added t i p x)
  | .mutate i f => r = .unit ∧ Did id l (.mutated t i f)
  | .endSpan i => r = .unit ∧ i ∈ ended l
  | .active n => ∃ out, r = .active out ∧
      At id l (fun l => (named n l = none ∧ out = []) ∨
        ∃ p, named n l = some p ∧ (out.map Prod.fst).Nodup ∧ ∀ i, i ∈ out.map Prod.fst ↔ ActiveIn p i l) ∧
      ∀ x ∈ out, At id l fun l => ∃ y y' order, spanAt x.1 l = some y ∧ y.makeSpanData order = .ok (y', x.2)
  | .byError n code => ∃ out, r = .data out ∧ At id l fun l => (named n l = none ∧ out = []) ∨
      ∃ p, named n l = some p ∧ out = errorsOf (storeAt p l) code
  | .byLatency n min max => ∃ out, r = .data out ∧ At id l fun l => (named n l = none ∧ out = []) ∨
      ∃ p, named n l = some p ∧ latencyOf (storeAt p l) min max = .ok out
  | .perMethod => ∃ out, r = .summary out ∧ (out.map Prod.fst).Nodup ∧
      At id l (fun l => ∀ n, n ∈ out.map Prod.fst ↔ (named n l).isSome) ∧
      ∀ x ∈ out, At id l fun l => ∃ p, named x.1 l = some p ∧ summaryOf (storeAt p l) = .ok x.2
  | .setSize n lat err => r = .unit ∧ ∃ p, named n l = some p ∧
      (Did id l (.resized t p lat err) ∨ Did id l (.created t n p lat err))

/-! ## Memory is what the events say -/

theorem mem_snoc (l : List Ev) (e : Ev) : mem (l ++ [e]) = (mem l).exec e := by simp [mem]

theorem last_snoc {α β : Type} (f : α → Option β) (l : List α) (x : α) :
    ((l ++ [x]).filterMap f).getLast? = match f x with
      | some y => some y
      | none => (l.filterMap f).getLast? := by
  rw [List.filterMap_append]
  cases h : f x <;> simp [h]

theorem named_snoc (n : Bytes) (l : List Ev) (e : Ev) : named n (l ++ [e]) = match e with
    | .created _ n' p _ _ => if n' = n then some p else named n l
    | _ => named n l := by
  unfold named
  rw [last_snoc]
  cases e <;> try rfl
  split <;> rename_i h <;> revert h <;> simp <;> intro h <;> simp_all

theorem ended_snoc (l : List Ev) (e : Ev) : ended (l ++ [e]) = match e with
    | .finished _ i _ _ => ended l ++ [i]
    | _ => ended l := by
  unfold ended
  rw [List.filterMap_append]
  cases e <;> simp

theorem upd_same {α : Type} (f : Nat → α) (i : Nat) (x : α) : upd f i x i = x := by simp [upd]
theorem upd_other {α : Type} (f : Nat → α) {i j : Nat} (x : α) (h : j ≠ i) : upd f i x j = f j := by simp [upd, h]

theorem names_eq (l : List Ev) (n : Bytes) : GoMap.get (mem l).names n = named n l := by
  induction l using List.reverseRecOn with
  | nil => rfl
  | append_singleton l e ih =>
    rw [mem_snoc, named_snoc]
    cases e <;> simp only [Mem.exec, ih]
    rw [GoMap.get_set, ih]
    simp only [eq_comm]

theorem names_wf (l : List Ev) : GoMap.WF (mem l).names := by
  induction l using List.reverseRecOn with
  | nil => exact GoMap.WF_nil
  | append_singleton l e ih =>
    rw [mem_snoc]
    cases e <;> simp only [Mem.exec, ih]
    exact GoMap.WF_set ih _ _

theorem spanAt_eq (l : List Ev) (i : Nat) : (mem l).recs i = spanAt i l := by
  induction l using List.reverseRecOn with
  | nil => rfl
  | append_singleton l e ih =>
    rw [mem_snoc]
    unfold spanAt
    rw [List.foldl_append]
    simp only [List.foldl_cons, List.foldl_nil]
    cases e with
    | added t j p r | mutated t j f | made t j order sd =>
      by_cases h : j = i
      · subst h; simp only [Mem.exec, upd, if_true, ih]; try rfl
      · simp only [Mem.exec, upd, Ne.symm h, h, if_false, ih]; rfl
    | _ => exact ih

theorem storeAt_eq (l : List Ev) (p : Nat) : (mem l).stores p = storeAt p l := by
  induction l using List.reverseRecOn with
  | nil => rfl
  | append_singleton l e ih =>
    rw [mem_snoc]
    unfold storeAt
    rw [List.foldl_append]
    simp only [List.foldl_cons, List.foldl_nil]
    cases e with
    | created t n q lat err | added t i q r | resized t q lat err | finished t i q sd =>
      by_cases h : q = p
      · subst h; simp only [Mem.exec, upd, if_true, ih]; try rfl
      · simp only [Mem.exec, upd, Ne.symm h, h, if_false, ih]; rfl
    | _ => exact ih

/-! ## Stores -/

/-- All that store `p` keeps was finished there. -/
structure Fine (l : List Ev) (p : Nat) (s : Store) : Prop where
  nbuckets : s.latency.length = 9
  latency : ∀ b ∈ s.latency, ∃ xs, Rep b xs ∧ ∀ sd ∈ xs, sd.status.code = 0 ∧ ∃ t i, Ev.finished t i p sd ∈ l
  errWF : GoMap.WF s.errors
  errors : ∀ e ∈ s.errors, e.1 ≠ 0 ∧ ∃ xs, Rep e.2 xs ∧ ∀ sd ∈ xs, sd.status.code = e.1 ∧ ∃ t i, Ev.finished t i p sd ∈ l

theorem Fine.mono {l l' : List Ev} {p : Nat} {s s' : Store} (h : Fine l p s) (hl : l ⊆ l') (h1 : s'.latency = s.latency)
    (h2 : s'.errors = s.errors) : Fine l' p s' := by
  obtain ⟨a, b, c, d⟩ := h
  refine ⟨by rw [h1]; exact a, ?_, by rw [h2]; exact c, ?_⟩
  · intro x hx
    rw [h1] at hx
    obtain ⟨xs, r, hr⟩ := b x hx
    refine ⟨xs, r, fun sd hsd => ?_⟩
    obtain ⟨e, t, i, hm⟩ := hr sd hsd
    exact ⟨e, t, i, hl hm⟩
  · intro x hx
    rw [h2] at hx
    obtain ⟨h0, xs, r, hr⟩ := d x hx
    refine ⟨h0, xs, r, fun sd hsd => ?_⟩
    obtain ⟨e, t, i, hm⟩ := hr sd hsd
    exact ⟨e, t, i, hl hm⟩

theorem fine_new (l : List Ev) (p lat err : Nat) : Fine l p (Store.new lat err) := by
  refine ⟨by simp [Store.new, defaultLatencies], ?_, by simp [Store.new, GoMap.WF], by simp [Store.new]⟩
  intro b hb
  simp only [Store.new, List.mem_replicate] at hb
  rw [hb.2]
  exact ⟨[], rep_make lat, by simp⟩

theorem Fine.resize {l : List Ev} {p : Nat} {s : Store} (h : Fine l p s) (lat err : Nat) :
    ∃ s', s.resize lat err = .ok s' ∧ s'.active = s.active ∧ Fine l p s' := by
  obtain ⟨bs, h1, h2⟩ := mapRes_ok (f := fun b : Bucket SpanData => b.resize lat)
    (P := fun b b' => ∀ xs, Rep b xs → Rep b' (lastN lat xs)) (l := s.latency) (by
      intro b hb
      obtain ⟨xs, hx, _⟩ := h.latency b hb
      obtain ⟨b', hb', _, _, _⟩ := hx.resize lat
      refine ⟨b', hb', ?_⟩
      intro ys hy
      obtain ⟨b'', hb'', _, _, hr⟩ := hy.resize lat
      rw [hb'] at hb''; cases hb''
      exact hr)
  obtain ⟨es, h3, h4⟩ := mapRes_ok (f := fun x : Int × Bucket SpanData => (x.2.resize err).bind fun b => .ok (x.1, b))
    (P := fun x x' => x'.1 = x.1 ∧ ∀ xs, Rep x.2 xs → Rep x'.2 (lastN err xs)) (l := s.errors) (by
      intro x hx
      obtain ⟨_, xs, hxs, _⟩ := h.errors x hx
      obtain ⟨b', hb', _, _, _⟩ := hxs.resize err
      refine ⟨(x.1, b'), by simp [hb', Res.bind], rfl, ?_⟩
      intro ys hy
      obtain ⟨b'', hb'', _, _, hr⟩ := hy.resize err
      rw [hb'] at hb''; cases hb''
      exact hr)
  refine ⟨{ s with latency := bs, errors := es, maxErr := err }, by unfold Store.resize; rw [h1]; simp only [Res.bind] at h3 ⊢; rw [h3], rfl, ?_⟩
  refine ⟨by rw [← h2.length_eq]; exact h.nbuckets, ?_, ?_, ?_⟩
  · intro b hb
    obtain ⟨k, hk⟩ := List.mem_iff_getElem?.mp hb
    obtain ⟨b0, hb0, hp⟩ := forall₂_getElem? h2 hk
    obtain ⟨xs, hx1, hx2⟩ := h.latency b0 (List.mem_of_getElem? hb0)
    exact ⟨_, hp xs hx1, fun sd hsd => hx2 sd (mem_lastN hsd)⟩
  · have : ∀ (l : List (Int × Bucket SpanData)) (m : List (Int × Bucket SpanData)),
        List.Forall₂ (fun x x' => x'.1 = x.1 ∧ ∀ xs, Rep x.2 xs → Rep x'.2 (lastN err xs)) l m → GoMap.keys m = GoMap.keys l := by
      intro l m hlm
      induction hlm with
      | nil => rfl
      | cons hp _ ih => simp [hp.1, ih]
    unfold GoMap.WF
    simp only
    rw [this _ _ h4]; exact h.errWF
  · intro x hx
    obtain ⟨k, hk⟩ := List.mem_iff_getElem?.mp hx
    obtain ⟨x0, hx0, hp⟩ := forall₂_getElem? h4 hk
    obtain ⟨h0, xs, hx1, hx2⟩ := h.errors x0 (List.mem_of_getElem? hx0)
    refine ⟨by rw [hp.1]; exact h0, _, hp.2 xs hx1, fun sd hsd => ?_⟩
    rw [hp.1]
    exact hx2 sd (mem_lastN hsd)

theorem Fine.finished {l : List Ev} {p : Nat} {s : Store} (h : Fine l p s) (t i : Nat) (sd : SpanData) :
    ∃ s', s.finished i sd = .ok s' ∧ s'.active = s.active.filter (fun j => decide (j ≠ i)) ∧
      Fine (l ++ [.finished t i p sd]) p s' := by
  have hm : Fine (l ++ [.finished t i p sd]) p s := h.mono (by simp) rfl rfl
  have hin : ∃ t' i', Ev.finished t' i' p sd ∈ l ++ [.finished t i p sd] := ⟨t, i, by simp⟩
  unfold Store.finished
  simp only
  generalize (if sd.endTime - sd.startTime < 0 then 0 else sd.endTime - sd.startTime) = lat
  by_cases hc : sd.status.code = 0
  · rw [if_pos hc]
    have hk : latencyBucket lat < s.latency.length := by rw [h.nbuckets]; exact latencyBucket_lt _
    rw [List.getElem?_eq_getElem hk]
    obtain ⟨xs, hx1, hx2⟩ := hm.latency _ (List.getElem_mem hk)
    obtain ⟨b', ys, ha, hy1, hy2⟩ := add_rep hx1 sd
    simp only [ha, Res.bind]
    refine ⟨_, rfl, rfl, by simpa using h.nbuckets, ?_, hm.errWF, hm.errors⟩
    intro b hb
    rcases List.mem_or_eq_of_mem_set hb with hb | rfl
    · exact hm.latency b hb
    · refine ⟨ys, hy1, fun x hx => ?_⟩
      rcases hy2 x hx with rfl | hx
      · exact ⟨hc, hin⟩
      · exact hx2 x hx
  · rw [if_neg hc]
    have hb : ∃ xs, Rep (s.errorBucket sd.status.code) xs ∧
        ∀ x ∈ xs, x.status.code = sd.status.code ∧ ∃ t' i', Ev.finished t' i' p x ∈ l ++ [.finished t i p sd] := by
      unfold Store.errorBucket
      cases hg : GoMap.get s.errors sd.status.code with
      | none => exact ⟨[], rep_make _, by simp⟩
      | some b => exact (hm.errors _ (GoMap.mem_of_get hg)).2
    obtain ⟨xs, hx1, hx2⟩ := hb
    obtain ⟨b', ys, ha, hy1, hy2⟩ := add_rep hx1 sd
    have he : Store.errorBucket { s with active := s.active.filter (fun j => decide (j ≠ i)) } sd.status.code =
        s.errorBucket sd.status.code := rfl
    rw [he, ha]
    refine ⟨_, rfl, rfl, hm.nbuckets, hm.latency, GoMap.WF_set hm.errWF _ _, ?_⟩
    intro e hmem
    rcases GoMap.mem_set hmem with rfl | hmem
    · refine ⟨hc, ys, hy1, fun x hx => ?_⟩
      rcases hy2 x hx with rfl | hx
      · exact ⟨rfl, hin⟩
      · exact hx2 x hx
    · exact hm.errors e (by first | exact hmem | exact hmem.1)

theorem fine (l : List Ev) (p : Nat) : Fine l p ((mem l).stores p) := by
  induction l using List.reverseRecOn with
  | nil => exact fine_new _ _ _ _
  | append_singleton l e ih =>
    have hsub : l ⊆ l ++ [e] := by simp
    have keep := ih.mono hsub rfl rfl
    rw [mem_snoc]
    cases e with
    | created t n q lat err =>
      by_cases h : p = q
      · subst h; simp only [Mem.exec, upd_same]; exact fine_new _ _ _ _
      · simp only [Mem.exec, upd_other _ _ h]; exact keep
    | added t i q r =>
      by_cases h : p = q
      · subst h; simp only [Mem.exec, upd_same]; exact ih.mono hsub rfl rfl
      · simp only [Mem.exec, upd_other _ _ h]; exact keep
    | resized t q lat err =>
      by_cases h : p = q
      · subst h
        obtain ⟨s', h1, _, h2⟩ := ih.resize lat err
        simp only [Mem.exec, upd_same, h1, orElse]
        exact h2.mono hsub rfl rfl
      · simp only [Mem.exec, upd_other _ _ h]; exact keep
    | finished t i q sd =>
      by_cases h : p = q
      · subst h
        obtain ⟨s', h1, _, h2⟩ := ih.finished t i sd
        simp only [Mem.exec, upd_same, h1, orElse]
        exact h2
      · simp only [Mem.exec, upd_other _ _ h]; exact keep
    | _ => exact keep

/-- The loops over the latency buckets meet no index out of range. -/
theorem bounds_ok {i : Nat} (h : i < 9) : ∃ b, latencyBucketBounds i = .ok b := by
  have : ∀ i : Fin 9, ∃ b, latencyBucketBounds i = .ok b := by
    intro i
    have : ∀ i : Fin 9, (match latencyBucketBounds i with | .ok _ => true | _ => false) = true := by decide +kernel
    have := this i
    split at this
    · next b hb => exact ⟨b, hb⟩
    · cases this
  exact this ⟨i, h⟩

theorem latency_ok (min max : Int) (n : Nat) : ∀ (bs : List (Bucket SpanData)) (i : Nat), i + bs.length ≤ 9 →
    ∃ out, reportLatencyLoop min max n i bs = .ok out ∧ ∀ sd ∈ out, ∃ b ∈ bs, sd ∈ scan b.buffer ∧ latencyMatches min max sd = true := by
  intro bs
  induction bs with
  | nil => intro i _; exact ⟨[], rfl, by simp⟩
  | cons b bs ih =>
    intro i hi
    simp only [List.length_cons] at hi
    obtain ⟨out, h1, h2⟩ := ih (i + 1) (by omega)
    obtain ⟨⟨lo, hi'⟩, hb⟩ := bounds_ok (i := i) (by omega)
    have h3 : ∀ sd ∈ out, ∃ b' ∈ b :: bs, sd ∈ scan b'.buffer ∧ latencyMatches min max sd = true := by
      intro sd hsd
      obtain ⟨b', hb', hx⟩ := h2 sd hsd
      exact ⟨b', by simp [hb'], hx⟩
    simp only [reportLatencyLoop, hb, h1, Res.bind]
    split
    · exact ⟨_, rfl, h3⟩
    · split
      · exact ⟨_, rfl, h3⟩
      · refine ⟨_, rfl, ?_⟩
        intro sd hsd
        rcases List.mem_append.mp hsd with hsd | hsd
        · rw [List.mem_filter] at hsd
          exact ⟨b, by simp, hsd⟩
        · exact h3 sd hsd

theorem summaries_ok : ∀ (bs : List (Bucket SpanData)) (i : Nat), i + bs.length ≤ 9 → ∃ out, latencySummaries i bs = .ok out := by
  intro bs
  induction bs with
  | nil => intro i _; exact ⟨[], rfl⟩
  | cons b bs ih =>
    intro i hi
    simp only [List.length_cons] at hi
    obtain ⟨out, h1⟩ := ih (i + 1) (by omega)
    obtain ⟨⟨lo, hi'⟩, hb⟩ := bounds_ok (i := i) (by omega)
    simp only [latencySummaries, hb, h1, Res.bind]
    exact ⟨_, rfl⟩

theorem Fine.summary {l : List Ev} {p : Nat} {s : Store} (h : Fine l p s) : ∃ sum, summaryOf s = .ok sum := by
  obtain ⟨out, ho⟩ := summaries_ok s.latency 0 (by rw [h.nbuckets])
  simp only [summaryOf, ho, Res.bind]
  exact ⟨_, rfl⟩

theorem Fine.byLatency {l : List Ev} {p : Nat} {s : Store} (h : Fine l p s) (min max : Int) :
    ∃ out, latencyOf s min max = .ok out := by
  obtain ⟨out, ho, _⟩ := latency_ok min max s.latency.length s.latency 0 (by rw [h.nbuckets])
  exact ⟨out, ho⟩

/-! ## Events that can happen -/

/-- `sd` is the data that the call of `End` that is number `id` of the log has made of span `i`, with an end time. -/
def Ended (id : Nat) (l : List Ev) (t i : Nat) (sd : SpanData) : Prop :=
  ∃ order sd0 now, Did id l (.made t i order sd0) ∧ sd = { sd0 with endTime := monotonicEndTime sd0.startTime now }

/-- `e` may happen behind `l`. -/
def EvOK (l : List Ev) : Ev → Prop
  | .called id _ _ => id = l.length
  | .returned id t r => ∃ c, l[id]? = some (.called id t c) ∧ Good c r id t l
  | .created _ n p _ _ => named n l = none ∧ p = (mem l).nstores
  | .added _ i p _ => i = (mem l).nspans ∧ p < (mem l).nstores
  | .resized _ _ _ _ => True
  | .mutated _ _ _ => True
  | .made _ i order sd => ∃ r r', spanAt i l = some r ∧ r.makeSpanData order = .ok (r', sd)
  | .finished t i p sd => i < (mem l).nspans ∧ (mem l).home i = p ∧ i ∉ ended l ∧
      ∃ id, l[id]? = some (.called id t (.endSpan i)) ∧ Ended id l t i sd

def LogOK (l : List Ev) : Prop := ∀ (j : Nat) (e : Ev), l[j]? = some e → EvOK (l.take j) e

theorem take_old (l : List Ev) (e : Ev) {j : Nat} (h : j ≤ l.length) : (l ++ [e]).take j = l.take j := by
  rw [List.take_append_of_le_length h]

theorem get_snoc {l : List Ev} {e x : Ev} {j : Nat} (h : (l ++ [e])[j]? = some x) :
    (j < l.length ∧ l[j]? = some x) ∨ (j = l.length ∧ x = e) := by
  rcases Nat.lt_trichotomy j l.length with hj | hj | hj
  · rw [List.getElem?_append_left hj] at h; exact .inl ⟨hj, h⟩
  · subst hj; simp at h; exact .inr ⟨rfl, h.symm⟩
  · rw [List.getElem?_eq_none (by simp; omega)] at h; cases h

theorem get_old {l : List Ev} {x : Ev} {j : Nat} (e : Ev) (h : l[j]? = some x) : (l ++ [e])[j]? = some x := by
  have : j < l.length := by
    rcases Nat.lt_or_ge j l.length with h' | h'
    · exact h'
    · rw [List.getElem?_eq_none h'] at h; cases h
  rw [List.getElem?_append_left this]; exact h

theorem LogOK.snoc {l : List Ev} (h : LogOK l) {e : Ev} (he : EvOK l e) : LogOK (l ++ [e]) := by
  intro j x hx
  rcases get_snoc hx with ⟨hj, hx⟩ | ⟨rfl, rfl⟩
  · rw [take_old l e (by omega)]; exact h j x hx
  · rw [take_old l x (Nat.le_refl _), List.take_length]; exact he

theorem LogOK.split {l : List Ev} {e : Ev} (h : LogOK (l ++ [e])) : LogOK l ∧ EvOK l e := by
  constructor
  · intro j x hx
    have hj : j < l.length := (List.getElem?_eq_some_iff.mp hx).1
    have := h j x (get_old e hx)
    rwa [take_old l e (by omega)] at this
  · have := h l.length e (by simp)
    rwa [take_old l e (Nat.le_refl _), List.take_length] at this

theorem LogOK.take {l : List Ev} (h : LogOK l) (m : Nat) : LogOK (l.take m) := by
  intro j e he
  rw [List.getElem?_take] at he
  split at he
  · next hj => rw [List.take_take, Nat.min_eq_left (by omega)]; exact h j e he
  · cases he

structure Facts (l : List Ev) : Prop where
  names : ∀ n p, named n l = some p → p < (mem l).nstores
  added : ∀ t i p r, Ev.added t i p r ∈ l → i < (mem l).nspans ∧ (mem l).home i = p ∧ p < (mem l).nstores
  has : ∀ i, i < (mem l).nspans → (∃ t r, Ev.added t i ((mem l).home i) r ∈ l) ∧ (spanAt i l).isSome
  ended : ∀ i ∈ ended l, i < (mem l).nspans
  once : (StoreConc.ended l).Nodup
  nodup : ∀ p, ((mem l).stores p).active.Nodup
  active : ∀ p i, i ∈ ((mem l).stores p).active ↔ ActiveIn p i l

theorem ActiveIn.snoc {p i : Nat} {l : List Ev} {e : Ev} (h1 : ∀ t r, e ≠ .added t i p r) (h2 : ∀ t q sd, e ≠ .finished t i q sd) :
    ActiveIn p i (l ++ [e]) ↔ ActiveIn p i l := by
  unfold ActiveIn
  have : i ∉ ended (l ++ [e]) ↔ i ∉ ended l := by
    rw [ended_snoc]
    cases e with
    | finished t j q sd =>
      have : j ≠ i := fun h => h2 t q sd (by rw [h])
      simp [Ne.symm this]
    | _ => rfl
  rw [this]
  constructor
  · rintro ⟨⟨t, r, hm⟩, hx⟩
    refine ⟨⟨t, r, ?_⟩, hx⟩
    rcases List.mem_append.mp hm with hm | hm
    · exact hm
    · exact absurd (by simpa using hm : _ = e).symm (h1 t r)
  · rintro ⟨⟨t, r, hm⟩, hx⟩
    exact ⟨⟨t, r, by simp [hm]⟩, hx⟩

/-- Events that leave the spans and stores that there are. -/
theorem Facts.same {l : List Ev} (h : Facts l) {e : Ev} (hn : ∀ n, named n (l ++ [e]) = named n l)
    (h1 : ∀ t i p r, e ≠ .added t i p r) (h2 : ∀ t i p sd, e ≠ .finished t i p sd)
    (m1 : (mem (l ++ [e])).nstores = (mem l).nstores) (m2 : (mem (l ++ [e])).nspans = (mem l).nspans)
    (m3 : (mem (l ++ [e])).home = (mem l).home) (m4 : ∀ p, ((mem (l ++ [e])).stores p).active = ((mem l).stores p).active)
    (m5 : ∀ i, (spanAt i l).isSome → (spanAt i (l ++ [e])).isSome) : Facts (l ++ [e]) := by
  have he : StoreConc.ended (l ++ [e]) = StoreConc.ended l := by
    rw [ended_snoc]
    cases e with
    | finished t j q sd => exact absurd rfl (h2 t j q sd)
    | _ => rfl
  refine ⟨?_, ?_, ?_, ?_, ?_, ?_, ?_⟩
  · intro n p hp; rw [m1]; exact h.names n p (by rw [← hn]; exact hp)
  · intro t i p r hm
    rw [m1, m2, m3]
    rcases List.mem_append.mp hm with hm | hm
    · exact h.added t i p r hm
    · exact absurd (by simpa using hm : _ = e).symm (h1 t i p r)
  · intro i hi
    rw [m2] at hi
    obtain ⟨⟨t, r, hm⟩, hs⟩ := h.has i hi
    rw [m3]
    exact ⟨⟨t, r, by simp [hm]⟩, m5 i hs⟩
  · rw [he, m2]; exact h.ended
  · rw [he]; exact h.once
  · intro p; rw [m4]; exact h.nodup p
  · intro p i; rw [m4, h.active, ActiveIn.snoc (fun t r => h1 t i p r) (fun t q sd => h2 t i q sd)]

theorem facts {l : List Ev} (h : LogOK l) : Facts l := by
  induction l using List.reverseRecOn with
  | nil =>
    refine ⟨?_, ?_, ?_, ?_, ?_, ?_, ?_⟩
    · intro n p hp; simp [named] at hp
    · intro t i p r hm; simp at hm
    · intro i hi; simp [mem] at hi
    · simp [StoreConc.ended]
    · simp [StoreConc.ended]
    · intro p; simp [mem, Store.new]
    · intro p i; simp [mem, Store.new, ActiveIn]
  | append_singleton l e ih =>
    obtain ⟨hl, he⟩ := h.split
    have f := ih hl
    have hsp : ∀ i, spanAt i (l ++ [e]) = (mem (l ++ [e])).recs i := fun i => (spanAt_eq _ i).symm
    have hsp0 : ∀ i, spanAt i l = (mem l).recs i := fun i => (spanAt_eq _ i).symm
    cases e with
    | called id t c => exact f.same (fun n => by rw [named_snoc]) (by simp) (by simp) (by rw [mem_snoc]; rfl) (by rw [mem_snoc]; rfl) (by rw [mem_snoc]; rfl) (fun p => by rw [mem_snoc]; rfl) (fun i hi => by rw [hsp, mem_snoc]; rw [hsp0] at hi; exact hi)
    | returned id t c => exact f.same (fun n => by rw [named_snoc]) (by simp) (by simp) (by rw [mem_snoc]; rfl) (by rw [mem_snoc]; rfl) (by rw [mem_snoc]; rfl) (fun p => by rw [mem_snoc]; rfl) (fun i hi => by rw [hsp, mem_snoc]; rw [hsp0] at hi; exact hi)
    | mutated t j g =>
      refine f.same (fun n => by rw [named_snoc]) (by simp) (by simp) (by rw [mem_snoc]; rfl) (by rw [mem_snoc]; rfl) (by rw [mem_snoc]; rfl) (fun p => by rw [mem_snoc]; rfl) (fun i hi => ?_)
      rw [hsp, mem_snoc]; rw [hsp0] at hi
      simp only [Mem.exec, upd]
      split
      · next e => subst e; simpa using hi
      · exact hi
    | made t j order sd =>
      refine f.same (fun n => by rw [named_snoc]) (by simp) (by simp) (by rw [mem_snoc]; rfl) (by rw [mem_snoc]; rfl) (by rw [mem_snoc]; rfl) (fun p => by rw [mem_snoc]; rfl) (fun i hi => ?_)
      rw [hsp, mem_snoc]; rw [hsp0] at hi
      simp only [Mem.exec, upd]
      split
      · next e => subst e; simpa using hi
      · exact hi
    | resized t p lat err =>
      refine f.same (fun n => by rw [named_snoc]) (by simp) (by simp) (by rw [mem_snoc]; rfl) (by rw [mem_snoc]; rfl) (by rw [mem_snoc]; rfl) (fun q => ?_) (fun i hi => by rw [hsp, mem_snoc]; rw [hsp0] at hi; exact hi)
      rw [mem_snoc]
      simp only [Mem.exec, upd]
      split
      · next e =>
        subst e
        obtain ⟨s', h1, h2, _⟩ := (fine l q).resize lat err
        rw [h1]; exact h2
      · rfl
    | created t n p lat err =>
      obtain ⟨hn, rfl⟩ := he
      have hact : ∀ q i, ActiveIn q i (l ++ [.created t n (mem l).nstores lat err]) ↔ ActiveIn q i l :=
        fun q i => ActiveIn.snoc (by simp) (by simp)
      refine ⟨?_, ?_, ?_, ?_, ?_, ?_, ?_⟩
      · intro n' p' hp'
        rw [named_snoc] at hp'
        simp only at hp'
        rw [mem_snoc]
        simp only [Mem.exec]
        split at hp'
        · cases hp'; omega
        · have := f.names _ _ hp'; omega
      · intro t' i p' r hm
        have := f.added t' i p' r (by simpa using hm)
        rw [mem_snoc]
        simp only [Mem.exec]
        exact ⟨this.1, this.2.1, by omega⟩
      · intro i hi
        rw [mem_snoc] at hi
        obtain ⟨⟨t', r, hm⟩, hs⟩ := f.has i hi
        refine ⟨⟨t', r, ?_⟩, ?_⟩
        · rw [mem_snoc]; simp only [Mem.exec]; simp [hm]
        · rw [hsp, mem_snoc]; rw [hsp0] at hs; exact hs
      · rw [ended_snoc, mem_snoc]; exact f.ended
      · rw [ended_snoc]; exact f.once
      · intro q
        rw [mem_snoc]
        simp only [Mem.exec, upd]
        split
        · simp [Store.new]
        · exact f.nodup q
      · intro q i
        rw [mem_snoc, hact]
        simp only [Mem.exec, upd]
        split
        · next e =>
          subst e
          simp only [Store.new, List.not_mem_nil, false_iff]
          rintro ⟨⟨t', r, hm⟩, _⟩
          have := (f.added t' i _ r hm).2.2
          omega
        · exact f.active q i
    | added t j p r =>
      obtain ⟨rfl, hp⟩ := he
      have hnew : ∀ q, ¬ ∃ t' r', Ev.added t' (mem l).nspans q r' ∈ l := by
        rintro q ⟨t', r', hm⟩
        have := (f.added t' _ q r' hm).1
        omega
      have hne : (mem l).nspans ∉ StoreConc.ended l := fun hm => by have := f.ended _ hm; omega
      refine ⟨?_, ?_, ?_, ?_, ?_, ?_, ?_⟩
      · intro n' p' hp'
        rw [named_snoc] at hp'
        rw [mem_snoc]
        exact f.names n' p' hp'
      · intro t' i p' r' hm
        rw [mem_snoc]
        simp only [Mem.exec]
        rcases List.mem_append.mp hm with hm | hm
        · have := f.added t' i p' r' hm
          rw [upd_other _ _ (by omega)]
          exact ⟨by omega, this.2⟩
        · simp at hm
          obtain ⟨_, rfl, rfl, _⟩ := hm
          exact ⟨by omega, upd_same _ _ _, hp⟩
      · intro i hi
        rw [hsp, mem_snoc]
        rw [mem_snoc] at hi
        simp only [Mem.exec] at hi ⊢
        by_cases e : i = (mem l).nspans
        · subst e
          rw [upd_same, upd_same]
          exact ⟨⟨t, r, by simp⟩, rfl⟩
        · obtain ⟨⟨t', r', hm⟩, hs⟩ := f.has i (by omega)
          rw [upd_other _ _ e, upd_other _ _ e]
          exact ⟨⟨t', r', by simp [hm]⟩, by rw [hsp0] at hs; exact hs⟩
      · rw [ended_snoc, mem_snoc]
        intro i hi
        have := f.ended i hi
        simp only [Mem.exec]
        omega
      · rw [ended_snoc]; exact f.once
      · intro q
        rw [mem_snoc]
        simp only [Mem.exec, upd]
        split
        · next e =>
          rw [List.nodup_append]
          refine ⟨f.nodup p, by simp, ?_⟩
          rintro a ha b hb rfl
          simp at hb; subst hb
          exact hnew p ((f.active p _).mp ha).1
        · exact f.nodup q
      · intro q i
        rw [mem_snoc]
        simp only [Mem.exec, upd]
        by_cases e : i = (mem l).nspans
        · subst e
          split
          · next e => subst e; simp [ActiveIn, ended_snoc, hne]; exact ⟨t, r, .inr ⟨rfl, rfl⟩⟩
          · next e =>
            constructor
            · intro hm; exact absurd ((f.active q _).mp hm).1 (hnew q)
            · rintro ⟨⟨t', r', hm⟩, _⟩
              rcases List.mem_append.mp hm with hm | hm
              · exact absurd ⟨t', r', hm⟩ (hnew q)
              · simp at hm; exact absurd hm.2.1 e
        · rw [ActiveIn.snoc (by intro t' r' h; simp at h; omega) (by simp), ← f.active]
          split
          · next e' => subst e'; simp [e]
          · rfl
    | finished t j p sd =>
      obtain ⟨hj, rfl, hne, _⟩ := he
      obtain ⟨s', h1, h2, _⟩ := (fine l ((mem l).home j)).finished t j sd
      have hst : ∀ q, ((mem (l ++ [.finished t j ((mem l).home j) sd])).stores q).active =
          if q = (mem l).home j then ((mem l).stores q).active.filter (fun i => decide (i ≠ j)) else ((mem l).stores q).active := by
        intro q
        rw [mem_snoc]
        simp only [Mem.exec, upd]
        split
        · next e => subst e; rw [h1]; exact h2
        · rfl
      refine ⟨?_, ?_, ?_, ?_, ?_, ?_, ?_⟩
      · intro n' p' hp'
        rw [named_snoc] at hp'
        rw [mem_snoc]
        exact f.names n' p' hp'
      · intro t' i p' r hm
        rw [mem_snoc]
        exact f.added t' i p' r (by simpa using hm)
      · intro i hi
        rw [mem_snoc] at hi
        obtain ⟨⟨t', r, hm⟩, hs⟩ := f.has i hi
        refine ⟨⟨t', r, ?_⟩, ?_⟩
        · rw [mem_snoc]; simp only [Mem.exec]; simp [hm]
        · rw [hsp, mem_snoc]; rw [hsp0] at hs; exact hs
      · rw [ended_snoc, mem_snoc]
        intro i hi
        rcases List.mem_append.mp hi with hi | hi
        · exact f.ended i hi
        · simp at hi; subst hi; exact hj
      · rw [ended_snoc]
        rw [List.nodup_append]
        refine ⟨f.once, by simp, ?_⟩
        rintro a ha b hb rfl
        simp at hb; subst hb
        exact hne ha
      · intro q
        rw [hst]
        split
        · exact (f.nodup q).filter _
        · exact f.nodup q
      · intro q i
        rw [hst]
        by_cases e : i = j
        · subst e
          have : ¬ ActiveIn q i (l ++ [.finished t i ((mem l).home i) sd]) := by
            intro hx; apply hx.2; rw [ended_snoc]; simp
          simp only [this, iff_false]
          split
          · simp
          · next e =>
            intro hm
            obtain ⟨⟨t', r', hm⟩, _⟩ := (f.active q i).mp hm
            exact e (f.added _ _ _ _ hm).2.1.symm
        · rw [ActiveIn.snoc (by simp) (by intro t' q' sd' h; simp at h; exact e h.2.1.symm), ← f.active]
          split
          · simp [e]
          · rfl

/-! ## What goroutines know -/

theorem At.now {id : Nat} {l : List Ev} {P : List Ev → Prop} (h : id < l.length) (hp : P l) : At id l P :=
  ⟨l.length, h, Nat.le_refl _, by rw [List.take_length]; exact hp⟩

theorem At.snoc {id : Nat} {l : List Ev} {P : List Ev → Prop} (h : At id l P) (e : Ev) : At id (l ++ [e]) P := by
  obtain ⟨m, h1, h2, h3⟩ := h
  exact ⟨m, h1, by simp; omega, by rw [take_old l e h2]; exact h3⟩

theorem Did.snoc {id : Nat} {l : List Ev} {x : Ev} (h : Did id l x) (e : Ev) : Did id (l ++ [e]) x := by
  obtain ⟨j, h1, h2⟩ := h
  exact ⟨j, h1, get_old e h2⟩

theorem Did.new {id : Nat} {l : List Ev} (h : id < l.length) (e : Ev) : Did id (l ++ [e]) e :=
  ⟨l.length, h, by simp⟩

theorem named_kept {n : Bytes} {l : List Ev} {p : Nat} {e : Ev} (he : EvOK l e) (h : named n l = some p) :
    named n (l ++ [e]) = some p := by
  rw [named_snoc]
  cases e with
  | created t n' q lat err =>
    simp only
    split
    · next e => subst e; rw [he.1] at h; cases h
    · exact h
  | _ => exact h

theorem ended_kept {i : Nat} {l : List Ev} (e : Ev) (h : i ∈ ended l) : i ∈ ended (l ++ [e]) := by
  rw [ended_snoc]
  cases e with
  | finished t j q sd => simp [h]
  | _ => exact h

theorem Good.snoc {c : Call} {r : Result} {id t : Nat} {l : List Ev} {e : Ev} (he : EvOK l e) (h : Good c r id t l) :
    Good c r id t (l ++ [e]) := by
  cases c with
  | start n x =>
    obtain ⟨i, p, h1, h2, h3⟩ := h
    exact ⟨i, p, h1, named_kept he h2, h3.snoc e⟩
  | mutate i f => exact ⟨h.1, h.2.snoc e⟩
  | endSpan i => exact ⟨h.1, ended_kept e h.2⟩
  | active n =>
    obtain ⟨out, h1, h2, h3⟩ := h
    exact ⟨out, h1, h2.snoc e, fun x hx => (h3 x hx).snoc e⟩
  | byError n code =>
    obtain ⟨out, h1, h2⟩ := h
    exact ⟨out, h1, h2.snoc e⟩
  | byLatency n min max =>
    obtain ⟨out, h1, h2⟩ := h
    exact ⟨out, h1, h2.snoc e⟩
  | perMethod =>
    obtain ⟨out, h1, h2, h3, h4⟩ := h
    exact ⟨out, h1, h2, h3.snoc e, fun x hx => (h4 x hx).snoc e⟩
  | setSize n lat err =>
    obtain ⟨h1, p, h2, h3⟩ := h
    exact ⟨h1, p, named_kept he h2, h3.imp (·.snoc e) (·.snoc e)⟩

/-- What a goroutine in a call knows. -/
def LocOK (l : List Ev) (t id : Nat) (c : Call) : Loc → Prop
  | .look => c.name.isSome
  | .announce => (∃ n r, c = .start n r) ∨ ∃ n lat err, c = .setSize n lat err
  | .pend => (∃ n r, c = .start n r) ∨ ∃ n lat err, c = .setSize n lat err
  | .locked p => ∃ n lat err, c = .setSize n lat err ∧ named n l = some p
  | .add p => ∃ n r, c = .start n r ∧ named n l = some p
  | .use p => ∃ n, named n l = some p ∧ ((∃ code, c = .byError n code) ∨ (∃ min max, c = .byLatency n min max) ∨
      ∃ lat err, c = .setSize n lat err)
  | .lockActive p => ∃ n, c = .active n ∧ named n l = some p
  | .inActive p left out => ∃ n, c = .active n ∧ named n l = some p ∧ (left ++ out.map Prod.fst).Nodup ∧
      (∀ i, i ∈ left ++ out.map Prod.fst ↔ ActiveIn p i l) ∧
      ∀ x ∈ out, At id l fun l => ∃ y y' order, spanAt x.1 l = some y ∧ y.makeSpanData order = .ok (y', x.2)
  | .per => c = .perMethod
  | .inPer left out => c = .perMethod ∧ (left ++ out.map Prod.fst).Nodup ∧
      (∀ n, n ∈ left ++ out.map Prod.fst ↔ (named n l).isSome) ∧
      ∀ x ∈ out, At id l fun l => ∃ p, named x.1 l = some p ∧ summaryOf (storeAt p l) = .ok x.2
  | .change => ∃ i f, c = .mutate i f
  | .once => ∃ i, c = .endSpan i ∧ i < (mem l).nspans
  | .make => ∃ i, c = .endSpan i ∧ i < (mem l).nspans ∧ i ∉ ended l
  | .fin sd => ∃ i, c = .endSpan i ∧ i < (mem l).nspans ∧ i ∉ ended l ∧ Ended id l t i sd
  | .rest => ∃ i, c = .endSpan i ∧ i ∈ ended l
  | .ret r => Good c r id t l

/-- The store whose mutex is held. -/
def holdsStore : Option (Nat × Call × Loc) → Option Nat
  | some (_, _, .inActive p _ _) => some p
  | _ => none
/-- `ssmu` is held for writing, or nobody else can get it. -/
def holdsW : Option (Nat × Call × Loc) → Bool
  | some (_, _, .pend) => true
  | some (_, _, .locked _) => true
  | _ => false
/-- `ssmu` is held for reading. -/
def holdsR : Option (Nat × Call × Loc) → Bool
  | some (_, _, .inPer _ _) => true
  | _ => false
/-- The span whose `endOnce` is running. -/
def runs : Option (Nat × Call × Loc) → Option Nat
  | some (_, .endSpan i, .make) => some i
  | some (_, .endSpan i, .fin _) => some i
  | some (_, .endSpan i, .rest) => some i
  | _ => none

structure Locks (s : St) : Prop where
  store : ∀ p t, s.held p = some t ↔ holdsStore (s.pc t) = some p
  writer : ∀ t, s.pending = some t ↔ holdsW (s.pc t) = true
  reader : ∀ t, t ∈ s.readers ↔ holdsR (s.pc t) = true
  readers : s.readers.Nodup
  once : ∀ i t, s.once i = .running t ↔ runs (s.pc t) = some i
  ended : ∀ i, s.once i = .done → i ∈ ended s.log
  fresh : ∀ i, s.once i = .fresh → i ∉ StoreConc.ended s.log

structure Inv (s : St) : Prop where
  ok : s.crashed = false
  log : LogOK s.log
  locks : Locks s
  pcs : ∀ t id c loc, s.pc t = some (id, c, loc) → s.log[id]? = some (.called id t c) ∧ LocOK s.log t id c loc

/-- Events do not change the spans that a holder of the mutex of the store goes through, nor the names beside a reader,
nor end a span that is being ended. -/
def Apart (e : Ev) : Option (Nat × Call × Loc) → Prop := fun pc =>
  (∀ p, holdsStore pc = some p → (∀ t i r, e ≠ .added t i p r) ∧ ∀ t i sd, e ≠ .finished t i p sd) ∧
  (holdsR pc = true → ∀ t n p lat err, e ≠ .created t n p lat err) ∧
  ∀ i, runs pc = some i → ∀ t p sd, e ≠ .finished t i p sd

theorem nspans_mono (l : List Ev) (e : Ev) : (mem l).nspans ≤ (mem (l ++ [e])).nspans := by
  rw [mem_snoc]
  cases e <;> simp [Mem.exec]

theorem not_ended_snoc {i : Nat} {l : List Ev} {e : Ev} (h : i ∉ ended l) (he : ∀ t p sd, e ≠ .finished t i p sd) :
    i ∉ ended (l ++ [e]) := by
  rw [ended_snoc]
  cases e with
  | finished t j q sd =>
    have : i ≠ j := fun x => he t q sd (by rw [x])
    simp [h, this]
  | _ => exact h

theorem LocOK.snoc {l : List Ev} (hl : LogOK l) {e : Ev} (he : EvOK l e) {t id : Nat} {c : Call} {loc : Loc}
    (h : LocOK l t id c loc) (ha : Apart e (some (id, c, loc))) : LocOK (l ++ [e]) t id c loc := by
  cases loc with
  | look => exact h
  | announce => exact h
  | pend => exact h
  | locked p =>
    obtain ⟨n, lat, err, h1, h2⟩ := h
    exact ⟨n, lat, err, h1, named_kept he h2⟩
  | add p =>
    obtain ⟨n, r, h1, h2⟩ := h
    exact ⟨n, r, h1, named_kept he h2⟩
  | use p =>
    obtain ⟨n, h1, h2⟩ := h
    exact ⟨n, named_kept he h1, h2⟩
  | lockActive p =>
    obtain ⟨n, h1, h2⟩ := h
    exact ⟨n, h1, named_kept he h2⟩
  | inActive p left out =>
    obtain ⟨n, h1, h2, h3, h4, h5⟩ := h
    obtain ⟨a1, a2⟩ := ha.1 p rfl
    refine ⟨n, h1, named_kept he h2, h3, ?_, fun x hx => (h5 x hx).snoc e⟩
    intro i
    rw [h4]
    by_cases hf : ∃ t' q sd, e = .finished t' i q sd
    · obtain ⟨t', q, sd, rfl⟩ := hf
      have hno : ¬ ActiveIn p i (l ++ [.finished t' i q sd]) := by
        intro hx; apply hx.2; rw [ended_snoc]; simp
      have : ¬ ActiveIn p i l := by
        rintro ⟨⟨t'', r, hm⟩, _⟩
        have hq := ((facts hl).added _ _ _ _ hm).2.1
        have hq' := he.2.1
        rw [hq] at hq'
        subst hq'
        exact a2 t' i sd rfl
      simp [hno, this]
    · rw [ActiveIn.snoc (fun t' r => a1 t' i r) (fun t' q sd hx => hf ⟨t', q, sd, hx⟩)]
  | per => exact h
  | inPer left out =>
    obtain ⟨h1, h2, h3, h4⟩ := h
    have a := ha.2.1 rfl
    refine ⟨h1, h2, ?_, fun x hx => (h4 x hx).snoc e⟩
    intro n
    rw [h3, named_snoc]
    cases e with
    | created t' n' p lat err => exact absurd rfl (a t' n' p lat err)
    | _ => rfl
  | change => exact h
  | once =>
    obtain ⟨i, h1, h2⟩ := h
    exact ⟨i, h1, by have := nspans_mono l e; omega⟩
  | make =>
    obtain ⟨i, rfl, h2, h3⟩ := h
    exact ⟨i, rfl, by have := nspans_mono l e; omega, not_ended_snoc h3 (ha.2.2 i rfl)⟩
  | fin sd =>
    obtain ⟨i, rfl, h2, h3, order, sd0, now, h4, h5⟩ := h
    exact ⟨i, rfl, by have := nspans_mono l e; omega, not_ended_snoc h3 (ha.2.2 i rfl), order, sd0, now, h4.snoc e, h5⟩
  | rest =>
    obtain ⟨i, h1, h2⟩ := h
    exact ⟨i, h1, ended_kept e h2⟩
  | ret r => exact Good.snoc he h

/-! ## Steps keep the invariant -/

/-- A step without an event. -/
theorem Inv.quiet {s s' : St} (h : Inv s) {t id : Nat} {c : Call} {loc loc' : Loc} (hpc : s.pc t = some (id, c, loc))
    (e1 : s'.log = s.log) (e2 : s'.pc = upd s.pc t (some (id, c, loc'))) (e3 : s'.crashed = s.crashed) (hl : Locks s')
    (hloc : LocOK s.log t id c loc') : Inv s' := by
  refine ⟨e3.trans h.ok, by rw [e1]; exact h.log, hl, ?_⟩
  intro u id' c' l' hu
  rw [e2] at hu
  rw [e1]
  by_cases e : u = t
  · subst e
    rw [upd_same] at hu
    cases hu
    exact ⟨(h.pcs _ _ _ _ hpc).1, hloc⟩
  · rw [upd_other _ _ e] at hu
    exact h.pcs _ _ _ _ hu

/-- A step with an event. -/
theorem Inv.event {s s' : St} (h : Inv s) {t id : Nat} {c : Call} {loc loc' : Loc} (hpc : s.pc t = some (id, c, loc)) {e : Ev}
    (e1 : s'.log = s.log ++ [e]) (e2 : s'.pc = upd s.pc t (some (id, c, loc'))) (e3 : s'.crashed = s.crashed) (hl : Locks s')
    (he : EvOK s.log e) (ha : ∀ u, u ≠ t → Apart e (s.pc u)) (hloc : LocOK (s.log ++ [e]) t id c loc') : Inv s' := by
  refine ⟨e3.trans h.ok, by rw [e1]; exact h.log.snoc he, hl, ?_⟩
  intro u id' c' l' hu
  rw [e2] at hu
  rw [e1]
  by_cases eq : u = t
  · subst eq
    rw [upd_same] at hu
    cases hu
    exact ⟨get_old e (h.pcs _ _ _ _ hpc).1, hloc⟩
  · rw [upd_other _ _ eq] at hu
    obtain ⟨h1, h2⟩ := h.pcs _ _ _ _ hu
    exact ⟨get_old e h1, h2.snoc h.log he (by rw [← hu]; exact ha u eq)⟩

/-- A goroutine that takes and gives nothing leaves the locks as they are. -/
theorem Locks.same {s s' : St} (h : Locks s) {t : Nat} {x : Option (Nat × Call × Loc)} (e2 : s'.pc = upd s.pc t x)
    (r1 : holdsStore x = holdsStore (s.pc t)) (r2 : holdsW x = holdsW (s.pc t)) (r3 : holdsR x = holdsR (s.pc t))
    (r4 : runs x = runs (s.pc t)) (h1 : s'.held = s.held) (h2 : s'.pending = s.pending) (h3 : s'.readers = s.readers)
    (h4 : s'.once = s.once) (h5 : ∀ i, i ∈ StoreConc.ended s.log → i ∈ StoreConc.ended s'.log)
    (h6 : ∀ i, i ∈ StoreConc.ended s'.log → i ∈ StoreConc.ended s.log ∨ runs (s.pc t) = some i) : Locks s' := by
  have hx : ∀ {α : Type} (f : Option (Nat × Call × Loc) → α), f x = f (s.pc t) → ∀ u, f (s'.pc u) = f (s.pc u) := by
    intro α f hf u
    rw [e2]
    by_cases e : u = t
    · subst e; rw [upd_same]; exact hf
    · rw [upd_other _ _ e]
  refine ⟨?_, ?_, ?_, by rw [h3]; exact h.readers, ?_, ?_, ?_⟩
  · intro p u; rw [h1, hx _ r1]; exact h.store p u
  · intro u; rw [h2, hx _ r2]; exact h.writer u
  · intro u; rw [h3, hx _ r3]; exact h.reader u
  · intro i u; rw [h4, hx _ r4]; exact h.once i u
  · intro i hi; rw [h4] at hi; exact h5 i (h.ended i hi)
  · intro i hi hm
    rw [h4] at hi
    rcases h6 i hm with hm | hm
    · exact h.fresh i hi hm
    · rw [(h.once i t).mpr hm] at hi; cases hi

/-- A goroutine that takes or gives a lock. -/
theorem Locks.pass {s s' : St} (h : Locks s) {t : Nat} {x : Option (Nat × Call × Loc)} (e2 : s'.pc = upd s.pc t x)
    (a1 : ∀ p u, u ≠ t → (s'.held p = some u ↔ s.held p = some u)) (a2 : ∀ p, s'.held p = some t ↔ holdsStore x = some p)
    (b1 : ∀ u, u ≠ t → (s'.pending = some u ↔ s.pending = some u)) (b2 : s'.pending = some t ↔ holdsW x = true)
    (c1 : ∀ u, u ≠ t → (u ∈ s'.readers ↔ u ∈ s.readers)) (c2 : t ∈ s'.readers ↔ holdsR x = true) (c3 : s'.readers.Nodup)
    (d1 : ∀ i u, u ≠ t → (s'.once i = .running u ↔ s.once i = .running u)) (d2 : ∀ i, s'.once i = .running t ↔ runs x = some i)
    (k1 : ∀ i, s'.once i = .done → i ∈ StoreConc.ended s'.log) (k2 : ∀ i, s'.once i = .fresh → i ∉ StoreConc.ended s'.log) :
    Locks s' := by
  refine ⟨?_, ?_, ?_, c3, ?_, k1, k2⟩
  · intro p u
    rw [e2]
    by_cases e : u = t
    · subst e; rw [upd_same]; exact a2 p
    · rw [upd_other _ _ e, a1 p u e]; exact h.store p u
  · intro u
    rw [e2]
    by_cases e : u = t
    · subst e; rw [upd_same]; exact b2
    · rw [upd_other _ _ e, b1 u e]; exact h.writer u
  · intro u
    rw [e2]
    by_cases e : u = t
    · subst e; rw [upd_same]; exact c2
    · rw [upd_other _ _ e, c1 u e]; exact h.reader u
  · intro i u
    rw [e2]
    by_cases e : u = t
    · subst e; rw [upd_same]; exact d2 i
    · rw [upd_other _ _ e, d1 i u e]; exact h.once i u

theorem inv_init : Inv init := by
  refine ⟨rfl, ?_, ?_, ?_⟩
  · intro j e he; simp [init] at he
  · refine ⟨?_, ?_, ?_, ?_, ?_, ?_, ?_⟩ <;> simp [init, holdsStore, holdsW, holdsR, runs, ended]
  · intro t id c loc h; simp [init] at h

theorem id_lt {s : St} (h : Inv s) {t id : Nat} {c : Call} {loc : Loc} (hpc : s.pc t = some (id, c, loc)) : id < s.log.length :=
  (List.getElem?_eq_some_iff.mp (h.pcs _ _ _ _ hpc).1).1

/-- With the mutex of store `p` free, nobody goes through its spans. -/
theorem free {s : St} (h : Locks s) {p : Nat} (hp : s.held p = none) (u : Nat) : holdsStore (s.pc u) ≠ some p := by
  intro hx
  rw [(h.store p u).mpr hx] at hp
  cases hp

theorem mem_eraseIdx_perm {α : Type} {l : List α} {k : Nat} {x : α} (h : l[k]? = some x) : (x :: l.eraseIdx k).Perm l := by
  induction l generalizing k with
  | nil => simp at h
  | cons a l ih =>
    cases k with
    | zero => simp at h; subst h; simp
    | succ k =>
      simp at h
      simp only [List.eraseIdx_cons_succ]
      exact (List.Perm.swap a x _).trans ((ih h).cons a)

theorem move_perm {α β : Type} {l : List α} {k : Nat} {x : α} (h : l[k]? = some x) (out : List (α × β)) (y : β) :
    (l.eraseIdx k ++ (out ++ [(x, y)]).map Prod.fst).Perm (l ++ out.map Prod.fst) := by
  rw [List.map_append, ← List.append_assoc]
  simp only [List.map_cons, List.map_nil]
  refine (List.perm_append_singleton _ _).trans ?_
  exact ((mem_eraseIdx_perm h).append_right _)

theorem made_ended (l : List Ev) (t i : Nat) (order : List Bytes) (sd : SpanData) : ended (l ++ [.made t i order sd]) = ended l := by
  rw [ended_snoc]

/-- Ends the proof that a goroutine that takes and gives nothing leaves the locks as they are. -/
macro "same" hpc:term : tactic => `(tactic| (
  first
  | exact rfl
  | (rw [$hpc:term]; rfl)
  | (intro i hi; simpa [St.at, St.emit, ended_snoc] using hi)
  | (intro i hi; left; simpa [St.at, St.emit, ended_snoc] using hi)))

theorem inv_step {s s' : St} (h : Inv s) {t : Nat} {mv : Move} (hs : step s t mv = some s') : Inv s' := by
  unfold step at hs
  dsimp only at hs
  rw [if_neg (by simp [h.ok])] at hs
  have hf := facts h.log
  have hn := names_eq s.log
  split at hs
  · -- a call
    next c hpc =>
    split at hs
    · next hc =>
      cases hs
      have he : EvOK s.log (.called s.log.length t c) := rfl
      refine ⟨h.ok, h.log.snoc he, ?_, ?_⟩
      · refine h.locks.same (t := t) (x := some (s.log.length, c, c.enter)) ?_ ?_ ?_ ?_ ?_ ?_ ?_ ?_ ?_ ?_ ?_
        all_goals first
          | rfl
          | (rw [hpc]; cases c <;> rfl)
          | (intro i hi; simpa [St.at, St.emit, ended_snoc] using hi)
          | (intro i hi; left; simpa [St.at, St.emit, ended_snoc] using hi)
      · intro u id c' loc hu
        simp only [St.emit] at hu ⊢
        by_cases eq : u = t
        · subst eq
          rw [upd_same] at hu
          cases hu
          refine ⟨by simp, ?_⟩
          cases c with
          | mutate i f => exact ⟨i, f, rfl⟩
          | endSpan i =>
            simp only [Call.can, decide_eq_true_eq] at hc
            exact ⟨i, rfl, by have := nspans_mono s.log (.called s.log.length u (.endSpan i)); omega⟩
          | _ => rfl
        · rw [upd_other _ _ eq] at hu
          obtain ⟨h1, h2⟩ := h.pcs _ _ _ _ hu
          exact ⟨get_old _ h1, h2.snoc h.log he ⟨by simp, by simp, by simp⟩⟩
    · cases hs
  · -- look
    next id c k hpc =>
    split at hs
    · cases hs
    · split at hs
      · cases hs
      · next n hname =>
        split at hs
        · next p hg =>
          cases hs
          rw [hn] at hg
          refine h.quiet hpc rfl rfl rfl (h.locks.same (t := t) rfl ?_ ?_ ?_ ?_ rfl rfl rfl rfl (fun _ x => x) (fun _ x => .inl x)) ?_
          · rw [hpc]; cases c <;> rfl
          · rw [hpc]; cases c <;> rfl
          · rw [hpc]; cases c <;> rfl
          · rw [hpc]; cases c <;> rfl
          · cases c with
            | start n' r => cases hname; exact ⟨_, _, rfl, hg⟩
            | active n' => cases hname; exact ⟨_, rfl, hg⟩
            | byError n' code => cases hname; exact ⟨_, hg, .inl ⟨_, rfl⟩⟩
            | byLatency n' min max => cases hname; exact ⟨_, hg, .inr (.inl ⟨_, _, rfl⟩)⟩
            | setSize n' lat err => cases hname; exact ⟨_, hg, .inr (.inr ⟨_, _, rfl⟩)⟩
            | _ => cases hname
        · next hg =>
          cases hs
          rw [hn] at hg
          refine h.quiet hpc rfl rfl rfl (h.locks.same (t := t) rfl ?_ ?_ ?_ ?_ rfl rfl rfl rfl (fun _ x => x) (fun _ x => .inl x)) ?_
          · rw [hpc]; cases c <;> rfl
          · rw [hpc]; cases c <;> rfl
          · rw [hpc]; cases c <;> rfl
          · rw [hpc]; cases c <;> rfl
          · have hid := id_lt h hpc
            cases c with
            | start n' r => exact .inl ⟨_, _, rfl⟩
            | active n' => cases hname; exact ⟨[], rfl, At.now hid (.inl ⟨hg, rfl⟩), by simp⟩
            | byError n' code => cases hname; exact ⟨[], rfl, At.now hid (.inl ⟨hg, rfl⟩)⟩
            | byLatency n' min max => cases hname; exact ⟨[], rfl, At.now hid (.inl ⟨hg, rfl⟩)⟩
            | setSize n' lat err => exact .inr ⟨_, _, _, rfl⟩
            | _ => cases hname
  · -- announce
    next id c k hpc =>
    split at hs
    · cases hs
    · next hp =>
      cases hs
      simp only [ne_eq, Decidable.not_not] at hp
      refine h.quiet hpc rfl rfl rfl ?_ (h.pcs _ _ _ _ hpc).2
      have l1 := fun p => h.locks.store p t
      have l2 := h.locks.reader t
      have l3 := fun i => h.locks.once i t
      rw [hpc] at l1 l2 l3
      refine h.locks.pass (t := t) rfl (fun _ _ _ => .rfl) l1 ?_ (by simp [St.at, holdsW]) (fun _ _ => .rfl) l2 h.locks.readers
        (fun _ _ _ => .rfl) ?_ h.locks.ended h.locks.fresh
      · intro u hu; rw [hp]; simp [Ne.symm hu]
      · intro i; rw [show ({ s.at t id c .pend with pending := some t } : St).once = s.once from rfl, l3]; cases c <;> simp [runs]
  · -- start.pend
    next id n r k hpc =>
    split at hs
    · cases hs
    · next hr =>
      simp only [ne_eq, Decidable.not_not] at hr
      have hw : s.pending = some t := (h.locks.writer t).mpr (by rw [hpc]; rfl)
      have l1 := fun p => h.locks.store p t
      have l2 := h.locks.reader t
      have l3 := fun i => h.locks.once i t
      rw [hpc] at l1 l2 l3
      split at hs
      · next p hg =>
        cases hs
        rw [hn] at hg
        refine h.quiet hpc rfl rfl rfl ?_ ⟨n, r, rfl, hg⟩
        refine h.locks.pass (t := t) rfl (fun _ _ _ => .rfl) l1 ?_ (by simp [holdsW]) (fun _ _ => .rfl) l2 h.locks.readers
          (fun _ _ _ => .rfl) l3 h.locks.ended h.locks.fresh
        intro u hu; rw [hw]; simp [Ne.symm hu]
      · next hg =>
        cases hs
        rw [hn] at hg
        refine h.event hpc rfl rfl rfl ?_ ⟨hg, rfl⟩ ?_ ⟨n, r, rfl, by rw [named_snoc]; simp⟩
        · refine h.locks.pass (t := t) rfl (fun _ _ _ => .rfl) l1 ?_ (by simp [holdsW]) (fun _ _ => .rfl) l2 h.locks.readers
            (fun _ _ _ => .rfl) l3 ?_ ?_
          · intro u hu; rw [hw]; simp [Ne.symm hu]
          · intro i hi; simp only [St.emit, ended_snoc]; exact h.locks.ended i hi
          · intro i hi; simp only [St.emit, ended_snoc]; exact h.locks.fresh i hi
        · intro u _
          refine ⟨by simp, ?_, by simp⟩
          intro hx
          have := (h.locks.reader u).mpr hx
          rw [hr] at this; cases this
  · -- setSize.pend
    next id n lat err k hpc =>
    split at hs
    · cases hs
    · next hr =>
      simp only [ne_eq, Decidable.not_not] at hr
      have hw : s.pending = some t := (h.locks.writer t).mpr (by rw [hpc]; rfl)
      have l1 := fun p => h.locks.store p t
      have l2 := h.locks.reader t
      have l3 := fun i => h.locks.once i t
      rw [hpc] at l1 l2 l3
      have hid := id_lt h hpc
      split at hs
      · next p hg =>
        cases hs
        rw [hn] at hg
        refine h.quiet hpc rfl rfl rfl (h.locks.same (t := t) rfl ?_ ?_ ?_ ?_ rfl rfl rfl rfl (fun _ x => x) (fun _ x => .inl x))
          ⟨n, lat, err, rfl, hg⟩
        all_goals (rw [hpc]; rfl)
      · next hg =>
        cases hs
        rw [hn] at hg
        refine h.event hpc rfl rfl rfl ?_ ⟨hg, rfl⟩ ?_ ⟨rfl, (mem s.log).nstores, by rw [named_snoc]; simp, .inr (Did.new hid _)⟩
        · refine h.locks.pass (t := t) rfl (fun _ _ _ => .rfl) l1 ?_ (by simp [holdsW]) (fun _ _ => .rfl) l2 h.locks.readers
            (fun _ _ _ => .rfl) l3 ?_ ?_
          · intro u hu; rw [hw]; simp [Ne.symm hu]
          · intro i hi; simp only [St.emit, ended_snoc]; exact h.locks.ended i hi
          · intro i hi; simp only [St.emit, ended_snoc]; exact h.locks.fresh i hi
        · intro u _
          refine ⟨by simp, ?_, by simp⟩
          intro hx
          have := (h.locks.reader u).mpr hx
          rw [hr] at this; cases this
  · -- setSize.locked
    next id n lat err p k hpc =>
    split at hs
    · cases hs
    · split at hs
      · cases hs
        have hw : s.pending = some t := (h.locks.writer t).mpr (by rw [hpc]; rfl)
        have l1 := fun p => h.locks.store p t
        have l2 := h.locks.reader t
        have l3 := fun i => h.locks.once i t
        rw [hpc] at l1 l2 l3
        have hid := id_lt h hpc
        obtain ⟨n', lat', err', e, hg⟩ := (h.pcs _ _ _ _ hpc).2
        cases e
        refine h.event hpc rfl rfl rfl ?_ (show EvOK s.log (.resized t p lat err) from trivial) (fun u _ => ⟨by simp, by simp, by simp⟩)
          ⟨rfl, p, named_kept (show EvOK s.log (.resized t p lat err) from trivial) hg, .inl (Did.new hid _)⟩
        refine h.locks.pass (t := t) rfl (fun _ _ _ => .rfl) l1 ?_ (by simp [holdsW]) (fun _ _ => .rfl) l2 h.locks.readers
          (fun _ _ _ => .rfl) l3 ?_ ?_
        · intro u hu; rw [hw]; simp [Ne.symm hu]
        · intro i hi; simp only [St.emit, ended_snoc]; exact h.locks.ended i hi
        · intro i hi; simp only [St.emit, ended_snoc]; exact h.locks.fresh i hi
      · next hno =>
        obtain ⟨s'', h1, _⟩ := (fine s.log p).resize lat err
        exact absurd h1 (hno s'')
  · -- start.add
    next id n r p k hpc =>
    split at hs
    · cases hs
    · next hp =>
      simp only [ne_eq, Decidable.not_not] at hp
      cases hs
      obtain ⟨n', r', e, hg⟩ := (h.pcs _ _ _ _ hpc).2
      cases e
      have he : EvOK s.log (.added t (mem s.log).nspans p r) := ⟨rfl, hf.names n p hg⟩
      refine h.event hpc rfl rfl rfl (h.locks.same (t := t) rfl ?_ ?_ ?_ ?_ rfl rfl rfl rfl ?_ ?_) he ?_
        ⟨_, p, rfl, named_kept he hg, Did.new (id_lt h hpc) _⟩
      · same hpc
      · same hpc
      · same hpc
      · same hpc
      · same hpc
      · same hpc
      · intro u _
        refine ⟨?_, by simp, by simp⟩
        intro q hq
        refine ⟨?_, by simp⟩
        intro t' i r' e
        cases e
        exact free h.locks hp u hq
  · -- byError.use
    next id n code p k hpc =>
    split at hs
    · cases hs
    · cases hs
      obtain ⟨n', hg, hc⟩ := (h.pcs _ _ _ _ hpc).2
      have : n' = n := by
        rcases hc with ⟨_, e⟩ | ⟨_, _, e⟩ | ⟨_, _, e⟩ <;> cases e
        rfl
      subst this
      refine h.quiet hpc rfl rfl rfl (h.locks.same (t := t) rfl ?_ ?_ ?_ ?_ rfl rfl rfl rfl (fun _ x => x) (fun _ x => .inl x))
        ⟨_, rfl, At.now (id_lt h hpc) (.inr ⟨p, hg, by rw [storeAt_eq]⟩)⟩
      all_goals same hpc
  · -- byLatency.use
    next id n min max p k hpc =>
    split at hs
    · cases hs
    · split at hs
      · next out ho =>
        cases hs
        obtain ⟨n', hg, hc⟩ := (h.pcs _ _ _ _ hpc).2
        have : n' = n := by
          rcases hc with ⟨_, e⟩ | ⟨_, _, e⟩ | ⟨_, _, e⟩ <;> cases e
          rfl
        subst this
        refine h.quiet hpc rfl rfl rfl (h.locks.same (t := t) rfl ?_ ?_ ?_ ?_ rfl rfl rfl rfl (fun _ x => x) (fun _ x => .inl x))
          ⟨_, rfl, At.now (id_lt h hpc) (.inr ⟨p, hg, by rw [← storeAt_eq]; exact ho⟩)⟩
        all_goals same hpc
      · next hno =>
        obtain ⟨out, h1⟩ := (fine s.log p).byLatency min max
        exact absurd h1 (hno out)
  · -- setSize.use
    next id n lat err p k hpc =>
    split at hs
    · cases hs
    · split at hs
      · cases hs
        obtain ⟨n', hg, hc⟩ := (h.pcs _ _ _ _ hpc).2
        have : n' = n := by
          rcases hc with ⟨_, e⟩ | ⟨_, _, e⟩ | ⟨_, _, e⟩ <;> cases e
          rfl
        subst this
        refine h.event hpc rfl rfl rfl (h.locks.same (t := t) rfl ?_ ?_ ?_ ?_ rfl rfl rfl rfl ?_ ?_)
          (show EvOK s.log (.resized t p lat err) from trivial) (fun u _ => ⟨by simp, by simp, by simp⟩)
          ⟨rfl, p, named_kept (show EvOK s.log (.resized t p lat err) from trivial) hg, .inl (Did.new (id_lt h hpc) _)⟩
        all_goals same hpc
      · next hno =>
        obtain ⟨s'', h1, _⟩ := (fine s.log p).resize lat err
        exact absurd h1 (hno s'')
  · -- lockActive
    next id c p k hpc =>
    split at hs
    · cases hs
    · next hp =>
      simp only [ne_eq, Decidable.not_not] at hp
      cases hs
      obtain ⟨n, rfl, hg⟩ := (h.pcs _ _ _ _ hpc).2
      have l0 := fun p => h.locks.store p t
      have l1 := h.locks.writer t
      have l2 := h.locks.reader t
      have l3 := fun i => h.locks.once i t
      rw [hpc] at l0 l1 l2 l3
      refine h.quiet hpc rfl rfl rfl ?_ ⟨n, rfl, hg, ?_, ?_, by simp⟩
      · refine h.locks.pass (t := t) rfl ?_ ?_ (fun _ _ => .rfl) l1 (fun _ _ => .rfl) l2 h.locks.readers
          (fun _ _ _ => .rfl) l3 h.locks.ended h.locks.fresh
        · intro q u hu
          simp only [upd]
          split
          · next e => subst e; simp [hp, Ne.symm hu]
          · rfl
        · intro q
          simp only [upd, holdsStore]
          split
          · next e => subst e; simp
          · next e =>
            have := l0 q
            simp only [holdsStore] at this
            simp [this, Ne.symm e]
      · simpa using hf.nodup p
      · intro i; simpa using hf.active p i
  · -- inActive done
    next id c p out k hpc =>
    cases hs
    obtain ⟨n, rfl, hg, h1, h2, h3⟩ := (h.pcs _ _ _ _ hpc).2
    have l0 := fun p => h.locks.store p t
    have l1 := h.locks.writer t
    have l2 := h.locks.reader t
    have l3 := fun i => h.locks.once i t
    rw [hpc] at l0 l1 l2 l3
    simp only [holdsStore] at l0
    refine h.quiet hpc rfl rfl rfl ?_ ⟨out, rfl, At.now (id_lt h hpc) (.inr ⟨p, hg, by simpa using h1, by simpa using h2⟩), h3⟩
    refine h.locks.pass (t := t) rfl ?_ ?_ (fun _ _ => .rfl) l1 (fun _ _ => .rfl) l2 h.locks.readers
      (fun _ _ _ => .rfl) l3 h.locks.ended h.locks.fresh
    · intro q u hu
      simp only [upd]
      split
      · next e => subst e; simp [(l0 q).mpr rfl, Ne.symm hu]
      · rfl
    · intro q
      simp only [upd, holdsStore]
      split
      · simp
      · next e =>
        have := l0 q
        simp [this, Ne.symm e]
  · -- inActive
    next id c p x left out k hpc =>
    split at hs
    · cases hs
    · next i hi =>
      obtain ⟨n, rfl, hg, h1, h2, h3⟩ := (h.pcs _ _ _ _ hpc).2
      have hact : ActiveIn p i s.log := (h2 i).mp (by
        rw [List.mem_append]; exact .inl (List.mem_of_getElem? hi))
      obtain ⟨⟨t0, r0, hm⟩, _⟩ := hact
      have hspan := (hf.has i (hf.added _ _ _ _ hm).1).2
      rw [← spanAt_eq] at hspan
      split at hs
      · next hr => rw [hr] at hspan; cases hspan
      · next r hr =>
        split at hs
        · next r' sd hmk =>
          cases hs
          rw [spanAt_eq] at hr
          have he : EvOK s.log (.made t i k.order sd) := ⟨r, r', hr, hmk⟩
          refine h.event hpc rfl rfl rfl (h.locks.same (t := t) rfl ?_ ?_ ?_ ?_ rfl rfl rfl rfl ?_ ?_) he
            (fun u _ => ⟨by simp, by simp, by simp⟩) ⟨n, rfl, named_kept he hg, ?_, ?_, ?_⟩
          · same hpc
          · same hpc
          · same hpc
          · same hpc
          · same hpc
          · same hpc
          · exact ((move_perm hi out sd).nodup_iff).mpr h1
          · intro j
            rw [(move_perm hi out sd).mem_iff, h2, ActiveIn.snoc (by simp) (by simp)]
          · intro y hy
            rcases List.mem_append.mp hy with hy | hy
            · exact (h3 y hy).snoc _
            · simp only [List.mem_singleton] at hy
              subst hy
              exact At.snoc (At.now (id_lt h hpc) ⟨r, r', k.order, hr, hmk⟩) _
        · cases hs
        · next hmk => exact absurd hmk (makeSpanData_not_panic _ _)
  · -- per
    next id c k hpc =>
    split at hs
    · cases hs
    · next hp =>
      cases hs
      have hc : c = .perMethod := (h.pcs _ _ _ _ hpc).2
      subst hc
      have l0 := fun p => h.locks.store p t
      have l1 := h.locks.writer t
      have l2 := h.locks.reader t
      have l3 := fun i => h.locks.once i t
      rw [hpc] at l0 l1 l2 l3
      refine h.quiet hpc rfl rfl rfl ?_ ⟨rfl, ?_, ?_, by simp⟩
      · refine h.locks.pass (t := t) rfl (fun _ _ _ => .rfl) l0 (fun _ _ => .rfl) l1 ?_ (by simp [holdsR]) ?_
          (fun _ _ _ => .rfl) l3 h.locks.ended h.locks.fresh
        · intro u hu; simp [hu]
        · simp only [holdsR] at l2
          rw [List.nodup_cons]
          exact ⟨fun hx => by simpa using l2.mp hx, h.locks.readers⟩
      · have := names_wf s.log
        unfold GoMap.WF at this
        simpa using this
      · intro n
        rw [← hn]
        cases hg : GoMap.get (mem s.log).names n with
        | none =>
          have := (GoMap.get_eq_none_iff (mem s.log).names n).mp hg
          simpa using this
        | some p =>
          have : ¬ (GoMap.get (mem s.log).names n = none) := by rw [hg]; simp
          rw [GoMap.get_eq_none_iff, Decidable.not_not] at this
          simpa using this
  · -- inPer done
    next id c out k hpc =>
    cases hs
    obtain ⟨rfl, h1, h2, h3⟩ := (h.pcs _ _ _ _ hpc).2
    have l0 := fun p => h.locks.store p t
    have l1 := h.locks.writer t
    have l3 := fun i => h.locks.once i t
    rw [hpc] at l0 l1 l3
    refine h.quiet hpc rfl rfl rfl ?_ ⟨out, rfl, by simpa using h1, At.now (id_lt h hpc) (by simpa using h2), h3⟩
    refine h.locks.pass (t := t) rfl (fun _ _ _ => .rfl) l0 (fun _ _ => .rfl) l1 ?_ ?_ ?_
      (fun _ _ _ => .rfl) l3 h.locks.ended h.locks.fresh
    · intro u hu; simp [St.at, List.mem_erase_of_ne hu]
    · simp only [holdsR, St.at]
      simp [h.locks.readers.mem_erase_iff]
    · exact h.locks.readers.erase t
  · -- inPer
    next id c x left out k hpc =>
    split at hs
    · cases hs
    · next n hi =>
      obtain ⟨rfl, h1, h2, h3⟩ := (h.pcs _ _ _ _ hpc).2
      have hsome : (named n s.log).isSome := (h2 n).mp (by
        rw [List.mem_append]; exact .inl (List.mem_of_getElem? hi))
      rw [← hn] at hsome
      split at hs
      · next hg => rw [hg] at hsome; cases hsome
      · next p hg =>
        split at hs
        · cases hs
        · split at hs
          · next sum hsum =>
            cases hs
            rw [hn] at hg
            refine h.quiet hpc rfl rfl rfl (h.locks.same (t := t) rfl ?_ ?_ ?_ ?_ rfl rfl rfl rfl (fun _ x => x) (fun _ x => .inl x))
              ⟨rfl, ?_, ?_, ?_⟩
            · same hpc
            · same hpc
            · same hpc
            · same hpc
            · exact ((move_perm hi out sum).nodup_iff).mpr h1
            · intro m
              rw [(move_perm hi out sum).mem_iff, h2]
            · intro y hy
              rcases List.mem_append.mp hy with hy | hy
              · exact h3 y hy
              · simp only [List.mem_singleton] at hy
                subst hy
                exact At.now (id_lt h hpc) ⟨p, hg, by rw [← storeAt_eq]; exact hsum⟩
          · next hno =>
            obtain ⟨sum, h1⟩ := (fine s.log p).summary
            exact absurd h1 (hno sum)
  · -- change
    next id i f k hpc =>
    cases hs
    refine h.event hpc rfl rfl rfl (h.locks.same (t := t) rfl ?_ ?_ ?_ ?_ rfl rfl rfl rfl ?_ ?_)
      (show EvOK s.log (.mutated t i f) from trivial) (fun u _ => ⟨by simp, by simp, by simp⟩)
      ⟨rfl, Did.new (id_lt h hpc) _⟩
    all_goals same hpc
  · -- once
    next id i k hpc =>
    obtain ⟨i', e, hi⟩ := (h.pcs _ _ _ _ hpc).2
    cases e
    split at hs
    · next hfr =>
      cases hs
      have l0 := fun p => h.locks.store p t
      have l1 := h.locks.writer t
      have l2 := h.locks.reader t
      have l3 := fun i => h.locks.once i t
      rw [hpc] at l0 l1 l2 l3
      simp only [runs] at l3
      refine h.quiet hpc rfl rfl rfl ?_ ⟨i, rfl, hi, h.locks.fresh i hfr⟩
      refine h.locks.pass (t := t) rfl (fun _ _ _ => .rfl) l0 (fun _ _ => .rfl) l1 (fun _ _ => .rfl) l2 h.locks.readers
        ?_ ?_ ?_ ?_
      · intro j u hu
        simp only [upd]
        split
        · next e => subst e; simp [hfr, Ne.symm hu]
        · rfl
      · intro j
        simp only [upd, runs]
        split
        · next e => subst e; simp
        · next e => simp [l3 j, Ne.symm e]
      · intro j
        simp only [upd]
        split
        · simp
        · exact h.locks.ended j
      · intro j
        simp only [upd]
        split
        · simp
        · exact h.locks.fresh j
    · cases hs
    · next hd =>
      cases hs
      refine h.quiet hpc rfl rfl rfl (h.locks.same (t := t) rfl ?_ ?_ ?_ ?_ rfl rfl rfl rfl (fun _ x => x) (fun _ x => .inl x))
        ⟨rfl, h.locks.ended i hd⟩
      all_goals same hpc
  · -- make
    next id i k hpc =>
    obtain ⟨i', e, hi, hne⟩ := (h.pcs _ _ _ _ hpc).2
    cases e
    have hspan := (hf.has i hi).2
    rw [← spanAt_eq] at hspan
    split at hs
    · next hr => rw [hr] at hspan; cases hspan
    · next r hr =>
      split at hs
      · next r' sd hmk =>
        cases hs
        rw [spanAt_eq] at hr
        have he : EvOK s.log (.made t i k.order sd) := ⟨r, r', hr, hmk⟩
        refine h.event hpc rfl rfl rfl (h.locks.same (t := t) rfl ?_ ?_ ?_ ?_ rfl rfl rfl rfl ?_ ?_) he
          (fun u _ => ⟨by simp, by simp, by simp⟩)
          ⟨i, rfl, by have := nspans_mono s.log (.made t i k.order sd); omega, by rw [made_ended]; exact hne,
            k.order, sd, k.now, Did.new (id_lt h hpc) _, rfl⟩
        all_goals same hpc
      · cases hs
      · next hmk => exact absurd hmk (makeSpanData_not_panic _ _)
  · -- fin
    next id i sd k hpc =>
    obtain ⟨i', e, hi, hne, hsd⟩ := (h.pcs _ _ _ _ hpc).2
    cases e
    split at hs
    · cases hs
    · next hp =>
      simp only [ne_eq, Decidable.not_not] at hp
      split at hs
      · cases hs
        have he : EvOK s.log (.finished t i ((mem s.log).home i) sd) :=
          ⟨hi, rfl, hne, id, (h.pcs _ _ _ _ hpc).1, hsd⟩
        refine h.event hpc rfl rfl rfl (h.locks.same (t := t) rfl ?_ ?_ ?_ ?_ rfl rfl rfl rfl ?_ ?_) he ?_
          ⟨i, rfl, by rw [ended_snoc]; simp⟩
        · same hpc
        · same hpc
        · same hpc
        · same hpc
        · intro j hj; exact ended_kept _ hj
        · intro j hj
          simp only [St.emit, ended_snoc, List.mem_append, List.mem_singleton] at hj
          rcases hj with hj | rfl
          · exact .inl hj
          · exact .inr (by rw [hpc]; rfl)
        · intro u hu
          refine ⟨?_, by simp, ?_⟩
          · intro q hq
            refine ⟨by simp, ?_⟩
            intro t' i' sd' e
            cases e
            exact free h.locks hp u hq
          · intro j hj t' p' sd' e
            cases e
            have h1 := (h.locks.once i u).mpr hj
            have h2 := (h.locks.once i t).mpr (by rw [hpc]; rfl)
            rw [h1] at h2
            cases h2
            exact hu rfl
      · next hno =>
        obtain ⟨s'', h1, _⟩ := (fine s.log ((mem s.log).home i)).finished t i sd
        exact absurd h1 (hno s'')
  · -- rest
    next id i k hpc =>
    obtain ⟨i', e, hi⟩ := (h.pcs _ _ _ _ hpc).2
    cases e
    cases hs
    have l0 := fun p => h.locks.store p t
    have l1 := h.locks.writer t
    have l2 := h.locks.reader t
    have l3 := fun i => h.locks.once i t
    rw [hpc] at l0 l1 l2 l3
    simp only [runs] at l3
    refine h.quiet hpc rfl rfl rfl ?_ ⟨rfl, hi⟩
    refine h.locks.pass (t := t) rfl (fun _ _ _ => .rfl) l0 (fun _ _ => .rfl) l1 (fun _ _ => .rfl) l2 h.locks.readers
      ?_ ?_ ?_ ?_
    · intro j u hu
      simp only [upd]
      split
      · next e => subst e; simp [(l3 j).mpr rfl, Ne.symm hu]
      · rfl
    · intro j
      simp only [upd, runs]
      split
      · simp
      · next e => simp [l3 j, Ne.symm e]
    · intro j
      simp only [upd]
      split
      · next e => subst e; intro _; exact hi
      · exact h.locks.ended j
    · intro j
      simp only [upd]
      split
      · simp
      · exact h.locks.fresh j
  · -- ret
    next id c r k hpc =>
    cases hs
    obtain ⟨hc, hgood⟩ := h.pcs _ _ _ _ hpc
    have he : EvOK s.log (.returned id t r) := ⟨c, hc, hgood⟩
    refine ⟨h.ok, h.log.snoc he, ?_, ?_⟩
    · refine h.locks.same (t := t) rfl ?_ ?_ ?_ ?_ rfl rfl rfl rfl ?_ ?_
      · same hpc
      · same hpc
      · same hpc
      · rw [hpc]; cases c <;> rfl
      · same hpc
      · same hpc
    · intro u id' c' loc' hu
      by_cases eq : u = t
      · subst eq; simp only [upd_same] at hu; cases hu
      · simp only [upd_other _ _ eq] at hu
        obtain ⟨h1, h2⟩ := h.pcs _ _ _ _ hu
        exact ⟨get_old _ h1, h2.snoc h.log he ⟨by simp, by simp, by simp⟩⟩
  · cases hs

theorem reach_inv {s : St} (h : Reach s) : Inv s := by
  induction h with
  | init => exact inv_init
  | step t mv _ hs ih => exact inv_step ih hs

/-! ## The theorems -/

/-- No schedule makes any of the calls panic. -/
theorem no_panic {s : St} (h : Reach s) : s.crashed = false := (reach_inv h).ok

/-- Every call returns a right result. -/
theorem result {s : St} (h : Reach s) {a b t : Nat} {r : Result} (hr : s.log[b]? = some (.returned a t r)) :
    ∃ c, a < b ∧ s.log[a]? = some (.called a t c) ∧ Good c r a t (s.log.take b) := by
  obtain ⟨c, h1, h2⟩ := (reach_inv h).log b _ hr
  rw [List.getElem?_take] at h1
  split at h1
  · next hab => exact ⟨c, hab, h1, h2⟩
  · cases h1

theorem result_of {s : St} (h : Reach s) {a b t : Nat} {c : Call} {r : Result} (hc : s.log[a]? = some (.called a t c))
    (hr : s.log[b]? = some (.returned a t r)) : a < b ∧ Good c r a t (s.log.take b) := by
  obtain ⟨c', h1, h2, h3⟩ := result h hr
  rw [hc] at h2
  cases h2
  exact ⟨h1, h3⟩

theorem len_of {s : St} {b : Nat} {e : Ev} (hr : s.log[b]? = some e) : b < s.log.length :=
  (List.getElem?_eq_some_iff.mp hr).1

/-- At a moment between two places of the log. -/
def Between (l : List Ev) (a b : Nat) (P : List Ev → Prop) : Prop := ∃ m, a < m ∧ m ≤ b ∧ P (l.take m)

theorem At.between {l : List Ev} {a b : Nat} {P : List Ev → Prop} (hb : b ≤ l.length) (h : At a (l.take b) P) : Between l a b P := by
  obtain ⟨m, h1, h2, h3⟩ := h
  rw [List.length_take, Nat.min_eq_left hb] at h2
  rw [List.take_take, Nat.min_eq_left h2] at h3
  exact ⟨m, h1, h2, h3⟩

/-- A report of active spans has, at a moment of the call, exactly the active spans of that name, each once; the data of
each are what it held at a moment of the call. -/
theorem active_report {s : St} (h : Reach s) {a b t : Nat} {n : Bytes} {r : Result}
    (hc : s.log[a]? = some (.called a t (.active n))) (hr : s.log[b]? = some (.returned a t r)) :
    ∃ out, r = .active out ∧
      Between s.log a b (fun l => (named n l = none ∧ out = []) ∨
        ∃ p, named n l = some p ∧ (out.map Prod.fst).Nodup ∧ ∀ i, i ∈ out.map Prod.fst ↔ ActiveIn p i l) ∧
      ∀ x ∈ out, Between s.log a b fun l => ∃ y y' order, spanAt x.1 l = some y ∧ y.makeSpanData order = .ok (y', x.2) := by
  obtain ⟨_, out, h1, h2, h3⟩ := result_of h hc hr
  have := len_of hr
  exact ⟨out, h1, h2.between (by omega), fun x hx => (h3 x hx).between (by omega)⟩

theorem named_mono {l : List Ev} (h : LogOK l) {n : Bytes} {p m m' : Nat} (hm : m ≤ m') (hp : named n (l.take m) = some p) :
    named n (l.take m') = some p := by
  induction hm with
  | refl => exact hp
  | @step k _ ih =>
    rcases Nat.lt_or_ge k l.length with hk | hk
    · have : l.take (k + 1) = l.take k ++ [l[k]] := by rw [List.take_add_one]; simp [hk]
      rw [this]
      exact named_kept (h k _ (List.getElem?_eq_getElem hk)) ih
    · rw [List.take_of_length_le (by omega)]
      rwa [List.take_of_length_le hk] at ih

theorem ended_take {l : List Ev} {i m m' : Nat} (hm : m ≤ m') (h : i ∈ ended (l.take m)) : i ∈ ended (l.take m') := by
  have : l.take m <+: l.take m' := by
    rw [← Nat.min_eq_left hm, ← List.take_take]
    exact List.take_prefix _ _
  obtain ⟨k, hk⟩ := this
  rw [← hk]
  unfold ended at h ⊢
  rw [List.filterMap_append, List.mem_append]
  exact .inl h

theorem mem_take {l : List Ev} {j m : Nat} {e : Ev} (h : l[j]? = some e) (hj : j < m) : e ∈ l.take m := by
  apply List.mem_of_getElem? (i := j)
  rw [List.getElem?_take, if_pos hj]
  exact h

/-- A span whose start returned before the report was called, and that is not finished when the report returns, is
reported. -/
theorem active_has {s : St} (h : Reach s) {a b t : Nat} {n : Bytes} {out : List (Nat × SpanData)}
    (hc : s.log[a]? = some (.called a t (.active n))) (hr : s.log[b]? = some (.returned a t (.active out)))
    {a' b' t' i : Nat} {x : Rec} (hc' : s.log[a']? = some (.called a' t' (.start n x)))
    (hr' : s.log[b']? = some (.returned a' t' (.span i))) (hb : b' < a) (hne : i ∉ ended (s.log.take b)) :
    i ∈ out.map Prod.fst := by
  have hl := (reach_inv h).log
  obtain ⟨out', e, ⟨m, h1, h2, h3⟩, _⟩ := active_report h hc hr
  cases e
  obtain ⟨_, i', p, e, h4, j, h5, h6⟩ := result_of h hc' hr'
  cases e
  rw [List.getElem?_take] at h6
  split at h6
  · next hj =>
    have hp := named_mono hl (show b' ≤ m by omega) h4
    rcases h3 with ⟨h3, _⟩ | ⟨p', h3, _, h7⟩
    · rw [h3] at hp; cases hp
    · rw [hp] at h3
      cases h3
      rw [h7]
      exact ⟨⟨t', x, mem_take h6 (by omega)⟩, fun hx => hne (ended_take h2 hx)⟩
  · cases h6

/-- A span one of whose `End`s returned before the report was called is not reported. -/
theorem active_not {s : St} (h : Reach s) {a b t : Nat} {n : Bytes} {out : List (Nat × SpanData)}
    (hc : s.log[a]? = some (.called a t (.active n))) (hr : s.log[b]? = some (.returned a t (.active out)))
    {a' b' t' i : Nat} {r : Result} (hc' : s.log[a']? = some (.called a' t' (.endSpan i)))
    (hr' : s.log[b']? = some (.returned a' t' r)) (hb : b' < a) : i ∉ out.map Prod.fst := by
  obtain ⟨out', e, ⟨m, h1, h2, h3⟩, _⟩ := active_report h hc hr
  cases e
  obtain ⟨_, _, h4⟩ := result_of h hc' hr'
  rcases h3 with ⟨_, rfl⟩ | ⟨p', _, _, h7⟩
  · simp
  · rw [h7]
    intro hx
    exact hx.2 (ended_take (by omega) h4)

/-- A report by error is that of the store of that name at a moment of the call; so every span in it was finished before,
with that code. -/
theorem error_report {s : St} (h : Reach s) {a b t : Nat} {n : Bytes} {code : Int} {r : Result}
    (hc : s.log[a]? = some (.called a t (.byError n code))) (hr : s.log[b]? = some (.returned a t r)) :
    ∃ out, r = .data out ∧
      Between s.log a b (fun l => (named n l = none ∧ out = []) ∨ ∃ p, named n l = some p ∧ out = errorsOf (storeAt p l) code) ∧
      ∀ sd ∈ out, sd.status.code ≠ 0 ∧ (code ≠ 0 → sd.status.code = code) ∧
        ∃ (j t' i p : Nat), j < b ∧ s.log[j]? = some (.finished t' i p sd) ∧ named n s.log = some p := by
  obtain ⟨_, out, h1, h2⟩ := result_of h hc hr
  have hb := len_of hr
  have hl := (reach_inv h).log
  have hbt := h2.between (by omega)
  refine ⟨out, h1, hbt, ?_⟩
  obtain ⟨m, hm1, hm2, h3⟩ := hbt
  intro sd hsd
  rcases h3 with ⟨_, rfl⟩ | ⟨p, hp, rfl⟩
  · simp at hsd
  · have hfine := fine (s.log.take m) p
    rw [storeAt_eq] at hfine
    have hnamed : named n s.log = some p := by
      have := named_mono hl (show m ≤ s.log.length by omega) hp
      rwa [List.take_length] at this
    have key : ∀ e ∈ (storeAt p (s.log.take m)).errors, sd ∈ scan e.2.buffer →
        sd.status.code ≠ 0 ∧ sd.status.code = e.1 ∧
        ∃ (j t' i p : Nat), j < b ∧ s.log[j]? = some (.finished t' i p sd) ∧ named n s.log = some p := by
      intro e he hin
      obtain ⟨h0, xs, hx1, hx2⟩ := hfine.errors e he
      obtain ⟨hcode, t', i, hmem⟩ := hx2 sd (hx1.scan.mem_iff.mp hin)
      obtain ⟨j, hj⟩ := List.mem_iff_getElem?.mp hmem
      rw [List.getElem?_take] at hj
      split at hj
      · exact ⟨by rw [hcode]; exact h0, hcode, j, t', i, p, by omega, hj, hnamed⟩
      · cases hj
    unfold errorsOf at hsd
    split at hsd
    · next hne =>
      split at hsd
      · next bk hg =>
        obtain ⟨k1, k2, k3⟩ := key _ (GoMap.mem_of_get hg) hsd
        exact ⟨k1, fun _ => k2, k3⟩
      · simp at hsd
    · next hz =>
      rw [List.mem_flatMap] at hsd
      obtain ⟨e, he, hin⟩ := hsd
      obtain ⟨k1, _, k3⟩ := key e he hin
      exact ⟨k1, fun hx => absurd hx hz, k3⟩

/-- A report by latency is that of the store of that name at a moment of the call; so every span in it was finished before,
without an error. -/
theorem latency_report {s : St} (h : Reach s) {a b t : Nat} {n : Bytes} {min max : Int} {r : Result}
    (hc : s.log[a]? = some (.called a t (.byLatency n min max))) (hr : s.log[b]? = some (.returned a t r)) :
    ∃ out, r = .data out ∧
      Between s.log a b (fun l => (named n l = none ∧ out = []) ∨
        ∃ p, named n l = some p ∧ latencyOf (storeAt p l) min max = .ok out) ∧
      ∀ sd ∈ out, sd.status.code = 0 ∧ latencyMatches min max sd = true ∧
        ∃ (j t' i p : Nat), j < b ∧ s.log[j]? = some (.finished t' i p sd) ∧ named n s.log = some p := by
  obtain ⟨_, out, h1, h2⟩ := result_of h hc hr
  have hb := len_of hr
  have hl := (reach_inv h).log
  have hbt := h2.between (by omega)
  refine ⟨out, h1, hbt, ?_⟩
  obtain ⟨m, hm1, hm2, h3⟩ := hbt
  intro sd hsd
  rcases h3 with ⟨_, rfl⟩ | ⟨p, hp, ho⟩
  · simp at hsd
  · have hfine := fine (s.log.take m) p
    rw [storeAt_eq] at hfine
    have hnamed : named n s.log = some p := by
      have := named_mono hl (show m ≤ s.log.length by omega) hp
      rwa [List.take_length] at this
    obtain ⟨out', ho', hin⟩ := latency_ok min max (storeAt p (s.log.take m)).latency.length (storeAt p (s.log.take m)).latency 0
      (by rw [hfine.nbuckets])
    unfold latencyOf at ho
    rw [ho'] at ho
    cases ho
    obtain ⟨bk, hbk, hsc, hlat⟩ := hin sd hsd
    obtain ⟨xs, hx1, hx2⟩ := hfine.latency bk hbk
    obtain ⟨hcode, t', i, hmem⟩ := hx2 sd (hx1.scan.mem_iff.mp hsc)
    obtain ⟨j, hj⟩ := List.mem_iff_getElem?.mp hmem
    rw [List.getElem?_take] at hj
    split at hj
    · exact ⟨hcode, hlat, j, t', i, p, by omega, hj, hnamed⟩
    · cases hj

/-- A report per method has the names of a moment of the call, each once, and for each the summary of its store at a
moment of the call. -/
theorem method_report {s : St} (h : Reach s) {a b t : Nat} {r : Result}
    (hc : s.log[a]? = some (.called a t .perMethod)) (hr : s.log[b]? = some (.returned a t r)) :
    ∃ out, r = .summary out ∧ (out.map Prod.fst).Nodup ∧
      Between s.log a b (fun l => ∀ n, n ∈ out.map Prod.fst ↔ (named n l).isSome) ∧
      ∀ x ∈ out, Between s.log a b fun l => ∃ p, named x.1 l = some p ∧ summaryOf (storeAt p l) = .ok x.2 := by
  obtain ⟨_, out, h1, h2, h3, h4⟩ := result_of h hc hr
  have := len_of hr
  exact ⟨out, h1, h2, h3.between (by omega), fun x hx => (h4 x hx).between (by omega)⟩

/-- A span is finished once, whatever `End`s there are; when one of them returns it has been; the data that are kept are
what the span held at a moment of that call of `End`. -/
theorem end_once {s : St} (h : Reach s) : (ended s.log).Nodup ∧
    (∀ a b t i r, s.log[a]? = some (.called a t (.endSpan i)) → s.log[b]? = some (.returned a t r) → i ∈ ended (s.log.take b)) ∧
    ∀ (j t i p : Nat) (sd : SpanData), s.log[j]? = some (.finished t i p sd) → ∃ a, s.log[a]? = some (.called a t (.endSpan i)) ∧
      Between s.log a j fun l => ∃ y y' order sd0 now, spanAt i l = some y ∧ y.makeSpanData order = .ok (y', sd0) ∧
        sd = { sd0 with endTime := monotonicEndTime sd0.startTime now } := by
  have hi := reach_inv h
  refine ⟨(facts hi.log).once, ?_, ?_⟩
  · intro a b t i r hc hr
    exact (result_of h hc hr).2.2
  · intro j t i p sd hj
    obtain ⟨_, _, _, a, ha, order, sd0, now, ⟨k, hk1, hk2⟩, hsd⟩ := hi.log j _ hj
    rw [List.getElem?_take] at ha hk2
    split at ha
    · split at hk2
      · next hkj =>
        obtain ⟨y, y', h1, h2⟩ := hi.log k _ hk2
        exact ⟨a, ha, k, hk1, by omega, y, y', order, sd0, now, h1, h2, hsd⟩
      · cases hk2
    · cases ha

/-! ## Nobody waits for ever -/

theorem go_make (r : Rec) : ∃ order r' sd, r.makeSpanData order = .ok (r', sd) := by
  refine ⟨GoMap.keys r.attrs.cacheKeys, ?_⟩
  unfold Rec.makeSpanData
  rw [if_neg (by simp [List.isPerm_iff.mpr (List.Perm.refl _)])]
  exact ⟨_, _, rfl⟩

/-- While a goroutine is in a call, one that is in a call can go on. -/
theorem no_deadlock {s : St} (h : Reach s) {t0 : Nat} (h0 : s.pc t0 ≠ none) :
    ∃ t k s', s.pc t ≠ none ∧ step s t (.go k) = some s' := by
  have hi := reach_inv h
  have hf := facts hi.log
  have hok := hi.ok
  have hn := names_eq s.log
  -- a goroutine that holds the mutex of a store
  by_cases h1 : ∃ t p, holdsStore (s.pc t) = some p
  · obtain ⟨t, p, hp⟩ := h1
    cases hpc : s.pc t with
    | none => rw [hpc] at hp; cases hp
    | some x =>
      obtain ⟨id, c, loc⟩ := x
      rw [hpc] at hp
      cases loc with
      | inActive q left out =>
        cases left with
        | nil => exact ⟨t, ⟨0, [], 0⟩, _, by simp [hpc], by simp only [step, hok, hpc, Bool.false_eq_true, if_false]; rfl⟩
        | cons i left =>
          obtain ⟨n, rfl, hg, h2, h3, h4⟩ := (hi.pcs _ _ _ _ hpc).2
          obtain ⟨⟨t0, r0, hm⟩, _⟩ := (h3 i).mp (by simp)
          have hspan := (hf.has i (hf.added _ _ _ _ hm).1).2
          rw [← spanAt_eq] at hspan
          obtain ⟨r, hr⟩ := Option.isSome_iff_exists.mp hspan
          obtain ⟨order, r', sd, hmk⟩ := go_make r
          exact ⟨t, ⟨0, order, 0⟩, _, by simp [hpc], by simp only [step, hok, hpc, Bool.false_eq_true, if_false, List.getElem?_cons_zero, hr, hmk]; rfl⟩
      | _ => cases hp
  · have free : ∀ p, s.held p = none := by
      intro p
      cases hp : s.held p with
      | none => rfl
      | some t => exact absurd ⟨t, p, (hi.locks.store p t).mp hp⟩ h1
    -- a goroutine that holds `ssmu` for reading
    by_cases h2 : ∃ t, holdsR (s.pc t) = true
    · obtain ⟨t, hp⟩ := h2
      cases hpc : s.pc t with
      | none => rw [hpc] at hp; cases hp
      | some x =>
        obtain ⟨id, c, loc⟩ := x
        rw [hpc] at hp
        cases loc with
        | inPer left out =>
          cases left with
          | nil => exact ⟨t, ⟨0, [], 0⟩, _, by simp [hpc], by simp only [step, hok, hpc, Bool.false_eq_true, if_false]; rfl⟩
          | cons n left =>
            obtain ⟨rfl, _, h3, _⟩ := (hi.pcs _ _ _ _ hpc).2
            have hsome := (h3 n).mp (by simp)
            rw [← hn] at hsome
            obtain ⟨p, hg⟩ := Option.isSome_iff_exists.mp hsome
            obtain ⟨sum, hsum⟩ := (fine s.log p).summary
            exact ⟨t, ⟨0, [], 0⟩, _, by simp [hpc], by
              simp only [step, hok, hpc, Bool.false_eq_true, if_false, List.getElem?_cons_zero, hg, free, ne_eq, not_true_eq_false, hsum]; rfl⟩
        | _ => cases hp
    · have noR : s.readers = [] := by
        cases hr : s.readers with
        | nil => rfl
        | cons t l => exact absurd ⟨t, (hi.locks.reader t).mp (by rw [hr]; simp)⟩ h2
      -- a goroutine that holds it for writing
      by_cases h3 : ∃ t, holdsW (s.pc t) = true
      · obtain ⟨t, hp⟩ := h3
        cases hpc : s.pc t with
        | none => rw [hpc] at hp; cases hp
        | some x =>
          obtain ⟨id, c, loc⟩ := x
          rw [hpc] at hp
          cases loc with
          | pend =>
            refine ⟨t, ⟨0, [], 0⟩, ?_⟩
            rcases (hi.pcs _ _ _ _ hpc).2 with ⟨n, r, rfl⟩ | ⟨n, lat, err, rfl⟩
            · cases hg : GoMap.get (mem s.log).names n with
              | none => exact ⟨_, by simp [hpc], by simp only [step, hok, hpc, Bool.false_eq_true, if_false, noR, ne_eq, not_true_eq_false, hg]; rfl⟩
              | some p => exact ⟨_, by simp [hpc], by simp only [step, hok, hpc, Bool.false_eq_true, if_false, noR, ne_eq, not_true_eq_false, hg]; rfl⟩
            · cases hg : GoMap.get (mem s.log).names n with
              | none => exact ⟨_, by simp [hpc], by simp only [step, hok, hpc, Bool.false_eq_true, if_false, noR, ne_eq, not_true_eq_false, hg]; rfl⟩
              | some p => exact ⟨_, by simp [hpc], by simp only [step, hok, hpc, Bool.false_eq_true, if_false, noR, ne_eq, not_true_eq_false, hg]; rfl⟩
          | locked p =>
            obtain ⟨n, lat, err, rfl, hg⟩ := (hi.pcs _ _ _ _ hpc).2
            obtain ⟨s'', hs'', _⟩ := (fine s.log p).resize lat err
            exact ⟨t, ⟨0, [], 0⟩, _, by simp [hpc], by simp only [step, hok, hpc, Bool.false_eq_true, if_false, free, ne_eq, not_true_eq_false, hs'']; rfl⟩
          | _ => cases hp
      · have noW : s.pending = none := by
          cases hr : s.pending with
          | none => rfl
          | some t => exact absurd ⟨t, (hi.locks.writer t).mp hr⟩ h3
        -- a goroutine in `endOnce.Do`
        by_cases h4 : ∃ t i, runs (s.pc t) = some i
        · obtain ⟨t, i, hp⟩ := h4
          cases hpc : s.pc t with
          | none => rw [hpc] at hp; cases hp
          | some x =>
            obtain ⟨id, c, loc⟩ := x
            rw [hpc] at hp
            cases loc with
            | make =>
              obtain ⟨j, rfl, hj, _⟩ := (hi.pcs _ _ _ _ hpc).2
              have hspan := (hf.has j hj).2
              rw [← spanAt_eq] at hspan
              obtain ⟨r, hr⟩ := Option.isSome_iff_exists.mp hspan
              obtain ⟨order, r', sd, hmk⟩ := go_make r
              exact ⟨t, ⟨0, order, 0⟩, _, by simp [hpc], by simp only [step, hok, hpc, Bool.false_eq_true, if_false, hr, hmk]; rfl⟩
            | fin sd =>
              obtain ⟨j, rfl, hj, _⟩ := (hi.pcs _ _ _ _ hpc).2
              obtain ⟨s'', hs'', _⟩ := (fine s.log ((mem s.log).home j)).finished t j sd
              exact ⟨t, ⟨0, [], 0⟩, _, by simp [hpc], by simp only [step, hok, hpc, Bool.false_eq_true, if_false, free, ne_eq, not_true_eq_false, hs'']; rfl⟩
            | rest =>
              obtain ⟨j, rfl, _⟩ := (hi.pcs _ _ _ _ hpc).2
              exact ⟨t, ⟨0, [], 0⟩, _, by simp [hpc], by simp only [step, hok, hpc, Bool.false_eq_true, if_false]; rfl⟩
            | _ => cases c <;> cases hp
        · -- any other
          cases hpc : s.pc t0 with
          | none => exact absurd hpc h0
          | some x =>
            obtain ⟨id, c, loc⟩ := x
            have hloc := (hi.pcs _ _ _ _ hpc).2
            refine ⟨t0, ⟨0, [], 0⟩, ?_⟩
            cases loc with
            | look =>
              obtain ⟨n, hname⟩ := Option.isSome_iff_exists.mp hloc
              cases hg : GoMap.get (mem s.log).names n with
              | none => exact ⟨_, by simp [hpc], by simp only [step, hok, hpc, Bool.false_eq_true, if_false, noW, ne_eq, not_true_eq_false, hname, hg]; rfl⟩
              | some p => exact ⟨_, by simp [hpc], by simp only [step, hok, hpc, Bool.false_eq_true, if_false, noW, ne_eq, not_true_eq_false, hname, hg]; rfl⟩
            | announce => exact ⟨_, by simp [hpc], by simp only [step, hok, hpc, Bool.false_eq_true, if_false, noW, ne_eq, not_true_eq_false]; rfl⟩
            | pend => exact absurd ⟨t0, by rw [hpc]; rfl⟩ h3
            | locked p => exact absurd ⟨t0, by rw [hpc]; rfl⟩ h3
            | add p =>
              obtain ⟨n, r, rfl, _⟩ := hloc
              exact ⟨_, by simp [hpc], by simp only [step, hok, hpc, Bool.false_eq_true, if_false, free, ne_eq, not_true_eq_false]; rfl⟩
            | use p =>
              obtain ⟨n, _, ⟨code, rfl⟩ | ⟨min, max, rfl⟩ | ⟨lat, err, rfl⟩⟩ := hloc
              · exact ⟨_, by simp [hpc], by simp only [step, hok, hpc, Bool.false_eq_true, if_false, free, ne_eq, not_true_eq_false]; rfl⟩
              · obtain ⟨out, ho⟩ := (fine s.log p).byLatency min max
                exact ⟨_, by simp [hpc], by simp only [step, hok, hpc, Bool.false_eq_true, if_false, free, ne_eq, not_true_eq_false, ho]; rfl⟩
              · obtain ⟨s'', hs'', _⟩ := (fine s.log p).resize lat err
                exact ⟨_, by simp [hpc], by simp only [step, hok, hpc, Bool.false_eq_true, if_false, free, ne_eq, not_true_eq_false, hs'']; rfl⟩
            | lockActive p => exact ⟨_, by simp [hpc], by simp only [step, hok, hpc, Bool.false_eq_true, if_false, free, ne_eq, not_true_eq_false]; rfl⟩
            | inActive p left out => exact absurd ⟨t0, p, by rw [hpc]; rfl⟩ h1
            | per => exact ⟨_, by simp [hpc], by simp only [step, hok, hpc, Bool.false_eq_true, if_false, noW, ne_eq, not_true_eq_false]; rfl⟩
            | inPer left out => exact absurd ⟨t0, by rw [hpc]; rfl⟩ h2
            | change =>
              obtain ⟨i, f, rfl⟩ := hloc
              exact ⟨_, by simp [hpc], by simp only [step, hok, hpc, Bool.false_eq_true, if_false]; rfl⟩
            | once =>
              obtain ⟨i, rfl, _⟩ := hloc
              cases ho : s.once i with
              | fresh => exact ⟨_, by simp [hpc], by simp only [step, hok, hpc, Bool.false_eq_true, if_false, ho]; rfl⟩
              | running t => exact absurd ⟨t, i, (hi.locks.once i t).mp ho⟩ h4
              | done => exact ⟨_, by simp [hpc], by simp only [step, hok, hpc, Bool.false_eq_true, if_false, ho]; rfl⟩
            | make =>
              obtain ⟨i, rfl, _⟩ := hloc
              exact absurd ⟨t0, i, by rw [hpc]; rfl⟩ h4
            | fin sd =>
              obtain ⟨i, rfl, _⟩ := hloc
              exact absurd ⟨t0, i, by rw [hpc]; rfl⟩ h4
            | rest =>
              obtain ⟨i, rfl, _⟩ := hloc
              exact absurd ⟨t0, i, by rw [hpc]; rfl⟩ h4
            | ret r => exact ⟨_, by simp [hpc], by simp only [step, hok, hpc, Bool.false_eq_true, if_false]; rfl⟩

/-- How far a call is from its return, but for the turns of its loop. -/
def stage : Option (Nat × Call × Loc) → Nat
  | none => 0
  | some (_, _, loc) => match loc with
    | .look => 5
    | .announce => 4
    | .pend => 3
    | .locked _ => 2
    | .add _ => 2
    | .use _ => 2
    | .lockActive _ => 3
    | .inActive _ _ _ => 2
    | .per => 3
    | .inPer _ _ => 2
    | .change => 2
    | .once => 5
    | .make => 4
    | .fin _ => 3
    | .rest => 2
    | .ret _ => 1

/-- The turns of its loop that are left. -/
def turns : Option (Nat × Call × Loc) → Nat
  | some (_, _, .inActive _ left _) => left.length
  | some (_, _, .inPer left _) => left.length
  | _ => 0

theorem found_stage (c : Call) (id p : Nat) : stage (some (id, c, c.found p)) < 5 := by cases c <;> simp [Call.found, stage]
theorem missing_stage (c : Call) (id : Nat) : stage (some (id, c, c.missing)) < 5 := by cases c <;> simp [Call.missing, stage]

/-- A step of a call is one towards its return. -/
theorem go_nearer {s s' : St} {t : Nat} {k : Pick} (hs : step s t (.go k) = some s') (hc : s'.crashed = false) :
    s.pc t ≠ none ∧ ∃ y, s'.pc = upd s.pc t y ∧
      (stage y < stage (s.pc t) ∨ (stage y = stage (s.pc t) ∧ turns y < turns (s.pc t))) := by
  unfold step at hs
  dsimp only at hs
  split at hs
  · cases hs
  split at hs
  · next hm => cases hm
  · next id c k' hpc e =>
    refine ⟨by simp [hpc], ?_⟩
    repeat' split at hs
    all_goals cases hs
    · exact ⟨_, rfl, .inl (by rw [hpc]; exact found_stage _ _ _)⟩
    · exact ⟨_, rfl, .inl (by rw [hpc]; exact missing_stage _ _)⟩
  all_goals try cases hs
  all_goals rename_i hpc _
  all_goals refine ⟨by simp [hpc], ?_⟩
  all_goals repeat' split at hs
  all_goals try cases hs
  all_goals try (cases hc; done)
  all_goals try (refine ⟨_, rfl, .inl ?_⟩; rw [hpc]; simp [stage]; done)
  all_goals
    refine ⟨_, rfl, .inr ⟨by rw [hpc]; rfl, ?_⟩⟩
    rw [hpc]
    simp only [turns]
    have hk := (mem_eraseIdx_perm ‹(_ :: _)[_]? = some _›).length_eq
    simp only [List.length_cons] at hk ⊢
    omega

/-- The sum of `f` over the first `n` goroutines. -/
def total (f : Nat → Nat) : Nat → Nat
  | 0 => 0
  | n + 1 => total f n + f n

theorem total_le {f g : Nat → Nat} (h : ∀ u, f u ≤ g u) (n : Nat) : total f n ≤ total g n := by
  induction n with
  | zero => exact Nat.le_refl _
  | succ n ih => have := h n; simp only [total]; omega

theorem total_lt {f g : Nat → Nat} (h : ∀ u, f u ≤ g u) {t n : Nat} (ht : t < n) (hlt : f t < g t) : total f n < total g n := by
  induction n with
  | zero => omega
  | succ n ih =>
    simp only [total]
    by_cases e : t = n
    · subst e; have := total_le h t; omega
    · have := ih (by omega); have := h n; omega

/-- Finitely many goroutines are in calls. -/
theorem finite {s : St} (h : Reach s) : ∃ n, ∀ t, n ≤ t → s.pc t = none := by
  induction h with
  | init => exact ⟨0, fun _ _ => rfl⟩
  | @step s s' t mv hr hs ih =>
    obtain ⟨n, hn⟩ := ih
    have hc := no_panic (Reach.step t mv hr hs)
    refine ⟨max n (t + 1), fun u hu => ?_⟩
    have : s'.pc u = s.pc u := by
      cases mv with
      | go k =>
        obtain ⟨_, y, hy, _⟩ := go_nearer hs hc
        rw [hy, upd_other _ _ (by omega)]
      | call c =>
        unfold step at hs
        dsimp only at hs
        split at hs
        · cases hs
        split at hs
        · split at hs
          · cases hs
            simp only [St.emit]
            rw [upd_other _ _ (by omega)]
          · cases hs
        all_goals first
          | (rename_i hm; cases hm; done)
          | cases hs
    rw [this]
    exact hn u (by omega)

/-- Without new calls, the steps come to an end, whatever the schedule is. -/
theorem no_livelock {f : Nat → St} (h : Reach (f 0)) : ¬ ∀ n, ∃ t k, step (f n) t (.go k) = some (f (n + 1)) := by
  intro hsteps
  have hr : ∀ n, Reach (f n) := by
    intro n
    induction n with
    | zero => exact h
    | succ n ih => obtain ⟨t, k, hs⟩ := hsteps n; exact .step t _ ih hs
  obtain ⟨N, hN⟩ := finite h
  have hfin : ∀ n t, N ≤ t → (f n).pc t = none := by
    intro n
    induction n with
    | zero => exact hN
    | succ n ih =>
      intro u hu
      obtain ⟨t, k, hs⟩ := hsteps n
      obtain ⟨hne, y, hy, _⟩ := go_nearer hs (no_panic (hr (n + 1)))
      have : u ≠ t := by rintro rfl; exact hne (ih u hu)
      rw [hy, upd_other _ _ this]
      exact ih u hu
  have key : ∀ n, total (fun t => stage ((f (n + 1)).pc t)) N < total (fun t => stage ((f n).pc t)) N ∨
      (total (fun t => stage ((f (n + 1)).pc t)) N ≤ total (fun t => stage ((f n).pc t)) N ∧
        total (fun t => turns ((f (n + 1)).pc t)) N < total (fun t => turns ((f n).pc t)) N) := by
    intro n
    obtain ⟨t, k, hs⟩ := hsteps n
    obtain ⟨hne, y, hy, hcase⟩ := go_nearer hs (no_panic (hr (n + 1)))
    have ht : t < N := by
      rcases Nat.lt_or_ge t N with h' | h'
      · exact h'
      · exact absurd (hfin n t h') hne
    rcases hcase with h1 | ⟨h1, h2⟩
    · left
      refine total_lt (fun u => ?_) ht ?_
      · simp only [hy, upd]
        split
        · next e => subst e; omega
        · omega
      · simp only [hy, upd_same]; exact h1
    · right
      refine ⟨total_le (fun u => ?_) N, total_lt (fun u => ?_) ht ?_⟩
      · simp only [hy, upd]
        split
        · next e => subst e; omega
        · omega
      · simp only [hy, upd]
        split
        · next e => subst e; omega
        · omega
      · simp only [hy, upd_same]; exact h2
  have none : ∀ a b n, total (fun t => stage ((f n).pc t)) N = a → total (fun t => turns ((f n).pc t)) N = b → False := by
    intro a
    induction a using Nat.strong_induction_on with
    | _ a iha =>
      intro b
      induction b using Nat.strong_induction_on with
      | _ b ihb =>
        intro n ha hb
        rcases key n with h1 | ⟨h1, h2⟩
        · exact iha _ (by omega) _ (n + 1) rfl rfl
        · rcases Nat.lt_or_ge (total (fun t => stage ((f (n + 1)).pc t)) N) a with h3 | h3
          · exact iha _ h3 _ (n + 1) rfl rfl
          · exact ihb _ (by omega) (n + 1) (by omega) rfl
  exact none _ _ 0 rfl rfl

/-! ## An example -/

def run (s : St) : List (Nat × Move) → Option St
  | [] => some s
  | (t, mv) :: l => (step s t mv).bind fun s => run s l

theorem run_reach {s s' : St} {l : List (Nat × Move)} (h : Reach s) (hr : run s l = some s') : Reach s' := by
  induction l generalizing s with
  | nil => cases hr; exact h
  | cons x l ih =>
    obtain ⟨t, mv⟩ := x
    simp only [run, Option.bind_eq_some_iff] at hr
    obtain ⟨s1, h1, h2⟩ := hr
    exact ih (.step t mv h h1) h2

def exRec (n : Bytes) (start : Int) : Rec :=
  ⟨newSpanData ⟨List.replicate 16 1, List.replicate 8 1, 1, none⟩ start 0 n false false ⟨List.replicate 16 0, List.replicate 8 0, 0, none⟩,
    LruMap.new 32, EvictedQueue.new 32, EvictedQueue.new 128, EvictedQueue.new 32⟩

def go : Move := .go ⟨0, [], 25⟩

/-- Goroutines 0 and 1 start spans of one name at once: both find no store, 0 makes it, 1 finds it then. Goroutine 2 asks
for the active spans while goroutine 0 gives its span a status and ends it: the report has both. Then goroutine 2 asks for
the spans with that status. -/
def exMoves : List (Nat × Move) :=
  [(0, .call (.start (str "a") (exRec (str "a") 10))), (1, .call (.start (str "a") (exRec (str "a") 12))),
   (0, go), (1, go), (0, go), (0, go), (1, go), (1, go), (1, go), (1, go), (0, go), (0, go),
   (2, .call (.active (str "a"))), (2, go), (2, go), (2, .go ⟨1, [], 0⟩),
   (0, .call (.mutate 1 fun r => { r with data := { r.data with status := ⟨5, str "none"⟩ } })), (0, go), (0, go),
   (0, .call (.endSpan 1)), (0, go), (0, go), (2, go), (2, go), (0, go), (2, go), (0, go), (0, go),
   (2, .call (.byError (str "a") 5)), (2, go), (2, go), (2, go)]

def final : St := (run init exMoves).getD init

/-- What can be compared of a result. -/
def shape : Option Ev → Option (Nat × Nat × List (Nat × Int × Int))
  | some (.returned id t (.active out)) => some (id, t, out.map fun x => (x.1, x.2.status.code, x.2.startTime))
  | some (.returned id t (.data out)) => some (id, t, out.map fun x => (0, x.status.code, x.endTime))
  | _ => none

theorem ex_runs : (run init exMoves).isSome = true := by decide +kernel

theorem ex_reach : Reach final := by
  obtain ⟨s, hs⟩ := Option.isSome_iff_exists.mp ex_runs
  have : final = s := by unfold final; rw [hs]; rfl
  rw [this]
  exact run_reach .init hs

example : shape final.log[16]? = some (7, 2, [(1, 0, 10), (0, 0, 12)]) := by decide +kernel
example : shape final.log[19]? = some (18, 2, [(0, 5, 25)]) := by decide +kernel

end Verif.Trace.StoreConc
