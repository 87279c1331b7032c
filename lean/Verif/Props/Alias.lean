import Verif.View.Alias
import Verif.Props.Recording

/-!
# C65: views whose tag keys share memory

`Register` sorts the tag keys of a view in place. When the slices of any two view objects are the same or do not
overlap, nothing of it can be noticed: every reply and every export is the one of a program in which each view
has its own copy of its keys. When two slices overlap, registering one view changes the keys of another that is
registered already, and its rows are reported under the wrong keys.
-/

namespace Verif.Props.Alias
open Verif Verif.Tag Verif.Stats Verif.View Verif.View.Alias

/-! ## Specification -/

/-- The slice is within its array. -/
def InBounds {α : Type} (h : List (List α)) (s : Slice) : Prop := ∃ a, h[s.arr]? = some a ∧ s.off + s.len ≤ a.length

/-- The two slices have no element in common. -/
def Disjoint (s t : Slice) : Prop := s.arr ≠ t.arr ∨ s.off + s.len ≤ t.off ∨ t.off + t.len ≤ s.off

/-- The view objects a command is about. -/
def ptrs : Cmd → List Nat
  | .register _ vs => vs.map (·.ptr)
  | _ => []

/-- Every slice is within its array, and any two are the same or disjoint. -/
structure Apart (sl : Nat → Slice) (h : Arrays) (cs : List Cmd) : Prop where
  inb : ∀ c ∈ cs, ∀ p ∈ ptrs c, InBounds h (sl p)
  sep : ∀ c ∈ cs, ∀ p ∈ ptrs c, ∀ d ∈ cs, ∀ q ∈ ptrs d, sl p = sl q ∨ Disjoint (sl p) (sl q)

/-- The command with a copy of the keys in each view. -/
def withKeys (sl : Nat → Slice) (h : Arrays) : Cmd → Cmd
  | .register now vs => .register now (vs.map (resolve sl h))
  | c => c

/-- The worker handling a history of commands one after the other. -/
def runA (sl : Nat → Slice) (w : Worker) (reg : Measures) (h : Arrays) :
    List Cmd → Res (Worker × Measures × Arrays × List (Reply × List Export))
  | [] => .ok (w, reg, h, [])
  | c :: cs => (handleA sl w reg h c).bind fun (w, reg, h, r, es) =>
      (runA sl w reg h cs).bind fun (w, reg, h, rs) => .ok (w, reg, h, (r, es) :: rs)

/-! ## Lemmas -/

abbrev srt (l : List Key) : List Key := l.mergeSort (fun a b => decide (a.name ≤ b.name))

theorem srt_srt (l : List Key) : srt (srt l) = srt l := by
  apply List.mergeSort_of_pairwise
  apply List.pairwise_mergeSort
  · intro a b c; simp only [decide_eq_true_eq]; exact List.le_trans
  · intro a b; simp only [Bool.or_eq_true, decide_eq_true_eq]; exact List.le_total _ _

theorem read_len {α : Type} {h : List (List α)} {s : Slice} (hb : InBounds h s) : (s.read h).length = s.len := by
  obtain ⟨a, ha, hl⟩ := hb
  simp [Slice.read, ha]; omega

theorem read_write_same {α : Type} {h : List (List α)} {s : Slice} (hb : InBounds h s) {xs : List α} (hx : xs.length = s.len) :
    s.read (s.write h xs) = xs := by
  obtain ⟨a, ha, hl⟩ := hb
  simp only [Slice.read, Slice.write, List.getElem?_modify, ha, Option.map_eq_map, Option.map_some, Option.getD_some, if_true]
  have h1 : (a.take s.off).length = s.off := by rw [List.length_take]; omega
  rw [List.append_assoc, List.drop_left' h1, List.take_left' hx]

theorem read_write_disjoint {α : Type} {h : List (List α)} {s t : Slice} (hb : InBounds h s) (hd : Disjoint s t) {xs : List α}
    (hx : xs.length = s.len) : t.read (s.write h xs) = t.read h := by
  obtain ⟨a, ha, hl⟩ := hb
  simp only [Slice.read, Slice.write, List.getElem?_modify]
  by_cases he : s.arr = t.arr
  · rw [← he, ha]
    simp only [Option.map_eq_map, Option.map_some, Option.getD_some, if_true]
    apply List.ext_getElem?
    intro i
    simp only [List.getElem?_take, List.getElem?_drop]
    by_cases hi : i < t.len
    · simp only [hi, if_true]
      have h1 : (a.take s.off).length = s.off := by rw [List.length_take]; omega
      rcases hd with hd | hd | hd
      · exact absurd he hd
      · rw [List.getElem?_append_right (by simp; omega), List.getElem?_drop]
        congr 1
        simp; omega
      · rw [List.append_assoc, List.getElem?_append_left (by omega), List.getElem?_take]
        rw [if_pos (by omega)]
    · simp [hi]
  · cases h[t.arr]? <;> simp [he]

theorem inb_write {α : Type} {h : List (List α)} {s t : Slice} (hb : InBounds h s) {xs : List α} (hx : xs.length = s.len)
    (ht : InBounds h t) : InBounds (s.write h xs) t := by
  obtain ⟨a, ha, hl⟩ := hb
  obtain ⟨b, hb', hl'⟩ := ht
  unfold InBounds Slice.write
  simp only [List.getElem?_modify]
  rw [hb']
  by_cases he : s.arr = t.arr
  · rw [← he, ha] at hb'
    cases hb'
    refine ⟨a.take s.off ++ xs ++ a.drop (s.off + xs.length), by simp [he], ?_⟩
    simp; omega
  · exact ⟨b, by simp [he], hl'⟩

/-- What the model's `canonicalize` does with the keys. -/
theorem canonicalize_keys (v : ViewDef) : (canonicalize v).1.tagKeys = v.tagKeys ∨ (canonicalize v).1.tagKeys = srt v.tagKeys := by
  unfold canonicalize
  split
  · exact Or.inl rfl
  · split
    · exact Or.inl rfl
    · simp only
      split
      · exact Or.inl rfl
      · split <;> exact Or.inr rfl

theorem canonicalize_ok_keys {v : ViewDef} (h : (canonicalize v).2 = none) : (canonicalize v).1.tagKeys = srt v.tagKeys := by
  revert h
  unfold canonicalize
  split
  · intro h; cases h
  · split
    · intro h; cases h
    · simp only
      split
      · intro h; cases h
      · split
        · intro h; cases h
        · intro _; rfl

theorem canonicalize_ptr (v : ViewDef) : (canonicalize v).1.ptr = v.ptr := by
  unfold canonicalize
  split
  · rfl
  · split
    · rfl
    · simp only
      split
      · rfl
      · split <;> rfl

/-- Apart from the keys, `canonicalize` does the same whatever the keys are. -/
theorem canonicalize_other (v : ViewDef) (ks : List Key) :
    (canonicalize { v with tagKeys := ks }).2 = (canonicalize v).2 ∧
    { (canonicalize { v with tagKeys := ks }).1 with tagKeys := (canonicalize v).1.tagKeys } = (canonicalize v).1 := by
  obtain ⟨p, n, d, k, m, a⟩ := v
  cases m with
  | none => exact ⟨rfl, rfl⟩
  | some m =>
    cases a with
    | none => exact ⟨rfl, rfl⟩
    | some a =>
      simp only [canonicalize, withDefaults]
      by_cases h1 : (!checkViewName (if n = [] then m.name else n)) = true
      · simp only [h1, if_true]; exact ⟨trivial, trivial⟩
      · simp only [h1, Bool.false_eq_true, if_false]
        by_cases h2 : (a.buckets.mergeSort sortLe).any (fun b => F64.lt b (.fin 0)) = true
        · simp only [h2, if_true]; exact ⟨trivial, trivial⟩
        · simp only [h2, Bool.false_eq_true, if_false]; exact ⟨trivial, trivial⟩

/-- The arrays later on: every slice is as it was, or sorted. -/
structure ArrOK (sl : Nat → Slice) (P : Nat → Prop) (h0 h : Arrays) : Prop where
  inb : ∀ p, P p → InBounds h (sl p)
  keys : ∀ p, P p → srt ((sl p).read h) = srt ((sl p).read h0)

/-- From `h` to `h'`, slices that are sorted stay as they are. -/
def Keeps (sl : Nat → Slice) (P : Nat → Prop) (h0 h h' : Arrays) : Prop :=
  ∀ p, P p → (sl p).read h = srt ((sl p).read h0) → (sl p).read h' = srt ((sl p).read h0)

theorem canonicalizeA_spec {sl : Nat → Slice} {P : Nat → Prop} {h0 h : Arrays}
    (sep : ∀ p q, P p → P q → sl p = sl q ∨ Disjoint (sl p) (sl q)) (ok : ArrOK sl P h0 h) {v : ViewDef} (hv : P v.ptr) :
    ArrOK sl P h0 (canonicalizeA sl h v).1 ∧ Keeps sl P h0 h (canonicalizeA sl h v).1 ∧
    (canonicalizeA sl h v).2.2 = (canonicalize (resolve sl h0 v)).2 ∧
    ((canonicalizeA sl h v).2.2 = none →
      (canonicalizeA sl h v).2.1 = (canonicalize (resolve sl h0 v)).1 ∧
      (sl v.ptr).read (canonicalizeA sl h v).1 = srt ((sl v.ptr).read h0)) := by
  have hk := ok.keys _ hv
  have hlen : (canonicalize (resolve sl h v)).1.tagKeys.length = (sl v.ptr).len := by
    rcases canonicalize_keys (resolve sl h v) with e | e <;> rw [e]
    · exact read_len (ok.inb _ hv)
    · rw [srt, List.length_mergeSort]; exact read_len (ok.inb _ hv)
  have hread : ∀ q, P q → (sl q).read (canonicalizeA sl h v).1 =
      if sl v.ptr = sl q then (canonicalize (resolve sl h v)).1.tagKeys else (sl q).read h := by
    intro q hq
    by_cases he : sl v.ptr = sl q
    · rw [if_pos he, ← he]
      exact read_write_same (ok.inb _ hv) hlen
    · rw [if_neg he]
      exact read_write_disjoint (ok.inb _ hv) ((sep _ _ hv hq).resolve_left he) hlen
  have hsrt : srt (canonicalize (resolve sl h v)).1.tagKeys = srt ((sl v.ptr).read h0) := by
    rcases canonicalize_keys (resolve sl h v) with e | e <;> rw [e]
    · exact hk
    · rw [srt_srt]; exact hk
  refine ⟨⟨?_, ?_⟩, ?_, ?_, ?_⟩
  · intro q hq
    exact inb_write (ok.inb _ hv) hlen (ok.inb _ hq)
  · intro q hq
    rw [hread q hq]
    split
    · next he => rw [hsrt, he]
    · exact ok.keys _ hq
  · intro q hq hs
    rw [hread q hq]
    split
    · next he =>
      rw [he] at hk
      rcases canonicalize_keys (resolve sl h v) with e | e
      · rw [e]; show (sl v.ptr).read h = _; rw [he]; exact hs
      · rw [e]; show srt ((sl v.ptr).read h) = _; rw [he]; exact hk
    · exact hs
  · exact (canonicalize_other (resolve sl h0 v) ((sl v.ptr).read h)).1
  · intro hn
    have hn' : (canonicalize (resolve sl h v)).2 = none := hn
    have e1 := canonicalize_ok_keys hn'
    obtain ⟨o1, o2⟩ := canonicalize_other (resolve sl h0 v) ((sl v.ptr).read h)
    have e0 : (canonicalize (resolve sl h0 v)).2 = none := by rw [← o1]; exact hn'
    have e2 := canonicalize_ok_keys e0
    refine ⟨?_, ?_⟩
    · rw [← o2]
      show (canonicalize (resolve sl h v)).1 = _
      have : (canonicalize (resolve sl h0 v)).1.tagKeys = (canonicalize (resolve sl h v)).1.tagKeys := by
        rw [e1, e2]; exact hk.symm
      rw [this]
      rfl
    · rw [hread _ hv, if_pos rfl, e1]
      exact hk

theorem canonicalizeAllA_spec {sl : Nat → Slice} {P : Nat → Prop} {h0 : Arrays}
    (sep : ∀ p q, P p → P q → sl p = sl q ∨ Disjoint (sl p) (sl q)) (vs : List ViewDef) (hv : ∀ v ∈ vs, P v.ptr)
    {h : Arrays} (ok : ArrOK sl P h0 h) :
    ∃ h', canonicalizeAllA sl h vs = (h', canonicalizeAll (vs.map (resolve sl h0))) ∧ ArrOK sl P h0 h' ∧ Keeps sl P h0 h h' ∧
      ∀ vs', canonicalizeAll (vs.map (resolve sl h0)) = .ok vs' →
        ∀ v ∈ vs', P v.ptr ∧ v.tagKeys = (sl v.ptr).read h' ∧ v.tagKeys = srt ((sl v.ptr).read h0) := by
  induction vs generalizing h with
  | nil => exact ⟨h, rfl, ok, fun _ _ hs => hs, by intro vs' he; cases he; simp⟩
  | cons v vs ih =>
    obtain ⟨c1, c2, c3, c4⟩ := canonicalizeA_spec sep ok (hv v (by simp))
    rcases hc : canonicalizeA sl h v with ⟨h1, v1, e⟩
    rw [hc] at c1 c2 c3 c4
    simp only at c1 c2 c3 c4
    cases e with
    | some e =>
      refine ⟨h1, ?_, c1, c2, ?_⟩
      · simp only [canonicalizeAllA, hc, List.map_cons, canonicalizeAll]
        rcases hr : canonicalize (resolve sl h0 v) with ⟨a, b⟩
        rw [hr] at c3; simp only at c3; subst c3; rfl
      · intro vs' he
        rw [List.map_cons, canonicalizeAll] at he
        rcases hr : canonicalize (resolve sl h0 v) with ⟨a, b⟩
        rw [hr] at c3 he; simp only at c3; subst c3; simp at he
    | none =>
      obtain ⟨d1, d2⟩ := c4 rfl
      obtain ⟨h', i1, i2, i3, i4⟩ := ih (fun v hv' => hv v (by simp [hv'])) c1
      have hr : canonicalize (resolve sl h0 v) = (v1, none) := by
        rw [d1, c3]
      refine ⟨h', ?_, i2, fun q hq hs => i3 q hq (c2 q hq hs), ?_⟩
      · simp only [canonicalizeAllA, hc, List.map_cons, canonicalizeAll, hr, i1]
        cases canonicalizeAll (vs.map (resolve sl h0)) <;> rfl
      · intro vs' he
        rw [List.map_cons, canonicalizeAll, hr] at he
        simp only at he
        cases hall : canonicalizeAll (vs.map (resolve sl h0)) with
        | error e => rw [hall] at he; cases he
        | ok ws =>
          rw [hall] at he
          cases he
          intro x hx
          rcases List.mem_cons.mp hx with rfl | hx
          · have hp : x.ptr = v.ptr := by
              have := canonicalize_ptr (resolve sl h0 v)
              rw [hr] at this; exact this
            have hk : x.tagKeys = srt ((sl x.ptr).read h0) := by
              have := canonicalize_ok_keys (v := resolve sl h0 v) (by rw [hr])
              rw [hr] at this; rw [hp]; exact this
            refine ⟨by rw [hp]; exact hv v (by simp), ?_, hk⟩
            rw [hk]
            rw [hp]
            exact (i3 v.ptr (hv v (by simp)) d2).symm
          · exact i4 ws hall x hx

/-! ### The views registered with the worker -/

def viewsOf (w : Worker) : List ViewDef := w.vis.map (·.view)

theorem map_modify_same {α β : Type} (l : List α) (i : Nat) (f : α → α) (g : α → β) (h : ∀ a, g (f a) = g a) :
    (l.modify i f).map g = l.map g := by
  apply List.ext_getElem?
  intro j
  simp only [List.getElem?_map, List.getElem?_modify]
  cases l[j]? with
  | none => rfl
  | some a => by_cases hij : i = j <;> simp [hij, h]

theorem unregister_views (w : Worker) (now : Int) (ns : List Bytes) {w' : Worker} {es : List Export}
    (h : w.unregister now ns = .ok (w', es)) : viewsOf w' = viewsOf w := by
  induction ns generalizing w es with
  | nil => cases h; rfl
  | cons n ns ih =>
    unfold Worker.unregister at h
    cases hg : GoMap.get w.views n with
    | none => rw [hg] at h; exact ih w h
    | some a =>
      rw [hg] at h
      simp only at h
      cases hr : w.reportView a now with
      | err => rw [hr] at h; cases h
      | panic => rw [hr] at h; cases h
      | ok es1 =>
        rw [hr] at h
        simp only [Res.bind] at h
        cases hu : (((w.setSubscribed a false).clearRows a).unregisterView a).unregister now ns with
        | err => rw [hu] at h; cases h
        | panic => rw [hu] at h; cases h
        | ok p =>
          rw [hu] at h
          cases h
          rw [ih _ hu]
          have h1 : viewsOf (((w.setSubscribed a false).clearRows a).unregisterView a) =
              viewsOf ((w.setSubscribed a false).clearRows a) := by
            unfold Worker.unregisterView viewsOf
            split
            · rfl
            · split
              · rfl
              · simp only
                split <;> rfl
          rw [h1]
          exact (map_modify_same _ _ (fun vi : VI => { vi with collector := vi.collector.clearRows }) VI.view (fun _ => rfl)).trans
            (map_modify_same _ _ (fun vi : VI => { vi with subscribed := false }) VI.view (fun _ => rfl))

theorem addToViews_views (w : Worker) (tm : Option TMap) (s : Sample F64) (as : List Nat) {w' : Worker}
    (h : w.addToViews tm s as = .ok w') : viewsOf w' = viewsOf w := by
  induction as generalizing w with
  | nil => cases h; rfl
  | cons a as ih =>
    unfold Worker.addToViews at h
    cases hv : w.vis[a]? with
    | none => rw [hv] at h; cases h
    | some vi =>
      rw [hv] at h
      simp only at h
      cases hs : vi.addSample tm s with
      | err => rw [hs] at h; cases h
      | panic => rw [hs] at h; cases h
      | ok vi' =>
        rw [hs] at h
        simp only [Res.bind] at h
        rw [ih _ h]
        have hview : vi'.view = vi.view := by
          unfold VI.addSample at hs
          split at hs
          · cases hs; rfl
          · cases he : encodeWithKeys tm vi.view.tagKeys with
            | err => rw [he] at hs; cases hs
            | panic => rw [he] at hs; cases hs
            | ok sig =>
              rw [he] at hs
              simp only [Res.bind] at hs
              cases hc : vi.collector.addSample sig s with
              | err => rw [hc] at hs; cases hs
              | panic => rw [hc] at hs; cases hs
              | ok c => rw [hc] at hs; cases hs; rfl
        simp only [viewsOf]
        rw [List.map_set, hview]
        apply List.ext_getElem?
        intro j
        rw [List.getElem?_set]
        by_cases hj : a = j
        · subst hj
          obtain ⟨h1, h2⟩ := List.getElem?_eq_some_iff.mp hv
          simp [h1, h2]
        · simp [hj]

theorem record_views (w : Worker) (tm : Option TMap) (att : Attachments) (t : Int) (ms : List (Option Measurement))
    {w' : Worker} (h : w.recordLoop tm att t ms = .ok w') : viewsOf w' = viewsOf w := by
  induction ms generalizing w with
  | nil => cases h; rfl
  | cons m ms ih =>
    cases m with
    | none => exact ih w h
    | some m =>
      unfold Worker.recordLoop at h
      simp only at h
      cases ha : (w.getMeasureRef m.m.name).1.addToViews tm ⟨m.v, att, t⟩ (w.getMeasureRef m.m.name).2 with
      | err => rw [ha] at h; cases h
      | panic => rw [ha] at h; cases h
      | ok w1 =>
        rw [ha] at h
        simp only [Res.bind] at h
        rw [ih _ h, addToViews_views _ _ _ _ ha]
        unfold Worker.getMeasureRef
        split <;> rfl

theorem registerAll_views (w : Worker) (reg : Measures) (now : Int) (vs : List ViewDef) {w' : Worker} {reg' : Measures}
    {errs : List Bytes} (h : w.registerAll reg now vs = .ok (w', reg', errs)) :
    ∀ v ∈ viewsOf w', v ∈ viewsOf w ∨ v ∈ vs := by
  induction vs generalizing w reg errs with
  | nil => cases h; exact fun v hv => Or.inl hv
  | cons v vs ih =>
    unfold Worker.registerAll at h
    cases ht : w.tryRegisterView v now with
    | err => rw [ht] at h; cases h
    | panic => rw [ht] at h; cases h
    | ok p =>
      obtain ⟨w1, r⟩ := p
      have hsub : ∀ x ∈ viewsOf w1, x ∈ viewsOf w ∨ x = v := by
        unfold Worker.tryRegisterView at ht
        cases hn : newViewInternal v with
        | err => rw [hn] at ht; cases ht
        | panic => rw [hn] at ht; cases ht
        | ok vi =>
          rw [hn] at ht
          simp only [Res.bind] at ht
          have hvi : vi.view = v := by
            unfold newViewInternal at hn
            cases ha : v.agg with
            | none => rw [ha] at hn; cases hn
            | some a =>
              rw [ha] at hn
              simp only at hn
              cases hd : viewToMetricDescriptor v with
              | err => rw [hd] at hn; cases hn
              | panic => rw [hd] at hn; cases hn
              | ok d => rw [hd] at hn; cases hn; rfl
          cases hg : GoMap.get w.views v.name with
          | some a =>
            rw [hg] at ht
            simp only at ht
            cases hx : w.vis[a]? with
            | none => rw [hx] at ht; cases ht
            | some x =>
              rw [hx] at ht
              simp only at ht
              split at ht <;> cases ht <;> exact fun x hx => Or.inl hx
          | none =>
            rw [hg] at ht
            simp only at ht
            cases hm : v.measure with
            | none => rw [hm] at ht; cases ht
            | some m =>
              rw [hm] at ht
              simp only [Res.ok.injEq, Prod.mk.injEq] at ht
              rw [← ht.1]
              intro x hx
              have hx' : x ∈ (w.vis ++ [vi]).map (·.view) := by
                revert hx
                simp only [viewsOf]
                unfold Worker.getMeasureRef
                split <;> exact id
              rw [List.map_append, List.mem_append] at hx'
              rcases hx' with h1 | h1
              · exact Or.inl h1
              · simp only [List.map_singleton, List.mem_singleton] at h1
                exact Or.inr (h1.trans hvi)
      rw [ht] at h
      simp only [Res.bind] at h
      cases r with
      | none =>
        simp only at h
        cases hr : w1.registerAll reg now vs with
        | err => rw [hr] at h; cases h
        | panic => rw [hr] at h; cases h
        | ok q =>
          rw [hr] at h
          cases h
          intro x hx
          rcases ih _ _ hr x hx with h1 | h1
          · rcases hsub x h1 with h2 | rfl
            · exact Or.inl h2
            · exact Or.inr (by simp)
          · exact Or.inr (by simp [h1])
      | some a =>
        simp only at h
        cases hm : v.measure with
        | none => rw [hm] at h; cases h
        | some m =>
          rw [hm] at h
          simp only at h
          cases hs : subscribe reg m.name with
          | err => rw [hs] at h; cases h
          | panic => rw [hs] at h; cases h
          | ok reg1 =>
            rw [hs] at h
            simp only at h
            intro x hx
            rcases ih _ _ h x hx with h1 | h1
            · have : viewsOf (w1.setSubscribed a true) = viewsOf w1 :=
                map_modify_same _ _ _ _ (fun _ => rfl)
              rw [this] at h1
              rcases hsub x h1 with h2 | rfl
              · exact Or.inl h2
              · exact Or.inr (by simp)
            · exact Or.inr (by simp [h1])

theorem handle_views (w : Worker) (reg : Measures) (c : Cmd) (hc : ∀ now vs, c ≠ .register now vs) {w' : Worker}
    {reg' : Measures} {r : Reply} {es : List Export} (h : handle w reg c = .ok (w', reg', r, es)) :
    viewsOf w' = viewsOf w := by
  cases c with
  | register now vs => exact absurd rfl (hc now vs)
  | unregister now ns =>
    simp only [handle] at h
    cases hu : w.unregister now ns with
    | err => rw [hu] at h; cases h
    | panic => rw [hu] at h; cases h
    | ok p => rw [hu] at h; cases h; exact unregister_views _ _ _ hu
  | retrieve n =>
    simp only [handle] at h
    cases hu : w.retrieveData n with
    | err => rw [hu] at h; cases h
    | panic => rw [hu] at h; cases h
    | ok p => rw [hu] at h; cases h; rfl
  | record t q =>
    simp only [handle] at h
    cases hu : w.record q t with
    | err => rw [hu] at h; cases h
    | panic => rw [hu] at h; cases h
    | ok p => rw [hu] at h; cases h; exact record_views _ _ _ _ _ hu
  | find n =>
    simp only [handle] at h
    cases hu : w.find n with
    | err => rw [hu] at h; cases h
    | panic => rw [hu] at h; cases h
    | ok p => rw [hu] at h; cases h; rfl
  | setPeriod d => cases h; rfl
  | tick now =>
    simp only [handle] at h
    cases hu : w.reportUsage now with
    | err => rw [hu] at h; cases h
    | panic => rw [hu] at h; cases h
    | ok p => rw [hu] at h; cases h; rfl
  | addExporter e => cases h; rfl
  | delExporter e => cases h; rfl

/-- The registered views have the keys their slices have, sorted. -/
def VisOK (sl : Nat → Slice) (P : Nat → Prop) (h0 h : Arrays) (w : Worker) : Prop :=
  ∀ v ∈ viewsOf w, P v.ptr ∧ v.tagKeys = (sl v.ptr).read h ∧ v.tagKeys = srt ((sl v.ptr).read h0)

theorem refresh_same {sl : Nat → Slice} {P : Nat → Prop} {h0 h h' : Arrays} {w : Worker} (hv : VisOK sl P h0 h w)
    (hk : Keeps sl P h0 h h') : refresh sl h' w = w ∧ VisOK sl P h0 h' w := by
  have hok : VisOK sl P h0 h' w := by
    intro v hm
    obtain ⟨a1, a2, a3⟩ := hv v hm
    refine ⟨a1, ?_, a3⟩
    rw [a3]
    exact (hk v.ptr a1 (by rw [← a2, a3])).symm
  refine ⟨?_, hok⟩
  have : (w.vis.map fun vi => { vi with view := resolve sl h' vi.view }) = w.vis := by
    conv => rhs; rw [← List.map_id w.vis]
    apply List.map_congr_left
    intro vi hm
    obtain ⟨_, a2, _⟩ := hok vi.view (List.mem_map.mpr ⟨vi, hm, rfl⟩)
    obtain ⟨v, _, _, _⟩ := vi
    simp only [resolve, id]
    simp only at a2
    rw [← a2]
  unfold refresh
  rw [this]

theorem step_same {sl : Nat → Slice} {P : Nat → Prop} {h0 h : Arrays}
    (sep : ∀ p q, P p → P q → sl p = sl q ∨ Disjoint (sl p) (sl q)) (ok : ArrOK sl P h0 h) {w : Worker}
    (hv : VisOK sl P h0 h w) (reg : Measures) (c : Cmd) (hc : ∀ p ∈ ptrs c, P p) :
    ∃ h', handleA sl w reg h c = (handle w reg (withKeys sl h0 c)).bind (fun (w, reg, r, es) => .ok (w, reg, h', r, es)) ∧
      ArrOK sl P h0 h' ∧ ∀ w' reg' r es, handle w reg (withKeys sl h0 c) = .ok (w', reg', r, es) → VisOK sl P h0 h' w' := by
  by_cases hreg : ∃ now vs, c = .register now vs
  · obtain ⟨now, vs, rfl⟩ := hreg
    obtain ⟨h', c1, c2, c3, c4⟩ := canonicalizeAllA_spec sep vs
      (fun v hm => hc v.ptr (List.mem_map.mpr ⟨v, hm, rfl⟩)) ok
    obtain ⟨r1, r2⟩ := refresh_same hv c3
    refine ⟨h', ?_, c2, ?_⟩
    · simp only [handleA, registerA, c1, handle, withKeys, Worker.register]
      cases hall : canonicalizeAll (vs.map (resolve sl h0)) with
      | error e => simp only [r1]; rfl
      | ok vs' =>
        simp only [r1]
        have : vs'.map (resolve sl h') = vs' := by
          conv => rhs; rw [← List.map_id vs']
          apply List.map_congr_left
          intro v hm
          obtain ⟨_, a2, _⟩ := c4 vs' hall v hm
          unfold resolve
          rw [← a2]; rfl
        rw [this]
        cases w.registerAll reg now vs' <;> rfl
    · intro w' reg' r es hh
      simp only [handle, withKeys, Worker.register] at hh
      cases hall : canonicalizeAll (vs.map (resolve sl h0)) with
      | error e =>
        rw [hall] at hh
        cases hh
        exact r2
      | ok vs' =>
        rw [hall] at hh
        simp only at hh
        cases hr : w.registerAll reg now vs' with
        | err => rw [hr] at hh; cases hh
        | panic => rw [hr] at hh; cases hh
        | ok q =>
          rw [hr] at hh
          cases hh
          intro v hm
          rcases registerAll_views _ _ _ _ hr v hm with h1 | h1
          · exact r2 v h1
          · exact c4 vs' hall v h1
  · have hne : ∀ now vs, c ≠ .register now vs := fun now vs he => hreg ⟨now, vs, he⟩
    have hw : withKeys sl h0 c = c := by
      cases c <;> first | rfl | exact absurd rfl (hne _ _)
    rw [hw]
    refine ⟨h, ?_, ok, ?_⟩
    · cases c <;> first | rfl | exact absurd rfl (hne _ _)
    · intro w' reg' r es hh
      unfold VisOK
      rw [handle_views w reg c hne hh]
      exact hv

theorem run_same {sl : Nat → Slice} {P : Nat → Prop} {h0 : Arrays}
    (sep : ∀ p q, P p → P q → sl p = sl q ∨ Disjoint (sl p) (sl q)) (cs : List Cmd) (hc : ∀ c ∈ cs, ∀ p ∈ ptrs c, P p)
    {h : Arrays} (ok : ArrOK sl P h0 h) {w : Worker} (hv : VisOK sl P h0 h w) (reg : Measures) :
    ∃ h', runA sl w reg h cs = (Worker.run w reg (cs.map (withKeys sl h0))).bind (fun (w, reg, rs) => .ok (w, reg, h', rs)) := by
  induction cs generalizing h w reg with
  | nil => exact ⟨h, rfl⟩
  | cons c cs ih =>
    obtain ⟨h1, s1, s2, s3⟩ := step_same sep ok hv reg c (hc c (by simp))
    simp only [runA, List.map_cons, Worker.run, s1]
    cases hh : handle w reg (withKeys sl h0 c) with
    | err => exact ⟨h, rfl⟩
    | panic => exact ⟨h, rfl⟩
    | ok q =>
      obtain ⟨w1, reg1, r, es⟩ := q
      obtain ⟨h', e⟩ := ih (fun c hm => hc c (by simp [hm])) s2 (s3 _ _ _ _ hh) reg1
      refine ⟨h', ?_⟩
      simp only [Res.bind]
      rw [e]
      cases Worker.run w1 reg1 (cs.map (withKeys sl h0)) <;> rfl

/-! ## Property theorems -/

/-- When the tag key slices of any two view objects are the same or do not overlap, a program gets the same
replies and the same exports as when every view has its own keys. -/
theorem keys_apart_partial (sl : Nat → Slice) (h : Arrays) (reg : Measures) (cs : List Cmd) (ha : Apart sl h cs) :
    ∃ h', runA sl newWorker reg h cs =
      (Worker.run newWorker reg (cs.map (withKeys sl h))).bind (fun (w, reg, rs) => .ok (w, reg, h', rs)) := by
  refine run_same (P := fun p => ∃ c ∈ cs, p ∈ ptrs c) ?_ cs (fun c hc p hp => ⟨c, hc, hp⟩) ⟨?_, ?_⟩ ?_ reg
  · rintro p q ⟨c, hc, hp⟩ ⟨d, hd, hq⟩
    exact ha.sep c hc p hp d hd q hq
  · rintro p ⟨c, hc, hp⟩
    exact ha.inb c hc p hp
  · intro p _; rfl
  · intro v hm
    simp [viewsOf, newWorker] at hm


/-! ### Overlapping slices -/

/-- The slices of two views over one array of keys `b`, `a`: the first view has the first key, the second one
both. -/
def demoSl (p : Nat) : Slice := if p = 1 then ⟨0, 0, 1⟩ else ⟨0, 0, 2⟩

def demoArr : Arrays := [[⟨str "b"⟩, ⟨str "a"⟩]]

def demoMeasure : Measure := ⟨.int64, str "m", [], str "1"⟩
def demoReg : Measures := [(str "m", ⟨false, str "m", [], str "1"⟩)]

def demoView (p : Nat) (n : String) : ViewDef := ⟨p, str n, [], [], some demoMeasure, some ⟨p, .count, [], some .count⟩⟩

/-- A recording with the tag b = 1 between the registrations of the two views. -/
def demoCmds : List Cmd :=
  [.register 0 [demoView 1 "v1"], .record 1 ⟨some [(⟨str "b"⟩, ⟨str "1", ⟨-1⟩⟩)], [some ⟨.fin 1, demoMeasure⟩], []⟩,
   .register 2 [demoView 2 "v2"], .retrieve (str "v1")]

def demoAgg (p : Nat) : Aggregation F64 := ⟨p, .count, [], some .count⟩

theorem demo_canon1 (h : Arrays) (hk : (demoSl 1).read h = [⟨str "b"⟩]) : canonicalize (resolve demoSl h (demoView 1 "v1")) =
    (⟨1, str "v1", [], [⟨str "b"⟩], some demoMeasure, some (demoAgg 1)⟩, none) := by
  have hn : checkViewName (str "v1") = true := by decide
  have hs : str "v1" ≠ [] := by decide
  simp only [demoView, resolve, hk, canonicalize, withDefaults, demoMeasure, hs, if_false, if_true, hn, demoAgg,
    List.mergeSort_nil, List.mergeSort_singleton]
  simp [dropZeroBounds]

theorem demo_canon2 (h : Arrays) (hk : (demoSl 2).read h = [⟨str "b"⟩, ⟨str "a"⟩]) : canonicalize (resolve demoSl h (demoView 2 "v2")) =
    (⟨2, str "v2", [], [⟨str "a"⟩, ⟨str "b"⟩], some demoMeasure, some (demoAgg 2)⟩, none) := by
  have hn : checkViewName (str "v2") = true := by decide
  have hs : str "v2" ≠ [] := by decide
  have hm : [(⟨str "b"⟩ : Key), ⟨str "a"⟩].mergeSort (fun a b => decide (a.name ≤ b.name)) = [⟨str "a"⟩, ⟨str "b"⟩] := by
    have hle : (decide ((⟨str "b"⟩ : Key).name ≤ (⟨str "a"⟩ : Key).name)) = false := by decide
    simp only [List.mergeSort, List.MergeSort.Internal.splitInTwo]
    simp [hle]
  simp only [demoView, resolve, hk, canonicalize, withDefaults, demoMeasure, hs, if_false, if_true, hn, demoAgg,
    List.mergeSort_nil, hm]
  simp [dropZeroBounds]

theorem demo_decode (k : Key) : decodeTags [1, 49] [k] = .ok [(k, str "1")] := by
  have : decodeLoop [1, 49] [k] = .ok [(k, str "1")] := rfl
  unfold decodeTags
  rw [this]
  simp [Res.bind]

theorem demo_retrieve {w : Worker} {vi : VI} {k : Key} (h1 : GoMap.get w.views (str "v1") = some 0) (h2 : w.vis[0]? = some vi)
    (hs : vi.subscribed = true) (hc : vi.collector.signatures = [([1, 49], .count 1 1)]) (hk : vi.view.tagKeys = [k]) :
    w.retrieveData (str "v1") = .ok (some [⟨[(k, str "1")], .count 1 1⟩]) := by
  simp only [Worker.retrieveData, h1, h2, hs, Collector.collectedRows, hc, hk, collectRows, demo_decode]
  rfl

/-- The value of a result, or a default. -/
def valueOr {α : Type} (d : α) : Res α → α
  | .ok a => a
  | _ => d

def demoC1 : ViewDef := ⟨1, str "v1", [], [⟨str "b"⟩], some demoMeasure, some (demoAgg 1)⟩
def demoC2 : ViewDef := ⟨2, str "v2", [], [⟨str "a"⟩, ⟨str "b"⟩], some demoMeasure, some (demoAgg 2)⟩
def demoRec : RecordReq := ⟨some [(⟨str "b"⟩, ⟨str "1", ⟨-1⟩⟩)], [some ⟨.fin 1, demoMeasure⟩], []⟩

def demoS1 : Worker × Measures × List Bytes := valueOr (newWorker, demoReg, []) (newWorker.registerAll demoReg 0 [demoC1])
def demoS2 : Worker := valueOr newWorker (demoS1.1.record demoRec 1)
def demoS3 : Worker × Measures × List Bytes := valueOr (newWorker, demoReg, []) (demoS2.registerAll demoS1.2.1 2 [demoC2])
/-- The array after the second registration. -/
def demoArr2 : Arrays := [[⟨str "a"⟩, ⟨str "b"⟩]]
def demoA3 : Worker × Measures × List Bytes :=
  valueOr (newWorker, demoReg, []) ((refresh demoSl demoArr2 demoS2).registerAll demoS1.2.1 2 [demoC2])

/-- The last reply of a run. -/
def lastReply (rs : List (Reply × List Export)) : Option Reply := (rs.map Prod.fst).getLast?

/-- The property fails when slices overlap: after the recording, the registration of the second view sorts the
array, so that the first view has the key `a`, and its row says a = 1 although b = 1 was recorded. With keys of
its own it says b = 1. -/
theorem overlap_relabels :
    (runA demoSl newWorker demoReg demoArr demoCmds).bind (fun (_, _, _, rs) => .ok (lastReply rs)) =
      .ok (some (.rows (some [⟨[(⟨str "a"⟩, str "1")], .count 1 1⟩]))) ∧
    (Worker.run newWorker demoReg (demoCmds.map (withKeys demoSl demoArr))).bind (fun (_, _, rs) => .ok (lastReply rs)) =
      .ok (some (.rows (some [⟨[(⟨str "b"⟩, str "1")], .count 1 1⟩]))) := by
  have c1 : canonicalize (resolve demoSl demoArr (demoView 1 "v1")) = (demoC1, none) := demo_canon1 demoArr rfl
  have c2 : canonicalize (resolve demoSl demoArr (demoView 2 "v2")) = (demoC2, none) := demo_canon2 demoArr rfl
  have r1 : newWorker.registerAll demoReg 0 [demoC1] = .ok demoS1 := rfl
  have r2 : demoS1.1.record demoRec 1 = .ok demoS2 := rfl
  constructor
  · have a1 : canonicalizeAllA demoSl demoArr [demoView 1 "v1"] = (demoArr, .ok [demoC1]) := by
      simp only [canonicalizeAllA, canonicalizeA, c1]
      rfl
    have a2 : canonicalizeAllA demoSl demoArr [demoView 2 "v2"] = (demoArr2, .ok [demoC2]) := by
      simp only [canonicalizeAllA, canonicalizeA, c2]
      rfl
    have e1 : [demoC1].map (resolve demoSl demoArr) = [demoC1] := rfl
    have e2 : [demoC2].map (resolve demoSl demoArr2) = [demoC2] := rfl
    have e3 : refresh demoSl demoArr newWorker = newWorker := rfl
    have r3 : (refresh demoSl demoArr2 demoS2).registerAll demoS1.2.1 2 [demoC2] = .ok demoA3 := rfl
    have q : demoA3.1.retrieveData (str "v1") = .ok (some [⟨[(⟨str "a"⟩, str "1")], .count 1 1⟩]) :=
      demo_retrieve (w := demoA3.1) rfl rfl rfl rfl rfl
    show ((runA demoSl newWorker demoReg demoArr [.register 0 [demoView 1 "v1"], .record 1 demoRec,
      .register 2 [demoView 2 "v2"], .retrieve (str "v1")]).bind (fun (_, _, _, rs) => .ok (lastReply rs))) = _
    simp only [runA, handleA, registerA, a1, a2, e1, e2, e3, r1, r2, r3, q, Res.bind, handle]
    rfl
  · have r3 : demoS2.registerAll demoS1.2.1 2 [demoC2] = .ok demoS3 := rfl
    have q : demoS3.1.retrieveData (str "v1") = .ok (some [⟨[(⟨str "b"⟩, str "1")], .count 1 1⟩]) :=
      demo_retrieve (w := demoS3.1) rfl rfl rfl rfl rfl
    show ((Worker.run newWorker demoReg [.register 0 [resolve demoSl demoArr (demoView 1 "v1")], .record 1 demoRec,
      .register 2 [resolve demoSl demoArr (demoView 2 "v2")], .retrieve (str "v1")]).bind (fun (_, _, rs) => .ok (lastReply rs))) = _
    simp only [Worker.run, handle, Worker.register, canonicalizeAll, c1, c2, r1, r2, r3, q, Res.bind]
    rfl

/-- Views 1 and 2 share one slice, view 3 has the rest of the array: the hypothesis of `keys_apart_partial` is met. -/
example : Apart (fun p => if p = 3 then ⟨0, 2, 1⟩ else ⟨0, 0, 2⟩) [[⟨str "b"⟩, ⟨str "a"⟩, ⟨str "c"⟩]]
    [.register 0 [demoView 1 "v1", demoView 2 "v2"], .register 1 [demoView 3 "v3"]] := by
  refine ⟨?_, ?_⟩
  · simp [ptrs, demoView, InBounds]
  · simp [ptrs, demoView, Disjoint]

end Verif.Props.Alias
