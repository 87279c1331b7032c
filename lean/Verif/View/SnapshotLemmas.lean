import Verif.View.Snapshot

namespace Verif.View.Snap
open Verif Verif.View

variable {F : Type} [Arith F]

/-- `a` is the address of a complete object. -/
def Obj (h : Heap F) (a : Nat) : Prop :=
  match h[a]? with
  | some (.count _ _) => True
  | some (.sum _ _) => True
  | some (.last _) => True
  | some (.dist d) => ∃ l es, h[d.cpb]? = some (.ints l) ∧ h[d.epb]? = some (.exs es) ∧
      ∀ p, some p ∈ es → ∃ e, h[p]? = some (.ex e)
  | _ => False

/-- `h'` is `h` with cells of `W` modified and cells added; exemplars are never modified. -/
structure Frame (h h' : Heap F) (W : List Nat) : Prop where
  grow : h.length ≤ h'.length
  same : ∀ p : Nat, p < h.length → p ∉ W → h'[p]? = h[p]?
  exs : ∀ (p : Nat) (e : Exemplar F), h[p]? = some (Cell.ex e) → h'[p]? = some (Cell.ex e)

def Disj (h : Heap F) (a b : Nat) : Prop := ∀ p, p ∈ footprint h a → p ∉ footprint h b

omit [Arith F] in
theorem lt_of_get {h : Heap F} {p : Nat} {c : Cell F} (e : h[p]? = some c) : p < h.length := by
  rcases Nat.lt_or_ge p h.length with h1 | h1
  · exact h1
  · simp [h1] at e

omit [Arith F] in
theorem Frame.refl (h : Heap F) : Frame h h [] := ⟨Nat.le_refl _, fun _ _ _ => rfl, fun _ _ h => h⟩

omit [Arith F] in
theorem Frame.append (h t : Heap F) : Frame h (h ++ t) [] :=
  ⟨by simp, fun p hp _ => by simp [List.getElem?_append_left hp],
   fun p e he => by rw [List.getElem?_append_left (lt_of_get he), he]⟩

omit [Arith F] in
theorem Frame.trans {h h' h'' : Heap F} {W W' : List Nat} (a : Frame h h' W) (b : Frame h' h'' W') :
    Frame h h'' (W ++ W') where
  grow := Nat.le_trans a.grow b.grow
  same p hp hw := by
    simp only [List.mem_append, not_or] at hw
    rw [b.same p (Nat.lt_of_lt_of_le hp a.grow) hw.2, a.same p hp hw.1]
  exs p e he := b.exs p e (a.exs p e he)

omit [Arith F] in
theorem Frame.mono {h h' : Heap F} {W W' : List Nat} (a : Frame h h' W) (s : ∀ p ∈ W, p ∈ W') :
    Frame h h' W' :=
  ⟨a.grow, fun p hp hw => a.same p hp (fun hw' => hw (s p hw')), a.exs⟩

omit [Arith F] in
theorem Frame.set {h : Heap F} {p : Nat} {c c' : Cell F} (hc : h[p]? = some c)
    (hne : ∀ e, c ≠ .ex e) : Frame h (h.set p c') [p] where
  grow := by simp
  same q _ hw := by
    simp only [List.mem_singleton] at hw
    rw [List.getElem?_set_ne (Ne.symm hw)]
  exs q e he := by
    by_cases hpq : p = q
    · subst hpq; rw [hc] at he; simp only [Option.some.injEq] at he; exact absurd he (hne e)
    · rw [List.getElem?_set_ne hpq, he]

omit [Arith F] in
theorem Obj.mem_self (h : Heap F) (a : Nat) : a ∈ footprint h a := by
  unfold footprint; split <;> simp

omit [Arith F] in
theorem Obj.lt {h : Heap F} {a : Nat} (o : Obj h a) : ∀ p ∈ footprint h a, p < h.length := by
  unfold Obj at o
  unfold footprint
  intro p hp
  split at o
  all_goals first | (rename_i e; rw [e] at hp; simp at hp; subst hp; exact lt_of_get e) | skip
  · rename_i d e
    rw [e] at hp
    obtain ⟨l, es, h1, h2, _⟩ := o
    simp only [List.mem_cons, List.not_mem_nil, or_false] at hp
    rcases hp with hp | hp | hp <;> subst hp
    · exact lt_of_get e
    · exact lt_of_get h1
    · exact lt_of_get h2
  · exact o.elim

omit [Arith F] in
/-- An object outside the modified cells is untouched. -/
theorem Obj.frame {h h' : Heap F} {W : List Nat} (f : Frame h h' W) {a : Nat} (o : Obj h a)
    (hd : ∀ p ∈ footprint h a, p ∉ W) :
    Obj h' a ∧ footprint h' a = footprint h a ∧ deref h' a = deref h a := by
  have key : ∀ p ∈ footprint h a, h'[p]? = h[p]? := fun p hp => f.same p (o.lt p hp) (hd p hp)
  have ha : h'[a]? = h[a]? := key a (Obj.mem_self h a)
  unfold Obj at o ⊢
  unfold footprint deref
  unfold footprint at key
  rw [ha]
  cases e : h[a]? with
  | none => rw [e] at o; exact o.elim
  | some c =>
    rw [e] at o key
    cases c with
    | dist d =>
      obtain ⟨l, es, h1, h2, h3⟩ := o
      have k1 := key d.cpb (by simp)
      have k2 := key d.epb (by simp)
      simp only [k1, k2, h1, h2]
      refine ⟨⟨l, es, rfl, rfl, ?_⟩, ?_, ?_⟩
      · intro p hp
        obtain ⟨x, hx⟩ := h3 p hp
        exact ⟨x, f.exs p x hx⟩
      · simp
      · have : es.map (exAt (h')) =
          es.map (exAt (h)) := by
          apply List.map_congr_left
          intro p hp
          cases p with
          | none => rfl
          | some p =>
            obtain ⟨x, hx⟩ := h3 p hp
            simp [exAt, hx, f.exs p x hx]
        rw [this]
    | _ => simp_all

omit [Arith F] in
/-- `clone` makes an object in fresh memory that reads the same. -/
theorem clone_spec {h h' : Heap F} {a q : Nat} (o : Obj h a) (hc : clone h a = .ok (h', q)) :
    Frame h h' [] ∧ Obj h' q ∧ (∀ p ∈ footprint h' q, h.length ≤ p) ∧ deref h' q = deref h a := by
  unfold clone at hc
  unfold Obj at o
  cases e : h[a]? with
  | none => rw [e] at o; exact o.elim
  | some c =>
    rw [e] at o hc
    cases c with
    | dist d =>
      obtain ⟨l, es, h1, h2, h3⟩ := o
      simp only [h1, h2, Res.ok.injEq, Prod.mk.injEq] at hc
      obtain ⟨rfl, rfl⟩ := hc
      have g1 : ∀ t : Heap F, (h ++ t)[h.length]? = t[0]? := fun t => by
        rw [List.getElem?_append_right (Nat.le_refl _)]; congr 1; omega
      have g2 : ∀ t : Heap F, (h ++ t)[h.length + 1]? = t[1]? := fun t => by
        rw [List.getElem?_append_right (by omega)]; congr 1; omega
      have g3 : ∀ t : Heap F, (h ++ t)[h.length + 2]? = t[2]? := fun t => by
        rw [List.getElem?_append_right (by omega)]; congr 1; omega
      refine ⟨Frame.append _ _, ?_, ?_, ?_⟩
      · unfold Obj
        rw [g3]
        simp only [List.getElem?_cons_succ, List.getElem?_cons_zero]
        refine ⟨l, es, by rw [g1]; rfl, by rw [g2]; rfl, ?_⟩
        intro p hp
        obtain ⟨x, hx⟩ := h3 p hp
        exact ⟨x, (Frame.append h _).exs p x hx⟩
      · unfold footprint
        rw [g3]
        simp
      · unfold deref
        rw [g3, e]
        simp only [List.getElem?_cons_succ, List.getElem?_cons_zero, g1, g2, h1, h2]
        have : es.map (exAt ((h ++ [Cell.ints l, Cell.exs es, Cell.dist { d with cpb := h.length, epb := h.length + 1 }]))) =
          es.map (exAt (h)) := by
          apply List.map_congr_left
          intro p hp
          cases p with
          | none => rfl
          | some p =>
            obtain ⟨x, hx⟩ := h3 p hp
            simp [exAt, hx, (Frame.append h _).exs p x hx]
        rw [this]
    | count st n =>
      simp only [Res.ok.injEq, Prod.mk.injEq] at hc
      obtain ⟨rfl, rfl⟩ := hc
      exact ⟨Frame.append _ _, by simp [Obj], by simp [footprint], by simp [deref, e]⟩
    | sum st n =>
      simp only [Res.ok.injEq, Prod.mk.injEq] at hc
      obtain ⟨rfl, rfl⟩ := hc
      exact ⟨Frame.append _ _, by simp [Obj], by simp [footprint], by simp [deref, e]⟩
    | last n =>
      simp only [Res.ok.injEq, Prod.mk.injEq] at hc
      obtain ⟨rfl, rfl⟩ := hc
      exact ⟨Frame.append _ _, by simp [Obj], by simp [footprint], by simp [deref, e]⟩
    | ints _ => exact o.elim
    | exs _ => exact o.elim
    | ex _ => exact o.elim

/-- `newData` makes an object in fresh memory. -/
theorem newData_spec {h h' : Heap F} {a : Aggregation F} {t : Int} {q : Nat}
    (hc : newData h a t = .ok (h', q)) :
    Frame h h' [] ∧ Obj h' q ∧ (∀ p ∈ footprint h' q, h.length ≤ p) ∧
      ∃ d, a.mkData t = .ok d ∧ deref h' q = some d := by
  unfold newData at hc
  unfold Aggregation.mkData
  have g1 : ∀ t : Heap F, (h ++ t)[h.length]? = t[0]? := fun t => by
        rw [List.getElem?_append_right (Nat.le_refl _)]; congr 1; omega
  have g2 : ∀ t : Heap F, (h ++ t)[h.length + 1]? = t[1]? := fun t => by
    rw [List.getElem?_append_right (by omega)]; congr 1; omega
  have g3 : ∀ t : Heap F, (h ++ t)[h.length + 2]? = t[2]? := fun t => by
    rw [List.getElem?_append_right (by omega)]; congr 1; omega
  cases e : a.newData with
  | none => rw [e] at hc; simp at hc
  | some k =>
    rw [e] at hc
    cases k with
    | none => simp at hc
    | distribution =>
      simp only [Res.ok.injEq, Prod.mk.injEq] at hc
      obtain ⟨rfl, rfl⟩ := hc
      refine ⟨Frame.append _ _, ?_, ?_, ?_⟩
      · unfold Obj
        rw [g3]
        simp only [List.getElem?_cons_succ, List.getElem?_cons_zero, g1, g2]
        exact ⟨_, _, rfl, rfl, by simp⟩
      · unfold footprint
        rw [g3]
        simp
      · refine ⟨_, rfl, ?_⟩
        unfold deref
        rw [g3]
        simp [newDistributionData, exAt]
    | count =>
      simp only [Res.ok.injEq, Prod.mk.injEq] at hc
      obtain ⟨rfl, rfl⟩ := hc
      exact ⟨Frame.append _ _, by simp [Obj], by simp [footprint], _, rfl, by simp [deref]⟩
    | sum =>
      simp only [Res.ok.injEq, Prod.mk.injEq] at hc
      obtain ⟨rfl, rfl⟩ := hc
      exact ⟨Frame.append _ _, by simp [Obj], by simp [footprint], _, rfl, by simp [deref]⟩
    | lastValue =>
      simp only [Res.ok.injEq, Prod.mk.injEq] at hc
      obtain ⟨rfl, rfl⟩ := hc
      exact ⟨Frame.append _ _, by simp [Obj], by simp [footprint], _, rfl, by simp [deref]⟩

/-- The scalar part of `addSample` is that of the value model. -/
theorem scalars_next (d : DHead F) (s : Sample F) (l : List Int) (es : List (Option (Exemplar F))) :
    let x : Dist F := ⟨d.count, d.min, d.max, d.mean, d.ssd, l, es, d.bounds, d.start⟩
    let y := d.scalars s.v
    x.addSample s.v s.att s.t = (modifyAt l (bucketIndex s.v d.bounds) (fun c => wrap64 (c + 1))).bind
      fun l => match getExemplar s.v s.att s.t with
        | none => .ok ⟨y.count, y.min, y.max, y.mean, y.ssd, l, es, d.bounds, d.start⟩
        | some e => (modifyAt es (bucketIndex s.v d.bounds) (fun _ => some e)).bind fun es =>
            .ok ⟨y.count, y.min, y.max, y.mean, y.ssd, l, es, d.bounds, d.start⟩ := by
  unfold Dist.addSample Dist.addToBucket DHead.scalars getExemplar modifyAt
  by_cases hm : Arith.lt s.v d.min <;> by_cases hx : Arith.lt d.max s.v <;>
    by_cases ha : s.att.length = 0 <;> by_cases hc : wrap64 (d.count + 1) = 1 <;>
    by_cases h1 : bucketIndex s.v d.bounds < l.length <;>
    by_cases h2 : bucketIndex s.v d.bounds < es.length <;>
      simp [hm, hx, ha, hc, h1, h2, Res.bind]

theorem scalars_refs (d : DHead F) (v : F) :
    (d.scalars v).cpb = d.cpb ∧ (d.scalars v).epb = d.epb ∧ (d.scalars v).bounds = d.bounds ∧
      (d.scalars v).start = d.start := by
  unfold DHead.scalars
  by_cases hm : Arith.lt v d.min <;> by_cases hx : Arith.lt d.max v <;>
    by_cases hc : wrap64 (d.count + 1) = 1 <;> simp [hm, hx, hc]

theorem addSample_spec {h h' : Heap F} {a : Nat} {s : Sample F} (o : Obj h a)
    (hc : addSample h a s = .ok h') :
    Frame h h' (footprint h a) ∧ Obj h' a ∧ footprint h' a = footprint h a ∧
      ∃ d d', deref h a = some d ∧ d.addSample s.v s.att s.t = .ok d' ∧ deref h' a = some d' := by
  unfold addSample at hc
  cases e : h[a]? with
  | none => rw [e] at hc; simp at hc
  | some c =>
    have hlt := lt_of_get e
    rw [e] at hc
    cases c with
    | count st n =>
      simp only [Res.ok.injEq] at hc
      subst hc
      refine ⟨by simpa [footprint, e] using Frame.set e (by simp), by simp [Obj, hlt],
        by unfold footprint; rw [e]; simp [hlt], .count st n, _, by simp [deref, e], rfl, by simp [deref, hlt]⟩
    | sum st n =>
      simp only [Res.ok.injEq] at hc
      subst hc
      refine ⟨by simpa [footprint, e] using Frame.set e (by simp), by simp [Obj, hlt],
        by unfold footprint; rw [e]; simp [hlt], .sum st n, _, by simp [deref, e], rfl, by simp [deref, hlt]⟩
    | last n =>
      simp only [Res.ok.injEq] at hc
      subst hc
      refine ⟨by simpa [footprint, e] using Frame.set e (by simp), by simp [Obj, hlt],
        by unfold footprint; rw [e]; simp [hlt], .last n, _, by simp [deref, e], rfl, by simp [deref, hlt]⟩
    | ints _ => simp at hc
    | exs _ => simp at hc
    | ex _ => simp at hc
    | dist d =>
      unfold Obj at o
      rw [e] at o
      obtain ⟨l, es, h1, h2, h3⟩ := o
      have l1 := lt_of_get h1
      have l2 := lt_of_get h2
      have n1 : a ≠ d.cpb := by intro he; rw [← he, e] at h1; simp at h1
      have n2 : a ≠ d.epb := by intro he; rw [← he, e] at h2; simp at h2
      have n3 : d.cpb ≠ d.epb := by intro he; rw [← he, h1] at h2; simp at h2
      have hd : deref h a = some (.dist ⟨d.count, d.min, d.max, d.mean, d.ssd, l, es.map (exAt h), d.bounds, d.start⟩) := by
        simp [deref, e, h1, h2]
      obtain ⟨r1, r2, r3, r4⟩ := scalars_refs d s.v
      have hfp : footprint h a = [a, d.cpb, d.epb] := by simp [footprint, e]
      have hsc := scalars_next d s l (es.map (exAt h))
      simp only [addToBucket, h1, h2] at hc
      cases hm : modifyAt l (bucketIndex s.v d.bounds) (fun c => wrap64 (c + 1)) with
      | err => rw [hm] at hc; simp [Res.bind] at hc
      | panic => rw [hm] at hc; simp [Res.bind] at hc
      | ok l' =>
        rw [hm] at hc
        simp only [hm, Res.bind] at hsc
        cases hg : getExemplar s.v s.att s.t with
        | none =>
          simp only [hg, Res.bind, Res.ok.injEq] at hc hsc
          subst hc
          have f1 : Frame h (h.set d.cpb (.ints l')) [d.cpb] := Frame.set h1 (by simp)
          have e' : (h.set d.cpb (.ints l'))[a]? = some (.dist d) := by
            rw [List.getElem?_set_ne (Ne.symm n1), e]
          have f2 : Frame (h.set d.cpb (.ints l')) ((h.set d.cpb (.ints l')).set a (.dist (d.scalars s.v))) [a] :=
            Frame.set e' (by simp)
          have f := f1.trans f2
          have ga : ((h.set d.cpb (.ints l')).set a (.dist (d.scalars s.v)))[a]? = some (.dist (d.scalars s.v)) := by
            simp [hlt]
          have gc : ((h.set d.cpb (.ints l')).set a (.dist (d.scalars s.v)))[d.cpb]? = some (.ints l') := by
            rw [List.getElem?_set_ne n1]; simp [l1]
          have ge : ((h.set d.cpb (.ints l')).set a (.dist (d.scalars s.v)))[d.epb]? = some (.exs es) := by
            rw [List.getElem?_set_ne n2, List.getElem?_set_ne n3, h2]
          have hadd := congrArg (fun r => Res.bind r fun d => .ok (AggData.dist d)) hsc
          refine ⟨f.mono (by rw [hfp]; simp), ?_, ?_, _, _, hd, hadd, ?_⟩
          rotate_left 2
          · simp only [deref, ga, r1, r2, gc, ge, r3, r4]
            congr 3
            apply List.map_congr_left
            intro p hp
            cases p with
            | none => rfl
            | some p =>
              obtain ⟨x, hx⟩ := h3 p hp
              simp [exAt, hx, f.exs p x hx]
          · unfold Obj
            rw [ga]
            simp only [r1, r2]
            exact ⟨l', es, gc, ge, fun p hp => (h3 p hp).imp fun x hx => f.exs p x hx⟩
          · rw [hfp]; unfold footprint; rw [ga]; simp [r1, r2]
        | some ex =>
          simp only [hg] at hc hsc
          cases hm2 : modifyAt es (bucketIndex s.v d.bounds) (fun _ => some h.length) with
          | err => rw [hm2] at hc; simp [Res.bind] at hc
          | panic => rw [hm2] at hc; simp [Res.bind] at hc
          | ok es' =>
            simp only [hm2, Res.bind, Res.ok.injEq] at hc
            have hi : bucketIndex s.v d.bounds < es.length := by
              unfold modifyAt at hm2
              by_contra hn
              simp [hn] at hm2
            have hes' : es' = es.modify (bucketIndex s.v d.bounds) (fun _ => some h.length) := by
              unfold modifyAt at hm2
              simpa [hi] using hm2.symm
            subst hc
            have f1 : Frame h (h.set d.cpb (.ints l')) [d.cpb] := Frame.set h1 (by simp)
            have e2 : (h.set d.cpb (.ints l'))[d.epb]? = some (.exs es) := by
              rw [List.getElem?_set_ne n3, h2]
            have f2 := f1.trans (Frame.set (c' := .exs es') e2 (by simp))
            have f3 := f2.trans (Frame.append _ [.ex ex])
            generalize hH : ((h.set d.cpb (.ints l')).set d.epb (.exs es')) ++ [Cell.ex ex] = H at f3 ⊢
            have ga0 : H[a]? = some (.dist d) := by
              rw [f3.same a hlt (by simp [n1, n2]), e]
            have hHl : H.length = h.length + 1 := by rw [← hH]; simp
            have gc0 : H[d.cpb]? = some (.ints l') := by
              rw [← hH, List.getElem?_append_left (by simpa using l1), List.getElem?_set_ne (Ne.symm n3)]
              simp [l1]
            have ge0 : H[d.epb]? = some (.exs es') := by
              rw [← hH, List.getElem?_append_left (by simpa using l2)]
              simp [l2]
            have gx0 : H[h.length]? = some (.ex ex) := by
              rw [← hH]; simp
            have f4 : Frame H (H.set a (.dist (d.scalars s.v))) [a] := Frame.set ga0 (by simp)
            have f := f3.trans f4
            have ga : (H.set a (.dist (d.scalars s.v)))[a]? = some (.dist (d.scalars s.v)) := by
              simp [lt_of_get ga0]
            have gc : (H.set a (.dist (d.scalars s.v)))[d.cpb]? = some (.ints l') := by
              rw [List.getElem?_set_ne n1, gc0]
            have ge : (H.set a (.dist (d.scalars s.v)))[d.epb]? = some (.exs es') := by
              rw [List.getElem?_set_ne n2, ge0]
            have gx : (H.set a (.dist (d.scalars s.v)))[h.length]? = some (.ex ex) := by
              rw [List.getElem?_set_ne (by omega), gx0]
            have h3' : ∀ p, some p ∈ es' → ∃ x, (H.set a (.dist (d.scalars s.v)))[p]? = some (.ex x) := by
              intro p hp
              rw [hes', List.mem_iff_getElem?] at hp
              obtain ⟨j, hj⟩ := hp
              rw [List.getElem?_modify] at hj
              split at hj
              · cases hq : es[j]? with
                | none => rw [hq] at hj; simp at hj
                | some q => rw [hq] at hj; simp at hj; subst hj; exact ⟨_, gx⟩
              · have : some p ∈ es := by
                  rw [List.mem_iff_getElem?]; exact ⟨j, by simpa using hj⟩
                obtain ⟨x, hx⟩ := h3 p this
                exact ⟨x, f.exs p x hx⟩
            have hi' : bucketIndex s.v d.bounds < (es.map (exAt h)).length := by simpa using hi
            simp only [modifyAt, hi', if_true] at hsc
            have hadd := congrArg (fun r => Res.bind r fun d => .ok (AggData.dist d)) hsc
            refine ⟨f.mono (by rw [hfp]; simp), ?_, ?_, _, _, hd, hadd, ?_⟩
            rotate_left 2
            · simp only [deref, ga, r1, r2, gc, ge, r3, r4]
              congr 3
              rw [hes']
              apply List.ext_getElem?
              intro j
              rw [List.getElem?_map, List.getElem?_modify, List.getElem?_modify, List.getElem?_map]
              cases hq : es[j]? with
              | none => simp
              | some q =>
                simp only [Option.map_some]
                split
                · simp [exAt, gx]
                · cases q with
                  | none => rfl
                  | some p =>
                    obtain ⟨x, hx⟩ := h3 p (List.mem_of_getElem? hq)
                    simp [exAt, hx, f.exs p x hx]
            · unfold Obj
              rw [ga]
              simp only [r1, r2]
              exact ⟨l', es', gc, ge, h3'⟩
            · rw [hfp]; unfold footprint; rw [ga]; simp [r1, r2]

omit [Arith F] in
theorem scribble_spec {h : Heap F} {q p : Nat} {c c' : Cell F} (o : Obj h q) (hp : p ∈ footprint h q)
    (hc : h[p]? = some c) (hs : Scribble c c') :
    Frame h (h.set p c') (footprint h q) ∧ Obj (h.set p c') q ∧
      footprint (h.set p c') q = footprint h q := by
  have hlt := lt_of_get hc
  have hf : Frame h (h.set p c') [p] := Frame.set hc (by intro e he; subst he; cases hs)
  refine ⟨hf.mono (by simpa using hp), ?_⟩
  have hq := Obj.mem_self h q
  unfold Obj at o
  cases e : h[q]? with
  | none => rw [e] at o; exact o.elim
  | some c0 =>
    rw [e] at o
    have simple : (∀ d, c0 ≠ .dist d) → p = q := by
      intro hne
      unfold footprint at hp
      rw [e] at hp
      cases c0 <;> simp at hp hne <;> exact hp
    cases c0 with
    | dist d =>
      obtain ⟨l, es, h1, h2, h3⟩ := o
      have n1 : q ≠ d.cpb := by intro he; rw [← he, e] at h1; simp at h1
      have n2 : q ≠ d.epb := by intro he; rw [← he, e] at h2; simp at h2
      have n3 : d.cpb ≠ d.epb := by intro he; rw [← he, h1] at h2; simp at h2
      have hfp : footprint h q = [q, d.cpb, d.epb] := by simp [footprint, e]
      rw [hfp] at hp
      simp only [List.mem_cons, List.not_mem_nil, or_false] at hp
      rcases hp with hp | hp | hp <;> subst hp
      · rw [e] at hc
        simp only [Option.some.injEq] at hc
        subst hc
        cases hs with
        | dist _ ct mn mx me sd st =>
          have hg : ∀ x, (h.set p x)[p]? = some x := fun x => by simp [hlt]
          constructor
          · unfold Obj
            rw [hg]
            refine ⟨l, es, ?_, ?_, fun r hr => (h3 r hr).imp fun x hx => hf.exs r x hx⟩
            · simp only; rw [List.getElem?_set_ne n1, h1]
            · simp only; rw [List.getElem?_set_ne n2, h2]
          · rw [hfp]; unfold footprint; rw [hg]
      · rw [h1] at hc
        simp only [Option.some.injEq] at hc
        subst hc
        cases hs with
        | ints _ l' =>
          have hg : (h.set d.cpb (.ints l'))[q]? = some (.dist d) := by
            rw [List.getElem?_set_ne (Ne.symm n1), e]
          constructor
          · unfold Obj
            rw [hg]
            refine ⟨l', es, by simp [hlt], ?_, fun r hr => (h3 r hr).imp fun x hx => hf.exs r x hx⟩
            rw [List.getElem?_set_ne n3, h2]
          · rw [hfp]; unfold footprint; rw [hg]
      · rw [h2] at hc
        simp only [Option.some.injEq] at hc
        subst hc
        cases hs with
        | exs =>
          have hg : (h.set d.epb (.exs (es.map fun _ => none)))[q]? = some (.dist d) := by
            rw [List.getElem?_set_ne (Ne.symm n2), e]
          constructor
          · unfold Obj
            rw [hg]
            refine ⟨l, es.map fun _ => none, ?_, by simp [hlt], by simp⟩
            rw [List.getElem?_set_ne (Ne.symm n3), h1]
          · rw [hfp]; unfold footprint; rw [hg]
    | count st n =>
      have hpq := simple (by simp); subst hpq
      rw [e] at hc; simp only [Option.some.injEq] at hc; subst hc
      cases hs
      exact ⟨by simp [Obj, hlt], by unfold footprint; rw [e]; simp [hlt]⟩
    | sum st n =>
      have hpq := simple (by simp); subst hpq
      rw [e] at hc; simp only [Option.some.injEq] at hc; subst hc
      cases hs
      exact ⟨by simp [Obj, hlt], by unfold footprint; rw [e]; simp [hlt]⟩
    | last n =>
      have hpq := simple (by simp); subst hpq
      rw [e] at hc; simp only [Option.some.injEq] at hc; subst hc
      cases hs
      exact ⟨by simp [Obj, hlt], by unfold footprint; rw [e]; simp [hlt]⟩
    | ints _ => exact o.elim
    | exs _ => exact o.elim
    | ex _ => exact o.elim

/-- All the objects: those of rows and those handed out. -/
def Mem.objs (m : Mem F) : List Nat := m.rows.map Prod.snd ++ m.given

/-- A list of complete objects that share no cell. -/
structure Sep (h : Heap F) (l : List Nat) : Prop where
  obj : ∀ a ∈ l, Obj h a
  sep : l.Pairwise (Disj h)

omit [Arith F] in
theorem Disj.symm {h : Heap F} {a b : Nat} (d : Disj h a b) : Disj h b a :=
  fun p hp hp' => d p hp' hp

omit [Arith F] in
theorem Sep.perm {h : Heap F} {l l' : List Nat} (s : Sep h l) (p : l.Perm l') : Sep h l' :=
  ⟨fun a ha => s.obj a (p.mem_iff.mpr ha), (p.pairwise_iff (fun d => Disj.symm d)).mp s.sep⟩

omit [Arith F] in
theorem Sep.disj {h : Heap F} {l : List Nat} (s : Sep h l) {a b : Nat} (ha : a ∈ l) (hb : b ∈ l)
    (hne : a ≠ b) : Disj h a b := by
  obtain ⟨l1, l2, rfl⟩ := List.append_of_mem ha
  have := s.perm (List.perm_middle)
  rw [List.mem_append, List.mem_cons] at hb
  have hs := this.sep
  rw [List.pairwise_cons] at hs
  apply hs.1
  rw [List.mem_append]
  rcases hb with hb | hb | hb
  · exact Or.inl hb
  · exact absurd hb.symm hne
  · exact Or.inr hb

omit [Arith F] in
/-- Modifying one of the objects keeps the others as they are. -/
theorem Sep.modify {h h' : Heap F} {l : List Nat} (s : Sep h l) {a : Nat} (ha : a ∈ l)
    (f : Frame h h' (footprint h a)) (o : Obj h' a) (hf : footprint h' a = footprint h a) :
    Sep h' l ∧ ∀ b ∈ l, b ≠ a → deref h' b = deref h b := by
  have key : ∀ b ∈ l, b ≠ a → Obj h' b ∧ footprint h' b = footprint h b ∧ deref h' b = deref h b :=
    fun b hb hne => (s.obj b hb).frame f (fun p hp => s.disj hb ha hne p hp)
  have fp : ∀ b ∈ l, footprint h' b = footprint h b := by
    intro b hb
    by_cases hne : b = a
    · subst hne; exact hf
    · exact (key b hb hne).2.1
  refine ⟨⟨?_, ?_⟩, fun b hb hne => (key b hb hne).2.2⟩
  · intro b hb
    by_cases hne : b = a
    · subst hne; exact o
    · exact (key b hb hne).1
  · refine List.Pairwise.imp_of_mem ?_ s.sep
    intro b c hb hc hd
    unfold Disj
    rw [fp b hb, fp c hc]
    exact hd

omit [Arith F] in
/-- Allocation keeps every object as it is. -/
theorem Sep.alloc {h h' : Heap F} {l : List Nat} (s : Sep h l) (f : Frame h h' []) :
    Sep h' l ∧ ∀ b ∈ l, deref h' b = deref h b ∧ footprint h' b = footprint h b := by
  have key : ∀ b ∈ l, Obj h' b ∧ footprint h' b = footprint h b ∧ deref h' b = deref h b :=
    fun b hb => (s.obj b hb).frame f (by simp)
  refine ⟨⟨fun b hb => (key b hb).1, ?_⟩, fun b hb => ⟨(key b hb).2.2, (key b hb).2.1⟩⟩
  refine List.Pairwise.imp_of_mem ?_ s.sep
  intro b c hb hc hd
  unfold Disj
  rw [(key b hb).2.1, (key c hc).2.1]
  exact hd

omit [Arith F] in
/-- A new object in fresh memory. -/
theorem Sep.new {h h' : Heap F} {l : List Nat} (s : Sep h l) (f : Frame h h' []) {q : Nat} (o : Obj h' q)
    (hq : ∀ p ∈ footprint h' q, h.length ≤ p) :
    Sep h' (q :: l) ∧ ∀ b ∈ l, deref h' b = deref h b := by
  obtain ⟨s', hd⟩ := s.alloc f
  refine ⟨⟨?_, ?_⟩, fun b hb => (hd b hb).1⟩
  · intro a ha
    rcases List.mem_cons.mp ha with rfl | ha
    · exact o
    · exact s'.obj a ha
  · rw [List.pairwise_cons]
    refine ⟨?_, s'.sep⟩
    intro b hb p hp hp'
    rw [(hd b hb).2] at hp'
    have := (s.obj b hb).lt p hp'
    have := hq p hp
    omega

omit [Arith F] in
theorem cloneAll_spec {h h' : Heap F} {l : List Nat} {ps qs : List (Bytes × Nat)} (s : Sep h l)
    (hm : ∀ e ∈ ps, e.2 ∈ l) (hc : cloneAll h ps = .ok (h', qs)) :
    Sep h' (qs.map Prod.snd ++ l) ∧ (∀ b ∈ l, deref h' b = deref h b) ∧
      List.Forall₂ (fun p q => q.1 = p.1 ∧ deref h' q.2 = deref h p.2) ps qs := by
  induction ps generalizing h h' l qs with
  | nil =>
    simp only [cloneAll, Res.ok.injEq, Prod.mk.injEq] at hc
    obtain ⟨rfl, rfl⟩ := hc
    exact ⟨by simpa using s, fun _ _ => rfl, .nil⟩
  | cons e ps ih =>
    obtain ⟨sig, p⟩ := e
    simp only [cloneAll] at hc
    cases h1 : clone h p with
    | err => rw [h1] at hc; simp [Res.bind] at hc
    | panic => rw [h1] at hc; simp [Res.bind] at hc
    | ok r =>
      obtain ⟨h1', q⟩ := r
      rw [h1] at hc
      simp only [Res.bind] at hc
      cases h2 : cloneAll h1' ps with
      | err => rw [h2] at hc; simp at hc
      | panic => rw [h2] at hc; simp at hc
      | ok r =>
        obtain ⟨h2', qs'⟩ := r
        rw [h2] at hc
        simp only [Res.ok.injEq, Prod.mk.injEq] at hc
        obtain ⟨rfl, rfl⟩ := hc
        have hp : p ∈ l := hm (sig, p) (by simp)
        obtain ⟨f, o, hq, hd⟩ := clone_spec (s.obj p hp) h1
        obtain ⟨s1, d1⟩ := s.new f o hq
        obtain ⟨s2, d2, fa⟩ := ih s1 (fun e he => List.mem_cons_of_mem _ (hm e (List.mem_cons_of_mem _ he))) h2
        refine ⟨?_, ?_, ?_⟩
        · refine s2.perm ?_
          simp only [List.map_cons, List.cons_append]
          exact List.perm_middle
        · intro b hb
          rw [d2 b (List.mem_cons_of_mem _ hb), d1 b hb]
        · refine .cons ⟨rfl, ?_⟩ ?_
          · rw [d2 q (by simp), hd]
          · have : ∀ x ∈ ps, deref h1' x.2 = deref h x.2 := fun x hx => d1 x.2 (hm x (List.mem_cons_of_mem _ hx))
            clear ih h2 d2 s2 hm
            induction fa with
            | nil => exact .nil
            | cons h t ih' =>
              refine .cons ⟨h.1, h.2.trans (this _ (by simp))⟩ (ih' fun x hx => this x (List.mem_cons_of_mem _ hx))

structure Inv (m : Mem F) : Prop where
  wf : GoMap.WF m.rows
  sep : Sep m.heap m.objs

omit [Arith F] in
theorem inv_init : Inv (Mem.init : Mem F) :=
  ⟨by simp [Mem.init, GoMap.WF, GoMap.keys], ⟨by simp [Mem.init, Mem.objs], by simp [Mem.init, Mem.objs]⟩⟩

end Verif.View.Snap
