import Verif.Metric.TestExporter
import Mathlib.Data.List.Basic
import Mathlib.Data.List.Induction
import Mathlib.Data.List.Sort
import Mathlib.Data.List.TakeWhile
import Mathlib.Order.Basic

/-!
# C83: what the exporter for tests returns
-/

namespace Verif.Props.TestExporter
open Verif Verif.Metric Verif.Metric.Test

/-! ## Specification -/

/-- The identity of a time series: the name of its metric, and its labels in some order. -/
abbrev Ident := Bytes × List KeyValue

/-- The same labels, and the same name. -/
def Same (i j : Ident) : Prop := i.1 = j.1 ∧ i.2.Perm j.2

instance (i j : Ident) : Decidable (Same i j) := inferInstanceAs (Decidable (_ ∧ _))

/-- The labels a time series has: the keys with a value that is present. -/
def labelsOf (keys : List Bytes) (values : List LabelValue) : List KeyValue :=
  ((keys.zip values).filter fun x => x.2.present).map fun x => (x.1, x.2.value)

/-- The points the metrics of a list of exports end with, in order, and whose they are. -/
def lasts {P : Type} (batches : List (List (Exported P))) : List (Ident × P) :=
  batches.flatten.flatMap fun m => m.timeSeries.filterMap fun ts =>
    ts.points.getLast?.map fun p => ((m.name, labelsOf m.labelKeys ts.labelValues), p)

/-- The latest point of a time series. -/
def latest {P : Type} (batches : List (List (Exported P))) (i : Ident) : Option P :=
  (((lasts batches).filter fun x => decide (Same x.1 i)).getLast?).map Prod.snd

/-- What metrics are like: as many label values as keys, distinct keys, and at least one point. -/
def Proper {P : Type} (m : Exported P) : Prop := m.labelKeys.Nodup ∧
  ∀ ts ∈ m.timeSeries, ts.labelValues.length = m.labelKeys.length ∧ ts.points ≠ []

/-- Time series of a set are told apart by name and labels written one after the other. -/
def Separated (S : Ident → Prop) : Prop := ∀ i j, S i → S j →
  labelSignature i.1 (sortKeyValue i.2) = labelSignature j.1 (sortKeyValue j.2) → Same i j

/-! ## Lemmas -/

theorem presentLoop_eq (keys : List Bytes) (values : List LabelValue) : presentLoop keys values = labelsOf keys values := by
  induction keys generalizing values with
  | nil => cases values <;> rfl
  | cons k ks ih =>
    cases values with
    | nil => rfl
    | cons v vs =>
      simp only [presentLoop, labelsOf, List.zip_cons_cons, List.filter_cons]
      split
      · rw [ih]; rfl
      · rw [ih]; rfl

theorem sort_perm (l : List KeyValue) : (sortKeyValue l).Perm l := List.mergeSort_perm _ _

/-- Distinct keys sort in one way only. -/
theorem sort_eq {l l' : List KeyValue} (h : l.Perm l') (hn : (l.map Prod.fst).Nodup) : sortKeyValue l = sortKeyValue l' := by
  have srt := fun (n : List KeyValue) => List.pairwise_mergeSort (le := fun (a b : KeyValue) => decide (a.1 ≤ b.1))
    (by intro a b c h1 h2; simp only [decide_eq_true_eq] at *; exact List.le_trans h1 h2)
    (by intro a b; simp only [Bool.or_eq_true, decide_eq_true_eq]; exact List.le_total _ _) n
  have hp : (sortKeyValue l).Perm (sortKeyValue l') := (sort_perm l).trans (h.trans (sort_perm l').symm)
  have hd : ∀ a ∈ sortKeyValue l, ∀ b ∈ sortKeyValue l, a.1 = b.1 → a = b := by
    intro a ha b hb hab
    have ha' := (sort_perm l).mem_iff.mp ha
    have hb' := (sort_perm l).mem_iff.mp hb
    exact List.inj_on_of_nodup_map hn ha' hb' hab
  refine hp.eq_of_pairwise ?_ (srt l) (srt l')
  intro a b ha hb h1 h2
  simp only [decide_eq_true_eq] at h1 h2
  exact hd a ha b (hp.mem_iff.mpr hb) (List.le_antisymm h1 h2)

theorem loop_append {A B : Type} (f : A → B → Res A) (a : A) (x y : List B) :
    loop f a (x ++ y) = (loop f a x).bind fun a => loop f a y := by
  induction x generalizing a with
  | nil => rfl
  | cons b x ih =>
    simp only [List.cons_append, loop]
    cases f a b with
    | ok a => simp only [Res.bind]; exact ih a
    | err => rfl
    | panic => rfl

theorem labels_sublist (keys : List Bytes) (values : List LabelValue) :
    ((labelsOf keys values).map Prod.fst).Sublist keys := by
  induction keys generalizing values with
  | nil => simp [labelsOf]
  | cons k ks ih =>
    cases values with
    | nil => simp [labelsOf]
    | cons v vs =>
      have := ih vs
      simp only [labelsOf, List.zip_cons_cons, List.filter_cons] at this ⊢
      split
      · simpa using this.cons_cons k
      · exact this.trans (List.sublist_cons_self k ks)

theorem exportSeries_ok {P : Type} (m : Exported P) (e : Points P) (ts : Series P)
    (hl : ts.labelValues.length = m.labelKeys.length) (hp : ts.points ≠ []) :
    ∃ p, ts.points.getLast? = some p ∧ exportSeries m e ts =
      .ok (GoMap.set e (labelSignature m.name (sortKeyValue (labelsOf m.labelKeys ts.labelValues))) p) := by
  refine ⟨ts.points.getLast hp, List.getLast?_eq_getLast_of_ne_nil hp, ?_⟩
  unfold exportSeries labelObjectsToKeyValue
  rw [if_neg (by simp [hl]), presentLoop_eq]
  simp only [Res.bind, List.getLast?_eq_getLast_of_ne_nil hp]

/-- All exports as assignments to the map, one after the other. -/
def assign {P : Type} (e : Points P) (l : List (Ident × P)) : Points P :=
  l.foldl (fun e x => GoMap.set e (labelSignature x.1.1 (sortKeyValue x.1.2)) x.2) e

theorem series_loop {P : Type} (m : Exported P) (l : List (Series P))
    (h : ∀ ts ∈ l, ts.labelValues.length = m.labelKeys.length ∧ ts.points ≠ []) (e : Points P) :
    loop (exportSeries m) e l = .ok (assign e (l.filterMap fun ts =>
      ts.points.getLast?.map fun p => ((m.name, labelsOf m.labelKeys ts.labelValues), p))) := by
  induction l generalizing e with
  | nil => rfl
  | cons ts l ih =>
    obtain ⟨h1, h2⟩ := h ts (by simp)
    obtain ⟨p, h3, h4⟩ := exportSeries_ok m e ts h1 h2
    simp only [loop, h4, Res.bind]
    rw [ih (fun x hx => h x (by simp [hx]))]
    simp [h3, assign]

theorem metrics_loop {P : Type} (data : List (Exported P)) (h : ∀ m ∈ data, Proper m) (e : Points P) :
    exportMetrics e data = .ok (assign e (lasts [data])) := by
  unfold exportMetrics lasts
  induction data generalizing e with
  | nil => rfl
  | cons m data ih =>
    simp only [loop, series_loop m m.timeSeries (h m (by simp)).2 e, Res.bind]
    rw [ih (fun x hx => h x (by simp [hx]))]
    simp [assign]

theorem exports_ok {P : Type} (batches : List (List (Exported P))) (h : ∀ b ∈ batches, ∀ m ∈ b, Proper m) :
    exports batches = .ok (assign [] (lasts batches)) := by
  have key : ∀ (bs : List (List (Exported P))) (e : Points P), (∀ b ∈ bs, ∀ m ∈ b, Proper m) →
      loop exportMetrics e bs = .ok (assign e (lasts bs)) := by
    intro bs
    induction bs with
    | nil => intro e _; rfl
    | cons b bs ih =>
      intro e hb
      simp only [loop, metrics_loop b (hb b (by simp)) e, Res.bind]
      rw [ih _ (fun x hx => hb x (by simp [hx]))]
      simp [assign, lasts]
  exact key batches [] h

theorem lasts_nodup {P : Type} {batches : List (List (Exported P))} (h : ∀ b ∈ batches, ∀ m ∈ b, Proper m)
    {x : Ident × P} (hx : x ∈ lasts batches) : (x.1.2.map Prod.fst).Nodup := by
  unfold lasts at hx
  obtain ⟨m, hm, hx⟩ := List.mem_flatMap.mp hx
  obtain ⟨b, hb, hmb⟩ := List.mem_flatten.mp hm
  obtain ⟨ts, _, hts⟩ := List.mem_filterMap.mp hx
  simp only [Option.map_eq_some_iff] at hts
  obtain ⟨p, _, rfl⟩ := hts
  exact (labels_sublist _ _).nodup (h b hb m hmb).1

/-- The map holds the last assignment. -/
theorem get_assign {P : Type} (l : List (Ident × P)) (sig : Bytes) :
    GoMap.get (assign [] l) sig =
      ((l.filter fun x => decide (labelSignature x.1.1 (sortKeyValue x.1.2) = sig)).getLast?).map Prod.snd := by
  induction l using List.reverseRecOn with
  | nil => rfl
  | append_singleton l x ih =>
    simp only [assign, List.foldl_append, List.foldl_cons, List.foldl_nil, List.filter_append, List.filter_cons,
      List.filter_nil]
    rw [GoMap.get_set]
    by_cases h : sig = labelSignature x.1.1 (sortKeyValue x.1.2)
    · rw [if_pos h]
      simp [h]
    · rw [if_neg h]
      simpa [Ne.symm h, assign] using ih

/-! ## C83 -/

/-- **C83.** Exporting proper metrics does not panic, and `GetPoint` returns the latest point of the time series
with this name and these labels, or none if there was none, whatever the order of the keys in the metrics and of the map
that is asked with: provided the signature tells the time series apart. (It does not always,
`points_mixed_up`.) -/
theorem latest_point_partial {P : Type} (batches : List (List (Exported P)))
    (h : ∀ b ∈ batches, ∀ m ∈ b, Proper m) (name : Bytes) (labels : List KeyValue) (hn : (labels.map Prod.fst).Nodup)
    (hsep : Separated fun i => i = (name, labels) ∨ ∃ p, (i, p) ∈ lasts batches) :
    ∃ e, exports batches = .ok e ∧ ∀ order, order.Perm labels → getPoint e name order = latest batches (name, labels) := by
  refine ⟨_, exports_ok batches h, fun order ho => ?_⟩
  unfold getPoint latest labelMapToKeyValue
  rw [sort_eq ho ((ho.map Prod.fst).nodup_iff.mpr hn), get_assign]
  congr 2
  apply List.filter_congr
  intro x hx
  rw [decide_eq_decide]
  constructor
  · intro hs
    exact hsep x.1 (name, labels) (.inr ⟨x.2, hx⟩) (.inl rfl) hs
  · rintro ⟨h1, h2⟩
    rw [h1, sort_eq h2 (lasts_nodup h hx)]

theorem exportSeries_panic {P : Type} (m : Exported P) (e : Points P) (ts : Series P) :
    exportSeries m e ts = .panic ↔ ts.labelValues.length ≠ m.labelKeys.length ∨ ts.points = [] := by
  unfold exportSeries labelObjectsToKeyValue
  by_cases h : m.labelKeys.length ≠ ts.labelValues.length
  · rw [if_pos h]
    simp [Res.bind, Ne.symm h]
  · rw [if_neg h]
    simp only [ne_eq, not_not] at h
    simp only [Res.bind, h, ne_eq, not_true_eq_false, false_or]
    cases hp : ts.points.getLast? with
    | none => simp [List.getLast?_eq_none_iff.mp hp]
    | some p =>
      have : ts.points ≠ [] := by rintro h0; rw [h0] at hp; cases hp
      simp [this]

theorem loop_panic {A B : Type} (f : A → B → Res A) (bad : B → Prop) (hf : ∀ a b, f a b = .panic ↔ bad b)
    (he : ∀ a b, (∃ a', f a b = .ok a') ∨ f a b = .panic) (l : List B) (a : A) :
    (loop f a l = .panic ↔ ∃ b ∈ l, bad b) ∧ ((∃ a', loop f a l = .ok a') ∨ loop f a l = .panic) := by
  induction l generalizing a with
  | nil => simp [loop]
  | cons b l ih =>
    simp only [loop]
    rcases he a b with ⟨a', h⟩ | h
    · have hb : ¬ bad b := by rw [← hf a b, h]; simp
      rw [h]
      simp only [Res.bind, List.mem_cons, exists_eq_or_imp, hb, false_or]
      exact ih a'
    · have hb := (hf a b).mp h
      rw [h]
      simp [Res.bind, hb]

/-- **C83.** A sequence of exports panics if and only if a metric in it has a time series with another number of
values than the metric has keys, or a time series without a point. -/
theorem panics_iff {P : Type} (batches : List (List (Exported P))) :
    exports batches = .panic ↔ ∃ b ∈ batches, ∃ m ∈ b, ∃ ts ∈ m.timeSeries,
      ts.labelValues.length ≠ m.labelKeys.length ∨ ts.points = [] := by
  have h1 : ∀ (m : Exported P) (e : Points P) (ts : Series P),
      (∃ e', exportSeries m e ts = .ok e') ∨ exportSeries m e ts = .panic := by
    intro m e ts
    by_cases h : ts.labelValues.length ≠ m.labelKeys.length ∨ ts.points = []
    · exact .inr ((exportSeries_panic m e ts).mpr h)
    · simp only [ne_eq, not_or, not_not] at h
      obtain ⟨p, _, h2⟩ := exportSeries_ok m e ts h.1 h.2
      exact .inl ⟨_, h2⟩
  have h2 := fun (m : Exported P) (e : Points P) =>
    loop_panic (exportSeries m) _ (exportSeries_panic m) (h1 m) m.timeSeries e
  have h3 := fun (e : Points P) (b : List (Exported P)) => loop_panic (fun e m => loop (exportSeries m) e m.timeSeries)
    (fun m => ∃ ts ∈ m.timeSeries, ts.labelValues.length ≠ m.labelKeys.length ∨ ts.points = [])
    (fun e m => (h2 m e).1) (fun e m => (h2 m e).2) b e
  exact (loop_panic exportMetrics _ (fun e b => (h3 e b).1) (fun e b => (h3 e b).2) batches []).1

example : exports [[(⟨str "m", [str "k"], [⟨[⟨str "v", true⟩], ([] : List Nat)⟩]⟩ : Exported Nat)]] = .panic :=
  (panics_iff _).mpr ⟨_, by simp; rfl, _, by simp; rfl, _, by simp; rfl, .inr rfl⟩

/-! ## When the signature tells time series apart -/

/-- The name ends at the first brace. -/
theorem name_of_sig {n n' r r' : Bytes} (h1 : (123 : UInt8) ∉ n) (h2 : (123 : UInt8) ∉ n')
    (h : n ++ 123 :: r = n' ++ 123 :: r') : n = n' ∧ r = r' := by
  induction n generalizing n' with
  | nil =>
    cases n' with
    | nil => simpa using h
    | cons b n' =>
      simp only [List.nil_append, List.cons_append, List.cons.injEq] at h
      exact absurd (by simp [h.1]) h2
  | cons a n ih =>
    cases n' with
    | nil =>
      simp only [List.nil_append, List.cons_append, List.cons.injEq] at h
      exact absurd (by simp [h.1]) h1
    | cons b n' =>
      simp only [List.cons_append, List.cons.injEq] at h
      obtain ⟨rfl, h⟩ := h
      obtain ⟨rfl, rfl⟩ := ih (fun hc => h1 (by simp [hc])) (fun hc => h2 (by simp [hc])) h
      exact ⟨rfl, rfl⟩

theorem sig_inj {n n' : Bytes} {kv kv' : List KeyValue} (h1 : (123 : UInt8) ∉ n) (h2 : (123 : UInt8) ∉ n')
    (h : labelSignature n kv = labelSignature n' kv') :
    n = n' ∧ kv.flatMap (fun x => x.1 ++ x.2) = kv'.flatMap (fun x => x.1 ++ x.2) := by
  unfold labelSignature at h
  have hb : str "{" = [123] := by decide
  rw [hb] at h
  simp only [List.append_assoc, List.cons_append, List.nil_append] at h
  obtain ⟨e1, e2⟩ := name_of_sig h1 h2 h
  exact ⟨e1, List.append_cancel_right e2⟩

/-- **C83.** Metrics whose names have no brace and that have one label key at most (the same for all metrics of one
name) are told apart, as long as the label with an empty key is not used. -/
theorem one_key_separated (key : Bytes → Bytes) :
    Separated fun i => (123 : UInt8) ∉ i.1 ∧ (i.2 = [] ∨ ∃ v, i.2 = [(key i.1, v)]) ∧ key i.1 ≠ [] := by
  rintro ⟨n, l⟩ ⟨n', l'⟩ ⟨h1, h2, h3⟩ ⟨h4, h5, h6⟩ hs
  obtain ⟨rfl, he⟩ := sig_inj h1 h4 hs
  refine ⟨rfl, ?_⟩
  have s0 : sortKeyValue [] = [] := by simp [sortKeyValue]
  have s1 : ∀ x, sortKeyValue [x] = [x] := by intro x; simp [sortKeyValue]
  simp only at h2 h3 h5 h6 he ⊢
  rcases h2 with rfl | ⟨v, rfl⟩ <;> rcases h5 with rfl | ⟨v', rfl⟩
  · exact List.Perm.refl _
  · rw [s0, s1] at he
    simp at he
    exact absurd he.1 h3
  · rw [s0, s1] at he
    simp at he
    exact absurd he.1 h3
  · rw [s1, s1] at he
    simp at he
    rw [he]

/-- A text of keys and values of different letters has one reading. -/
theorem one_reading (letter : UInt8 → Bool) (kv kv' : List KeyValue)
    (h : ∀ x ∈ kv, x.1 ≠ [] ∧ x.2 ≠ [] ∧ (∀ c ∈ x.1, letter c = true) ∧ ∀ c ∈ x.2, letter c = false)
    (h' : ∀ x ∈ kv', x.1 ≠ [] ∧ x.2 ≠ [] ∧ (∀ c ∈ x.1, letter c = true) ∧ ∀ c ∈ x.2, letter c = false)
    (he : kv.flatMap (fun x => x.1 ++ x.2) = kv'.flatMap (fun x => x.1 ++ x.2)) : kv = kv' := by
  -- splitting where the letters change
  have cut : ∀ (p : UInt8 → Bool) (a b r r' : Bytes), (∀ c ∈ a, p c = true) → (∀ c ∈ b, p c = true) →
      (∀ c, r.head? = some c → p c = false) → (∀ c, r'.head? = some c → p c = false) → a ++ r = b ++ r' → a = b ∧ r = r' := by
    intro p a b r r' ha hb hr hr' hh
    have t : ∀ (a r : Bytes), (∀ c ∈ a, p c = true) → (∀ c, r.head? = some c → p c = false) → (a ++ r).takeWhile p = a := by
      intro a r ha hr
      rw [List.takeWhile_append_of_pos ha]
      cases r with
      | nil => simp
      | cons c r => simp [List.takeWhile_cons, hr c rfl]
    have hab : a = b := by rw [← t a r ha hr, hh, t b r' hb hr']
    subst hab
    exact ⟨rfl, List.append_cancel_left hh⟩
  have first : ∀ (l : List KeyValue), (∀ x ∈ l, x.1 ≠ [] ∧ x.2 ≠ [] ∧ (∀ c ∈ x.1, letter c = true) ∧ ∀ c ∈ x.2, letter c = false) →
      ∀ c, (l.flatMap (fun x => x.1 ++ x.2)).head? = some c → letter c = true := by
    intro l hl c hc
    cases l with
    | nil => simp at hc
    | cons x l =>
      obtain ⟨h1, _, h3, _⟩ := hl x (by simp)
      cases hx : x.1 with
      | nil => exact absurd hx h1
      | cons d t =>
        simp only [List.flatMap_cons, hx, List.cons_append, List.head?_cons, Option.some.injEq] at hc
        subst hc
        exact h3 d (by simp [hx])
  induction kv generalizing kv' with
  | nil =>
    cases kv' with
    | nil => rfl
    | cons x l =>
      have := (h' x (by simp)).1
      simp at he
      exact absurd he.1 this
  | cons x l ih =>
    cases kv' with
    | nil =>
      have := (h x (by simp)).1
      simp at he
      exact absurd he.1 this
    | cons y l' =>
      obtain ⟨a1, a2, a3, a4⟩ := h x (by simp)
      obtain ⟨b1, b2, b3, b4⟩ := h' y (by simp)
      simp only [List.flatMap_cons, List.append_assoc] at he
      have hd : ∀ (v r : Bytes), v ≠ [] → (∀ c ∈ v, letter c = false) → ∀ c, (v ++ r).head? = some c → letter c = false := by
        intro v r hv hl c hc
        cases v with
        | nil => exact absurd rfl hv
        | cons d t =>
          simp only [List.cons_append, List.head?_cons, Option.some.injEq] at hc
          subst hc
          exact hl d (by simp)
      obtain ⟨e1, e2⟩ := cut letter _ _ _ _ a3 b3 (hd _ _ a2 a4) (hd _ _ b2 b4) he
      obtain ⟨e3, e4⟩ := cut (fun c => !letter c) _ _ _ _ (by intro c hc; simp [a4 c hc]) (by intro c hc; simp [b4 c hc])
        (by intro c hc; simp [first l (fun z hz => h z (by simp [hz])) c hc])
        (by intro c hc; simp [first l' (fun z hz => h' z (by simp [hz])) c hc]) e2
      rw [ih l' (fun z hz => h z (by simp [hz])) (fun z hz => h' z (by simp [hz])) e4]
      obtain ⟨x1, x2⟩ := x
      obtain ⟨y1, y2⟩ := y
      simp only at e1 e3
      rw [e1, e3]

/-- **C83.** Metrics whose names have no brace, whose label keys are made of other characters than the values, and
whose keys and values are not empty are told apart. -/
theorem letters_separated (letter : UInt8 → Bool) :
    Separated fun i => (123 : UInt8) ∉ i.1 ∧
      ∀ x ∈ i.2, x.1 ≠ [] ∧ x.2 ≠ [] ∧ (∀ c ∈ x.1, letter c = true) ∧ ∀ c ∈ x.2, letter c = false := by
  rintro ⟨n, l⟩ ⟨n', l'⟩ ⟨h1, h2⟩ ⟨h4, h5⟩ hs
  obtain ⟨rfl, he⟩ := sig_inj h1 h4 hs
  refine ⟨rfl, ?_⟩
  have := one_reading letter (sortKeyValue l) (sortKeyValue l')
    (fun x hx => h2 x ((sort_perm l).mem_iff.mp hx)) (fun x hx => h5 x ((sort_perm l').mem_iff.mp hx)) he
  exact (sort_perm l).symm.trans (this ▸ sort_perm l')

/-! ## Examples, and what goes wrong -/

/-- A metric with two keys, in another order than the alphabet's, and one with a missing value. -/
def demo : List (List (Exported Nat)) :=
  [[⟨str "m", [str "b", str "a"], [⟨[⟨str "1", true⟩, ⟨str "2", true⟩], [10, 11]⟩, ⟨[⟨str "1", true⟩, ⟨[], false⟩], [12]⟩]⟩],
   [⟨str "m", [str "b", str "a"], [⟨[⟨str "1", true⟩, ⟨str "2", true⟩], [20]⟩]⟩]]

theorem demo_proper : ∀ b ∈ demo, ∀ m ∈ b, Proper m := by
  unfold Proper
  decide

def isLetter (c : UInt8) : Bool := decide (97 ≤ c.toNat ∧ c.toNat ≤ 122)

example : ∃ e, exports demo = .ok e ∧
    getPoint e (str "m") [(str "a", str "2"), (str "b", str "1")] = some 20 ∧
    getPoint e (str "m") [(str "b", str "1")] = some 12 ∧
    getPoint e (str "m") [(str "a", str "2")] = none := by
  have hl : ∀ x ∈ lasts demo, (123 : UInt8) ∉ x.1.1 ∧
      ∀ y ∈ x.1.2, y.1 ≠ [] ∧ y.2 ≠ [] ∧ (∀ c ∈ y.1, isLetter c = true) ∧ ∀ c ∈ y.2, isLetter c = false := by decide +kernel
  have sep : ∀ labels : List KeyValue, (∀ y ∈ labels, y.1 ≠ [] ∧ y.2 ≠ [] ∧ (∀ c ∈ y.1, isLetter c = true) ∧ ∀ c ∈ y.2, isLetter c = false) →
      Separated fun i => i = (str "m", labels) ∨ ∃ p, (i, p) ∈ lasts demo := by
    intro labels hh i j hi hj
    apply letters_separated isLetter
    · rcases hi with rfl | ⟨p, hp⟩
      · exact ⟨show (123 : UInt8) ∉ str "m" by decide, hh⟩
      · exact hl _ hp
    · rcases hj with rfl | ⟨p, hp⟩
      · exact ⟨show (123 : UInt8) ∉ str "m" by decide, hh⟩
      · exact hl _ hp
  obtain ⟨e, h1, h2⟩ := latest_point_partial demo demo_proper (str "m") [(str "a", str "2"), (str "b", str "1")] (by decide)
    (sep _ (by decide +kernel))
  obtain ⟨e', h1', h3⟩ := latest_point_partial demo demo_proper (str "m") [(str "b", str "1")] (by decide) (sep _ (by decide +kernel))
  obtain ⟨e'', h1'', h4⟩ := latest_point_partial demo demo_proper (str "m") [(str "a", str "2")] (by decide) (sep _ (by decide +kernel))
  rw [h1] at h1' h1''
  cases h1'; cases h1''
  refine ⟨e, h1, ?_, ?_, ?_⟩
  · rw [h2 _ (List.Perm.refl _)]; decide +kernel
  · rw [h3 _ (List.Perm.refl _)]; decide +kernel
  · rw [h4 _ (List.Perm.refl _)]; decide +kernel

/-- Two time series of one metric with one key each, and the point of the one is returned for the other. -/
theorem points_mixed_up : ∃ batches : List (List (Exported Nat)), (∀ b ∈ batches, ∀ m ∈ b, Proper m) ∧
    ∃ e, exports batches = .ok e ∧ latest batches (str "m", [(str "a", str "bc")]) = some 1 ∧
      getPoint e (str "m") [(str "a", str "bc")] = some 2 := by
  have s1 : ∀ x, sortKeyValue [x] = [x] := by intro x; simp [sortKeyValue]
  refine ⟨[[⟨str "m", [str "a"], [⟨[⟨str "bc", true⟩], [1]⟩]⟩, ⟨str "m", [str "ab"], [⟨[⟨str "c", true⟩], [2]⟩]⟩]], ?_, ?_⟩
  · unfold Proper; decide
  · refine ⟨_, exports_ok _ (by unfold Proper; decide), by decide +kernel, ?_⟩
    unfold getPoint labelMapToKeyValue
    rw [get_assign, s1]
    have : lasts [[(⟨str "m", [str "a"], [⟨[⟨str "bc", true⟩], [1]⟩]⟩ : Exported Nat), ⟨str "m", [str "ab"], [⟨[⟨str "c", true⟩], [2]⟩]⟩]] =
        [((str "m", [(str "a", str "bc")]), 1), ((str "m", [(str "ab", str "c")]), 2)] := by decide +kernel
    rw [this]
    simp only [List.filter_cons, List.filter_nil, s1]
    decide +kernel

/-- Also with the same keys: a value that is missing looks like one that is there. -/
theorem values_mixed_up : labelSignature (str "m") [(str "a", str "1"), (str "b", str "2")] =
    labelSignature (str "m") [(str "a", str "1b2")] := by decide

end Verif.Props.TestExporter
