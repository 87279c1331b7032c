import Verif.Check.Version
import Mathlib.Data.List.Sort

/-!
# C108: the check of the version before a release
-/

namespace Verif.Props.CheckVersion
open Verif Verif.Wire Verif.Check

/-! ## Specification -/

/-- A tag: a release `vA.B.C` or a version before it, `vA.B.C-rest`. -/
inductive Tag where
  | release (a b c : Nat)
  | pre (a b c : Nat) (rest : Bytes)

/-- Three numbers with dots. -/
def triple (a b c : Nat) : Bytes := dec a ++ 46 :: (dec b ++ 46 :: dec c)

/-- The tag as text. -/
def Tag.text : Tag → Bytes
  | .release a b c => 118 :: triple a b c
  | .pre a b c rest => 118 :: (triple a b c ++ 45 :: rest)

/-- The numbers fit an `int`, and a tag is one line. -/
def Tag.Good : Tag → Prop
  | .release a b c => a < 2 ^ 63 ∧ b < 2 ^ 63 ∧ c < 2 ^ 63
  | .pre _ _ _ rest => (10 : UInt8) ∉ rest

/-- What `git tag` prints. -/
def printed (ts : List Tag) : Bytes := ts.flatMap fun t => t.text ++ [10]

/-- The order of versions: the first number that differs decides. -/
def Below (x y : Nat × Nat × Nat) : Prop :=
  x.1 < y.1 ∨ (x.1 = y.1 ∧ (x.2.1 < y.2.1 ∨ (x.2.1 = y.2.1 ∧ x.2.2 < y.2.2)))

/-- The versions released. -/
def releases (ts : List Tag) : List (Nat × Nat × Nat) := ts.filterMap fun
  | .release a b c => some (a, b, c)
  | _ => none

/-! ## Comparing -/

/-- A version of the model. -/
def ver (x : Nat × Nat × Nat) : Version := ⟨x.1, x.2.1, x.2.2⟩

def Fits (x : Nat × Nat × Nat) : Prop := x.1 < 2 ^ 63 ∧ x.2.1 < 2 ^ 63 ∧ x.2.2 < 2 ^ 63

theorem wrap_small {x y : Int} (hx : 0 ≤ x) (hx' : x < 2 ^ 63) (hy : 0 ≤ y) (hy' : y < 2 ^ 63) : wrap64 (x - y) = x - y := by
  unfold wrap64; omega

theorem less_iff {x y : Nat × Nat × Nat} (hx : Fits x) (hy : Fits y) : versionLess (ver x) (ver y) = true ↔ Below x y := by
  obtain ⟨a, b, c⟩ := x
  obtain ⟨d, e, f⟩ := y
  obtain ⟨h1, h2, h3⟩ := hx
  obtain ⟨h4, h5, h6⟩ := hy
  simp only at h1 h2 h3 h4 h5 h6
  simp only [versionLess, ver, Below]
  have e1 : wrap64 ((a : Int) - d) = a - d := wrap_small (by omega) (by omega) (by omega) (by omega)
  have e2 : wrap64 ((b : Int) - e) = b - e := wrap_small (by omega) (by omega) (by omega) (by omega)
  have e3 : wrap64 ((c : Int) - f) = c - f := wrap_small (by omega) (by omega) (by omega) (by omega)
  simp only [e1, e2, e3]
  split
  · simp only [decide_eq_true_eq]; omega
  · split
    · simp only [decide_eq_true_eq]; omega
    · split
      · simp only [decide_eq_true_eq]; omega
      · simp only [Bool.false_eq_true, false_iff]; omega

/-- The rank of a version. -/
def rank (v : Version) : Nat := (v.major.toNat * 2 ^ 63 + v.minor.toNat) * 2 ^ 63 + v.patch.toNat

theorem below_rank {x y : Nat × Nat × Nat} (hx : Fits x) (hy : Fits y) : Below x y ↔ rank (ver x) < rank (ver y) := by
  obtain ⟨a, b, c⟩ := x
  obtain ⟨d, e, f⟩ := y
  obtain ⟨h1, h2, h3⟩ := hx
  obtain ⟨h4, h5, h6⟩ := hy
  simp only at h1 h2 h3 h4 h5 h6
  simp only [Below, rank, ver, Int.toNat_natCast]
  omega

/-- Of versions that fit, the last of the sorted ones is not below any. -/
theorem last_greatest {sort : List Version → List Version} (hs : Sorts sort) {xs : List (Nat × Nat × Nat)}
    (hf : ∀ x ∈ xs, Fits x) {v : Version}
    (hv : (sort (xs.map ver)).getLast? = some v) : ∃ m ∈ xs, v = ver m ∧ ∀ x ∈ xs, ¬ Below m x := by
  have hp := hs.perm (xs.map ver)
  have hw := hs.sorted (xs.map ver) rank (by
    intro x hx y hy
    obtain ⟨x', hx', rfl⟩ := List.mem_map.mp hx
    obtain ⟨y', hy', rfl⟩ := List.mem_map.mp hy
    rw [less_iff (hf _ hx') (hf _ hy'), below_rank (hf _ hx') (hf _ hy')])
  obtain ⟨i, hi⟩ := List.getLast?_eq_some_iff.mp hv
  obtain ⟨m, hm, e⟩ := List.mem_map.mp (hp.mem_iff.mp (List.mem_of_getLast? hv))
  refine ⟨m, hm, e.symm, fun x hx hb => ?_⟩
  have hxs : ver x ∈ i ++ [v] := hi ▸ hp.mem_iff.mpr (List.mem_map.mpr ⟨x, hx, rfl⟩)
  have hl := (less_iff (hf _ hm) (hf _ hx)).mpr hb
  rcases List.mem_append.mp hxs with h | h
  · rw [hi] at hw
    have := (List.pairwise_append.mp hw).2.2 _ h v (by simp)
    rw [← e, hl] at this
    exact Bool.noConfusion this
  · have h7 := List.mem_singleton.mp h
    rw [h7, ← e] at hl
    have := (less_iff (hf _ hm) (hf _ hm)).mp hl
    unfold Below at this; omega

/-! ## Reading -/

theorem dec_free (n : Nat) {c : UInt8} (h : ¬ (48 ≤ c ∧ c ≤ 57)) : c ∉ dec n := fun hc => h (dec_digits n c hc)

theorem atoi_dec {n : Nat} (h : n < 2 ^ 63) : atoi (dec n) = some (n : Int) := by
  have h0 : dec n ≠ [] := dec_ne_nil n
  have h43 := dec_free n (c := 43) (by decide)
  have h45 := dec_free n (c := 45) (by decide)
  have hp := parseDigits_dec n
  revert h0 h43 h45 hp
  generalize dec n = s
  intro h0 h43 h45 hp
  unfold atoi
  split
  · exact absurd (List.mem_cons_self ..) h43
  · exact absurd (List.mem_cons_self ..) h45
  · simp only [if_neg h0, hp]
    have : s.head? ≠ some 45 := fun e => h45 (List.mem_of_mem_head? e)
    rw [if_neg this, if_pos h]

theorem split_triple (a b c : Nat) : split 46 (triple a b c) = [dec a, dec b, dec c] := by
  unfold triple
  rw [split_append _ _ (dec_free a (by decide)), split_append _ _ (dec_free b (by decide)), split_free _ _ (dec_free c (by decide))]

theorem parse_triple {a b c : Nat} (x : UInt8) (ha : a < 2 ^ 63) (hb : b < 2 ^ 63) (hc : c < 2 ^ 63) :
    parseVersion (x :: triple a b c) = .ok (ver (a, b, c)) := by
  simp [parseVersion, parts, Res.bind, split_triple, number, atoi_dec ha, atoi_dec hb, atoi_dec hc, ver]

theorem pre_triple (a b c : Nat) (x : UInt8) : isPreRelease (x :: triple a b c) = .ok false := by
  have := dec_free c (c := 45) (by decide)
  simp [isPreRelease, parts, Res.bind, split_triple, this]

theorem pre_pre (a b c : Nat) (x : UInt8) (rest : Bytes) : isPreRelease (x :: (triple a b c ++ 45 :: rest)) = .ok true := by
  have e : split 46 (triple a b c ++ 45 :: rest) = dec a :: dec b :: split 46 (dec c ++ 45 :: rest) := by
    unfold triple
    rw [List.append_assoc, List.cons_append, List.append_assoc, List.cons_append,
      split_append _ _ (dec_free a (by decide)), split_append _ _ (dec_free b (by decide))]
  have h3 : ∃ p ps, split 46 (dec c ++ 45 :: rest) = p :: ps ∧ (45 : UInt8) ∈ p := by
    cases hc : cut 46 rest with
    | none =>
      refine ⟨dec c ++ 45 :: rest, [], split_free _ _ ?_, by simp⟩
      have := (cut_none 46 rest).mp hc
      have := dec_free c (c := 46) (by decide)
      simp [*]
    | some y =>
      obtain ⟨u, w⟩ := y
      have ⟨h1, h2⟩ : rest = u ++ 46 :: w ∧ (46 : UInt8) ∉ u := by
        clear e
        induction rest generalizing u with
        | nil => cases hc
        | cons r rest ih =>
          simp only [cut] at hc
          split at hc
          · rename_i hr; cases hc; exact ⟨by rw [hr]; rfl, by simp⟩
          · rename_i hr
            cases h9 : cut 46 rest with
            | none => rw [h9] at hc; cases hc
            | some z =>
              obtain ⟨u', w'⟩ := z
              rw [h9] at hc
              cases hc
              obtain ⟨i1, i2⟩ := ih _ h9
              exact ⟨by rw [i1]; rfl, by simp only [List.mem_cons, not_or]; exact ⟨fun h => hr h.symm, i2⟩⟩
      refine ⟨dec c ++ 45 :: u, split 46 w, ?_, by simp⟩
      rw [h1, show dec c ++ 45 :: (u ++ 46 :: w) = (dec c ++ 45 :: u) ++ 46 :: w by simp, split_append]
      have := dec_free c (c := 46) (by decide)
      simp [*]
  obtain ⟨p, ps, h4, h5⟩ := h3
  simp [isPreRelease, parts, Res.bind, e, h4, h5]

theorem triple_free (a b c : Nat) {x : UInt8} (h : ¬ (48 ≤ x ∧ x ≤ 57)) (h' : x ≠ 46) : x ∉ triple a b c := by
  have := dec_free a h
  have := dec_free b h
  have := dec_free c h
  simp [triple, *]

theorem text_line {t : Tag} (h : t.Good) : (10 : UInt8) ∉ t.text := by
  cases t with
  | release a b c =>
    have := triple_free a b c (x := 10) (by decide) (by decide)
    simp [Tag.text, this]
  | pre a b c rest =>
    have := triple_free a b c (x := 10) (by decide) (by decide)
    have h' : (10 : UInt8) ∉ rest := h
    simp [Tag.text, this, h']

theorem lines_printed {ts : List Tag} (h : ∀ t ∈ ts, t.Good) : split 10 (printed ts) = ts.map Tag.text ++ [[]] := by
  induction ts with
  | nil => rfl
  | cons t ts ih =>
    have : printed (t :: ts) = t.text ++ 10 :: printed ts := by simp [printed]
    rw [this, split_append _ _ (text_line (h t (by simp))), ih fun t ht => h t (by simp [ht])]
    rfl

theorem collect_printed {ts : List Tag} (h : ∀ t ∈ ts, t.Good) :
    collect (ts.map Tag.text ++ [[]]) = .ok ((releases ts).map ver) := by
  induction ts with
  | nil => rfl
  | cons t ts ih =>
    have ih := ih fun t ht => h t (by simp [ht])
    have ht := h t (by simp)
    cases t with
    | release a b c =>
      obtain ⟨h1, h2, h3⟩ := ht
      simp only [List.map_cons, List.cons_append, Tag.text, collect, reduceCtorEq, if_false, pre_triple, Res.bind, parse_triple 118 h1 h2 h3, ih,
        Bool.false_eq_true]
      rfl
    | pre a b c rest =>
      simp only [List.map_cons, List.cons_append, Tag.text, collect, reduceCtorEq, if_false, pre_pre, Res.bind, if_true, ih]
      rfl

/-! ## Theorems -/

/-- C108. Whatever tags there are, of releases and of versions before releases, in any order: the check passes exactly if the version in the
code is above every release; otherwise it says so and names one above which there is none. -/
theorem checks {sort : List Version → List Version} (hs : Sorts sort) {ts : List Tag} (hg : ∀ t ∈ ts, t.Good) (hr : releases ts ≠ [])
    {a b c : Nat} (hc : Fits (a, b, c)) :
    (main sort (printed ts) (triple a b c) = .upToDate ↔ ∀ x ∈ releases ts, Below x (a, b, c)) ∧
      ((∃ x ∈ releases ts, ¬ Below x (a, b, c)) ↔ ∃ m ∈ releases ts, (∀ x ∈ releases ts, ¬ Below m x) ∧ ¬ Below m (a, b, c) ∧
        main sort (printed ts) (triple a b c) = .outOfDate (ver m)) := by
  have hf : ∀ x ∈ releases ts, Fits x := by
    intro x hx
    obtain ⟨t, ht, e⟩ := List.mem_filterMap.mp hx
    cases t with
    | release a b c => cases e; exact hg _ ht
    | pre => cases e
  have hv : ∃ v, (sort ((releases ts).map ver)).getLast? = some v := by
    cases h : (sort ((releases ts).map ver)).getLast? with
    | some v => exact ⟨v, rfl⟩
    | none =>
      have := (hs.perm ((releases ts).map ver)).length_eq
      rw [List.getLast?_eq_none_iff.mp h] at this
      exact absurd (by simpa using this.symm) hr
  obtain ⟨v, hv⟩ := hv
  obtain ⟨m, hm, rfl, hb⟩ := last_greatest hs hf hv
  have e : main sort (printed ts) (triple a b c) = if versionLess (ver m) (ver (a, b, c)) then .upToDate else .outOfDate (ver m) := by
    simp only [main, lines_printed hg, collect_printed hg, hv, parse_triple 118 hc.1 hc.2.1 hc.2.2]
  have hl := less_iff (hf _ hm) hc
  have hall : Below m (a, b, c) → ∀ x ∈ releases ts, Below x (a, b, c) := by
    intro h x hx
    have h1 := (below_rank (hf _ hm) hc).mp h
    have h2 := mt (below_rank (hf _ hm) (hf _ hx)).mpr (hb x hx)
    exact (below_rank (hf _ hx) hc).mpr (by omega)
  rw [e]
  by_cases h : Below m (a, b, c)
  · rw [if_pos (hl.mpr h)]
    refine ⟨⟨fun _ => hall h, fun _ => rfl⟩, ⟨fun ⟨x, hx, hn⟩ => absurd (hall h x hx) hn, fun ⟨_, _, _, _, h'⟩ => by cases h'⟩⟩
  · rw [if_neg (fun h' => h (hl.mp h'))]
    exact ⟨⟨fun h' => (by cases h'), fun h' => absurd (h' m hm) h⟩, ⟨fun _ => ⟨m, hm, hb, h, rfl⟩, fun _ => ⟨m, hm, h⟩⟩⟩

theorem atoi_nonneg {s : Bytes} {n : Int} (h : atoi s = some n) (hs : s.head? ≠ some 45) : ∃ k : Nat, n = k ∧ k < 2 ^ 63 := by
  have key : ∀ d : Bytes, (if d = [] then none else match parseDigits 0 d with
      | none => none
      | some n => if n < 2 ^ 63 then some (n : Int) else none) = some n → ∃ k : Nat, n = k ∧ k < 2 ^ 63 := by
    intro d h
    split at h
    · cases h
    · split at h
      · cases h
      · split at h
        · cases h; exact ⟨_, rfl, by assumption⟩
        · cases h
  unfold atoi at h
  simp only [if_neg hs] at h
  exact key _ h

theorem number_ok {ps : List Bytes} {i : Nat} {n : Int} (h : number ps i = .ok n) : ∃ p, ps[i]? = some p ∧ atoi p = some n := by
  unfold number at h
  split at h
  · cases h
  · rename_i p hp
    split at h
    · cases h
    · cases h; exact ⟨p, hp, by assumption⟩

theorem bind_ok {α β : Type} {x : Res α} {f : α → Res β} {b : β} (h : x.bind f = .ok b) : ∃ a, x = .ok a ∧ f a = .ok b := by
  cases x with
  | ok a => exact ⟨a, rfl, h⟩
  | err => cases h
  | panic => cases h

/-- The numbers of a line that come first are not negative. -/
def Plain (l : Bytes) : Prop := ∀ p ∈ (split 46 (l.drop 1)).take 2, p.head? ≠ some 45

theorem parsed_fits {l : Bytes} {v : Version} (hp : Plain l) (h1 : isPreRelease l = .ok false) (h2 : parseVersion l = .ok v) :
    ∃ x, Fits x ∧ v = ver x := by
  cases l with
  | nil => cases h1
  | cons z s =>
    simp only [parseVersion, parts, Res.bind] at h2
    obtain ⟨a, ha, h2⟩ := bind_ok h2
    obtain ⟨b, hb, h2⟩ := bind_ok h2
    obtain ⟨c, hc, h2⟩ := bind_ok h2
    cases h2
    obtain ⟨p0, e0, ha⟩ := number_ok ha
    obtain ⟨p1, e1, hb⟩ := number_ok hb
    obtain ⟨p2, e2, hc⟩ := number_ok hc
    simp only [isPreRelease, parts, Res.bind, e2] at h1
    have h3 : p2.head? ≠ some 45 := by
      intro e
      have := List.mem_of_mem_head? e
      simp [this] at h1
    unfold Plain at hp
    simp only [List.drop_succ_cons, List.drop_zero] at hp
    have g0 := hp p0 (List.mem_of_getElem? (i := 0) (by rw [List.getElem?_take_of_lt (by omega)]; exact e0))
    have g1 := hp p1 (List.mem_of_getElem? (i := 1) (by rw [List.getElem?_take_of_lt (by omega)]; exact e1))
    obtain ⟨a', rfl, la⟩ := atoi_nonneg ha g0
    obtain ⟨b', rfl, lb⟩ := atoi_nonneg hb g1
    obtain ⟨c', rfl, lc⟩ := atoi_nonneg hc h3
    exact ⟨(a', b', c'), ⟨la, lb, lc⟩, rfl⟩

theorem collect_ok {ls : List Bytes} (hp : ∀ l ∈ ls, Plain l) {vs : List Version} (h : collect ls = .ok vs) :
    ∃ xs : List (Nat × Nat × Nat), vs = xs.map ver ∧ (∀ x ∈ xs, Fits x) ∧
      ∀ l ∈ ls, ∀ v, isPreRelease l = .ok false → parseVersion l = .ok v → ∃ x ∈ xs, v = ver x := by
  induction ls generalizing vs with
  | nil => cases h; exact ⟨[], rfl, by simp, by simp⟩
  | cons l ls ih =>
    have ih := fun {vs} h => ih (vs := vs) (fun l hl => hp l (by simp [hl])) h
    simp only [collect] at h
    split at h
    · rename_i h0
      obtain ⟨xs, i1, i2, i3⟩ := ih h
      refine ⟨xs, i1, i2, fun l' hl' v hv hw => ?_⟩
      rcases List.mem_cons.mp hl' with rfl | hl'
      · rw [h0] at hv; cases hv
      · exact i3 l' hl' v hv hw
    · obtain ⟨pre, h1, h⟩ := bind_ok h
      cases pre with
      | true =>
        obtain ⟨xs, i1, i2, i3⟩ := ih h
        refine ⟨xs, i1, i2, fun l' hl' v hv hw => ?_⟩
        rcases List.mem_cons.mp hl' with rfl | hl'
        · rw [h1] at hv; cases hv
        · exact i3 l' hl' v hv hw
      | false =>
        simp only [Bool.false_eq_true, if_false] at h
        obtain ⟨v, h2, h⟩ := bind_ok h
        obtain ⟨ws, h3, h⟩ := bind_ok h
        cases h
        obtain ⟨xs, i1, i2, i3⟩ := ih h3
        obtain ⟨x, hx, e⟩ := parsed_fits (hp l (by simp)) h1 h2
        refine ⟨x :: xs, by rw [i1, e]; rfl, ?_, fun l' hl' w hv hw => ?_⟩
        · intro y hy
          rcases List.mem_cons.mp hy with rfl | hy
          · exact hx
          · exact i2 y hy
        · rcases List.mem_cons.mp hl' with rfl | hl'
          · rw [h2] at hw
            cases hw
            exact ⟨x, by simp, e⟩
          · obtain ⟨y, hy, e'⟩ := i3 l' hl' w hv hw
            exact ⟨y, by simp [hy], e'⟩

/-- C108. Whatever else `git` prints, tags of any form included: the check does not pass if there is a release that is not below the
version in the code. (`_partial`: as long as no tag has a negative number, see `passes_wrongly`.) -/
theorem no_wrong_pass_partial {sort : List Version → List Version} (hs : Sorts sort) {out : Bytes} (hp : ∀ l ∈ split 10 out, Plain l)
    {a b c : Nat} (hc : Fits (a, b, c)) {x y z : Nat} (hx : Fits (x, y, z)) (ht : (Tag.release x y z).text ∈ split 10 out)
    (hb : ¬ Below (x, y, z) (a, b, c)) : main sort out (triple a b c) ≠ .upToDate := by
  intro h
  unfold main at h
  split at h
  · cases h
  · cases h
  · rename_i vs hvs
    split at h
    · cases h
    · rename_i v hv
      rw [parse_triple 118 hc.1 hc.2.1 hc.2.2] at h
      obtain ⟨xs, rfl, i2, i3⟩ := collect_ok hp hvs
      obtain ⟨r, hr, e⟩ := i3 _ ht _ (pre_triple x y z 118) (parse_triple 118 hx.1 hx.2.1 hx.2.2)
      obtain ⟨m, hm, rfl, hg⟩ := last_greatest hs i2 hv
      have e' : r = (x, y, z) := by
        obtain ⟨r1, r2, r3⟩ := r
        simp only [ver, Version.mk.injEq, Int.natCast_inj] at e
        simp [e]
      subst e'
      simp only at h
      split at h
      · rename_i hl
        have h1 := (below_rank (i2 _ hm) hc).mp ((less_iff (i2 _ hm) hc).mp hl)
        have h2 := mt (below_rank (i2 _ hm) hx).mpr (hg _ hr)
        exact hb ((below_rank hx hc).mpr (by omega))
      · cases h

/-- The version in the code is one that the check understands. -/
theorem version_read : version = triple 0 25 0 := by
  have h0 : dec 0 = [48] := by rw [dec]; rfl
  have h2 : dec 2 = [50] := by rw [dec]; rfl
  have h25 : dec 25 = [50, 53] := by rw [dec]; simp [h2]
  simp only [triple, h0, h25]
  decide

/-! ## Instances -/

open Classical in
/-- A sort: by rank, where there are ranks. -/
noncomputable def byRank (l : List Version) : List Version :=
  if h : ∃ rank : Version → Nat, ∀ x ∈ l, ∀ y ∈ l, versionLess x y = true ↔ rank x < rank y then
    l.mergeSort fun x y => decide (h.choose x ≤ h.choose y)
  else l

/-- What is asked of the sort can be had. -/
theorem sorts_byRank : Sorts byRank where
  perm l := by
    unfold byRank
    split
    · exact List.mergeSort_perm ..
    · exact List.Perm.refl _
  sorted l rank h := by
    have hex : ∃ rank : Version → Nat, ∀ x ∈ l, ∀ y ∈ l, versionLess x y = true ↔ rank x < rank y := ⟨rank, h⟩
    unfold byRank
    rw [dif_pos hex]
    have hw := List.pairwise_mergeSort (le := fun x y => decide (hex.choose x ≤ hex.choose y))
      (fun x y z h1 h2 => by simp only [decide_eq_true_eq] at *; omega) (fun x y => by simp only [Bool.or_eq_true, decide_eq_true_eq]; omega) l
    refine List.Pairwise.imp_of_mem ?_ hw
    intro x y hx hy hxy
    have hx := (List.mergeSort_perm l _).mem_iff.mp hx
    have hy := (List.mergeSort_perm l _).mem_iff.mp hy
    have := hex.choose_spec y hy x hx
    simp only [decide_eq_true_eq] at hxy
    cases hl : versionLess y x with
    | false => rfl
    | true => have := this.mp hl; omega

/-- Two releases and a version before the next one: the version in the code is above both. -/
example : main byRank (printed [.release 0 24 0, .pre 1 0 0 (str "rc.1"), .release 0 9 0]) version = .upToDate := by
  rw [version_read]
  refine (checks sorts_byRank ?_ ?_ (by simp [Fits])).1.mpr ?_
  · intro t ht
    simp only [List.mem_cons, List.not_mem_nil, or_false] at ht
    rcases ht with rfl | rfl | rfl
    · simp [Tag.Good]
    · simp only [Tag.Good]; decide
    · simp [Tag.Good]
  · simp [releases]
  · simp [releases, Below]

/-- A tag that is no version ends the check with a panic, though the version is above the release. -/
theorem other_tag_panics (sort : List Version → List Version) : main sort (str "v0.1.0\nnightly\n") version = .panic := by
  have : collect (split 10 (str "v0.1.0\nnightly\n")) = .panic := by decide +kernel
  simp only [main, this]

/-- So does a repository without releases. -/
theorem no_release_panics {sort : List Version → List Version} (hs : Sorts sort) : main sort (str "v0.1.0-rc\n") version = .panic := by
  have : collect (split 10 (str "v0.1.0-rc\n")) = .ok [] := by decide +kernel
  have h := List.Perm.eq_nil (hs.perm [])
  simp only [main, this, h, List.getLast?_nil]

/-- With a negative number the comparison overflows: the check passes, though a release of a greater version is there. -/
theorem passes_wrongly {sort : List Version → List Version} (hs : Sorts sort) :
    main sort (str "v-9223372036854775808.0.0\nv9223372036854775807.0.0\n") version = .upToDate := by
  have h1 : collect (split 10 (str "v-9223372036854775808.0.0\nv9223372036854775807.0.0\n")) =
      .ok [⟨-9223372036854775808, 0, 0⟩, ⟨9223372036854775807, 0, 0⟩] := by decide +kernel
  have h2 : parseVersion (118 :: version) = .ok ⟨0, 25, 0⟩ := by decide +kernel
  have hp := hs.perm [⟨-9223372036854775808, 0, 0⟩, ⟨9223372036854775807, 0, 0⟩]
  have hw := hs.sorted [⟨-9223372036854775808, 0, 0⟩, ⟨9223372036854775807, 0, 0⟩] (fun v => if v.major < 0 then 1 else 0) (by
    simp only [List.forall_mem_cons, List.not_mem_nil, false_implies, implies_true, and_true]
    decide +kernel)
  have h3 : sort [⟨-9223372036854775808, 0, 0⟩, ⟨9223372036854775807, 0, 0⟩] =
      [⟨9223372036854775807, 0, 0⟩, ⟨-9223372036854775808, 0, 0⟩] := by
    revert hw
    generalize sort [⟨-9223372036854775808, 0, 0⟩, ⟨9223372036854775807, 0, 0⟩] = l at hp
    intro hw
    match l, hp.length_eq with
    | [x, y], _ =>
      have hx := hp.mem_iff.mp (show x ∈ [x, y] by simp)
      have hy := hp.mem_iff.mp (show y ∈ [x, y] by simp)
      have hn := hp.nodup_iff.mpr (by decide)
      simp only [List.mem_cons, List.not_mem_nil, or_false] at hx hy
      rcases hx with rfl | rfl <;> rcases hy with rfl | rfl
      · simp at hn
      · exact absurd hw (by decide +kernel)
      · rfl
      · simp at hn
  simp only [main, h1, h2, h3]
  decide +kernel

/-- The hypotheses of `no_wrong_pass_partial`: a tag of another form beside a release that is not below. -/
example {sort : List Version → List Version} (hs : Sorts sort) : main sort (str "x1.2.3.4\nv0.25.0") (triple 0 25 0) ≠ .upToDate := by
  have e : split 10 (str "x1.2.3.4\nv0.25.0") = [str "x1.2.3.4", str "v0.25.0"] := by decide
  refine no_wrong_pass_partial hs ?_ (by simp [Fits]) (x := 0) (y := 25) (z := 0) (by simp [Fits]) ?_ (by simp [Below])
  · rw [e]; unfold Plain; decide
  · rw [e, Tag.text, ← version_read]; decide

end Verif.Props.CheckVersion
