import Verif.Tag.Profile
import Verif.Props.Tag
import Mathlib.Data.List.Basic

/-!
# C85: tags as profiler labels, tags as text
-/

namespace Verif.Props.Profile
open Verif Verif.Tag Verif.Tag.Profile

/-! ## Specification -/

/-- The value of a tag. -/
def tagOf (m : TMap) (k : Bytes) : Option Bytes := (m.find? fun e => e.1.name == k).map fun e => e.2.value

/-- Whether code panics: by itself, or because `tag.Do` is called without a tag map. `t`: there is a tag map. -/
def panics : PProg → Bool → Bool
  | .panic, _ => true
  | .seq a b, t => panics a t || panics b t
  | .retag _ p, _ => panics p true
  | .tagDo p, t => !t || panics p t
  | _, _ => false

/-- The labels of the samples code takes: `t` are the tags of its context, `l` the labels. Inside `tag.Do` a tag replaces the
label of the same key. -/
def samples : PProg → Option TMap → (Bytes → Option Bytes) → List (Bytes → Option Bytes)
  | .sample, _, l => [l]
  | .seq a b, t, l => samples a t l ++ if panics a t.isSome then [] else samples b t l
  | .recovering p, t, l => samples p t l
  | .retag m p, _, l => samples p (some m) l
  | .tagDo p, some m, l => samples p (some m) fun k => (tagOf m k).or (l k)
  | _, _, _ => []

/-- All maps have each key once. -/
def Maps : PProg → Prop
  | .seq a b => Maps a ∧ Maps b
  | .recovering p => Maps p
  | .retag m p => GoMap.WF m ∧ Maps p
  | .tagDo p => Maps p
  | _ => True

/-! ## Lemmas -/

theorem labelsOf_keyvals (es : List (Key × Content)) (s : Labels) :
    labelsOf s (keyvals es) = some (es.foldl (fun m e => GoMap.set m e.1.name e.2.value) s) := by
  induction es generalizing s with
  | nil => rfl
  | cons e es ih =>
    have : keyvals (e :: es) = e.1.name :: e.2.value :: keyvals es := rfl
    rw [this, labelsOf, ih]
    rfl

theorem get_fold (es : List (Key × Content)) (hn : (es.map fun e => e.1.name).Nodup) (s : Labels) (k : Bytes) :
    GoMap.get (es.foldl (fun m e => GoMap.set m e.1.name e.2.value) s) k = (tagOf es k).or (GoMap.get s k) := by
  induction es generalizing s with
  | nil => rfl
  | cons e es ih =>
    simp only [List.map_cons, List.nodup_cons] at hn
    simp only [List.foldl_cons]
    rw [ih hn.2, GoMap.get_set]
    unfold tagOf
    by_cases hk : k = e.1.name
    · subst hk
      have : es.find? (fun x => x.1.name == e.1.name) = none := by
        rw [List.find?_eq_none]
        intro x hx hc
        simp only [beq_iff_eq] at hc
        exact hn.1 (List.mem_map.mpr ⟨x, hx, hc⟩)
      simp [this]
    · have : ¬ (e.1.name = k) := fun h => hk h.symm
      simp [this, hk]

theorem fold_wf (es : List (Key × Content)) (s : Labels) (hs : GoMap.WF s) :
    GoMap.WF (es.foldl (fun m e => GoMap.set m e.1.name e.2.value) s) := by
  induction es generalizing s with
  | nil => exact hs
  | cons e es ih => exact ih _ (GoMap.WF_set hs _ _)

theorem get_withLabels (new : Labels) (hn : GoMap.WF new) (old : Labels) (k : Bytes) :
    GoMap.get (withLabels old new) k = (GoMap.get new k).or (GoMap.get old k) := by
  unfold withLabels
  induction new generalizing old with
  | nil => rfl
  | cons e es ih =>
    have hn' : e.1 ∉ GoMap.keys es ∧ GoMap.WF es := by
      simpa [GoMap.WF, List.nodup_cons] using hn
    simp only [List.foldl_cons]
    rw [ih hn'.2, GoMap.get_set]
    obtain ⟨a, b⟩ := e
    by_cases hk : k = a
    · subst hk
      have : GoMap.get es k = none := (GoMap.get_eq_none_iff _ _).mpr hn'.1
      simp [GoMap.get, this]
    · have : ¬ (a = k) := fun h => hk h.symm
      simp [GoMap.get, this, hk]

theorem names_nodup {m es : TMap} (hm : GoMap.WF m) (hp : es.Perm m) : (es.map fun e => e.1.name).Nodup := by
  have h1 : (es.map Prod.fst).Nodup := ((hp.map Prod.fst).nodup_iff).mpr hm
  have : (es.map fun e => e.1.name) = (es.map Prod.fst).map Key.name := by simp
  rw [this]
  refine h1.map ?_
  rintro ⟨a⟩ ⟨b⟩ h
  exact congrArg Key.mk h

theorem tagOf_perm {m es : TMap} (hm : GoMap.WF m) (hp : es.Perm m) (k : Bytes) : tagOf es k = tagOf m k := by
  have h1 := get_fold es (names_nodup hm hp) [] k
  have key : ∀ (l : TMap), (l.map fun e => e.1.name).Nodup → ∀ v, tagOf l k = some v ↔ ∃ e ∈ l, e.1.name = k ∧ e.2.value = v := by
    intro l hl v
    unfold tagOf
    constructor
    · intro h
      obtain ⟨e, he, hv⟩ := Option.map_eq_some_iff.mp h
      exact ⟨e, List.mem_of_find?_eq_some he, by simpa using List.find?_some he, hv⟩
    · rintro ⟨e, he, hk, hv⟩
      have : l.find? (fun e => e.1.name == k) = some e := by
        induction l with
        | nil => cases he
        | cons x l ih =>
          simp only [List.map_cons, List.nodup_cons] at hl
          rcases List.mem_cons.mp he with rfl | he
          · simp [hk]
          · have : ¬ (x.1.name = k) := fun h => hl.1 (List.mem_map.mpr ⟨e, he, hk.trans h.symm⟩)
            rw [List.find?_cons_of_neg (by simpa using this)]
            exact ih hl.2 he
      rw [this, Option.map_some, hv]
  clear h1
  apply Option.ext
  intro v
  rw [key es (names_nodup hm hp), key m (names_nodup hm (List.Perm.refl _))]
  constructor <;> rintro ⟨e, he, h⟩
  · exact ⟨e, hp.mem_iff.mp he, h⟩
  · exact ⟨e, hp.mem_iff.mpr he, h⟩

/-! ## C85: profiler labels -/

/-- **C85.** Code that is called with a context whose labels are those of the goroutine: every sample taken inside
`tag.Do` has the tags of the context as labels, and the labels from outside under other keys, whatever the order the map
of tags is gone through; afterwards, also after a panic, the goroutine has the labels it had. -/
theorem samples_labelled (iter : TMap → List (Key × Content)) (hiter : ∀ m, (iter m).Perm m) (p : PProg) (hp : Maps p)
    (c : PCtx) (hc : ∀ m, c.tags = some m → GoMap.WF m) (g : Gor) (hg : g.labels = c.labels) :
    (p.exec iter c g).2 = panics p c.tags.isSome ∧
    (p.exec iter c g).1.labels = g.labels ∧
    ∃ l, (p.exec iter c g).1.samples = g.samples ++ l ∧ l.map (fun x => GoMap.get x) = samples p c.tags (GoMap.get c.labels) := by
  induction p generalizing c g with
  | done => exact ⟨rfl, rfl, [], by simp [PProg.exec], rfl⟩
  | panic => exact ⟨rfl, rfl, [], by simp [PProg.exec], rfl⟩
  | sample => exact ⟨rfl, rfl, [g.labels], rfl, by rw [hg]; rfl⟩
  | seq a b iha ihb =>
    obtain ⟨a1, a2, l, a3, a4⟩ := iha hp.1 c hc g hg
    have he : (PProg.seq a b).exec iter c g = if (a.exec iter c g).2 then a.exec iter c g else b.exec iter c (a.exec iter c g).1 := rfl
    rw [he]
    by_cases h : panics a c.tags.isSome = true
    · rw [if_pos (by rw [a1]; exact h)]
      exact ⟨by rw [a1]; simp [panics, h], a2, l, a3, by simp [samples, h, a4]⟩
    · obtain ⟨b1, b2, l', b3, b4⟩ := ihb hp.2 c hc (a.exec iter c g).1 (by rw [a2, hg])
      rw [if_neg (by rw [a1]; exact h)]
      refine ⟨by rw [b1]; simp [panics, h], by rw [b2, a2], l ++ l', by rw [b3, a3, List.append_assoc], ?_⟩
      rw [List.map_append, a4, b4]
      simp [samples, h]
  | recovering p ih =>
    obtain ⟨_, a2, l, a3, a4⟩ := ih hp c hc g hg
    exact ⟨rfl, a2, l, a3, a4⟩
  | retag m p ih =>
    exact ih hp.2 { c with tags := some m } (fun m' h => by cases h; exact hp.1) g hg
  | tagDo p ih =>
    cases ht : c.tags with
    | none =>
      have he : (PProg.tagDo p).exec iter c g = (g, true) := by simp only [PProg.exec, ht]
      rw [he]
      exact ⟨rfl, rfl, [], by simp, rfl⟩
    | some m =>
      let l : Labels := (iter m).foldl (fun m e => GoMap.set m e.1.name e.2.value) []
      let c' : PCtx := ⟨some m, withLabels c.labels l⟩
      have he : (PProg.tagDo p).exec iter c g = ({ (p.exec iter c' { g with labels := c'.labels }).1 with labels := c.labels },
          (p.exec iter c' { g with labels := c'.labels }).2) := by
        simp only [PProg.exec, ht, labelsOf_keyvals]
        rfl
      obtain ⟨a1, _, ls, a3, a4⟩ := ih hp c' (fun m' h => by cases h; exact hc m ht) { g with labels := c'.labels } rfl
      rw [he]
      have hwf := hc m ht
      have hl : GoMap.get c'.labels = fun k => (tagOf m k).or (GoMap.get c.labels k) := by
        funext k
        have h1 := get_withLabels l (fold_wf _ _ GoMap.WF_nil) c.labels k
        have h2 := get_fold (iter m) (names_nodup hwf (hiter m)) [] k
        rw [tagOf_perm hwf (hiter m)] at h2
        show GoMap.get (withLabels c.labels l) k = _
        rw [h1, h2]
        simp
      have htc : c'.tags = some m := rfl
      rw [htc] at a1 a4
      rw [hl] at a4
      exact ⟨by rw [a1]; rfl, hg.symm, ls, a3, a4⟩

/-- A program with two levels of tags, and a panic on the way. -/
def demo : PProg := .retag [(⟨str "a"⟩, ⟨str "1", ⟨-1⟩⟩), (⟨str "b"⟩, ⟨str "2", ⟨-1⟩⟩)]
  (.tagDo (.seq .sample (.seq (.recovering (.retag [(⟨str "b"⟩, ⟨str "3", ⟨0⟩⟩)] (.tagDo (.seq .sample .panic)))) .sample)))

example : ((samples demo none fun _ => none).map fun l => [l (str "a"), l (str "b"), l (str "c")]) =
    [[some (str "1"), some (str "2"), none], [some (str "1"), some (str "3"), none], [some (str "1"), some (str "2"), none]] ∧
    panics demo false = false ∧ (demo.exec id ⟨none, []⟩ ⟨[], []⟩).1.labels = [] := by decide +kernel

example : Maps demo := by
  refine ⟨by unfold GoMap.WF; decide, ⟨trivial, ⟨by unfold GoMap.WF; decide, trivial, trivial⟩, trivial⟩⟩

/-- `tag.Do` with a context without tags panics before it calls the function. -/
theorem do_without_tags_panics (iter : TMap → List (Key × Content)) (p : PProg) (l : Labels) (g : Gor) :
    (PProg.tagDo p).exec iter ⟨none, l⟩ g = (g, true) := rfl

/-! ## C85: text -/

/-- Whatever the order the map is gone through, the text is the same: the tags in the order of their names. -/
theorem string_perm {m es : TMap} (hm : GoMap.WF m) (hp : es.Perm m) : mapString (some es) = mapString (some m) := by
  have hget : ∀ k, GoMap.get es k = GoMap.get m k := fun k => GoMap.get_perm hp (GoMap.WF_perm hp.symm hm) k
  have hsort : (es.map fun e => e.1.name).mergeSort (fun a b => decide (a ≤ b)) =
      (m.map fun e => e.1.name).mergeSort (fun a b => decide (a ≤ b)) := by
    have srt := fun (n : List Bytes) => List.pairwise_mergeSort (le := fun (a b : Bytes) => decide (a ≤ b))
      (by intro a b c h1 h2; simp only [decide_eq_true_eq] at *; exact List.le_trans h1 h2)
      (by intro a b; simp only [Bool.or_eq_true, decide_eq_true_eq]; exact List.le_total _ _) n
    have hp' : ((es.map fun e => e.1.name).mergeSort (fun a b => decide (a ≤ b))).Perm
        ((m.map fun e => e.1.name).mergeSort (fun a b => decide (a ≤ b))) :=
      (List.mergeSort_perm _ _).trans ((hp.map _).trans (List.mergeSort_perm _ _).symm)
    refine hp'.eq_of_pairwise ?_ (srt _) (srt _)
    intro a b _ _ h1 h2
    simp only [decide_eq_true_eq] at h1 h2
    exact List.le_antisymm h1 h2
  unfold mapString
  simp only [hsort, hget]

/-- The text of one tag. -/
def entryText (x : Bytes × Bytes × Int) : Bytes :=
  123 :: (x.1 ++ 32 :: 123 :: (x.2.1 ++ 32 :: 123 :: 123 :: (Http.itoa x.2.2 ++ str "}}}}")))

theorem cut {c : UInt8} {n n' r r' : Bytes} (h1 : c ∉ n) (h2 : c ∉ n') (h : n ++ c :: r = n' ++ c :: r') : n = n' ∧ r = r' := by
  induction n generalizing n' with
  | nil =>
    cases n' with
    | nil => simpa using h
    | cons b n' =>
      simp only [List.nil_append, List.cons_append, List.cons.injEq] at h
      exact absurd (by simp [h.1]) h2
  | cons a n ih =>
    cases n' with
    | nil =>
      simp only [List.nil_append, List.cons_append, List.cons.injEq] at h
      exact absurd (by simp [h.1]) h1
    | cons b n' =>
      simp only [List.cons_append, List.cons.injEq] at h
      obtain ⟨rfl, h⟩ := h
      obtain ⟨rfl, rfl⟩ := ih (fun hc => h1 (by simp [hc])) (fun hc => h2 (by simp [hc])) h
      exact ⟨rfl, rfl⟩

/-- Names without spaces, values without braces, and the two TTLs there are. -/
def Readable (x : Bytes × Bytes × Int) : Prop := (32 : UInt8) ∉ x.1 ∧ (123 : UInt8) ∉ x.2.1 ∧ (x.2.2 = 0 ∨ x.2.2 = -1)

theorem text_inj (l l' : List (Bytes × Bytes × Int)) (h : ∀ x ∈ l, Readable x) (h' : ∀ x ∈ l', Readable x)
    (he : l.flatMap entryText ++ [32, 125] = l'.flatMap entryText ++ [32, 125]) : l = l' := by
  induction l generalizing l' with
  | nil =>
    cases l' with
    | nil => rfl
    | cons x l' => simp [entryText] at he
  | cons x l ih =>
    cases l' with
    | nil => simp [entryText] at he
    | cons y l' =>
      obtain ⟨n, v, t⟩ := x
      obtain ⟨n', v', t'⟩ := y
      obtain ⟨a1, a2, a3⟩ := h (n, v, t) (by simp)
      obtain ⟨b1, b2, b3⟩ := h' (n', v', t') (by simp)
      simp only [List.flatMap_cons, entryText, List.cons_append, List.append_assoc, List.cons.injEq, true_and] at he
      obtain ⟨rfl, he⟩ := cut a1 b1 he
      simp only [List.cons.injEq, true_and] at he
      have he2 : (v ++ [32]) ++ 123 :: (123 :: (Http.itoa t ++ (str "}}}}" ++ (l.flatMap entryText ++ [32, 125])))) =
          (v' ++ [32]) ++ 123 :: (123 :: (Http.itoa t' ++ (str "}}}}" ++ (l'.flatMap entryText ++ [32, 125])))) := by
        simpa using he
      obtain ⟨ev, he3⟩ := cut (by simpa using a2) (by simpa using b2) he2
      have ev' := List.append_cancel_right ev
      simp only [List.cons.injEq, true_and] at he3
      have i0 : Http.itoa 0 = [48] := by decide
      have i1 : Http.itoa (-1) = [45, 49] := by decide
      have hs : str "}}}}" = [125, 125, 125, 125] := by decide
      have ht : t = t' ∧ l.flatMap entryText ++ [32, 125] = l'.flatMap entryText ++ [32, 125] := by
        simp only at a3 b3
        rcases a3 with rfl | rfl <;> rcases b3 with rfl | rfl
        · exact ⟨rfl, List.append_cancel_left (List.append_cancel_left he3)⟩
        · rw [i0, i1] at he3; simp at he3
        · rw [i0, i1] at he3; simp at he3
        · exact ⟨rfl, List.append_cancel_left (List.append_cancel_left he3)⟩
      rw [ev', ht.1, ih l' (fun z hz => h z (by simp [hz])) (fun z hz => h' z (by simp [hz])) ht.2]

/-- Tags in the order of their names. -/
def sorted (m : TMap) : List (Bytes × Bytes × Int) :=
  ((m.map fun e => e.1.name).mergeSort fun a b => decide (a ≤ b)).map fun k =>
    (k, (GoMap.get m ⟨k⟩).elim [] Content.value, (GoMap.get m ⟨k⟩).elim 0 fun v => v.m.ttl)

theorem mapString_eq (m : TMap) : mapString (some m) = 123 :: 32 :: ((sorted m).flatMap entryText ++ [32, 125]) := by
  have h1 : str "{ " = [123, 32] := by decide
  have h2 : str " }" = [32, 125] := by decide
  have h3 : str "{" = [123] := by decide
  have h4 : str " {" = [32, 123] := by decide
  have h5 : str " {{" = [32, 123, 123] := by decide
  unfold mapString sorted
  rw [h1, h2, h3, h4, h5]
  simp [List.flatMap_map, entryText, List.append_assoc]

/-- The tags of a map whose names have no spaces, whose values have no opening braces. -/
def Plain (m : TMap) : Prop := ∀ e ∈ m, (32 : UInt8) ∉ e.1.name ∧ (123 : UInt8) ∉ e.2.value ∧ (e.2.m.ttl = 0 ∨ e.2.m.ttl = -1)

theorem mem_sorted (m : TMap) (hm : GoMap.WF m) (x : Bytes × Bytes × Int) :
    x ∈ sorted m ↔ ∃ v, GoMap.get m ⟨x.1⟩ = some v ∧ x.2 = (v.value, v.m.ttl) := by
  unfold sorted
  rw [List.mem_map]
  constructor
  · rintro ⟨k, hk, rfl⟩
    rw [(List.mergeSort_perm _ _).mem_iff] at hk
    obtain ⟨e, he, rfl⟩ := List.mem_map.mp hk
    have : GoMap.get m e.1 = some e.2 := GoMap.get_of_mem hm he
    exact ⟨e.2, this, by simp only; rw [show (⟨e.1.name⟩ : Key) = e.1 from rfl, this]; rfl⟩
  · rintro ⟨v, hv, hx⟩
    refine ⟨x.1, ?_, ?_⟩
    · rw [(List.mergeSort_perm _ _).mem_iff]
      exact List.mem_map.mpr ⟨(⟨x.1⟩, v), GoMap.mem_of_get hv, rfl⟩
    · rw [hv]
      obtain ⟨a, b⟩ := x
      simp only at hx
      rw [hx]
      rfl

/-- **C85.** Two maps print the same text if and only if they have the same tags, with the same values and TTLs, when names
have no spaces and values no opening braces. (Otherwise not: `string_ambiguous`.) -/
theorem string_iff_partial {m m' : TMap} (hm : GoMap.WF m) (hm' : GoMap.WF m') (hp : Plain m) (hp' : Plain m') :
    mapString (some m) = mapString (some m') ↔ ∀ k, GoMap.get m k = GoMap.get m' k := by
  constructor
  · intro h
    rw [mapString_eq, mapString_eq] at h
    simp only [List.cons.injEq, true_and] at h
    have hr : ∀ (m : TMap), GoMap.WF m → Plain m → ∀ x ∈ sorted m, Readable x := by
      intro m hm hp x hx
      obtain ⟨v, hv, hx2⟩ := (mem_sorted m hm x).mp hx
      obtain ⟨h1, h2, h3⟩ := hp _ (GoMap.mem_of_get hv)
      unfold Readable
      rw [hx2]
      exact ⟨h1, h2, h3⟩
    have hs := text_inj _ _ (hr m hm hp) (hr m' hm' hp') h
    rintro ⟨k⟩
    apply Option.ext
    rintro ⟨v, ⟨t⟩⟩
    have key : ∀ (m : TMap), GoMap.WF m → (GoMap.get m ⟨k⟩ = some ⟨v, ⟨t⟩⟩ ↔ (k, v, t) ∈ sorted m) := by
      intro m hm
      rw [mem_sorted m hm]
      constructor
      · intro h; exact ⟨_, h, rfl⟩
      · rintro ⟨⟨v', ⟨t'⟩⟩, h1, h2⟩
        simp only [Prod.mk.injEq] at h2
        rw [h1, h2.1, h2.2]
    rw [key m hm, key m' hm', hs]
  · intro h
    exact string_perm hm' (GoMap.perm_of_get hm hm' h)

/-- A name with spaces and braces reads as two tags. -/
theorem string_ambiguous : ∃ m m' : TMap, GoMap.WF m ∧ GoMap.WF m' ∧ m.length ≠ m'.length ∧
    (∀ e ∈ m ++ m', checkKeyName e.1.name = true ∧ checkValue e.2.value = true) ∧ mapString (some m) = mapString (some m') := by
  refine ⟨[(⟨str "a"⟩, ⟨str "x", ⟨-1⟩⟩), (⟨str "b"⟩, ⟨str "y", ⟨-1⟩⟩)], [(⟨str "a {x {{-1}}}}{b"⟩, ⟨str "y", ⟨-1⟩⟩)], ?_, ?_, ?_, ?_, ?_⟩
  · unfold GoMap.WF; decide
  · unfold GoMap.WF; decide
  · decide
  · decide +kernel
  · rw [mapString_eq, mapString_eq]
    have h2 : [str "a", str "b"].mergeSort (fun a b => decide (a ≤ b)) = [str "a", str "b"] :=
      List.mergeSort_of_pairwise (by decide)
    have h1 : [str "a {x {{-1}}}}{b"].mergeSort (fun a b => decide (a ≤ b)) = [str "a {x {{-1}}}}{b"] := by simp
    unfold sorted
    simp only [List.map_cons, List.map_nil, h1, h2]
    decide +kernel

example : Plain [(⟨str "method"⟩, ⟨str "GET /x", ⟨-1⟩⟩)] ∧ mapString none = str "nil" := by
  refine ⟨?_, rfl⟩
  unfold Plain
  decide

end Verif.Props.Profile
