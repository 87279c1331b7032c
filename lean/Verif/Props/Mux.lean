import Verif.Zpages.Mux

/-!
# C100: the z-pages are served where `Handle` puts them
-/

namespace Verif.Props.Mux
open Verif Verif.Zpages.Mux Verif.Wire

/-! ## Specification -/

/-- A request gets the page, at once or after one redirection. -/
def Reaches (m : Mux) (host path : Bytes) (h : Handler) : Prop :=
  m.request host path = .serve h ∨ ∃ p, m.request host path = .redirect p ∧ m.request host p = .serve h

/-- Further patterns have been registered. -/
inductive Later : Mux → Mux → Prop where
  | refl (m : Mux) : Later m m
  | step {m m' m'' : Mux} (p : Bytes) (h : Handler) : Later m m' → m'.handle p h = .ok m'' → Later m m''

/-- No pattern names a host. -/
def NoHosts (m : Mux) : Prop := ∀ k ∈ GoMap.keys m, k.head? = some 47

/-- A name in a path. -/
def Name (s : Bytes) : Prop := s ≠ [] ∧ s ≠ str "." ∧ s ≠ str ".." ∧ (47 : UInt8) ∉ s

/-- The path of names: `/a/b/c`. -/
def pathOf (names : List Bytes) : Bytes := names.flatMap fun s => 47 :: s

/-! ## Paths -/

theorem split_ne_nil (sep : UInt8) (a : Bytes) : split sep a ≠ [] := by
  cases a with
  | nil => simp [split]
  | cons c a =>
    rw [split]
    split
    · simp
    · split <;> simp

theorem walk_cons (st : List Bytes) (s : Bytes) (l : List Bytes) : walk true st (s :: l) =
    if s = [] ∨ s = [46] then walk true st l
    else if s = [46, 46] then
      match st with
      | t :: st' => if t = [46, 46] then walk true (s :: st) l else walk true st' l
      | [] => walk true [] l
    else walk true (s :: st) l := by
  cases st <;> simp [walk]

theorem split_slash (a b : Bytes) : split 47 (a ++ 47 :: b) = split 47 a ++ split 47 b := by
  induction a with
  | nil => simp [split]
  | cons c a ih =>
    by_cases h : c = 47
    · subst h; simp [split, ih]
    · simp only [List.cons_append, split, if_neg h, ih]
      cases hs : split 47 a with
      | nil => exact absurd hs (split_ne_nil 47 a)
      | cons p ps => simp

theorem walk_append (st l k : List Bytes) : walk true st (l ++ k) = walk true (walk true st l).reverse k := by
  induction l generalizing st with
  | nil => simp [walk]
  | cons s l ih =>
    simp only [List.cons_append]
    rw [walk_cons, walk_cons st s l]
    split
    · exact ih _
    · split
      · cases st with
        | nil => exact ih _
        | cons t st' =>
          simp only
          split <;> exact ih _
      · exact ih _

theorem walk_names (st l : List Bytes) (h : ∀ s ∈ l, Name s) : walk true st l = st.reverse ++ l := by
  induction l generalizing st with
  | nil => simp [walk]
  | cons s l ih =>
    obtain ⟨h1, h2, h3, h4⟩ := h s (by simp)
    rw [walk_cons, if_neg (by simp only [not_or]; exact ⟨h1, h2⟩), if_neg (show s ≠ [46, 46] from h3), ih _ fun t ht => h t (by simp [ht])]
    simp

theorem walk_name (st l : List Bytes) (hst : ∀ s ∈ st, Name s) (hl : ∀ s ∈ l, (47 : UInt8) ∉ s) : ∀ s ∈ walk true st l, Name s := by
  induction l generalizing st with
  | nil => simpa [walk] using hst
  | cons s l ih =>
    have hl' : ∀ s ∈ l, (47 : UInt8) ∉ s := fun t ht => hl t (by simp [ht])
    rw [walk_cons]
    split
    · exact ih st hst hl'
    · rename_i h1
      split
      · cases st with
        | nil => exact ih [] (by simp) hl'
        | cons t st' =>
          simp only
          split
          · rename_i ht
            exact absurd ht (hst t (by simp)).2.2.1
          · exact ih st' (fun x hx => hst x (by simp [hx])) hl'
      · rename_i h2
        refine ih (s :: st) (fun x hx => ?_) hl'
        rcases List.mem_cons.1 hx with rfl | hx
        · exact ⟨fun h => h1 (.inl h), fun h => h1 (.inr h), h2, hl _ (by simp)⟩
        · exact hst x hx

theorem join_path (l : List Bytes) (h : l ≠ []) : 47 :: join 47 l = pathOf l := by
  induction l with
  | nil => exact absurd rfl h
  | cons s l ih =>
    cases l with
    | nil => simp [join, pathOf]
    | cons t l =>
      have := ih (by simp)
      simp only [join, pathOf, List.flatMap_cons] at this ⊢
      rw [← this]
      simp

/-- The names that a prefix leads to. -/
def place (pre : Bytes) : List Bytes := walk true [] (split 47 pre)

theorem place_names (pre : Bytes) : ∀ s ∈ place pre, Name s :=
  walk_name [] _ (by simp) (join_split 47 pre).2

theorem head_append {pre : Bytes} (h : pre.head? = some 47) (b : Bytes) : (pre ++ b).head? = some 47 := by
  cases pre with
  | nil => simp at h
  | cons c pre => simpa using h

theorem clean_under {pre : Bytes} (h : pre.head? = some 47) {x : Bytes} {l : List Bytes} (hx : ∀ st, walk true st (split 47 x) = st.reverse ++ l)
    (hl : l ≠ []) : clean (pre ++ 47 :: x) = pathOf (place pre ++ l) := by
  unfold clean
  rw [if_pos (head_append h _), split_slash, walk_append, hx, List.reverse_reverse, join_path _ (by simp [hl])]
  rfl

theorem split_name {s : Bytes} (h : (47 : UInt8) ∉ s) : split 47 s = [s] := by
  have := split_join 47 [s] (by simp) (by simpa using h)
  simpa [join] using this

theorem walk_one {x : Bytes} (h : Name x) (st : List Bytes) : walk true st (split 47 x) = st.reverse ++ [x] := by
  rw [split_name h.2.2.2]
  exact walk_names st [x] (by simpa using h)

theorem split_pathOf (l : List Bytes) (h : ∀ s ∈ l, Name s) : split 47 (pathOf l) = [] :: l := by
  by_cases hl : l = []
  · subst hl; rfl
  · rw [← join_path l hl, split, if_pos rfl, split_join 47 l hl fun s hs => (h s hs).2.2.2]

theorem clean_pathOf (l : List Bytes) (h : ∀ s ∈ l, Name s) (hl : l ≠ []) : clean (pathOf l) = pathOf l := by
  have hh : (pathOf l).head? = some 47 := by
    cases l with
    | nil => exact absurd rfl hl
    | cons s l => simp [pathOf]
  unfold clean
  rw [if_pos hh, split_pathOf l h, walk_cons, if_pos (.inl rfl), walk_names [] l h, List.reverse_nil, List.nil_append, join_path l hl]

theorem pathOf_inj {l k : List Bytes} (hl : ∀ s ∈ l, Name s) (hk : ∀ s ∈ k, Name s) (h : pathOf l = pathOf k) : l = k := by
  have := split_pathOf l hl
  rw [h, split_pathOf k hk] at this
  simpa using this.symm

theorem pathOf_snoc (l : List Bytes) (s : Bytes) : pathOf (l ++ [s]) = pathOf l ++ 47 :: s := by simp [pathOf]

theorem last_name {s : Bytes} (h : Name s) (a : Bytes) : (a ++ s).getLast? ≠ some 47 := by
  intro h2
  rw [List.getLast?_append, List.getLast?_eq_some_getLast h.1] at h2
  simp only [Option.some_or, Option.some.injEq] at h2
  exact h.2.2.2 (h2 ▸ List.getLast_mem h.1)

theorem pathOf_last (l : List Bytes) (h : ∀ s ∈ l, Name s) : (pathOf l).getLast? ≠ some 47 := by
  rcases List.eq_nil_or_concat l with rfl | ⟨k, s, rfl⟩
  · simp [pathOf]
  · rw [List.concat_eq_append, pathOf_snoc, show pathOf k ++ 47 :: s = (pathOf k ++ [47]) ++ s by simp]
    exact last_name (h s (by simp)) _

theorem cleanPath_pathOf (l : List Bytes) (h : ∀ s ∈ l, Name s) (hl : l ≠ []) : cleanPath (pathOf l) = pathOf l := by
  have hh : (pathOf l).head? = some 47 := by
    cases l with
    | nil => exact absurd rfl hl
    | cons s l => simp [pathOf]
  have hne : pathOf l ≠ [] := by rintro h; rw [h] at hh; simp at hh
  unfold cleanPath
  rw [if_neg hne]
  simp only [if_pos hh, clean_pathOf l h hl]
  rw [if_neg (fun c => pathOf_last l h c.1)]

/-! ## Registered patterns -/

theorem name_rpcz : Name (str "rpcz") := by unfold Name; decide +kernel
theorem name_tracez : Name (str "tracez") := by unfold Name; decide +kernel
theorem name_public : Name (str "public") := by unfold Name; decide +kernel

theorem walk_public (st : List Bytes) : walk true st (split 47 (str "public/")) = st.reverse ++ [str "public"] := by
  have : split 47 (str "public/") = [str "public", []] := by decide +kernel
  rw [this, show [str "public", []] = [str "public"] ++ [[]] from rfl, walk_append, walk_names st [str "public"] (by simpa using name_public)]
  simp [walk]

theorem join_rpcz {pre : Bytes} (h : pre.head? = some 47) : pathJoin pre (str "rpcz") = pathOf (place pre ++ [str "rpcz"]) := by
  unfold pathJoin
  rw [if_pos (by rintro rfl; simp at h), clean_under h (walk_one name_rpcz) (by simp)]

theorem join_tracez {pre : Bytes} (h : pre.head? = some 47) : pathJoin pre (str "tracez") = pathOf (place pre ++ [str "tracez"]) := by
  unfold pathJoin
  rw [if_pos (by rintro rfl; simp at h), clean_under h (walk_one name_tracez) (by simp)]

theorem join_public {pre : Bytes} (h : pre.head? = some 47) : pathJoin pre (str "public/") = pathOf (place pre ++ [str "public"]) := by
  unfold pathJoin
  rw [if_pos (by rintro rfl; simp at h), clean_under h walk_public (by simp)]

theorem handle_ok {m m' : Mux} {p : Bytes} {h : Handler} (e : m.handle p h = .ok m') :
    p ≠ [] ∧ GoMap.get m p = none ∧ m' = GoMap.set m p h := by
  unfold Mux.handle at e
  split at e
  · cases e
  · split at e
    · cases e
    · rename_i h1 h2
      refine ⟨h1, ?_, ?_⟩
      · simpa using h2
      · simp only [Res.ok.injEq] at e; exact e.symm

theorem handle_get {m m' : Mux} {p k : Bytes} {h g : Handler} (e : m.handle p h = .ok m') (hk : GoMap.get m k = some g) :
    GoMap.get m' k = some g := by
  obtain ⟨_, h2, rfl⟩ := handle_ok e
  have : k ≠ p := by rintro rfl; rw [h2] at hk; cases hk
  rw [GoMap.get_set_other _ _ this, hk]

theorem later_get {m m' : Mux} (hl : Later m m') {k : Bytes} {g : Handler} (hk : GoMap.get m k = some g) : GoMap.get m' k = some g := by
  induction hl with
  | refl => exact hk
  | step p h _ e ih => exact handle_get e ih

theorem handle_patterns {m m' : Mux} {pre : Bytes} (h : handle m pre = .ok m') :
    GoMap.get m' (pathJoin pre (str "rpcz")) = some .rpcz ∧ GoMap.get m' (pathJoin pre (str "tracez")) = some .tracez ∧
      GoMap.get m' (pathJoin pre (str "public/")) = some .files ∧
      m' = GoMap.set (GoMap.set (GoMap.set m (pathJoin pre (str "rpcz")) .rpcz) (pathJoin pre (str "tracez")) .tracez)
        (pathJoin pre (str "public/")) .files := by
  unfold handle at h
  cases h1 : m.handle (pathJoin pre (str "rpcz")) .rpcz with
  | err => rw [h1] at h; cases h
  | panic => rw [h1] at h; cases h
  | ok m1 =>
    rw [h1] at h
    simp only [Res.bind] at h
    cases h2 : m1.handle (pathJoin pre (str "tracez")) .tracez with
    | err => rw [h2] at h; cases h
    | panic => rw [h2] at h; cases h
    | ok m2 =>
      rw [h2] at h
      simp only at h
      obtain ⟨_, _, e1⟩ := handle_ok h1
      obtain ⟨_, _, e2⟩ := handle_ok h2
      obtain ⟨_, _, e3⟩ := handle_ok h
      have g1 : GoMap.get m1 (pathJoin pre (str "rpcz")) = some .rpcz := by rw [e1, GoMap.get_set_same]
      have g2 : GoMap.get m2 (pathJoin pre (str "tracez")) = some .tracez := by rw [e2, GoMap.get_set_same]
      refine ⟨handle_get h (handle_get h2 g1), handle_get h g2, by rw [e3, GoMap.get_set_same], ?_⟩
      rw [e3, e2, e1]

theorem request_pattern {m : Mux} (hm : NoHosts m) (host : Bytes) {l : List Bytes} (hl : ∀ s ∈ l, Name s) (hne : l ≠ []) {h : Handler}
    (hg : GoMap.get m (pathOf l) = some h) : m.request host (pathOf l) = .serve h := by
  have hh : m.any (fun e => e.1.head? != some 47) = false := by
    rw [List.any_eq_false]
    intro e he
    simp [hm e.1 (List.mem_map_of_mem he)]
  unfold Mux.request
  rw [cleanPath_pathOf l hl hne]
  have : m.shouldRedirect host (pathOf l) = false := by
    unfold Mux.shouldRedirect
    rw [if_pos (.inl (by rw [hg]; rfl))]
  simp only [this, Mux.handler, hh, Mux.lookup, hg]
  simp

theorem names_snoc (pre : Bytes) {x : Bytes} (h : Name x) : ∀ s ∈ place pre ++ [x], Name s := by
  intro s hs
  rcases List.mem_append.1 hs with hs | hs
  · exact place_names pre s hs
  · rw [List.mem_singleton.1 hs]; exact h

theorem reaches_under {m : Mux} (hm : NoHosts m) (host : Bytes) {pre x : Bytes} (hp : pre.head? = some 47) (hx : Name x) {h : Handler}
    (hg : GoMap.get m (pathOf (place pre ++ [x])) = some h) : Reaches m host (pre ++ 47 :: x) h := by
  have hs := request_pattern hm host (names_snoc pre hx) (by simp) hg
  have hc : cleanPath (pre ++ 47 :: x) = pathOf (place pre ++ [x]) := by
    unfold cleanPath
    rw [if_neg (by simp)]
    simp only [if_pos (head_append hp _), clean_under hp (walk_one hx) (List.cons_ne_nil x [])]
    rw [if_neg]
    rintro ⟨c, _⟩
    rw [show pre ++ 47 :: x = (pre ++ [47]) ++ x by simp] at c
    exact last_name hx _ c
  by_cases he : pathOf (place pre ++ [x]) = pre ++ 47 :: x
  · left; rw [← he]; exact hs
  · right
    refine ⟨_, ?_, hs⟩
    unfold Mux.request
    rw [hc]
    have : m.shouldRedirect host (pathOf (place pre ++ [x])) = false := by
      unfold Mux.shouldRedirect
      rw [if_pos (.inl (by rw [hg]; rfl))]
    simp [this, he]

/-- **C100.** After `Handle` with a prefix that begins with a slash, however it is spelled, and whatever else is registered before and
after without a host: a request for the prefix followed by `/rpcz` or `/tracez` gets that page, at once or after one redirection. What is missing for the full claim is what the pages need: `stylesheet_not_found`. -/
theorem pages_served_partial {m m1 m2 : Mux} {pre : Bytes} (hp : pre.head? = some 47) (h : handle m pre = .ok m1) (hl : Later m1 m2) (hm : NoHosts m2)
    (host : Bytes) : Reaches m2 host (pre ++ str "/rpcz") .rpcz ∧ Reaches m2 host (pre ++ str "/tracez") .tracez := by
  obtain ⟨g1, g2, _⟩ := handle_patterns h
  rw [join_rpcz hp] at g1
  rw [join_tracez hp] at g2
  exact ⟨reaches_under hm host hp name_rpcz (later_get hl g1), reaches_under hm host hp name_tracez (later_get hl g2)⟩

/-- A prefix made of names is where the pages are, without redirection. -/
theorem place_pathOf (names : List Bytes) (h : ∀ s ∈ names, Name s) : place (pathOf names) = names := by
  unfold place
  rw [split_pathOf names h, walk_cons, if_pos (.inl rfl), walk_names [] names h]
  rfl

theorem tidy_served {m m1 m2 : Mux} {names : List Bytes} (hn : ∀ s ∈ names, Name s) (hne : names ≠ [])
    (h : handle m (pathOf names) = .ok m1) (hl : Later m1 m2) (hm : NoHosts m2) (host : Bytes) :
    m2.request host (pathOf names ++ str "/rpcz") = .serve .rpcz ∧ m2.request host (pathOf names ++ str "/tracez") = .serve .tracez := by
  have hp : (pathOf names).head? = some 47 := by
    cases names with
    | nil => exact absurd rfl hne
    | cons s l => simp [pathOf]
  obtain ⟨g1, g2, _⟩ := handle_patterns h
  rw [join_rpcz hp, place_pathOf names hn] at g1
  rw [join_tracez hp, place_pathOf names hn] at g2
  have n1 := names_snoc (pathOf names) name_rpcz
  have n2 := names_snoc (pathOf names) name_tracez
  rw [place_pathOf names hn] at n1 n2
  have r1 := request_pattern hm host n1 (by simp) (later_get hl g1)
  have r2 := request_pattern hm host n2 (by simp) (later_get hl g2)
  rw [pathOf_snoc] at r1 r2
  exact ⟨r1, r2⟩

/-! ## Links -/

theorem follow_page (l : List Bytes) {x : Bytes} (hx : Name x) (link : Bytes) : follow (pathOf (l ++ [x])) link = pathOf l ++ 47 :: link := by
  unfold follow
  rw [pathOf_snoc, List.reverse_append, List.reverse_cons, List.append_assoc]
  have : (x.reverse ++ ([47] ++ (pathOf l).reverse)).dropWhile (· ≠ 47) = [47] ++ (pathOf l).reverse := by
    rw [List.dropWhile_append_of_pos]
    · simp
    · intro c hc
      have : c ≠ 47 := by rintro rfl; exact hx.2.2.2 (List.mem_reverse.1 hc)
      simpa using this
  rw [this]
  simp

/-- C100. The links `tracez?...` of the trace page lead to the trace page: from the path that served a page, a link to `tracez` is the path
of the trace page. -/
theorem links_lead_back {m m1 m2 : Mux} {pre : Bytes} (hp : pre.head? = some 47) (h : handle m pre = .ok m1) (hl : Later m1 m2) (hm : NoHosts m2)
    (host page : Bytes) (hpage : page = pathJoin pre (str "rpcz") ∨ page = pathJoin pre (str "tracez")) :
    m2.request host (follow page (str "tracez")) = .serve .tracez := by
  obtain ⟨_, g2, _⟩ := handle_patterns h
  rw [join_tracez hp] at g2
  have r := request_pattern hm host (names_snoc pre name_tracez) (by simp) (later_get hl g2)
  rw [pathOf_snoc] at r
  rcases hpage with rfl | rfl
  · rw [join_rpcz hp, follow_page _ name_rpcz]; exact r
  · rw [join_tracez hp, follow_page _ name_tracez]; exact r

/-! ## A mux with nothing else -/

theorem keys_fresh {m : Mux} {pre : Bytes} (hp : pre.head? = some 47) (h : handle [] pre = .ok m) (k : Bytes) :
    k ∈ GoMap.keys m ↔ k = pathOf (place pre ++ [str "rpcz"]) ∨ k = pathOf (place pre ++ [str "tracez"]) ∨
      k = pathOf (place pre ++ [str "public"]) := by
  obtain ⟨_, _, _, e⟩ := handle_patterns h
  rw [e, GoMap.keys_set_mem, GoMap.keys_set_mem, GoMap.keys_set_mem, join_rpcz hp, join_tracez hp, join_public hp]
  simp
  constructor <;> (rintro (h | h | h) <;> simp [h])

theorem longest_none (path : Bytes) (m : List (Bytes × Handler)) (h : ∀ e ∈ m, e.1.getLast? ≠ some 47) : longest path m = none := by
  induction m with
  | nil => rfl
  | cons e m ih =>
    rw [longest, if_neg (fun c => h e (by simp) c.1)]
    exact ih fun e he => h e (by simp [he])

theorem fresh_facts {m : Mux} {pre : Bytes} (hp : pre.head? = some 47) (h : handle [] pre = .ok m) :
    NoHosts m ∧ ∀ k ∈ GoMap.keys m, k.getLast? ≠ some 47 := by
  have n : ∀ k ∈ GoMap.keys m, ∃ x, Name x ∧ k = pathOf (place pre ++ [x]) := by
    intro k hk
    rcases (keys_fresh hp h k).1 hk with rfl | rfl | rfl
    · exact ⟨_, name_rpcz, rfl⟩
    · exact ⟨_, name_tracez, rfl⟩
    · exact ⟨_, name_public, rfl⟩
  constructor
  · intro k hk
    obtain ⟨x, _, rfl⟩ := n k hk
    cases hpl : place pre <;> simp [pathOf]
  · intro k hk
    obtain ⟨x, hx, rfl⟩ := n k hk
    exact pathOf_last _ (names_snoc pre hx)

theorem fresh_serve {m : Mux} {pre : Bytes} (hp : pre.head? = some 47) (h : handle [] pre = .ok m) {host path : Bytes} {g : Handler}
    (hr : m.request host path = .serve g) : GoMap.get m path = some g := by
  obtain ⟨f1, f2⟩ := fresh_facts hp h
  have hh : m.any (fun e => e.1.head? != some 47) = false := by
    rw [List.any_eq_false]
    intro e he
    simp [f1 e.1 (List.mem_map_of_mem he)]
  have hlong : ∀ path, longest path m = none := fun path => longest_none path m fun e he => f2 e.1 (List.mem_map_of_mem he)
  unfold Mux.request at hr
  simp only [Mux.handler, hh, Mux.lookup, hlong] at hr
  split at hr
  · cases hr
  · split at hr
    · cases hr
    · cases hg : GoMap.get m path with
      | none => rw [hg] at hr; simp at hr
      | some g' =>
        rw [hg] at hr
        simp at hr
        rw [hr]

/-- C100. Nothing else is served: on a mux with nothing else, a request that is served is for one of three paths, and gets the handler of
that path. -/
theorem nothing_else {m : Mux} {pre : Bytes} (hp : pre.head? = some 47) (h : handle [] pre = .ok m) {host path : Bytes} {g : Handler}
    (hr : m.request host path = .serve g) :
    (g = .rpcz ∧ path = pathJoin pre (str "rpcz")) ∨ (g = .tracez ∧ path = pathJoin pre (str "tracez")) ∨
      (g = .files ∧ path = pathJoin pre (str "public/")) := by
  have hg := fresh_serve hp h hr
  obtain ⟨g1, g2, g3, _⟩ := handle_patterns h
  have hk : path ∈ GoMap.keys m := List.mem_map_of_mem (GoMap.mem_of_get hg)
  rcases (keys_fresh hp h path).1 hk with e | e | e
  · rw [← join_rpcz hp] at e
    subst e
    rw [g1] at hg
    exact .inl ⟨(Option.some.inj hg).symm, rfl⟩
  · rw [← join_tracez hp] at e
    subst e
    rw [g2] at hg
    exact .inr (.inl ⟨(Option.some.inj hg).symm, rfl⟩)
  · rw [← join_public hp] at e
    subst e
    rw [g3] at hg
    exact .inr (.inr ⟨(Option.some.inj hg).symm, rfl⟩)

/-- `Handle` on a new mux does not panic. -/
theorem handle_fresh {pre : Bytes} (hp : pre.head? = some 47) : ∃ m, handle [] pre = .ok m := by
  have inj : ∀ {x y : Bytes}, Name x → Name y → pathOf (place pre ++ [x]) = pathOf (place pre ++ [y]) → x = y := by
    intro x y hx hy e
    have := pathOf_inj (names_snoc pre hx) (names_snoc pre hy) e
    simpa using this
  have ne : ∀ x, pathOf (place pre ++ [x]) ≠ [] := fun x => by simp [pathOf]
  have d1 : pathOf (place pre ++ [str "tracez"]) ≠ pathOf (place pre ++ [str "rpcz"]) :=
    fun e => absurd (inj name_tracez name_rpcz e) (by decide +kernel)
  have d2 : pathOf (place pre ++ [str "public"]) ≠ pathOf (place pre ++ [str "rpcz"]) :=
    fun e => absurd (inj name_public name_rpcz e) (by decide +kernel)
  have d3 : pathOf (place pre ++ [str "public"]) ≠ pathOf (place pre ++ [str "tracez"]) :=
    fun e => absurd (inj name_public name_tracez e) (by decide +kernel)
  unfold handle
  rw [join_rpcz hp, join_tracez hp, join_public hp]
  simp only [Mux.handle, ne, if_false, GoMap.get_nil, Option.isSome_none, Bool.false_eq_true, Res.bind, GoMap.get_set_other _ _ d1,
    GoMap.get_set_other _ _ d2, GoMap.get_set_other _ _ d3]
  exact ⟨_, rfl⟩

/-! ## The stylesheet -/

theorem name_css : Name (str "opencensus.css") := by unfold Name; decide +kernel

/-- C100 does not hold for the stylesheet of the pages: its pattern loses the slash at its end, so the link `public/opencensus.css` of a page
is not found, whatever the prefix. -/
theorem stylesheet_not_found {m : Mux} {pre : Bytes} (hp : pre.head? = some 47) (h : handle [] pre = .ok m) {host : Bytes}
    (hh : (47 : UInt8) ∉ host) : m.request host (follow (pathJoin pre (str "tracez")) (str "public/opencensus.css")) = .notFound := by
  obtain ⟨f1, f2⟩ := fresh_facts hp h
  rw [join_tracez hp, follow_page _ name_tracez]
  have e : pathOf (place pre) ++ 47 :: str "public/opencensus.css" = pathOf (place pre ++ [str "public", str "opencensus.css"]) := by
    have : (47 : UInt8) :: str "public/opencensus.css" = pathOf [str "public", str "opencensus.css"] := by decide +kernel
    rw [this]
    simp [pathOf]
  rw [e]
  have hn : ∀ s ∈ place pre ++ [str "public", str "opencensus.css"], Name s := by
    intro s hs
    rcases List.mem_append.1 hs with hs | hs
    · exact place_names pre s hs
    · simp only [List.mem_cons, List.not_mem_nil, or_false] at hs
      rcases hs with rfl | rfl
      · exact name_public
      · exact name_css
  have notKey : pathOf (place pre ++ [str "public", str "opencensus.css"]) ∉ GoMap.keys m := by
    intro hk
    rcases (keys_fresh hp h _).1 hk with e | e | e
    · have := congrArg List.length (pathOf_inj hn (names_snoc pre name_rpcz) e); simp at this
    · have := congrArg List.length (pathOf_inj hn (names_snoc pre name_tracez) e); simp at this
    · have := congrArg List.length (pathOf_inj hn (names_snoc pre name_public) e); simp at this
  generalize hP : pathOf (place pre ++ [str "public", str "opencensus.css"]) = P at *
  have hc : cleanPath P = P := by rw [← hP]; exact cleanPath_pathOf _ hn (by simp)
  have g0 : GoMap.get m P = none := (GoMap.get_eq_none_iff m P).2 notKey
  have ghost : ∀ q, host ≠ [] → GoMap.get m (host ++ q) = none := by
    intro q hne
    rw [GoMap.get_eq_none_iff]
    intro hk
    have := f1 _ hk
    cases host with
    | nil => exact hne rfl
    | cons c host => simp only [List.cons_append, List.head?_cons, Option.some.injEq] at this; exact hh (by simp [this])
  have gslash : ∀ q : Bytes, GoMap.get m (q ++ [47]) = none := by
    intro q
    rw [GoMap.get_eq_none_iff]
    intro hk
    exact f2 _ hk (by simp)
  have ghp : GoMap.get m (host ++ P) = none := by
    by_cases hne : host = []
    · rw [hne]; exact g0
    · exact ghost P hne
  have hr : m.shouldRedirect host P = false := by
    unfold Mux.shouldRedirect
    rw [if_neg (by simp [g0, ghp])]
    split
    · rfl
    · rw [if_neg (by rw [gslash, gslash]; simp)]
  have hany : m.any (fun e => e.1.head? != some 47) = false := by
    rw [List.any_eq_false]
    intro e he
    simp [f1 e.1 (List.mem_map_of_mem he)]
  have hlong : longest P m = none := longest_none P m fun e he => f2 e.1 (List.mem_map_of_mem he)
  unfold Mux.request
  simp [hc, hr, Mux.handler, hany, Mux.lookup, g0, hlong]

/-- No request gets a file. -/
theorem no_file {m : Mux} {pre : Bytes} (hp : pre.head? = some 47) (h : handle [] pre = .ok m) {host path : Bytes}
    (hr : m.request host path = .serve .files) : ∀ name, serveFile path ≠ .file name := by
  have : path = pathOf (place pre ++ [str "public"]) := by
    rcases nothing_else hp h hr with ⟨e, _⟩ | ⟨e, _⟩ | ⟨_, e⟩
    · cases e
    · cases e
    · rw [e, join_public hp]
  subst this
  intro name
  have hn := names_snoc pre name_public
  have hhead : (pathOf (place pre ++ [str "public"])).head? = some 47 := by cases hpl : place pre <;> simp [pathOf]
  have hlast : (pathOf (place pre ++ [str "public"])).getLast? = some 99 := by
    rw [pathOf_snoc, show pathOf (place pre) ++ 47 :: str "public" = (pathOf (place pre) ++ str "/publi") ++ [99] by
      rw [List.append_assoc]; rfl]
    simp
  have hnot : pathOf (place pre ++ [str "public"]) ∉ files := by
    intro hf
    have : ∀ f ∈ files, f.getLast? ≠ some 99 := by decide +kernel
    exact this _ hf hlast
  unfold serveFile
  simp only [if_pos hhead, clean_pathOf _ hn (List.append_ne_nil_of_right_ne_nil _ (List.cons_ne_nil _ _))]
  split
  · simp
  · rw [if_neg (by simpa using hnot)]
    split
    · split <;> simp
    · simp

/-! ## Prefixes that do not begin with a slash, and two calls -/

/-- A second call with the same prefix panics. -/
theorem twice_panics {m m' : Mux} {pre : Bytes} (h : handle m pre = .ok m') : handle m' pre = .panic := by
  obtain ⟨g1, _⟩ := handle_patterns h
  unfold handle Mux.handle
  rw [g1]
  split <;> simp [Res.bind]

/-- A prefix that does not begin with a slash is taken as a host. -/
theorem relative_is_host : ∃ m, handle [] (str "debug") = .ok m ∧ m.request (str "localhost") (str "/debug/rpcz") = .notFound ∧
    m.request (str "debug") (str "/rpcz") = .serve .rpcz := ⟨_, rfl, by decide +kernel, by decide +kernel⟩

theorem cleanPath_head (p : Bytes) : (cleanPath p).head? = some 47 := by
  unfold cleanPath
  split
  · rfl
  · have : ∀ q : Bytes, q.head? = some 47 → (clean q).head? = some 47 := by
      intro q hq; unfold clean; rw [if_pos hq]; rfl
    have h2 : (if p.head? = some 47 then p else 47 :: p).head? = some 47 := by
      split
      · assumption
      · rfl
    generalize (if p.head? = some 47 then p else 47 :: p) = q at h2
    simp only
    split
    · exact head_append (this q h2) _
    · exact this q h2

/-- With the empty prefix nothing is served. -/
theorem empty_serves_nothing : ∃ m, handle [] [] = .ok m ∧ ∀ host path g, m.request host path ≠ .serve g := by
  refine ⟨_, rfl, ?_⟩
  intro host path g hr
  generalize hm : GoMap.set (GoMap.set (GoMap.set ([] : Mux) (pathJoin [] (str "rpcz")) Handler.rpcz) (pathJoin [] (str "tracez")) .tracez)
    (pathJoin [] (str "public/")) .files = m at hr
  have hm2 : m = [(str "rpcz", .rpcz), (str "tracez", .tracez), (str "public", .files)] := by rw [← hm]; decide +kernel
  have key : ∀ q : Bytes, (47 : UInt8) ∈ q → Mux.lookup m q = none := by
    intro q hq
    have hk : ∀ k ∈ GoMap.keys m, (47 : UInt8) ∉ k := by rw [hm2]; decide +kernel
    have g0 : GoMap.get m q = none := (GoMap.get_eq_none_iff m q).2 fun h => hk q h hq
    unfold Mux.lookup
    rw [g0]
    exact longest_none q m fun e he hlast => hk e.1 (List.mem_map_of_mem he) (List.mem_of_getLast? hlast)
  unfold Mux.request at hr
  simp only at hr
  split at hr
  · cases hr
  · split at hr
    · cases hr
    · rename_i hc
      have hc : cleanPath path = path := Classical.not_not.1 hc
      have hmem : (47 : UInt8) ∈ path := by
        have := cleanPath_head path
        rw [hc] at this
        exact List.mem_of_head? this
      unfold Mux.handler at hr
      rw [key path hmem, key (host ++ path) (by simp [hmem])] at hr
      simp at hr

/-! ## Cases -/

/-- The hypotheses hold for the prefix of the examples of the package, and for one that is spelled badly. -/
example : (str "/debug").head? = some 47 ∧ (handle [] (str "/debug")).isOk = true ∧ (str "/a//b/../debug/.").head? = some 47 ∧
    (handle [(str "/", .other 1)] (str "/a//b/../debug/.")).isOk = true := by decide +kernel

example : ∃ m, handle [(str "/", .other 1)] (str "/a//b/../debug/.") = .ok m ∧ NoHosts m ∧
    m.request (str "h") (str "/a//b/../debug/./rpcz") = .redirect (str "/a/debug/rpcz") ∧
    m.request (str "h") (str "/a/debug/rpcz") = .serve .rpcz ∧ m.request (str "h") (str "/a/debug/x") = .serve (.other 1) := by
  refine ⟨_, rfl, ?_, ?_, ?_, ?_⟩
  · unfold NoHosts; decide +kernel
  all_goals decide +kernel

example : Name (str "debug") ∧ pathOf [str "debug"] = str "/debug" := by
  constructor
  · unfold Name; decide +kernel
  · decide +kernel

/-- The file server is there, but the only path that leads to it is that of the directory. -/
example : ∃ m, handle [] (str "/") = .ok m ∧ m.request (str "h") (str "/public") = .serve .files ∧ serveFile (str "/public") = .redirect ∧
    m.request (str "h") (str "/public/") = .notFound ∧ serveFile (str "/public/opencensus.css") = .file (str "/public/opencensus.css") := by
  refine ⟨_, rfl, ?_, ?_, ?_, ?_⟩ <;> decide +kernel

end Verif.Props.Mux
