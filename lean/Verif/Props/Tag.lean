import Verif.Tag.MapLemmas
import Verif.Tag.CodecLemmas2

/-!
# Properties of package `tag` (C01-C07)

The specifications in this file speak about names, values, TTLs and bytes only; they do not use the
model's helper functions.
-/

namespace Verif.Props.Tag
open Verif Verif.Tag

/-! ## Specification vocabulary -/

/-- What a user may call a tag key name: 1 to 255 printable ASCII bytes. -/
def GoodName (n : Bytes) : Prop :=
  1 ≤ n.length ∧ n.length ≤ 255 ∧ ∀ b ∈ n, 0x20 ≤ b.toNat ∧ b.toNat ≤ 0x7e

/-- A tag value: at most 255 printable ASCII bytes. -/
def GoodValue (v : Bytes) : Prop := v.length ≤ 255 ∧ ∀ b ∈ v, 0x20 ≤ b.toNat ∧ b.toNat ≤ 0x7e

/-- A tag map as a user sees it: for every key, nothing or a value with its TTL. -/
abbrev View := Key → Option (Bytes × Int)

/-- What a context shows. -/
def view {α : Type} (h : Heap) (ctx : Ctx α) : View := fun k =>
  match ctx.tags with
  | none => none
  | some a => match h[a]? with
    | none => none
    | some m => match m.find? (fun e => e.1 == k) with
      | none => none
      | some e => some (e.2.value, e.2.m.ttl)

/-- The TTL a list of metadata options stands for: unlimited (-1) when there is no option, otherwise
that of the last option that is not nil (0, no propagation, if all are nil). -/
def specTTL (mds : List Metadata) : Int :=
  if mds.isEmpty then -1
  else match (mds.filterMap (fun | .nilMd => none | .withTTL t => some t)).getLast? with
    | some t => t
    | none => 0

/-- What each mutator does to a tag map. -/
def specMut (f : View) : Mutator → View
  | .insert k v mds => fun k' => if k' = k ∧ f k = none then some (v, specTTL mds) else f k'
  | .update k v mds => fun k' => if k' = k ∧ f k ≠ none then some (v, specTTL mds) else f k'
  | .upsert k v mds => fun k' => if k' = k then some (v, specTTL mds) else f k'
  | .delete k => fun k' => if k' = k then none else f k'

/-- The value a mutator wants to write is acceptable. -/
def GoodMut : Mutator → Prop
  | .insert _ v _ => GoodValue v
  | .update _ v _ => GoodValue v
  | .upsert _ v _ => GoodValue v
  | .delete _ => True

/-- The key a mutator names was made by `NewKey`. -/
def GoodMutKey : Mutator → Prop
  | .insert k _ _ => GoodName k.name
  | .update k _ _ => GoodName k.name
  | .upsert k _ _ => GoodName k.name
  | .delete _ => True

/-- The context's pointer is nil or refers to an allocated Go map. -/
def CtxOK {α : Type} (h : Heap) (ctx : Ctx α) : Prop :=
  ∀ a, ctx.tags = some a → ∃ m, h[a]? = some m ∧ GoMap.WF m

/-! ## Connecting lemmas -/

theorem isASCII_iff (s : Bytes) : isASCII s = true ↔ ∀ b ∈ s, 0x20 ≤ b.toNat ∧ b.toNat ≤ 0x7e := by
  simp [isASCII, List.all_eq_true]

theorem checkKeyName_iff (n : Bytes) : checkKeyName n = true ↔ GoodName n := by
  unfold checkKeyName GoodName maxKeyLength
  rw [← isASCII_iff]
  split
  · next h => simp [h]
  · split
    · constructor
      · simp
      · rintro ⟨_, h, _⟩; omega
    · constructor
      · intro h; exact ⟨by omega, by omega, h⟩
      · intro h; exact h.2.2

theorem checkValue_iff (v : Bytes) : checkValue v = true ↔ GoodValue v := by
  unfold checkValue GoodValue maxKeyLength
  rw [← isASCII_iff]
  split
  · constructor
    · simp
    · rintro ⟨h, _⟩; omega
  · constructor
    · intro h; exact ⟨by omega, h⟩
    · intro h; exact h.2

theorem MutOK_iff (mu : Mutator) : MutOK mu ↔ GoodMut mu := by
  cases mu <;> simp [MutOK, GoodMut, checkValue_iff]

theorem find?_get (m : TMap) (k : Key) :
    (match m.find? (fun e => e.1 == k) with
      | none => none
      | some e => some (e.2.value, e.2.m.ttl)) = (GoMap.get m k).map (fun c => (c.value, c.m.ttl)) := by
  induction m with
  | nil => rfl
  | cons p m ih =>
    obtain ⟨a, b⟩ := p
    by_cases h : a = k
    · simp [GoMap.get, h]
    · simp [GoMap.get, h, ih]

/-- The view of a map. -/
def viewMap (m : TMap) : View := fun k => (GoMap.get m k).map (fun c => (c.value, c.m.ttl))

theorem view_eq {α : Type} (h : Heap) (ctx : Ctx α) {a : Nat} {m : TMap} (h1 : ctx.tags = some a)
    (h2 : h[a]? = some m) : view h ctx = viewMap m := by
  funext k
  simp only [view, h1, h2, find?_get, viewMap]

theorem foldl_applyMd (mds : List Metadata) (m : Metadatas) :
    (mds.foldl applyMd m).ttl =
      match (mds.filterMap (fun | .nilMd => none | .withTTL t => some t)).getLast? with
      | some t => t
      | none => m.ttl := by
  induction mds generalizing m with
  | nil => rfl
  | cons md mds ih =>
    cases md with
    | nilMd => simp [applyMd, ih]
    | withTTL t =>
      simp only [List.foldl_cons, applyMd, ih, List.filterMap_cons]
      rw [List.getLast?_cons]
      generalize (List.filterMap _ mds).getLast? = o
      cases o <;> rfl

theorem createMetadatas_ttl (mds : List Metadata) : (createMetadatas mds).ttl = specTTL mds := by
  unfold createMetadatas specTTL
  cases mds with
  | nil => rfl
  | cons md mds => simp only [List.length_cons, Nat.zero_lt_succ, gt_iff_lt, if_true, foldl_applyMd,
      List.isEmpty_cons, Bool.false_eq_true, if_false]

theorem viewMap_mutateP {m m' : TMap} {mu : Mutator} (h : mutateP m mu = .ok m') :
    viewMap m' = specMut (viewMap m) mu := by
  funext k'
  cases mu with
  | insert k v mds =>
    simp only [mutateP] at h; split at h
    · cases h
    · cases h
      simp only [specMut, viewMap, Verif.Tag.insert]
      by_cases hg : GoMap.get m k = none
      · by_cases hk : k' = k <;> simp [hg, hk, createMetadatas_ttl, GoMap.get_set]
      · obtain ⟨c, hc⟩ := Option.ne_none_iff_exists'.1 hg
        simp [hc]
  | update k v mds =>
    simp only [mutateP] at h; split at h
    · cases h
    · cases h
      simp only [specMut, viewMap, Verif.Tag.update]
      by_cases hg : GoMap.get m k = none
      · simp [hg]
      · obtain ⟨c, hc⟩ := Option.ne_none_iff_exists'.1 hg
        by_cases hk : k' = k <;> simp [hc, hk, createMetadatas_ttl, GoMap.get_set]
  | upsert k v mds =>
    simp only [mutateP] at h; split at h
    · cases h
    · cases h
      simp only [specMut, viewMap, Verif.Tag.upsert]
      rw [GoMap.get_set]
      by_cases hk : k' = k <;> simp [hk, createMetadatas_ttl]
  | delete k =>
    simp only [mutateP] at h
    cases h
    simp only [specMut, viewMap, Verif.Tag.delete]
    rw [GoMap.get_del]
    by_cases hk : k' = k <;> simp [hk]

theorem viewMap_mutateAllP {m : TMap} {mus : List Mutator} (h : (mutateAllP m mus).2 = none) :
    viewMap (mutateAllP m mus).1 = mus.foldl specMut (viewMap m) := by
  induction mus generalizing m with
  | nil => rfl
  | cons mu mus ih =>
    simp only [mutateAllP] at h ⊢
    cases hm : mutateP m mu with
    | error e => simp [hm] at h
    | ok m' =>
      simp only [hm] at h
      simp only [List.foldl_cons, ih h, viewMap_mutateP hm]

theorem incoming_perm {α : Type} {iter : TMap → List (Key × Content)} (hiter : ∀ m, (iter m).Perm m)
    {h : Heap} {ctx : Ctx α} (hctx : CtxOK h ctx) :
    GoMap.WF (incoming iter h ctx) ∧
      ∀ k, (GoMap.get (incoming iter h ctx) k).map (fun c => (c.value, c.m.ttl)) = view h ctx k := by
  unfold incoming
  cases ht : ctx.tags with
  | none => exact ⟨GoMap.WF_nil, fun k => by simp [view, ht]⟩
  | some a =>
    obtain ⟨m, hm, hw⟩ := hctx a ht
    simp only [hm]
    refine ⟨GoMap.WF_perm (hiter m).symm hw, fun k => ?_⟩
    rw [view_eq h ctx ht hm, viewMap, GoMap.get_perm (hiter m).symm hw k]

/-! ## C01, C02 -/

/-- **C01.** When `New` succeeds, the map in the returned context is the incoming one with the
mutators applied left to right; nothing else in the context changes. -/
theorem new_refines_spec {α : Type} (iter : TMap → List (Key × Content)) (hiter : ∀ m, (iter m).Perm m)
    (h : Heap) (ctx : Ctx α) (hctx : CtxOK h ctx) (mus : List Mutator) (h' : Heap) (ctx' : Ctx α)
    (hnew : new iter h ctx mus = (h', ctx', none)) :
    view h' ctx' = mus.foldl specMut (view h ctx) ∧ ctx'.rest = ctx.rest ∧ CtxOK h' ctx' := by
  rw [new_eq] at hnew
  obtain ⟨hw, hv⟩ := incoming_perm hiter hctx
  rcases hc : copyAllP [] (incoming iter h ctx) with ⟨m, _ | e⟩
  · rw [hc] at hnew
    simp only at hnew
    rcases hm : mutateAllP m mus with ⟨m', _ | e⟩
    · rw [hm] at hnew
      simp only [Prod.mk.injEq, and_true] at hnew
      obtain ⟨rfl, rfl⟩ := hnew
      have hok : ∀ e ∈ incoming iter h ctx, EntryOK e := by
        have := (copyAllP_err_iff [] (incoming iter h ctx))
        rw [hc] at this
        intro e he
        rcases Classical.em (EntryOK e) with h1 | h1
        · exact h1
        · simpa using this.2 ⟨e, he, h1⟩
      have hg := copyAllP_get [] (incoming iter h ctx) hw (by simp) hok
      rw [hc] at hg
      have hvm : viewMap m = view h ctx := by
        funext k
        rw [← hv k, viewMap]
        simp only at hg
        rw [hg k]; simp
      have h2 := viewMap_mutateAllP (m := m) (mus := mus) (by rw [hm])
      rw [hm] at h2
      have hwf : GoMap.WF m' := by
        have a1 := copyAllP_wf [] (incoming iter h ctx) GoMap.WF_nil
        rw [hc] at a1
        have a2 := mutateAllP_wf (mus := mus) a1
        rw [hm] at a2; exact a2
      refine ⟨?_, rfl, ?_⟩
      · rw [view_eq (h ++ [m']) _ (a := h.length) (m := m') rfl (by simp), ← hvm]
        exact h2
      · intro a ha
        cases ha
        exact ⟨m', by simp, hwf⟩
    · rw [hm] at hnew; simp at hnew
  · rw [hc] at hnew; simp at hnew

/-- **C02.** `New` fails exactly when the incoming map has an unacceptable name or value, or some
mutator wants to write an unacceptable value. -/
theorem new_fails_iff {α : Type} (iter : TMap → List (Key × Content)) (hiter : ∀ m, (iter m).Perm m)
    (h : Heap) (ctx : Ctx α) (hctx : CtxOK h ctx) (mus : List Mutator) :
    (∃ e, (new iter h ctx mus).2.2 = some e) ↔
      (∃ k v t, view h ctx k = some (v, t) ∧ ¬ (GoodName k.name ∧ GoodValue v)) ∨
      (∃ mu ∈ mus, ¬ GoodMut mu) := by
  rw [new_eq]
  obtain ⟨hw, hv⟩ := incoming_perm hiter hctx
  have hce := copyAllP_err_iff [] (incoming iter h ctx)
  have hbad : (∃ e ∈ incoming iter h ctx, ¬ EntryOK e) ↔
      (∃ k v t, view h ctx k = some (v, t) ∧ ¬ (GoodName k.name ∧ GoodValue v)) := by
    constructor
    · rintro ⟨⟨k, c⟩, he, hbad⟩
      refine ⟨k, c.value, c.m.ttl, ?_, ?_⟩
      · rw [← hv k, GoMap.get_of_mem hw he]; rfl
      · rw [EntryOK, checkKeyName_iff, checkValue_iff] at hbad
        exact hbad
    · rintro ⟨k, v, t, hvk, hbad⟩
      rw [← hv k] at hvk
      cases hg : GoMap.get (incoming iter h ctx) k with
      | none => simp [hg] at hvk
      | some c =>
        simp only [hg, Option.map_some, Option.some.injEq, Prod.mk.injEq] at hvk
        refine ⟨(k, c), GoMap.mem_of_get hg, ?_⟩
        rw [EntryOK, checkKeyName_iff, checkValue_iff]
        rw [hvk.1]; exact hbad
  rw [← hbad, ← hce]
  rcases hc : copyAllP [] (incoming iter h ctx) with ⟨m, _ | e⟩
  · have hme := mutateAllP_err_iff m mus
    have hmm : (∃ mu ∈ mus, ¬ MutOK mu) ↔ (∃ mu ∈ mus, ¬ GoodMut mu) := by simp [MutOK_iff]
    rw [hmm] at hme
    simp only [Option.isSome_none, Bool.false_eq_true, false_or]
    rw [← hme]
    rcases hm : mutateAllP m mus with ⟨m', _ | e⟩ <;> simp
  · simp

/-- **C02.** On error the caller gets back the context it passed in: no partially applied list. -/
theorem new_error_returns_input {α : Type} (iter : TMap → List (Key × Content)) (h : Heap) (ctx : Ctx α)
    (mus : List Mutator) (e : Err) (he : (new iter h ctx mus).2.2 = some e) :
    (new iter h ctx mus).2.1 = ctx := by
  rw [new_eq] at he ⊢
  rcases hc : copyAllP [] (incoming iter h ctx) with ⟨m, _ | e⟩
  · simp only [hc] at he ⊢
    rcases hm : mutateAllP m mus with ⟨m', _ | e⟩
    · rw [hm] at he; simp at he
    · rfl
  · rfl

/-- **C02.** Whatever happens, every map that existed before the call reads the same after it, through
every context. -/
theorem new_preserves_existing {α β : Type} (iter : TMap → List (Key × Content)) (h : Heap) (ctx : Ctx α)
    (mus : List Mutator) (c : Ctx β) (hc : CtxOK h c) :
    view (new iter h ctx mus).1 c = view h c := by
  have hframe : ∃ m, (new iter h ctx mus).1 = h ++ [m] := by
    rw [new_eq]
    rcases copyAllP [] (incoming iter h ctx) with ⟨m, _ | e⟩
    · simp only
      rcases mutateAllP m mus with ⟨m', _ | e⟩ <;> exact ⟨m', rfl⟩
    · exact ⟨m, rfl⟩
  obtain ⟨m, hm⟩ := hframe
  rw [hm]
  cases ht : c.tags with
  | none => funext k; simp [view, ht]
  | some a =>
    obtain ⟨ma, hma, _⟩ := hc a ht
    have hlt : a < h.length := by
      rcases Nat.lt_or_ge a h.length with h1 | h1
      · exact h1
      · rw [List.getElem?_eq_none h1] at hma; simp at hma
    rw [view_eq h c ht hma, view_eq (h ++ [m]) c ht (by rw [List.getElem?_append_left hlt]; exact hma)]

/-- Non-vacuity of C01/C02: a context with one tag, and a list of mutators that touches it. -/
example : ∃ (h : Heap) (ctx : Ctx Unit) (mus : List Mutator),
    CtxOK h ctx ∧ (new id h ctx mus).2.2 = none ∧
    view (new id h ctx mus).1 (new id h ctx mus).2.1 ⟨str "k1"⟩ = some (str "v2", 0) ∧
    view h ctx ⟨str "k1"⟩ = some (str "v1", -1) := by
  refine ⟨[[(⟨str "k1"⟩, ⟨str "v1", ⟨-1⟩⟩)]], ⟨(), some 0⟩,
    [.insert ⟨str "k1"⟩ (str "x") [], .update ⟨str "k1"⟩ (str "v2") [.withTTL 0], .delete ⟨str "k3"⟩],
    ?_, by decide, by decide, by decide⟩
  intro a ha
  cases ha
  exact ⟨_, rfl, by simp [GoMap.WF]⟩

example : ∃ (h : Heap) (ctx : Ctx Unit) (mus : List Mutator),
    CtxOK h ctx ∧ (new id h ctx mus).2.2 = some .invalidValue := by
  refine ⟨[], ⟨(), none⟩, [.insert ⟨str "k1"⟩ (str "x") [], .upsert ⟨str "k1"⟩ [200] []],
    ?_, by decide⟩
  intro a ha
  cases ha

/-! ## C04, C05, C07: encoding -/

/-- The bytes the format prescribes for one tag: type 0, then key and value, each with its length in
base-128. -/
def tagBytes (k v : Bytes) : Bytes := [0] ++ putUvarint k.length ++ k ++ putUvarint v.length ++ v

theorem wire_eq (es : List (Bytes × Bytes)) :
    wire es = (es.map (fun p => tagBytes p.1 p.2)).flatten := by
  induction es with
  | nil => rfl
  | cons p es ih => obtain ⟨k, v⟩ := p; simp [wire, tagBytes, ih]

/-- Every string is shorter than 2^63 in Go. -/
def SizesOK (l : List (Key × Content)) : Prop :=
  ∀ e ∈ l, e.1.name.length < 2 ^ 63 ∧ e.2.value.length < 2 ^ 63

/-- **C07.** Whatever the buffer management does, the output is the version byte followed by the
prescribed bytes of each propagated tag in iteration order; there is no out-of-range write. -/
theorem encode_is_concatenation (l : List (Key × Content)) (hl : SizesOK l) :
    encode l = .ok (0 :: ((l.filter (fun e => e.2.m.ttl == -1)).map
      (fun e => tagBytes e.1.name e.2.value)).flatten) := by
  rw [encode_eq l (fun x hx => ⟨by have := (hl x hx).1; omega, by have := (hl x hx).2; omega⟩), wire_eq]
  simp [propagated, List.map_map, Function.comp_def]

/-- One write operation of the encoder. -/
inductive Write where
  | byte (b : UInt8)
  | bytes (bs : Bytes)

/-- Running a sequence of writes on the encoder. -/
def runWrites (e : Enc) : List Write → Res Enc
  | [] => .ok e
  | .byte b :: ws => (e.writeByte b).bind fun e => runWrites e ws
  | .bytes bs :: ws => (e.writeBytes bs).bind fun e => runWrites e ws

/-- What should come out. -/
def written : List Write → Bytes
  | [] => []
  | .byte b :: ws => b :: written ws
  | .bytes bs :: ws => putUvarint bs.length ++ bs ++ written ws

/-- **C07.** For every initial buffer and every sequence of writes, no write is out of range and the
bytes returned are the concatenation of what was written. -/
theorem writes_refine_append (buf : Bytes) (ws : List Write)
    (hw : ∀ w ∈ ws, ∀ bs, w = .bytes bs → bs.length < 2 ^ 63) :
    ∃ e, runWrites ⟨buf, 0⟩ ws = .ok e ∧ e.bytes = .ok (written ws) := by
  have gen : ∀ (ws : List Write) (e : Enc) (w0 : Bytes), EncRep e w0 →
      (∀ w ∈ ws, ∀ bs, w = .bytes bs → bs.length < 2 ^ 63) →
      ∃ e', runWrites e ws = .ok e' ∧ EncRep e' (w0 ++ written ws) := by
    intro ws
    induction ws with
    | nil => intro e w0 h _; exact ⟨e, rfl, by simpa [written] using h⟩
    | cons w ws ih =>
      intro e w0 h hws
      have hws' : ∀ w ∈ ws, ∀ bs, w = .bytes bs → bs.length < 2 ^ 63 :=
        fun w hw => hws w (List.mem_cons_of_mem _ hw)
      cases w with
      | byte b =>
        obtain ⟨e1, h1, r1⟩ := writeByte_rep h b
        obtain ⟨e2, h2, r2⟩ := ih e1 _ r1 hws'
        exact ⟨e2, by simp [runWrites, h1, h2, Res.bind], by simpa [written] using r2⟩
      | bytes bs =>
        have hb := hws (.bytes bs) (by simp) bs rfl
        obtain ⟨e1, h1, r1⟩ := writeBytes_rep h bs (by omega)
        obtain ⟨e2, h2, r2⟩ := ih e1 _ r1 hws'
        exact ⟨e2, by simp [runWrites, h1, h2, Res.bind], by simpa [written] using r2⟩
  obtain ⟨e, h1, a, b, c⟩ := gen ws ⟨buf, 0⟩ [] ⟨rfl, by simp, by simp⟩ hw
  refine ⟨e, h1, ?_⟩
  unfold Enc.bytes
  simp only [List.nil_append] at a b c
  rw [a, if_pos b, c]

/-- Non-vacuity of C07: writes that cross several growths. -/
example : ∃ e, runWrites ⟨[9, 9], 0⟩ [.byte 1, .bytes (str "hello"), .byte 2] = .ok e ∧
    e.bytes = .ok ([1, 5] ++ str "hello" ++ [2]) := by
  have := writes_refine_append [9, 9] [.byte 1, .bytes (str "hello"), .byte 2] (by
    intro w hw bs hbs; subst hbs; simp at hw; subst hw; decide)
  obtain ⟨e, h1, h2⟩ := this
  refine ⟨e, h1, ?_⟩
  rw [h2]
  congr 1
  simp [written, str, putUvarint]

/-- **C05.** Tags whose TTL is not unlimited leave no trace in the encoding. -/
theorem encode_ignores_nonpropagating (l : List (Key × Content)) (hl : SizesOK l) :
    encode l = encode (l.filter (fun e => e.2.m.ttl == -1)) := by
  rw [encode_is_concatenation l hl, encode_is_concatenation _ (fun e he => hl e (List.mem_filter.1 he).1)]
  simp [List.filter_filter]

/-- Every entry of a map is acceptable to the format. -/
def ValidMap (m : TMap) : Prop := GoMap.WF m ∧ ∀ e ∈ m, GoodName e.1.name ∧ GoodValue e.2.value

theorem sizes_of_valid {m l : TMap} (hm : ValidMap m) (hp : l.Perm m) : SizesOK l := by
  intro e he
  obtain ⟨h1, h2⟩ := hm.2 e (hp.mem_iff.1 he)
  exact ⟨by have := h1.2.1; omega, by have := h2.1; omega⟩

/-- What decoding a list of pairs yields: the last value of every key. -/
theorem foldl_upsert_get (calls : List (Key × Bytes)) (m : TMap) (k : Key) :
    GoMap.get (calls.foldl (fun ts c => upsert ts c.1 c.2 (createMetadatas [.withTTL ttlUnlimited])) m) k
      = match (calls.filter (fun c => c.1 == k)).getLast? with
        | some c => some ⟨c.2, ⟨-1⟩⟩
        | none => GoMap.get m k := by
  induction calls generalizing m with
  | nil => rfl
  | cons c calls ih =>
    obtain ⟨k', v⟩ := c
    simp only [List.foldl_cons, ih, List.filter_cons]
    by_cases hk : k' = k
    · subst hk
      simp only [beq_self_eq_true, if_true, List.getLast?_cons]
      cases (List.filter (fun c => c.1 == k') calls).getLast? <;>
        simp [upsert, createMetadatas, applyMd, ttlUnlimited]
    · simp only [beq_iff_eq, hk, if_false]
      split
      · rfl
      · simp only [upsert]; exact GoMap.get_set_other _ _ (Ne.symm hk)

/-- **C04.** For every valid tag map and every iteration order, encoding succeeds and decoding the
result gives back exactly the tags with unlimited TTL. (`hsize` is Go's bound on slice lengths.) -/
theorem decode_encode (m l : TMap) (hm : ValidMap m) (hp : l.Perm m) :
    ∃ bytes, encode l = .ok bytes ∧ (bytes.length < 2 ^ 63 →
      ∃ m', decode bytes = .ok m' ∧
        ∀ k, GoMap.get m' k = (GoMap.get m k).filter (fun c => c.m.ttl == -1)) := by
  have hs := sizes_of_valid hm hp
  refine ⟨_, encode_eq l (fun x hx => ⟨by have := (hs x hx).1; omega, by have := (hs x hx).2; omega⟩), ?_⟩
  intro hlen
  have hok : ∀ p ∈ propagated l, PairOK p := by
    intro p hp'
    simp only [propagated, List.mem_map, List.mem_filter] at hp'
    obtain ⟨e, ⟨he, _⟩, rfl⟩ := hp'
    obtain ⟨h1, h2⟩ := hm.2 e (hp.mem_iff.1 he)
    exact ⟨(checkKeyName_iff _).2 h1, (checkValue_iff _).2 h2⟩
  have hent : Entries (wire (propagated l)) (propagated l) := by
    apply wire_entries
    intro p hp'
    simp only [propagated, List.mem_map, List.mem_filter] at hp'
    obtain ⟨e, ⟨he, _⟩, rfl⟩ := hp'
    have := hs e he
    exact ⟨Nat.lt_trans this.1 (by decide), Nat.lt_trans this.2 (by decide)⟩
  have hd := decodeLoop_of_entries hent hok [0] (by simpa using hlen)
  simp only [List.length_cons, List.length_nil, Nat.zero_add] at hd
  refine ⟨_, by simp only [decode, decodeEach]; rw [if_neg (by decide)]; rw [show (0 :: wire (propagated l)) = [0] ++ wire (propagated l) from rfl, hd], ?_⟩
  intro k
  rw [foldl_upsert_get]
  have hwl : GoMap.WF l := GoMap.WF_perm hp.symm hm.1
  rw [← GoMap.get_perm hp hwl k]
  -- the pairs for `k` in the calls are those of the (unique) entry for `k`
  clear hd hent hlen hok hs
  have : ∀ (l : TMap), GoMap.WF l →
      (match ((toCalls (propagated l)).filter (fun c => c.1 == k)).getLast? with
        | some c => some (⟨c.2, ⟨-1⟩⟩ : Content)
        | none => GoMap.get [] k) = (GoMap.get l k).filter (fun c => c.m.ttl == -1) := by
    intro l hw
    have nomem : ∀ (l : TMap), k ∉ GoMap.keys l →
        (toCalls (propagated l)).filter (fun c => c.1 == k) = [] := by
      intro l hk
      rw [List.filter_eq_nil_iff]
      intro c hc
      simp only [toCalls, propagated, List.map_map, List.mem_map, List.mem_filter] at hc
      obtain ⟨e, ⟨he, _⟩, rfl⟩ := hc
      simp only [Function.comp_apply, beq_iff_eq]
      rintro rfl
      exact hk (List.mem_map.2 ⟨e, he, rfl⟩)
    induction l with
    | nil => simp [toCalls, propagated]
    | cons e l ih =>
      obtain ⟨k', c⟩ := e
      have hw0 := hw
      simp only [GoMap.WF, GoMap.keys_cons, List.nodup_cons] at hw
      have ih := ih hw.2
      by_cases hk : k' = k
      · subst hk
        have hnil := nomem l hw.1
        have hc0 : (⟨k'.name⟩ : Key) = k' := rfl
        by_cases ht : c.m.ttl = -1
        · have : toCalls (propagated ((k', c) :: l)) = (k', c.value) :: toCalls (propagated l) := by
            simp [toCalls, propagated, ht]
          rw [this]
          have hcm : c = ⟨c.value, ⟨-1⟩⟩ := by
            rcases c with ⟨v, ⟨t⟩⟩; simp only at ht; subst ht; rfl
          have hgk : GoMap.get ((k', c) :: l) k' = some c := by simp [GoMap.get]
          rw [hgk, List.filter_cons, if_pos (by simp), hnil]
          simp only [List.getLast?_singleton, Option.filter, ht, beq_self_eq_true, if_true]
          rw [← hcm]
        · have : toCalls (propagated ((k', c) :: l)) = toCalls (propagated l) := by
            simp [toCalls, propagated, ht]
          rw [this, hnil]
          simp [GoMap.get, ht, Option.filter]
      · have : (toCalls (propagated ((k', c) :: l))).filter (fun c => c.1 == k) =
            (toCalls (propagated l)).filter (fun c => c.1 == k) := by
          by_cases ht : c.m.ttl = -1
          · simp [toCalls, propagated, ht, hk]
          · simp [toCalls, propagated, ht]
        rw [this, ih]
        simp [GoMap.get, hk]
  exact this l hwl

/-- Non-vacuity of C04: a valid map with a propagated and a private tag. -/
example : ValidMap [(⟨str "method"⟩, ⟨str "GET /", ⟨-1⟩⟩), (⟨str "user"⟩, ⟨[], ⟨0⟩⟩)] := by
  constructor
  · simp [GoMap.WF, str]
  · intro e he
    simp at he
    rcases he with rfl | rfl <;> constructor <;> (refine ⟨?_, ?_⟩ <;> decide)

/-! ## C06: decoding arbitrary bytes -/

/-- **C06.** `Decode` succeeds exactly on the empty string and on well-formed inputs with acceptable
keys and values, and then yields, for every key, the last value given for it, with unlimited TTL.
(`hlen`: Go slices are shorter than 2^63.) -/
theorem decode_ok_iff (bytes : Bytes) (hlen : bytes.length < 2 ^ 63) (f : Key → Option Content) :
    (∃ m, decode bytes = .ok m ∧ ∀ k, GoMap.get m k = f k) ↔
      (bytes = [] ∧ ∀ k, f k = none) ∨
      ∃ rest es, bytes = 0 :: rest ∧ Entries rest es ∧ (∀ p ∈ es, GoodName p.1 ∧ GoodValue p.2) ∧
        ∀ k, f k = ((es.filter (fun p => p.1 == k.name)).getLast?).map (fun p => ⟨p.2, ⟨-1⟩⟩) := by
  have hcalls : ∀ (es : List (Bytes × Bytes)) (k : Key),
      GoMap.get ((toCalls es).foldl (fun ts c => upsert ts c.1 c.2 (createMetadatas [.withTTL ttlUnlimited])) []) k
      = ((es.filter (fun p => p.1 == k.name)).getLast?).map (fun p => (⟨p.2, ⟨-1⟩⟩ : Content)) := by
    intro es k
    rw [foldl_upsert_get]
    have : (toCalls es).filter (fun c => c.1 == k) =
        (es.filter (fun p => p.1 == k.name)).map (fun p => ((⟨p.1⟩ : Key), p.2)) := by
      rw [toCalls, List.filter_map]
      congr 1
      apply List.filter_congr
      intro p _
      rcases k with ⟨n⟩
      rw [Bool.eq_iff_iff]; simp
    rw [this, List.getLast?_map]
    cases (es.filter (fun p => p.1 == k.name)).getLast? <;> rfl
  cases bytes with
  | nil =>
    constructor
    · rintro ⟨m, h1, h2⟩
      left
      simp only [decode, decodeEach, List.foldl_nil, Res.ok.injEq] at h1
      subst h1
      exact ⟨rfl, fun k => by rw [← h2 k]; rfl⟩
    · rintro (⟨_, h⟩ | ⟨rest, es, h, _⟩)
      · exact ⟨[], rfl, fun k => by rw [h k]; rfl⟩
      · simp at h
  | cons ver rest =>
    by_cases hv : ver = 0
    · subst hv
      have hdec : decodeEach (0 :: rest) = decodeLoop (0 :: rest) 1 := by
        simp only [decodeEach]; rw [if_neg (by decide)]
      constructor
      · rintro ⟨m, h1, h2⟩
        right
        simp only [decode, hdec] at h1
        rcases hl : decodeLoop (0 :: rest) 1 with ⟨calls, o⟩
        rw [hl] at h1
        cases o with
        | ok =>
          simp only [Res.ok.injEq] at h1
          obtain ⟨es, e1, e2, e3⟩ := decodeLoop_ok_shape (0 :: rest) 1 hlen (by rw [hl])
          rw [hl] at e3
          simp only at e3
          refine ⟨rest, es, rfl, by simpa using e1, ?_, ?_⟩
          · intro p hp
            have := e2 p hp
            exact ⟨(checkKeyName_iff _).1 this.1, (checkValue_iff _).1 this.2⟩
          · intro k
            rw [← h2 k, ← h1, e3, hcalls]
        | err => simp at h1
        | panic => simp at h1
      · rintro (⟨h, _⟩ | ⟨rest', es, h, he, hok, hf⟩)
        · simp at h
        · simp only [List.cons.injEq, true_and] at h
          subst h
          have hd := decodeLoop_of_entries he
            (fun p hp => ⟨(checkKeyName_iff _).2 (hok p hp).1, (checkValue_iff _).2 (hok p hp).2⟩)
            [0] (by simpa using hlen)
          simp only [List.length_cons, List.length_nil, Nat.zero_add, List.cons_append, List.nil_append] at hd
          refine ⟨_, by simp only [decode, hdec, hd]; rfl, ?_⟩
          intro k
          rw [hcalls, hf k]
    · constructor
      · rintro ⟨m, h1, _⟩
        have hgt : ver > 0 := UInt8.pos_iff_ne_zero.2 hv
        simp [decode, decodeEach, hgt] at h1
      · rintro (⟨h, _⟩ | ⟨rest', es, h, _⟩)
        · simp at h
        · simp only [List.cons.injEq] at h
          exact absurd h.1 hv

/-- **C06.** Exactly when `Decode` panics: after a prefix of valid entries comes an entry whose key or
value length, added to its position, reaches 2^63. -/
theorem decode_panic_iff (bytes : Bytes) (hlen : bytes.length < 2 ^ 63) :
    decode bytes = .panic ↔ ∃ rest, bytes = 0 :: rest ∧ PanicAt 1 rest := by
  cases bytes with
  | nil => simp [decode, decodeEach]
  | cons ver rest =>
    by_cases hv : ver = 0
    · subst hv
      have hdec : decodeEach (0 :: rest) = decodeLoop (0 :: rest) 1 := by
        simp only [decodeEach]; rw [if_neg (by decide)]
      have hiff : decode (0 :: rest) = .panic ↔ (decodeLoop (0 :: rest) 1).2 = .panic := by
        simp only [decode, hdec]
        rcases decodeLoop (0 :: rest) 1 with ⟨calls, o⟩
        cases o <;> simp
      rw [hiff]
      constructor
      · intro h
        have := decodeLoop_panic_shape (0 :: rest) 1 hlen h
        exact ⟨rest, rfl, by simpa using this⟩
      · rintro ⟨rest', h, hp⟩
        simp only [List.cons.injEq, true_and] at h
        subst h
        exact decodeLoop_of_panicAt (0 :: rest) 1 rest hlen (by simp) hp
    · have hgt : ver > 0 := UInt8.pos_iff_ne_zero.2 hv
      constructor
      · intro h; simp [decode, decodeEach, hgt] at h
      · rintro ⟨rest', h, _⟩
        simp only [List.cons.injEq] at h
        exact absurd h.1 hv

/-- **C06 is false of the code**: twelve bytes from the wire make `Decode` panic (slice bounds out of
range): a key whose declared length is 2^63. -/
theorem decode_can_panic :
    decode [0, 0, 0x80, 0x80, 0x80, 0x80, 0x80, 0x80, 0x80, 0x80, 0x80, 0x01] = .panic := by
  rw [decode_panic_iff _ (by decide)]
  refine ⟨_, rfl, .key 1 _ ⟨[0x80, 0x80, 0x80, 0x80, 0x80, 0x80, 0x80, 0x80, 0x80, 0x01], [], 2 ^ 63,
    rfl, ?_, by decide, by decide, by decide⟩⟩
  have h := putUvarint_leb (2 ^ 63)
  have e : putUvarint (2 ^ 63) = [0x80, 0x80, 0x80, 0x80, 0x80, 0x80, 0x80, 0x80, 0x80, 0x01] := by
    repeat (unfold putUvarint; simp)
  rwa [e] at h

/-- Eight consecutive bytes with the high bit set occur somewhere. -/
def HasHighRun (bytes : Bytes) : Prop :=
  ∃ pre mid post, bytes = pre ++ (mid ++ post) ∧ mid.length = 8 ∧ ∀ b ∈ mid, 128 ≤ b.toNat

theorem hugeLen_run {i : Nat} {bytes : Bytes} (hi : i ≤ 2 ^ 62) (h : HugeLen i bytes) : HasHighRun bytes := by
  obtain ⟨vb, rest, n, rfl, hl, h10, h64, hbig⟩ := h
  have hlen : 8 < vb.length := by
    rcases Nat.lt_or_ge 8 vb.length with h | h
    · exact h
    · exfalso
      have h1 := leb_lt hl
      have : (128 : Nat) ^ vb.length ≤ 128 ^ 8 := Nat.pow_le_pow_right (by decide) h
      omega
  refine ⟨[], vb.take 8, vb.drop 8 ++ rest, by simp [← List.append_assoc], by simp; omega, leb_high hl 8 hlen⟩

theorem highRun_append (a : Bytes) {b : Bytes} (h : HasHighRun b) : HasHighRun (a ++ b) := by
  obtain ⟨pre, mid, post, rfl, h1, h2⟩ := h
  exact ⟨a ++ pre, mid, post, by simp, h1, h2⟩

/-- **C06, what does hold.** `Decode` does not panic on any input (shorter than 2^62 bytes) without
eight consecutive bytes above 0x7f; in particular on no ASCII input and on nothing `Encode` produces
from short tags. Missing from the full claim: the inputs excluded here, see `decode_can_panic`. -/
theorem decode_never_panics_partial (bytes : Bytes) (hlen : bytes.length ≤ 2 ^ 62)
    (hrun : ¬ HasHighRun bytes) : decode bytes ≠ .panic := by
  intro h
  rw [decode_panic_iff _ (by omega)] at h
  obtain ⟨rest, rfl, hp⟩ := h
  apply hrun
  have gen : ∀ i r, PanicAt i r → i + r.length ≤ 2 ^ 62 → HasHighRun r := by
    intro i r hp
    induction hp with
    | key i rest h =>
      intro hl
      simp only [List.length_cons] at hl
      exact highRun_append [0] (hugeLen_run (by omega) h)
    | val i kl k rest hk h10 h =>
      intro hl
      simp only [List.length_cons, List.length_append] at hl
      have := highRun_append (0 :: (kl ++ k)) (hugeLen_run (by omega) h)
      simpa using this
    | later i kl k vl v rest hk hk10 hv hv10 hp t ih =>
      intro hl
      simp only [List.length_cons, List.length_append] at hl
      have := highRun_append (0 :: (kl ++ (k ++ (vl ++ v)))) (ih (by omega))
      simpa using this
  exact highRun_append [0] (gen 1 rest hp (by simp only [List.length_cons] at hlen; omega))

/-- Non-vacuity: an input with high bytes that the theorem covers. -/
example : ¬ HasHighRun [0, 0, 0x81, 0x00] := by
  rintro ⟨pre, mid, post, h, hl, hm⟩
  have h1 := congrArg List.length h
  simp at h1
  omega

/-- **C06.** `Decode` returns no map together with an error, and a panic or error leaves no partial
result: the three outcomes exclude each other (by construction of the model), and whenever the handler
of `DecodeEach` was given a pair, that pair was acceptable. -/
theorem decodeEach_calls_valid (bytes : Bytes) (hlen : bytes.length < 2 ^ 63) :
    ∀ c ∈ (decodeEach bytes).1, GoodName c.1.name ∧ GoodValue c.2 := by
  have gen : ∀ i, ∀ c ∈ (decodeLoop bytes i).1, GoodName c.1.name ∧ GoodValue c.2 := by
    intro i
    fun_induction decodeLoop bytes i with
    | case9 i hi typ htyp k i2 hk v i3 hv key hkey hval r ih =>
      intro c hc
      simp only [List.mem_cons] at hc
      rcases hc with rfl | hc
      · unfold newKey at hkey
        cases hck : checkKeyName k <;> simp [hck] at hkey
        subst hkey
        exact ⟨(checkKeyName_iff _).1 hck, (checkValue_iff _).1 (by simpa using hval)⟩
      · exact ih c hc
    | _ => simp
  unfold decodeEach
  split
  · simp
  · split
    · simp
    · exact gen 1

/-! ## C03: validity is an invariant of the API -/

/-- Histories of a program using package `tag`: the heap and the contexts it has got hold of. Keys come
from `NewKey`, received maps from `Decode`. -/
inductive Reach {α : Type} (iter : TMap → List (Key × Content)) : Heap → List (Ctx α) → Prop where
  | start (r : α) : Reach iter [] [⟨r, none⟩]
  | new (h : Heap) (cs : List (Ctx α)) (c : Ctx α) (mus : List Mutator) (t : Reach iter h cs) (hc : c ∈ cs)
      (hk : ∀ mu ∈ mus, GoodMutKey mu) :
      Reach iter (Verif.Tag.new iter h c mus).1 ((Verif.Tag.new iter h c mus).2.1 :: cs)
  | decode (h : Heap) (cs : List (Ctx α)) (c : Ctx α) (bytes : Bytes) (m : TMap) (t : Reach iter h cs)
      (hc : c ∈ cs) (hlen : bytes.length < 2 ^ 63) (hd : Verif.Tag.decode bytes = .ok m) :
      Reach iter (h ++ [m]) ({ c with tags := some h.length } :: cs)

/-- Every tag a context shows is valid. -/
def ViewValid (v : View) : Prop := ∀ k b t, v k = some (b, t) → GoodName k.name ∧ GoodValue b

theorem foldl_specMut_valid (mus : List Mutator) (v : View) (hv : ViewValid v)
    (hk : ∀ mu ∈ mus, GoodMutKey mu) (hm : ∀ mu ∈ mus, GoodMut mu) : ViewValid (mus.foldl specMut v) := by
  induction mus generalizing v with
  | nil => exact hv
  | cons mu mus ih =>
    apply ih
    · have h1 := hk mu (by simp)
      have h2 := hm mu (by simp)
      intro k b t hkb
      cases mu with
      | insert k0 v0 mds =>
        simp only [specMut] at hkb
        split at hkb
        · next hc => simp only [Option.some.injEq, Prod.mk.injEq] at hkb; rw [hc.1, ← hkb.1]; exact ⟨h1, h2⟩
        · exact hv k b t hkb
      | update k0 v0 mds =>
        simp only [specMut] at hkb
        split at hkb
        · next hc => simp only [Option.some.injEq, Prod.mk.injEq] at hkb; rw [hc.1, ← hkb.1]; exact ⟨h1, h2⟩
        · exact hv k b t hkb
      | upsert k0 v0 mds =>
        simp only [specMut] at hkb
        split at hkb
        · next hc => simp only [Option.some.injEq, Prod.mk.injEq] at hkb; rw [hc, ← hkb.1]; exact ⟨h1, h2⟩
        · exact hv k b t hkb
      | delete k0 =>
        simp only [specMut] at hkb
        split at hkb
        · simp at hkb
        · exact hv k b t hkb
    · intro mu hmu; exact hk mu (by simp [hmu])
    · intro mu hmu; exact hm mu (by simp [hmu])

theorem reach_inv {α : Type} {iter : TMap → List (Key × Content)} (hiter : ∀ m, (iter m).Perm m)
    {h : Heap} {cs : List (Ctx α)} (hr : Reach iter h cs) :
    ∀ c ∈ cs, CtxOK h c ∧ ViewValid (view h c) := by
  induction hr with
  | start r =>
    intro c hc
    simp only [List.mem_singleton] at hc
    subst hc
    exact ⟨fun a ha => by simp at ha, fun k b t hk => by simp [view] at hk⟩
  | new h cs c mus t hc hk ih =>
    intro c' hc'
    have old : ∀ c' ∈ cs, CtxOK (Verif.Tag.new iter h c mus).1 c' ∧
        ViewValid (view (Verif.Tag.new iter h c mus).1 c') := by
      intro c' hc'
      obtain ⟨i1, i2⟩ := ih c' hc'
      refine ⟨?_, by rw [new_preserves_existing iter h c mus c' i1]; exact i2⟩
      intro a ha
      obtain ⟨m, hm, hw⟩ := i1 a ha
      have hlt : a < h.length := by
        rcases Nat.lt_or_ge a h.length with h1 | h1
        · exact h1
        · rw [List.getElem?_eq_none h1] at hm; simp at hm
      have hframe : ∃ m, (Verif.Tag.new iter h c mus).1 = h ++ [m] := by
        rw [new_eq]
        rcases copyAllP [] (incoming iter h c) with ⟨m, _ | e⟩
        · simp only
          rcases mutateAllP m mus with ⟨m', _ | e⟩ <;> exact ⟨m', rfl⟩
        · exact ⟨m, rfl⟩
      obtain ⟨m2, hm2⟩ := hframe
      exact ⟨m, by rw [hm2, List.getElem?_append_left hlt]; exact hm, hw⟩
    rcases List.mem_cons.1 hc' with rfl | hc'
    · cases he : (Verif.Tag.new iter h c mus).2.2 with
      | some e =>
        rw [new_error_returns_input iter h c mus e he]
        exact old c hc
      | none =>
        obtain ⟨i1, i2⟩ := ih c hc
        have hnew : Verif.Tag.new iter h c mus =
          ((Verif.Tag.new iter h c mus).1, (Verif.Tag.new iter h c mus).2.1, none) := by rw [← he]
        obtain ⟨s1, s2, s3⟩ := new_refines_spec iter hiter h c i1 mus _ _ hnew
        refine ⟨s3, ?_⟩
        rw [s1]
        have hfail := new_fails_iff iter hiter h c i1 mus
        have hgood : ∀ mu ∈ mus, GoodMut mu := by
          intro mu hmu
          rcases Classical.em (GoodMut mu) with h1 | h1
          · exact h1
          · obtain ⟨e, he'⟩ := hfail.2 (Or.inr ⟨mu, hmu, h1⟩)
            rw [he] at he'; simp at he'
        exact foldl_specMut_valid mus _ i2 hk hgood
    · exact old c' hc'
  | decode h cs c bytes m t hc hlen hd ih =>
    intro c' hc'
    rcases List.mem_cons.1 hc' with rfl | hc'
    · have hw : GoMap.WF m := by
        simp only [Verif.Tag.decode] at hd
        rcases hde : decodeEach bytes with ⟨calls, o⟩
        rw [hde] at hd
        cases o <;> simp only [Res.ok.injEq, reduceCtorEq] at hd
        subst hd
        have : ∀ (calls : List (Key × Bytes)) (m : TMap), GoMap.WF m → GoMap.WF (calls.foldl (fun ts c =>
            upsert ts c.1 c.2 (createMetadatas [.withTTL ttlUnlimited])) m) := by
          intro calls
          induction calls with
          | nil => intro m h; exact h
          | cons c calls ih => intro m h; exact ih _ (GoMap.WF_set h _ _)
        exact this _ _ GoMap.WF_nil
      refine ⟨fun a ha => ?_, ?_⟩
      · cases ha; exact ⟨m, by simp, hw⟩
      · rw [view_eq (h ++ [m]) _ (a := h.length) (m := m) rfl (by simp)]
        intro k b t hk
        have := (decode_ok_iff bytes hlen (fun k => GoMap.get m k)).1 ⟨m, hd, fun _ => rfl⟩
        rcases this with ⟨_, hnone⟩ | ⟨rest, es, _, _, hgood, hf⟩
        · simp [viewMap, hnone k] at hk
        · simp only [viewMap, hf k, Option.map_map] at hk
          cases hl : (es.filter (fun p => p.1 == k.name)).getLast? with
          | none => simp [hl] at hk
          | some p =>
            simp only [hl, Option.map_some, Function.comp_apply, Option.some.injEq, Prod.mk.injEq] at hk
            have hp := List.mem_of_mem_getLast? hl
            simp only [List.mem_filter, beq_iff_eq] at hp
            have := hgood p hp.1
            rw [← hp.2, ← hk.1]
            exact this
    · obtain ⟨i1, i2⟩ := ih c' hc'
      cases ht : c'.tags with
      | none =>
        refine ⟨fun a ha => by rw [ht] at ha; simp at ha, fun k b t hk => by simp [view, ht] at hk⟩
      | some a =>
        obtain ⟨ma, hma, hw⟩ := i1 a ht
        have hlt : a < h.length := by
          rcases Nat.lt_or_ge a h.length with h1 | h1
          · exact h1
          · rw [List.getElem?_eq_none h1] at hma; simp at hma
        have hma' : (h ++ [m])[a]? = some ma := by rw [List.getElem?_append_left hlt]; exact hma
        refine ⟨fun a' ha' => ?_, ?_⟩
        · rw [ht] at ha'; cases ha'; exact ⟨ma, hma', hw⟩
        · rw [view_eq _ c' ht hma', ← view_eq h c' ht hma]; exact i2

/-- **C03, for keys made by `NewKey`.** In every history every tag shown by every context is valid, and
`New` on any of these contexts fails only because of an unacceptable value in its own mutators. Missing
from the full claim: mutators given the zero `Key{}`, see `zero_key_poisons_context`. -/
theorem reachable_tags_valid_partial {α : Type} (iter : TMap → List (Key × Content))
    (hiter : ∀ m, (iter m).Perm m) (h : Heap) (cs : List (Ctx α)) (hr : Reach iter h cs)
    (c : Ctx α) (hc : c ∈ cs) :
    (∀ k b t, view h c k = some (b, t) → GoodName k.name ∧ GoodValue b) ∧
    (∀ mus, (∀ mu ∈ mus, GoodMut mu) → (new iter h c mus).2.2 = none) := by
  obtain ⟨h1, h2⟩ := reach_inv hiter hr c hc
  refine ⟨h2, fun mus hm => ?_⟩
  cases he : (new iter h c mus).2.2 with
  | none => rfl
  | some e =>
    exfalso
    rcases (new_fails_iff iter hiter h c h1 mus).1 ⟨e, he⟩ with ⟨k, v, t, hv, hb⟩ | ⟨mu, hmu, hb⟩
    · exact hb (h2 k v t hv)
    · exact hb (hm mu hmu)

/-- **C03 is false for the zero key**: inserting a valid value under `Key{}` succeeds, and afterwards
every `New` on the resulting context fails, even with no mutators. -/
theorem zero_key_poisons_context :
    ∃ (h : Heap) (c : Ctx Unit), new id [] ⟨(), none⟩ [.insert ⟨[]⟩ (str "v") []] = (h, c, none) ∧
      (new id h c []).2.2 = some .invalidKey := by
  refine ⟨[[(⟨[]⟩, ⟨str "v", ⟨-1⟩⟩)]], ⟨(), some 0⟩, by decide, by decide⟩

/-- Non-vacuity of C03: a history with an insertion and a received map. -/
example : ∃ h cs, Reach (α := Unit) id h cs ∧ cs.length = 3 :=
  ⟨_, _, .new _ _ _ [.insert ⟨str "k"⟩ (str "v") []]
    (.decode _ _ ⟨(), none⟩ [] [] (.start ()) (by simp) (by decide) rfl) (List.mem_cons_self ..)
    (by intro mu hmu; rw [List.mem_singleton] at hmu; subst hmu; refine ⟨?_, ?_, ?_⟩ <;> decide), rfl⟩

end Verif.Props.Tag
