import Verif.Tag.Map
import Verif.TagEncoding
import Verif.View.Agg

/-!
# The collector of a view (stats/view/collector.go)
-/

namespace Verif.View
open Verif Verif.Tag Verif.TagEncoding

/-- `v, _ := m.Value(k)` on a possibly nil `*tag.Map`, tag/map.go:43-49: the empty string when
absent. -/
def valueOf (m : Option TMap) (k : Key) : Bytes :=
  match m with
  | none => []
  | some m => match GoMap.get m k with
    | some c => c.value
    | none => []

/-- `encodeWithKeys`, stats/view/collector.go:61-77. -/
def encodeWithKeys (m : Option TMap) (keys : List Key) : Res Bytes :=
  let reqLen := (keys.map fun k => (valueOf m k).length + 1).sum
  (writeAll ⟨List.replicate reqLen 0, 0⟩ (keys.map (valueOf m))).bind Values.bytes

/-- The loop of `decodeTags`, stats/view/collector.go:84-89. -/
def decodeLoop (rest : Bytes) : List Key → Res (List (Key × Bytes))
  | [] => .ok []
  | k :: ks => (readValue rest).bind fun (v, rest) =>
      (decodeLoop rest ks).bind fun tags =>
        match v with
        | some v => .ok ((k, v) :: tags)
        | none => .ok tags

/-- `tags[i].Key.Name() <= tags[j].Key.Name()`: Go compares strings bytewise. -/
def tagLe (a b : Key × Bytes) : Bool := decide (a.1.name ≤ b.1.name)

/-- `decodeTags`, stats/view/collector.go:81-93. `sort.Slice` is not stable, the model's sort is;
tags with equal key names have equal keys and then equal values, so the results agree. -/
def decodeTags (buf : Bytes) (keys : List Key) : Res (List (Key × Bytes)) :=
  (decodeLoop buf keys).bind fun tags => .ok (tags.mergeSort tagLe)

variable {F : Type} [Arith F]

/-- `collector`, stats/view/collector.go:26-33. -/
structure Collector (F : Type) where
  signatures : GoMap Bytes (AggData F)
  a : Aggregation F

/-- `(*collector).addSample`, stats/view/collector.go:35-42. -/
def Collector.addSample (c : Collector F) (sig : Bytes) (s : Sample F) : Res (Collector F) :=
  match GoMap.get c.signatures sig with
  | some d => (d.addSample s.v s.att s.t).bind fun d =>
      .ok { c with signatures := GoMap.set c.signatures sig d }
  | none => (c.a.mkData s.t).bind fun d => (d.addSample s.v s.att s.t).bind fun d =>
      .ok { c with signatures := GoMap.set c.signatures sig d }

/-- `Row`, stats/view/view.go:174-177. -/
structure Row (F : Type) where
  tags : List (Key × Bytes)
  data : AggData F
  deriving DecidableEq, Repr

/-- `collectedRows`, stats/view/collector.go:45-53. The order of the rows is the iteration order of
the Go map, which is unspecified; the theorems speak about membership only. `clone` copies the value
(aliasing is modelled in `Verif.View.Snapshot`). -/
def collectRows (keys : List Key) : GoMap Bytes (AggData F) → Res (List (Row F))
  | [] => .ok []
  | (sig, d) :: m => (decodeTags sig keys).bind fun tags =>
      (collectRows keys m).bind fun rows => .ok (⟨tags, d⟩ :: rows)

def Collector.collectedRows (c : Collector F) (keys : List Key) : Res (List (Row F)) :=
  collectRows keys c.signatures

/-- `clearRows`, stats/view/collector.go:55-57. -/
def Collector.clearRows (c : Collector F) : Collector F := { c with signatures := [] }

/-! ## Lemmas -/

/-- The signature of a list of values. -/
def sigOf (vs : List Bytes) : Bytes := (vs.map frame).flatten

theorem encodeWithKeys_eq (m : Option TMap) (keys : List Key) :
    encodeWithKeys m keys = .ok (sigOf (keys.map (valueOf m))) := by
  unfold encodeWithKeys
  exact writeAll_bytes _ _

/-- Decoding the signature of values that fit gives the non-empty values with their keys. -/
theorem decodeLoop_sig (f : Key → Bytes) (keys : List Key) (h : ∀ k ∈ keys, (f k).length ≤ 255)
    (rest : Bytes) :
    decodeLoop (sigOf (keys.map f) ++ rest) keys =
      .ok ((keys.filter (fun k => decide (f k ≠ []))).map fun k => (k, f k)) := by
  induction keys with
  | nil => rfl
  | cons k ks ih =>
    have hk := h k (by simp)
    have e : sigOf ((k :: ks).map f) ++ rest = frame (f k) ++ (sigOf (ks.map f) ++ rest) := by
      simp [sigOf]
    rw [e]
    simp only [decodeLoop, readValue_frame, Res.bind]
    rw [ih (fun k' hk' => h k' (by simp [hk']))]
    by_cases hz : f k = []
    · simp [hz]
    · have h1 : (f k).length % 256 ≠ 0 := by
        have : (f k).length ≠ 0 := by simpa using hz
        omega
      simp [h1, hz, take_mod_small hk]

theorem sigOf_inj (vs ws : List Bytes) (hl : vs.length = ws.length)
    (hv : ∀ v ∈ vs, v.length ≤ 255) (hw : ∀ w ∈ ws, w.length ≤ 255) (h : sigOf vs = sigOf ws) :
    vs = ws := by
  have := frames_inj vs ws hl h
  have e : ∀ (l : List Bytes), (∀ v ∈ l, v.length ≤ 255) →
      l.map (fun v => v.take (v.length % 256)) = l := by
    intro l hl
    induction l with
    | nil => rfl
    | cons a l ih =>
      rw [List.map_cons, take_mod_small (hl a (by simp)), ih (fun v hv => hl v (by simp [hv]))]
  rwa [e vs hv, e ws hw] at this

/-- Every datum of the collector has well-formed slices. -/
def Collector.Shape (c : Collector F) : Prop := ∀ sig d, GoMap.get c.signatures sig = some d → d.Shape

/-- An aggregation made by one of the package's constructors. -/
def Aggregation.Usable (a : Aggregation F) : Prop := ∃ k, a.newData = some k ∧ k ≠ .none

theorem Aggregation.mkData_ok {a : Aggregation F} (h : a.Usable) (t : Int) : ∃ d, a.mkData t = .ok d := by
  obtain ⟨k, hk, hne⟩ := h
  unfold Aggregation.mkData
  rw [hk]
  cases k <;> simp at hne ⊢

/-- Feeding samples under given signatures. -/
def Collector.addAll (c : Collector F) : List (Bytes × Sample F) → Res (Collector F)
  | [] => .ok c
  | (sig, s) :: l => (c.addSample sig s).bind fun c => c.addAll l

/-- What a row holds after a list of samples: nothing without samples, otherwise the aggregation's
initial datum (created at the first sample's time) fed with all of them. -/
def rowData (a : Aggregation F) (ss : List (Sample F)) : Option (AggData F) :=
  match ss with
  | [] => none
  | s :: _ => match a.mkData s.t with
    | .ok d => some (ss.foldl AggData.next d)
    | _ => none

theorem rowData_append {a : Aggregation F} (h : a.Usable) (ss : List (Sample F)) (s : Sample F) :
    rowData a (ss ++ [s]) = match rowData a ss with
      | some d => some (d.next s)
      | none => match a.mkData s.t with
        | .ok d => some (d.next s)
        | _ => none := by
  cases ss with
  | nil =>
    simp only [rowData, List.nil_append]
    cases a.mkData s.t <;> rfl
  | cons s0 ss =>
    obtain ⟨d, hd⟩ := Aggregation.mkData_ok h s0.t
    simp [rowData, hd]

theorem foldl_next_shape {d : AggData F} (h : d.Shape) (ss : List (Sample F)) :
    (ss.foldl AggData.next d).Shape := by
  induction ss generalizing d with
  | nil => exact h
  | cons s ss ih => exact ih (AggData.next_shape h s)

theorem rowData_shape {a : Aggregation F} {ss : List (Sample F)} {d : AggData F}
    (h : rowData a ss = some d) : d.Shape := by
  cases ss with
  | nil => simp [rowData] at h
  | cons s ss =>
    simp only [rowData] at h
    split at h
    · next d0 hd0 =>
      simp only [Option.some.injEq] at h
      subst h
      exact foldl_next_shape (mkData_shape hd0) _
    · simp at h

/-- The samples of `l` recorded under `sig`. -/
def samplesAt (l : List (Bytes × Sample F)) (sig : Bytes) : List (Sample F) :=
  (l.filter (fun p => decide (p.1 = sig))).map Prod.snd

/-- The collector holds exactly the samples of `l`. -/
def Collector.Holds (c : Collector F) (l : List (Bytes × Sample F)) : Prop :=
  GoMap.WF c.signatures ∧ ∀ sig, GoMap.get c.signatures sig = rowData c.a (samplesAt l sig)

theorem Collector.addSample_holds {c : Collector F} {l : List (Bytes × Sample F)}
    (ha : c.a.Usable) (h : c.Holds l) (sig : Bytes) (s : Sample F) :
    ∃ c', c.addSample sig s = .ok c' ∧ c'.a = c.a ∧ c'.Holds (l ++ [(sig, s)]) := by
  obtain ⟨hwf, hget⟩ := h
  have hs := hget sig
  have sa : ∀ sig', samplesAt (l ++ [(sig, s)]) sig' =
      if sig = sig' then samplesAt l sig' ++ [s] else samplesAt l sig' := by
    intro sig'
    unfold samplesAt
    by_cases he : sig = sig' <;> simp [List.filter_append, he]
  -- the datum the row gets
  have main : ∀ d', rowData c.a (samplesAt l sig ++ [s]) = some d' →
      (⟨GoMap.set c.signatures sig d', c.a⟩ : Collector F).Holds (l ++ [(sig, s)]) := by
    intro d' hd'
    refine ⟨GoMap.WF_set hwf _ _, ?_⟩
    intro sig'
    rw [sa, GoMap.get_set]
    by_cases he : sig = sig'
    · subst he; rw [if_pos rfl, if_pos rfl]; exact hd'.symm
    · rw [if_neg he, if_neg (Ne.symm he)]; exact hget sig'
  cases hr : rowData c.a (samplesAt l sig) with
  | some d =>
    rw [hr] at hs
    refine ⟨⟨GoMap.set c.signatures sig (d.next s), c.a⟩, ?_, rfl, main _ ?_⟩
    · simp only [Collector.addSample, hs, AggData.addSample_eq d (rowData_shape hr), Res.bind]
    · rw [rowData_append ha, hr]
  | none =>
    rw [hr] at hs
    obtain ⟨d, hd⟩ := Aggregation.mkData_ok ha s.t
    refine ⟨⟨GoMap.set c.signatures sig (d.next s), c.a⟩, ?_, rfl, main _ ?_⟩
    · simp only [Collector.addSample, hs, hd, AggData.addSample_eq d (mkData_shape hd), Res.bind]
    · rw [rowData_append ha, hr]; simp [hd]

theorem Collector.addAll_holds {c : Collector F} {l : List (Bytes × Sample F)}
    (ha : c.a.Usable) (h : c.Holds l) (l' : List (Bytes × Sample F)) :
    ∃ c', c.addAll l' = .ok c' ∧ c'.a = c.a ∧ c'.Holds (l ++ l') := by
  induction l' generalizing c l with
  | nil => exact ⟨c, rfl, rfl, by simpa using h⟩
  | cons p l' ih =>
    obtain ⟨sig, s⟩ := p
    obtain ⟨c1, h1, ha1, hh1⟩ := Collector.addSample_holds ha h sig s
    obtain ⟨c2, h2, ha2, hh2⟩ := ih (by rw [ha1]; exact ha) hh1
    refine ⟨c2, by simp [Collector.addAll, h1, h2, Res.bind], by rw [ha2, ha1], by simpa using hh2⟩

theorem Collector.holds_nil (a : Aggregation F) : (⟨[], a⟩ : Collector F).Holds [] := by
  refine ⟨by simp [GoMap.WF], ?_⟩
  intro sig; simp [GoMap.get, samplesAt, rowData]

omit [Arith F] in
theorem collectRows_ok (keys : List Key) (m : GoMap Bytes (AggData F))
    (dec : Bytes → List (Key × Bytes))
    (h : ∀ p ∈ m, decodeTags p.1 keys = .ok (dec p.1)) :
    collectRows keys m = .ok (m.map fun p => ⟨dec p.1, p.2⟩) := by
  induction m with
  | nil => rfl
  | cons p m ih =>
    obtain ⟨sig, d⟩ := p
    have h1 := h (sig, d) (by simp)
    simp only at h1
    simp only [collectRows, h1, Res.bind, ih (fun p hp => h p (by simp [hp]))]
    rfl

end Verif.View
