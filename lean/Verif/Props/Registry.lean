import Verif.Metric.Registry
import Mathlib.Data.List.Induction
import Mathlib.Tactic.ByContra

/-!
# C41: the metric registry
-/

namespace Verif.Props.Registry
open Verif Verif.Metric Verif.TagEncoding

/-! ## The specification, on the calls made -/

/-- The label value a series is reported with: an absent value carries no string. -/
def norm (v : LabelValue) : LabelValue := if v.present then v else ⟨[], false⟩

/-- Label values that survive the encoding (see C09). -/
def LabelsFit (vs : List LabelValue) : Prop := ∀ v ∈ vs, v.present = true → v.value.length ≤ 254

/-- `sort.Slice` has sorted the keys of the constant labels by `Key`. -/
def Sorted (o : Options) (ks : List LabelKey) : Prop :=
  ks.Perm (GoMap.keys o.constLabels) ∧ ks.Pairwise fun a b => ¬ b.key < a.key

/-- Calls as a program can make them, with label values that fit. -/
def CallOK : Call → Prop
  | .add _ _ o ks _ => GoMap.WF o.constLabels ∧ Sorted o ks ∧ LabelsFit (o.constLabels.map Prod.snd)
  | .getEntry _ vs => LabelsFit vs
  | .upsertEntry _ vs => LabelsFit vs

/-- The type under which a name was first added. -/
def firstType (cs : List Call) (name : Bytes) : Option BMType :=
  cs.findSome? fun c => match c with
    | .add ty n _ _ _ => if n = name then some ty else none
    | _ => none

/-- The label values asked of a handle. -/
def asked (h : Nat) : List Call → List (List LabelValue)
  | [] => []
  | .getEntry h' vs :: cs => if h' = h then vs :: asked h cs else asked h cs
  | .upsertEntry h' vs :: cs => if h' = h then vs :: asked h cs else asked h cs
  | .add .. :: cs => asked h cs

/-- `calls` does not add this name again with this type. -/
def NotAddedAgain (ty : BMType) (name : Bytes) (cs : List Call) : Prop :=
  ∀ c ∈ cs, ∀ o ks now, c ≠ .add ty name o ks now

/-! ## Encodings of label values -/

/-- The encoding. -/
def enc (vs : List LabelValue) : Bytes := (vs.map fun v => frame (labelBytes v)).flatten

theorem encode_eq (vs : List LabelValue) : encodeLabelVals vs = .ok (enc vs) := encodeLabelVals_eq vs

theorem decode_enc (vs : List LabelValue) (h : LabelsFit vs) :
    decodeLabelVals (enc vs) vs.length = .ok (vs.map norm) := by
  have := decodeLabelVals_frames vs h []
  rwa [List.append_nil] at this

theorem enc_norm (vs : List LabelValue) : enc (vs.map norm) = enc vs := by
  unfold enc
  rw [List.map_map]
  congr 1
  apply List.map_congr_left
  intro v _
  rcases v with ⟨a, p⟩
  cases p <;> simp [norm, labelBytes]

theorem fit_append {a b : List LabelValue} : LabelsFit (a ++ b) ↔ LabelsFit a ∧ LabelsFit b := by
  unfold LabelsFit
  constructor
  · exact fun h => ⟨fun v hv => h v (by simp [hv]), fun v hv => h v (by simp [hv])⟩
  · rintro ⟨h1, h2⟩ v hv
    rcases List.mem_append.1 hv with h | h
    · exact h1 v h
    · exact h2 v h

/-! ## Base metrics -/

/-- The entries of a base metric are under encodings of label values, the constant ones first. -/
structure BMOK (bm : BaseMetric) : Prop where
  wf : GoMap.WF bm.vals
  const : LabelsFit bm.constLabelValues
  keys : bm.desc.labelKeys = bm.keys
  type : bm.desc.type = bmTypeToMetricType bm.bmType
  vals : ∀ k e, (k, e) ∈ bm.vals → ∃ vs, LabelsFit vs ∧ (bm.constLabelValues ++ vs).length = bm.keys.length ∧
    k = enc (bm.constLabelValues ++ vs)

/-- Everything but the entries is the same. -/
def SameMeta (a b : BaseMetric) : Prop :=
  a.desc = b.desc ∧ a.start = b.start ∧ a.keys = b.keys ∧ a.constLabelValues = b.constLabelValues ∧ a.bmType = b.bmType

theorem SameMeta.refl (a : BaseMetric) : SameMeta a a := ⟨rfl, rfl, rfl, rfl, rfl⟩

theorem SameMeta.trans {a b c : BaseMetric} (h1 : SameMeta a b) (h2 : SameMeta b c) : SameMeta a c :=
  ⟨h1.1.trans h2.1, h1.2.1.trans h2.2.1, h1.2.2.1.trans h2.2.2.1, h1.2.2.2.1.trans h2.2.2.2.1, h1.2.2.2.2.trans h2.2.2.2.2⟩

/-- What one call does to the base metric of a handle. -/
def bmCall (h : Nat) (entries : Nat) (bm : BaseMetric) : Call → BaseMetric
  | .add .. => bm
  | .getEntry h' vs =>
    if h' = h ∧ (bm.constLabelValues ++ vs).length = bm.keys.length then
      match GoMap.get bm.vals (enc (bm.constLabelValues ++ vs)) with
      | some _ => bm
      | none => { bm with vals := GoMap.set bm.vals (enc (bm.constLabelValues ++ vs)) entries }
    else bm
  | .upsertEntry h' vs =>
    if h' = h ∧ (bm.constLabelValues ++ vs).length = bm.keys.length then
      { bm with vals := GoMap.set (GoMap.del bm.vals (enc (bm.constLabelValues ++ vs))) (enc (bm.constLabelValues ++ vs)) entries }
    else bm

theorem getElem?_set_bm (l : List BaseMetric) (h h' : Nat) (b bm : BaseMetric) (hb : l[h]? = some bm) :
    (l.set h' b)[h]? = some (if h' = h then b else bm) := by
  rw [List.getElem?_set]
  have hlt : h < l.length := by
    rcases List.getElem?_eq_some_iff.1 hb with ⟨hl, _⟩; exact hl
  by_cases he : h' = h
  · subst he; simp [hlt]
  · simp [he, hb]

theorem heap_call (r : Reg) (c : Call) (h : Nat) (bm : BaseMetric) (hb : r.heap[h]? = some bm) :
    (r.call c).heap[h]? = some (bmCall h r.entries bm c) := by
  have hlt : h < r.heap.length := by
    rcases List.getElem?_eq_some_iff.1 hb with ⟨hl, _⟩; exact hl
  cases c with
  | add ty name o ks now =>
    have happ : (r.heap ++ [newBaseMetric ty name o ks now])[h]? = some bm := by
      rw [List.getElem?_append_left hlt, hb]
    simp only [Reg.call, Reg.add, bmCall]
    split
    · split
      · exact hb
      · exact happ
    · exact happ
  | getEntry h' vs =>
    simp only [Reg.call, Reg.getEntry, bmCall]
    cases hh : r.heap[h']? with
    | none =>
      have : h' ≠ h := by rintro rfl; rw [hb] at hh; cases hh
      simp [this, hb]
    | some bm' =>
      simp only [encode_eq]
      by_cases he : h' = h
      · subst he
        rw [hb] at hh; cases hh
        by_cases hl : (bm.constLabelValues ++ vs).length = bm.keys.length
        · rw [if_neg (by simpa using hl), if_pos ⟨rfl, hl⟩]
          cases hg : GoMap.get bm.vals (enc (bm.constLabelValues ++ vs)) with
          | some e => simpa using hb
          | none =>
            simp only [Reg.setVals]
            rw [getElem?_set_bm _ _ _ _ _ hb, if_pos rfl]
        · rw [if_pos (by simpa using hl), if_neg (by simpa using hl)]
          exact hb
      · rw [if_neg (by simp [he] : ¬ (h' = h ∧ (bm.constLabelValues ++ vs).length = bm.keys.length))]
        split
        · exact hb
        · split
          · exact hb
          · simp only [Reg.setVals]
            rw [getElem?_set_bm _ _ _ _ _ hb, if_neg he]
  | upsertEntry h' vs =>
    simp only [Reg.call, Reg.upsertEntry, bmCall]
    cases hh : r.heap[h']? with
    | none =>
      have : h' ≠ h := by rintro rfl; rw [hb] at hh; cases hh
      simp [this, hb]
    | some bm' =>
      simp only [encode_eq]
      by_cases he : h' = h
      · subst he
        rw [hb] at hh; cases hh
        by_cases hl : (bm.constLabelValues ++ vs).length = bm.keys.length
        · rw [if_neg (by simpa using hl), if_pos ⟨rfl, hl⟩]
          simp only [Reg.setVals]
          rw [getElem?_set_bm _ _ _ _ _ hb, if_pos rfl]
        · rw [if_pos (by simpa using hl), if_neg (by simpa using hl)]
          exact hb
      · rw [if_neg (by simp [he] : ¬ (h' = h ∧ (bm.constLabelValues ++ vs).length = bm.keys.length))]
        split
        · exact hb
        · simp only [Reg.setVals]
          rw [getElem?_set_bm _ _ _ _ _ hb, if_neg he]

theorem bmCall_meta (h n : Nat) (bm : BaseMetric) (c : Call) : SameMeta bm (bmCall h n bm c) := by
  cases c with
  | add => exact SameMeta.refl _
  | getEntry h' vs =>
    simp only [bmCall]
    split
    · split <;> exact SameMeta.refl _
    · exact SameMeta.refl _
  | upsertEntry h' vs =>
    simp only [bmCall]
    split <;> exact SameMeta.refl _

theorem bmCall_ok (h n : Nat) (bm : BaseMetric) (c : Call) (hc : CallOK c) (hb : BMOK bm) : BMOK (bmCall h n bm c) := by
  cases c with
  | add => exact hb
  | getEntry h' vs =>
    simp only [bmCall]
    split
    · rename_i hl
      split
      · exact hb
      · refine ⟨GoMap.WF_set hb.wf _ _, hb.const, hb.keys, hb.type, fun k e hk => ?_⟩
        rcases GoMap.mem_set hk with h1 | h1
        · cases h1; exact ⟨vs, hc, hl.2, rfl⟩
        · exact hb.vals k e h1
    · exact hb
  | upsertEntry h' vs =>
    simp only [bmCall]
    split
    · rename_i hl
      refine ⟨GoMap.WF_set (GoMap.WF_del hb.wf _) _ _, hb.const, hb.keys, hb.type, fun k e hk => ?_⟩
      rcases GoMap.mem_set hk with h1 | h1
      · cases h1; exact ⟨vs, hc, hl.2, rfl⟩
      · exact hb.vals k e (GoMap.mem_del h1)
    · exact hb

theorem newBaseMetric_ok (ty : BMType) (name : Bytes) (o : Options) (ks : List LabelKey) (now : Int)
    (hc : CallOK (.add ty name o ks now)) : BMOK (newBaseMetric ty name o ks now) := by
  obtain ⟨hw, ⟨hp, _⟩, hf⟩ := hc
  refine ⟨GoMap.WF_nil, ?_, rfl, rfl, by simp [newBaseMetric]⟩
  intro v hv
  obtain ⟨k, hk, rfl⟩ := List.mem_map.1 hv
  obtain ⟨⟨k', w⟩, hm, rfl⟩ := List.mem_map.1 (hp.mem_iff.1 hk)
  rw [GoMap.get_of_mem hw hm]
  exact hf w (List.mem_map.2 ⟨_, hm, rfl⟩)

/-! ## The registry -/

/-- What holds after calls. -/
structure Inv (cs : List Call) (r : Reg) : Prop where
  wf : GoMap.WF r.baseMetrics
  bms : ∀ bm ∈ r.heap, BMOK bm
  names : ∀ n h, GoMap.get r.baseMetrics n = some h → ∃ bm, r.heap[h]? = some bm ∧ bm.desc.name = n ∧
    firstType cs n = some bm.bmType
  none : ∀ n, GoMap.get r.baseMetrics n = none → firstType cs n = none

theorem firstType_append (cs ds : List Call) (n : Bytes) :
    firstType (cs ++ ds) n = (firstType cs n).or (firstType ds n) := by
  simp [firstType, List.findSome?_append]

theorem baseMetrics_entry (r : Reg) (h : Nat) (vs : List LabelValue) :
    (r.getEntry h vs).1.baseMetrics = r.baseMetrics ∧ (r.upsertEntry h vs).1.baseMetrics = r.baseMetrics ∧
    (r.getEntry h vs).1.heap.length = r.heap.length ∧ (r.upsertEntry h vs).1.heap.length = r.heap.length := by
  unfold Reg.getEntry Reg.upsertEntry
  simp only [encode_eq]
  cases r.heap[h]? with
  | none => exact ⟨rfl, rfl, rfl, rfl⟩
  | some bm =>
    dsimp only
    split
    · exact ⟨rfl, rfl, rfl, rfl⟩
    · split <;> simp [Reg.setVals]

theorem inv_bms {cs : List Call} {r : Reg} (h : Inv cs r) (c : Call) (hc : CallOK c)
    (hlen : (r.call c).heap.length = r.heap.length ) : ∀ bm ∈ (r.call c).heap, BMOK bm := by
  intro bm hbm
  obtain ⟨i, hi⟩ := List.mem_iff_getElem?.1 hbm
  have hlt : i < r.heap.length := by
    rcases List.getElem?_eq_some_iff.1 hi with ⟨hl, _⟩; omega
  have := heap_call r c i _ (List.getElem?_eq_getElem hlt)
  rw [hi] at this
  cases this
  exact bmCall_ok _ _ _ _ hc (h.bms _ (List.getElem_mem hlt))

theorem inv_same {cs : List Call} {r : Reg} (h : Inv cs r) (c : Call) (hc : CallOK c)
    (hft : ∀ n, firstType [c] n = .none)
    (hb : (r.call c).baseMetrics = r.baseMetrics) (hlen : (r.call c).heap.length = r.heap.length) : Inv (cs ++ [c]) (r.call c) := by
  refine ⟨by rw [hb]; exact h.wf, inv_bms h c hc hlen, fun n i hn => ?_, fun n hn => ?_⟩
  · rw [hb] at hn
    obtain ⟨bm, h1, h2, h3⟩ := h.names n i hn
    have hm := bmCall_meta i r.entries bm c
    refine ⟨_, heap_call r c i bm h1, by rw [← hm.1]; exact h2, ?_⟩
    rw [firstType_append, h3, ← hm.2.2.2.2]; rfl
  · rw [hb] at hn
    rw [firstType_append, h.none n hn, hft]; rfl

theorem inv_call {cs : List Call} {r : Reg} (h : Inv cs r) (c : Call) (hc : CallOK c) : Inv (cs ++ [c]) (r.call c) := by
  cases c with
  | getEntry i vs =>
    have := baseMetrics_entry r i vs
    exact inv_same h _ hc (fun n => rfl) this.1 this.2.2.1
  | upsertEntry i vs =>
    have := baseMetrics_entry r i vs
    exact inv_same h _ hc (fun n => rfl) this.2.1 this.2.2.2
  | add ty name o ks now =>
    have hstored : (firstType cs name = .none ∨ firstType cs name = some ty) →
        Inv (cs ++ [.add ty name o ks now]) { r with heap := r.heap ++ [newBaseMetric ty name o ks now],
                                                     baseMetrics := GoMap.set r.baseMetrics name r.heap.length } := by
      intro hf
      refine ⟨GoMap.WF_set h.wf _ _, ?_, fun n i hn => ?_, fun n hn => ?_⟩
      · intro bm hbm
        rcases List.mem_append.1 hbm with h1 | h1
        · exact h.bms bm h1
        · rw [List.mem_singleton.1 h1]; exact newBaseMetric_ok _ _ _ _ _ hc
      · simp only [GoMap.get_set] at hn
        split at hn
        · rename_i hnn
          cases hn
          refine ⟨newBaseMetric ty name o ks now, by simp, by rw [hnn]; rfl, ?_⟩
          rw [firstType_append, hnn]
          rcases hf with hf | hf <;> rw [hf] <;> simp [firstType, newBaseMetric]
        · obtain ⟨bm, h1, h2, h3⟩ := h.names n i hn
          have hlt : i < r.heap.length := by
            rcases List.getElem?_eq_some_iff.1 h1 with ⟨hl, _⟩; exact hl
          refine ⟨bm, by simp only; rw [List.getElem?_append_left hlt, h1], h2, ?_⟩
          rw [firstType_append, h3]; rfl
      · simp only [GoMap.get_set] at hn
        split at hn
        · cases hn
        · rename_i hne
          rw [firstType_append, h.none n hn]
          simp [firstType, Ne.symm hne]
    simp only [Reg.call, Reg.add]
    cases hg : GoMap.get r.baseMetrics name with
    | none => exact hstored (Or.inl (h.none name hg))
    | some i =>
      obtain ⟨bm, h1, h2, h3⟩ := h.names name i hg
      simp only [Option.bind_some, h1]
      split
      · refine ⟨h.wf, h.bms, fun n j hn => ?_, fun n hn => ?_⟩
        · obtain ⟨bm', k1, k2, k3⟩ := h.names n j hn
          exact ⟨bm', k1, k2, by rw [firstType_append, k3]; rfl⟩
        · have hne : n ≠ name := by rintro rfl; rw [hg] at hn; cases hn
          rw [firstType_append, h.none n hn]
          simp [firstType, Ne.symm hne]
      · rename_i hty
        exact hstored (Or.inr (by rw [h3]; simpa using hty))

theorem calls_append (r : Reg) (a b : List Call) : r.calls (a ++ b) = (r.calls a).calls b := by
  simp [Reg.calls]

theorem inv_calls (cs : List Call) (hc : ∀ c ∈ cs, CallOK c) : Inv cs (Reg.empty.calls cs) := by
  induction cs using List.reverseRecOn with
  | nil => exact ⟨GoMap.WF_nil, by simp [Reg.calls, Reg.empty], by simp [Reg.calls, Reg.empty], fun n _ => rfl⟩
  | append_singleton cs c ih =>
    rw [calls_append]
    exact inv_call (ih fun x hx => hc x (by simp [hx])) c (hc c (by simp))

/-! ## Reading -/

/-- The label values a key stands for. -/
def dec (n : Nat) (k : Bytes) : List LabelValue :=
  match decodeLabelVals k n with
  | .ok vs => vs
  | _ => []

theorem readSeries_eq {V : Type} (look : Nat → V) (n : Nat) (start : Int) (l : List (Bytes × Nat))
    (h : ∀ k e, (k, e) ∈ l → ∃ vs, decodeLabelVals k n = .ok vs) :
    readSeries look n start l = .ok (l.map fun p => ⟨start, dec n p.1, look p.2⟩) := by
  induction l with
  | nil => rfl
  | cons p l ih =>
    obtain ⟨k, e⟩ := p
    obtain ⟨vs, hv⟩ := h k e (by simp)
    simp [readSeries, hv, Res.bind, ih (fun k e hk => h k e (List.mem_cons_of_mem _ hk)), dec]

theorem BMOK.decode {bm : BaseMetric} (h : BMOK bm) (k : Bytes) (e : Nat) (hk : (k, e) ∈ bm.vals) :
    decodeLabelVals k bm.keys.length = .ok (dec bm.keys.length k) ∧ (dec bm.keys.length k).length = bm.keys.length ∧
    enc (dec bm.keys.length k) = k := by
  obtain ⟨vs, h1, h2, h3⟩ := h.vals k e hk
  have hd := decode_enc (bm.constLabelValues ++ vs) (fit_append.2 ⟨h.const, h1⟩)
  rw [h2, ← h3] at hd
  have he : dec bm.keys.length k = (bm.constLabelValues ++ vs).map norm := by simp [dec, hd]
  rw [he]
  exact ⟨hd, by rw [List.length_map]; exact h2, by rw [enc_norm]; exact h3.symm⟩

theorem read_bm {V : Type} (look : Nat → V) {bm : BaseMetric} (h : BMOK bm) (now : Int) (order : List (Bytes × Nat))
    (ho : order.Perm bm.vals) :
    bm.read look now order = .ok ⟨bm.desc, order.map fun p => ⟨bm.startTime now, dec bm.keys.length p.1, look p.2⟩⟩ := by
  unfold BaseMetric.read
  rw [readSeries_eq look _ _ _ (fun k e hk => ⟨_, (h.decode k e (ho.mem_iff.1 hk)).1⟩)]
  rfl

/-- The base metric of a handle. -/
def bmAt (r : Reg) (h : Nat) : BaseMetric := (r.heap[h]?).getD (newBaseMetric .gaugeInt64 [] ⟨[], [], [], []⟩ [] 0)

/-- What a reading of the base metric of a handle is. -/
def readAt {V : Type} (look : Nat → V) (r : Reg) (now : Nat → Int) (orders : Nat → List (Bytes × Nat)) (h : Nat) : Metric' V :=
  ⟨(bmAt r h).desc, (orders h).map fun p => ⟨(bmAt r h).startTime (now h), dec (bmAt r h).keys.length p.1, look p.2⟩⟩

/-- `Range` may take the entries of each base metric in any order. -/
def Orders (r : Reg) (orders : Nat → List (Bytes × Nat)) : Prop :=
  ∀ h bm, r.heap[h]? = some bm → (orders h).Perm bm.vals

theorem read_eq {V : Type} (look : Nat → V) {cs : List Call} {r : Reg} (h : Inv cs r) (now : Nat → Int)
    (orders : Nat → List (Bytes × Nat)) (ho : Orders r orders) (order : List (Bytes × Nat))
    (hor : ∀ p ∈ order, p ∈ r.baseMetrics) :
    r.read look now orders order = .ok (order.map fun p => readAt look r now orders p.2) := by
  induction order with
  | nil => rfl
  | cons p order ih =>
    obtain ⟨n, i⟩ := p
    obtain ⟨bm, h1, h2, h3⟩ := h.names n i (GoMap.get_of_mem h.wf (hor _ (by simp)))
    have hb : bmAt r i = bm := by simp [bmAt, h1]
    simp only [Reg.read, h1, List.map_cons, readAt, hb]
    rw [read_bm look (h.bms bm (List.mem_of_getElem? h1)) _ _ (ho i bm h1)]
    simp only [Res.bind]
    rw [ih (fun p hp => hor p (List.mem_cons_of_mem _ hp))]
    rfl

/-! ## C41 -/

/-- After any calls, a reading succeeds and has exactly one metric for each name that was added, of the
type it was first added with; its time series have different label values, as many as the descriptor has
keys. -/
theorem read_one_metric_per_name {V : Type} (look : Nat → V) (cs : List Call) (hc : ∀ c ∈ cs, CallOK c)
    (now : Nat → Int) (orders : Nat → List (Bytes × Nat)) (ho : Orders (Reg.empty.calls cs) orders)
    (order : List (Bytes × Nat)) (hor : order.Perm (Reg.empty.calls cs).baseMetrics) :
    ∃ ms, (Reg.empty.calls cs).read look now orders order = .ok ms ∧
      (ms.map fun m => m.descriptor.name).Nodup ∧
      (∀ n, (∃ m ∈ ms, m.descriptor.name = n) ↔ ∃ ty o ks t, Call.add ty n o ks t ∈ cs) ∧
      ∀ m ∈ ms, (∃ ty, firstType cs m.descriptor.name = some ty ∧ m.descriptor.type = bmTypeToMetricType ty) ∧
        (m.timeSeries.map fun ts => ts.labelValues).Nodup ∧
        ∀ ts ∈ m.timeSeries, ts.labelValues.length = m.descriptor.labelKeys.length := by
  have h := inv_calls cs hc
  generalize Reg.empty.calls cs = r at h ho hor
  have hwo : GoMap.WF order := GoMap.WF_perm hor.symm h.wf
  have hat : ∀ n i, (n, i) ∈ order → ∃ bm, r.heap[i]? = some bm ∧ bmAt r i = bm ∧ bm.desc.name = n ∧
      firstType cs n = some bm.bmType ∧ BMOK bm := by
    intro n i hm
    obtain ⟨bm, h1, h2, h3⟩ := h.names n i (GoMap.get_of_mem h.wf (hor.mem_iff.1 hm))
    exact ⟨bm, h1, by simp [bmAt, h1], h2, h3, h.bms bm (List.mem_of_getElem? h1)⟩
  have hnames : (order.map fun p => (bmAt r p.2).desc.name) = GoMap.keys order := by
    unfold GoMap.keys
    apply List.map_congr_left
    rintro ⟨n, i⟩ hp
    obtain ⟨bm, h1, h2, h3, _⟩ := hat n i hp
    simp only [h2, h3]
  refine ⟨_, read_eq look h now orders ho order (fun p hp => hor.mem_iff.1 hp), ?_, ?_, ?_⟩
  · rw [List.map_map]
    show (order.map fun p => (bmAt r p.2).desc.name).Nodup
    rw [hnames]; exact hwo
  · intro n
    have h1 : (∃ m ∈ order.map fun p => readAt look r now orders p.2, m.descriptor.name = n) ↔ n ∈ GoMap.keys order := by
      rw [← hnames, List.mem_map]
      constructor
      · rintro ⟨m, hm, he⟩
        obtain ⟨p, hp, rfl⟩ := List.mem_map.1 hm
        exact ⟨p, hp, he⟩
      · rintro ⟨p, hp, he⟩
        exact ⟨_, List.mem_map.2 ⟨p, hp, rfl⟩, he⟩
    rw [h1, show n ∈ GoMap.keys order ↔ n ∈ GoMap.keys r.baseMetrics from (hor.map Prod.fst).mem_iff]
    have h2 : n ∈ GoMap.keys r.baseMetrics ↔ firstType cs n ≠ none := by
      constructor
      · intro hn
        cases hg : GoMap.get r.baseMetrics n with
        | none => exact absurd hn ((GoMap.get_eq_none_iff _ _).1 hg)
        | some i =>
          obtain ⟨bm, _, _, h3⟩ := h.names n i hg
          rw [h3]; simp
      · intro hf
        by_contra hn
        exact hf (h.none n ((GoMap.get_eq_none_iff _ _).2 hn))
    rw [h2]
    unfold firstType
    rw [Ne, List.findSome?_eq_none_iff]
    constructor
    · intro hne
      by_contra hcon
      apply hne
      intro c hcm
      cases c with
      | add ty n' o ks t =>
        by_cases he : n' = n
        · subst he; exact absurd ⟨ty, o, ks, t, hcm⟩ hcon
        · simp [he]
      | _ => rfl
    · rintro ⟨ty, o, ks, t, hm⟩ hall
      have := hall _ hm
      simp at this
  · intro m hm
    obtain ⟨⟨n, i⟩, hp, rfl⟩ := List.mem_map.1 hm
    obtain ⟨bm, h1, h2, h3, h4, h5⟩ := hat n i hp
    have hper := ho i bm h1
    simp only [readAt, h2, h3, h4, h5.type, h5.keys]
    refine ⟨⟨_, rfl, rfl⟩, ?_, ?_⟩
    · rw [List.map_map]
      have hk : ((orders i).map Prod.fst).Nodup := GoMap.WF_perm hper.symm h5.wf
      have : (orders i).map Prod.fst = ((orders i).map fun p => dec bm.keys.length p.1).map enc := by
        rw [List.map_map]
        apply List.map_congr_left
        rintro ⟨k, e⟩ hke
        exact (h5.decode k e (hper.mem_iff.1 hke)).2.2.symm
      rw [this] at hk
      exact List.Pairwise.of_map enc (fun a b hab he => hab (by rw [he])) hk
    · intro ts hts
      obtain ⟨⟨k, e⟩, hke, rfl⟩ := List.mem_map.1 hts
      exact (h5.decode k e (hper.mem_iff.1 hke)).2.1

/-- Adding a metric fails exactly if the name was first added with another type, and then the registry is
as before. -/
theorem add_fails_iff (cs : List Call) (hc : ∀ c ∈ cs, CallOK c) (ty : BMType) (name : Bytes) (o : Options)
    (ks : List LabelKey) (now : Int) :
    (((Reg.empty.calls cs).add ty name o ks now).2 = none ↔ ∃ ty', firstType cs name = some ty' ∧ ty' ≠ ty) ∧
    (((Reg.empty.calls cs).add ty name o ks now).2 = none →
      ((Reg.empty.calls cs).add ty name o ks now).1 = Reg.empty.calls cs) := by
  have h := inv_calls cs hc
  generalize Reg.empty.calls cs = r at h
  unfold Reg.add
  cases hg : GoMap.get r.baseMetrics name with
  | none => simp [h.none name hg]
  | some i =>
    obtain ⟨bm, h1, h2, h3⟩ := h.names name i hg
    simp only [Option.bind_some, h1, h3]
    by_cases ht : bm.bmType = ty
    · simp [ht]
    · simp [ht]

theorem add_some {cs : List Call} {r : Reg} (h : Inv cs r) {ty : BMType} {name : Bytes} {o : Options} {ks : List LabelKey}
    {now : Int} {i : Nat} (ha : (r.add ty name o ks now).2 = some i) :
    (r.add ty name o ks now).1.heap[i]? = some (newBaseMetric ty name o ks now) ∧
    GoMap.get (r.add ty name o ks now).1.baseMetrics name = some i ∧ i = r.heap.length ∧
    (r.add ty name o ks now).1.heap.length = i + 1 := by
  unfold Reg.add at ha ⊢
  cases hg : GoMap.get r.baseMetrics name with
  | none =>
    simp only [hg, Option.bind_none, Option.some.injEq] at ha ⊢
    subst ha
    simp
  | some j =>
    obtain ⟨bm, h1, h2, h3⟩ := h.names name j hg
    simp only [hg, Option.bind_some, h1] at ha ⊢
    by_cases ht : bm.bmType = ty
    · simp only [ht, ne_eq, not_true_eq_false, if_false, Option.some.injEq] at ha ⊢
      subst ha
      simp
    · simp [ht] at ha

/-- The name still stands for the handle after calls that do not add it again. -/
theorem name_kept {cs : List Call} {r : Reg} (h : Inv cs r) (ty : BMType) (name : Bytes) (i : Nat)
    (hg : GoMap.get r.baseMetrics name = some i) (hty : firstType cs name = some ty) (ds : List Call)
    (hd : ∀ c ∈ ds, CallOK c) (hn : NotAddedAgain ty name ds) :
    GoMap.get (r.calls ds).baseMetrics name = some i := by
  induction ds generalizing cs r with
  | nil => exact hg
  | cons c ds ih =>
    have hinv := inv_call h c (hd c (by simp))
    have hstep : GoMap.get (r.call c).baseMetrics name = some i := by
      cases c with
      | getEntry j vs => rw [Reg.call, (baseMetrics_entry r j vs).1]; exact hg
      | upsertEntry j vs => rw [Reg.call, (baseMetrics_entry r j vs).2.1]; exact hg
      | add ty' name' o ks now =>
        by_cases hne : name = name'
        · subst hne
          have htt : ty' ≠ ty := by
            rintro rfl
            exact hn _ (by simp) o ks now rfl
          obtain ⟨bm, h1, h2, h3⟩ := h.names name i hg
          have : bm.bmType = ty := by rw [hty] at h3; cases h3; rfl
          simp only [Reg.call, Reg.add, hg, Option.bind_some, h1]
          rw [if_pos (by rw [this]; exact Ne.symm htt)]
          exact hg
        · have hset : GoMap.get (GoMap.set r.baseMetrics name' r.heap.length) name = some i := by
            rw [GoMap.get_set_other _ _ hne]; exact hg
          simp only [Reg.call, Reg.add]
          split
          · split
            · exact hg
            · exact hset
          · exact hset
    have := ih hinv hstep (by rw [firstType_append, hty]; rfl) (fun x hx => hd x (List.mem_cons_of_mem _ hx))
      (fun x hx => hn x (List.mem_cons_of_mem _ hx))
    simpa [Reg.calls] using this

/-- The base metric of a handle after calls. -/
theorem heap_calls (r : Reg) (ds : List Call) (i : Nat) (bm : BaseMetric) (hb : r.heap[i]? = some bm) :
    ∃ bm', (r.calls ds).heap[i]? = some bm' ∧ SameMeta bm bm' ∧
      ∀ k, k ∈ GoMap.keys bm'.vals ↔ k ∈ GoMap.keys bm.vals ∨
        ∃ vs ∈ asked i ds, (bm.constLabelValues ++ vs).length = bm.keys.length ∧ k = enc (bm.constLabelValues ++ vs) := by
  induction ds generalizing r bm with
  | nil => exact ⟨bm, hb, SameMeta.refl _, by simp [asked]⟩
  | cons c ds ih =>
    obtain ⟨bm', h1, h2, h3⟩ := ih (r.call c) _ (heap_call r c i bm hb)
    have hm := bmCall_meta i r.entries bm c
    refine ⟨bm', by simpa [Reg.calls] using h1, hm.trans h2, fun k => ?_⟩
    rw [h3 k, ← hm.2.2.2.1, ← hm.2.2.1]
    cases c with
    | add => simp [bmCall, asked]
    | getEntry j vs =>
      simp only [bmCall, asked]
      by_cases hj : j = i
      · subst hj
        by_cases hl : (bm.constLabelValues ++ vs).length = bm.keys.length
        · rw [if_pos ⟨rfl, hl⟩]
          cases hg : GoMap.get bm.vals (enc (bm.constLabelValues ++ vs)) with
          | some e =>
            have hmem : enc (bm.constLabelValues ++ vs) ∈ GoMap.keys bm.vals := by
              by_contra hcon
              rw [(GoMap.get_eq_none_iff _ _).2 hcon] at hg; cases hg
            simp only [if_true, List.mem_cons]
            constructor
            · rintro (h | ⟨w, hw, he⟩)
              · exact Or.inl h
              · exact Or.inr ⟨w, Or.inr hw, he⟩
            · rintro (h | ⟨w, rfl | hw, he⟩)
              · exact Or.inl h
              · exact Or.inl (by rw [he.2]; exact hmem)
              · exact Or.inr ⟨w, hw, he⟩
          | none =>
            simp only [if_true, List.mem_cons, GoMap.keys_set_mem]
            constructor
            · rintro ((h | h) | ⟨w, hw, he⟩)
              · exact Or.inr ⟨vs, Or.inl rfl, hl, h⟩
              · exact Or.inl h
              · exact Or.inr ⟨w, Or.inr hw, he⟩
            · rintro (h | ⟨w, rfl | hw, he⟩)
              · exact Or.inl (Or.inr h)
              · exact Or.inl (Or.inl he.2)
              · exact Or.inr ⟨w, hw, he⟩
        · rw [if_neg (by simp only [true_and]; exact hl)]
          simp only [if_true, List.mem_cons]
          constructor
          · rintro (h | ⟨w, hw, he⟩)
            · exact Or.inl h
            · exact Or.inr ⟨w, Or.inr hw, he⟩
          · rintro (h | ⟨w, rfl | hw, he⟩)
            · exact Or.inl h
            · exact absurd he.1 hl
            · exact Or.inr ⟨w, hw, he⟩
      · rw [if_neg (by simp [hj]), if_neg hj]
    | upsertEntry j vs =>
      simp only [bmCall, asked]
      by_cases hj : j = i
      · subst hj
        by_cases hl : (bm.constLabelValues ++ vs).length = bm.keys.length
        · rw [if_pos ⟨rfl, hl⟩]
          simp only [if_true, List.mem_cons, GoMap.keys_set_mem, GoMap.keys_del_mem]
          constructor
          · rintro ((h | h) | ⟨w, hw, he⟩)
            · exact Or.inr ⟨vs, Or.inl rfl, hl, h⟩
            · exact Or.inl h.2
            · exact Or.inr ⟨w, Or.inr hw, he⟩
          · rintro (h | ⟨w, rfl | hw, he⟩)
            · by_cases hk : k = enc (bm.constLabelValues ++ vs)
              · exact Or.inl (Or.inl hk)
              · exact Or.inl (Or.inr ⟨hk, h⟩)
            · exact Or.inl (Or.inl he.2)
            · exact Or.inr ⟨w, hw, he⟩
        · rw [if_neg (by simp only [true_and]; exact hl)]
          simp only [if_true, List.mem_cons]
          constructor
          · rintro (h | ⟨w, hw, he⟩)
            · exact Or.inl h
            · exact Or.inr ⟨w, Or.inr hw, he⟩
          · rintro (h | ⟨w, rfl | hw, he⟩)
            · exact Or.inl h
            · exact absurd he.1 hl
            · exact Or.inr ⟨w, hw, he⟩
      · rw [if_neg (by simp [hj]), if_neg hj]

/-- A handle obtained from the registry stays exported as long as the name is not added again with the
same type: every reading has a metric with the descriptor that was asked for, the constant labels first,
and with one time series for each combination of label values asked of the handle, the constant values
first.

Partial: C41 says so without the condition, and then it fails: `handle_no_longer_exported`. -/
theorem handle_stays_exported_partial {V : Type} (look : Nat → V) (cs ds : List Call) (ty : BMType) (name : Bytes)
    (o : Options) (ks : List LabelKey) (start : Int) (i : Nat)
    (hc : ∀ c ∈ cs ++ .add ty name o ks start :: ds, CallOK c) (hn : NotAddedAgain ty name ds)
    (ha : ((Reg.empty.calls cs).add ty name o ks start).2 = some i)
    (now : Nat → Int) (orders : Nat → List (Bytes × Nat))
    (ho : Orders (Reg.empty.calls (cs ++ .add ty name o ks start :: ds)) orders)
    (order : List (Bytes × Nat)) (hor : order.Perm (Reg.empty.calls (cs ++ .add ty name o ks start :: ds)).baseMetrics) :
    ∃ ms m, (Reg.empty.calls (cs ++ .add ty name o ks start :: ds)).read look now orders order = .ok ms ∧ m ∈ ms ∧
      m.descriptor = ⟨name, o.desc, o.unit, bmTypeToMetricType ty, ks ++ o.labelKeys⟩ ∧
      ∀ l, (∃ ts ∈ m.timeSeries, ts.labelValues = l) ↔
        ∃ vs ∈ asked i ds, vs.length = o.labelKeys.length ∧
          l = (ks.map fun k => norm ((GoMap.get o.constLabels k).getD ⟨[], false⟩)) ++ vs.map norm := by
  have hinv := inv_calls _ hc
  have h0 := inv_calls cs (fun c hx => hc c (by simp [hx]))
  obtain ⟨a1, a2, a3, a4⟩ := add_some h0 ha
  have hcall := inv_call h0 (.add ty name o ks start) (hc _ (by simp))
  have e : Reg.empty.calls (cs ++ .add ty name o ks start :: ds) =
      ((Reg.empty.calls cs).call (.add ty name o ks start)).calls ds := by simp [Reg.calls]
  have hft : firstType (cs ++ [.add ty name o ks start]) name = some ty := by
    obtain ⟨bm, b1, b2, b3⟩ := hcall.names name i a2
    have : some bm = some (newBaseMetric ty name o ks start) := by rw [← b1]; exact a1
    cases this
    exact b3
  have hname := name_kept hcall ty name i a2 hft ds (fun c hx => hc c (by simp [hx])) hn
  obtain ⟨bm', b1, b2, b3⟩ := heap_calls ((Reg.empty.calls cs).call (.add ty name o ks start)) ds i _ a1
  rw [← e] at hname b1
  generalize Reg.empty.calls (cs ++ .add ty name o ks start :: ds) = r at hinv ho hor hname b1
  have hok := hinv.bms bm' (List.mem_of_getElem? b1)
  have hat : bmAt r i = bm' := by simp [bmAt, b1]
  refine ⟨_, readAt look r now orders i, read_eq look hinv now orders ho order (fun p hp => hor.mem_iff.1 hp), ?_, ?_, ?_⟩
  · exact List.mem_map.2 ⟨(name, i), hor.mem_iff.2 (GoMap.mem_of_get hname), rfl⟩
  · simp only [readAt, hat, ← b2.1]; rfl
  · intro l
    have hkeys : bm'.keys.length = ks.length + o.labelKeys.length := by
      rw [← b2.2.2.1]; simp [newBaseMetric]
    have hconst : bm'.constLabelValues = ks.map fun k => (GoMap.get o.constLabels k).getD ⟨[], false⟩ := b2.2.2.2.1.symm
    have hper := ho i bm' b1
    have hdec : ∀ vs, LabelsFit vs → (bm'.constLabelValues ++ vs).length = bm'.keys.length →
        dec bm'.keys.length (enc (bm'.constLabelValues ++ vs)) = (bm'.constLabelValues ++ vs).map norm := by
      intro vs hv hl
      rw [← hl]
      simp only [dec, decode_enc _ (fit_append.2 ⟨hok.const, hv⟩)]
    have hfit : ∀ vs ∈ asked i ds, LabelsFit vs := by
      have hds : ∀ c ∈ ds, CallOK c := fun c hx => hc c (by simp [hx])
      clear * - hds
      induction ds with
      | nil => simp [asked]
      | cons c ds ih =>
        have ih := ih (fun x hx => hds x (List.mem_cons_of_mem _ hx))
        have h0 := hds c (by simp)
        cases c with
        | add => exact ih
        | getEntry j vs =>
          simp only [asked]
          split
          · intro w hw
            rcases List.mem_cons.1 hw with rfl | hw
            · exact h0
            · exact ih w hw
          · exact ih
        | upsertEntry j vs =>
          simp only [asked]
          split
          · intro w hw
            rcases List.mem_cons.1 hw with rfl | hw
            · exact h0
            · exact ih w hw
          · exact ih
    have hmem : (∃ ts ∈ (readAt look r now orders i).timeSeries, ts.labelValues = l) ↔
        ∃ k ∈ GoMap.keys bm'.vals, dec bm'.keys.length k = l := by
      simp only [readAt, hat, GoMap.keys, List.mem_map]
      constructor
      · rintro ⟨ts, ⟨p, hp, rfl⟩, rfl⟩
        exact ⟨p.1, ⟨p, hper.mem_iff.1 hp, rfl⟩, rfl⟩
      · rintro ⟨k, ⟨p, hp, rfl⟩, rfl⟩
        exact ⟨_, ⟨p, hper.mem_iff.2 hp, rfl⟩, rfl⟩
    rw [hmem]
    have hmap : ∀ vs, (bm'.constLabelValues ++ vs).map norm =
        (ks.map fun k => norm ((GoMap.get o.constLabels k).getD ⟨[], false⟩)) ++ vs.map norm := by
      intro vs
      rw [List.map_append, hconst, List.map_map]; rfl
    have hcl : bm'.constLabelValues.length = ks.length := by rw [hconst, List.length_map]
    have b3' : ∀ k, k ∈ GoMap.keys bm'.vals ↔ ∃ vs ∈ asked i ds,
        (bm'.constLabelValues ++ vs).length = bm'.keys.length ∧ k = enc (bm'.constLabelValues ++ vs) := by
      intro k
      rw [b3 k, b2.2.2.2.1, b2.2.2.1]
      simp [newBaseMetric]
    constructor
    · rintro ⟨k, hk, rfl⟩
      obtain ⟨vs, hv, hl, rfl⟩ := (b3' k).1 hk
      refine ⟨vs, hv, ?_, by rw [hdec vs (hfit vs hv) hl, hmap]⟩
      rw [List.length_append, hcl, hkeys] at hl; omega
    · rintro ⟨vs, hv, hl, rfl⟩
      have hl' : (bm'.constLabelValues ++ vs).length = bm'.keys.length := by
        rw [List.length_append, hcl, hkeys, hl]
      exact ⟨_, (b3' _).2 ⟨vs, hv, hl', rfl⟩, by rw [hdec vs (hfit vs hv) hl', hmap]⟩

/-- Every constant label is in its place: the descriptor has its key where the time series have its value. -/
theorem const_label_in_place (o : Options) (ks : List LabelKey) (hw : GoMap.WF o.constLabels) (hs : Sorted o ks)
    (k : LabelKey) (v : LabelValue) (hk : (k, v) ∈ o.constLabels) (rest : List LabelValue) :
    ∃ j < ks.length, (ks ++ o.labelKeys)[j]? = some k ∧
      ((ks.map fun k => norm ((GoMap.get o.constLabels k).getD ⟨[], false⟩)) ++ rest)[j]? = some (norm v) := by
  have hm : k ∈ ks := hs.1.mem_iff.2 (List.mem_map.2 ⟨_, hk, rfl⟩)
  obtain ⟨j, hj⟩ := List.mem_iff_getElem?.1 hm
  have hlt : j < ks.length := (List.getElem?_eq_some_iff.1 hj).1
  refine ⟨j, hlt, by rw [List.getElem?_append_left hlt, hj], ?_⟩
  rw [List.getElem?_append_left (by simpa using hlt), List.getElem?_map, hj]
  simp [GoMap.get_of_mem hw hk]

/-! ## Entries -/

/-- No two keys have the same entry. -/
structure EInv (r : Reg) : Prop where
  lt : ∀ (h : Nat) (bm : BaseMetric) (k : Bytes) (e : Nat), r.heap[h]? = some bm → (k, e) ∈ bm.vals → e < r.entries
  inj : ∀ (h h' : Nat) (bm bm' : BaseMetric) (k k' : Bytes) (e : Nat), r.heap[h]? = some bm → r.heap[h']? = some bm' → (k, e) ∈ bm.vals → (k', e) ∈ bm'.vals →
    h = h' ∧ k = k'

theorem heap_back (r : Reg) (c : Call) (h : Nat) (bm : BaseMetric) (hb : (r.call c).heap[h]? = some bm) :
    (∃ bm0, r.heap[h]? = some bm0 ∧ bm = bmCall h r.entries bm0 c) ∨ (r.heap.length ≤ h ∧ bm.vals = []) := by
  rcases Nat.lt_or_ge h r.heap.length with hlt | hge
  · have := heap_call r c h _ (List.getElem?_eq_getElem hlt)
    rw [hb] at this
    exact Or.inl ⟨_, List.getElem?_eq_getElem hlt, Option.some.inj this⟩
  · refine Or.inr ⟨hge, ?_⟩
    cases c with
    | getEntry j vs =>
      have h1 := (List.getElem?_eq_some_iff.1 hb).1
      have h2 := (baseMetrics_entry r j vs).2.2.1
      simp only [Reg.call] at h1; omega
    | upsertEntry j vs =>
      have h1 := (List.getElem?_eq_some_iff.1 hb).1
      have h2 := (baseMetrics_entry r j vs).2.2.2
      simp only [Reg.call] at h1; omega
    | add ty name o ks now =>
      have hnew : (r.heap ++ [newBaseMetric ty name o ks now])[h]? = some bm → bm.vals = [] := by
        intro hx
        rw [List.getElem?_append_right hge] at hx
        have : bm ∈ [newBaseMetric ty name o ks now] := List.mem_of_getElem? hx
        rw [List.mem_singleton.1 this]; rfl
      simp only [Reg.call, Reg.add] at hb
      split at hb
      · split at hb
        · have h1 := (List.getElem?_eq_some_iff.1 hb).1; simp only at h1; omega
        · exact hnew hb
      · exact hnew hb

theorem call_entries (r : Reg) (c : Call) : r.entries ≤ (r.call c).entries := by
  cases c with
  | add ty name o ks now =>
    simp only [Reg.call, Reg.add]
    split
    · split <;> exact Nat.le_refl _
    · exact Nat.le_refl _
  | getEntry j vs =>
    simp only [Reg.call, Reg.getEntry, encode_eq]
    split
    · exact Nat.le_refl _
    · split
      · exact Nat.le_refl _
      · split
        · exact Nat.le_refl _
        · exact Nat.le_succ _
  | upsertEntry j vs =>
    simp only [Reg.call, Reg.upsertEntry, encode_eq]
    split
    · exact Nat.le_refl _
    · split
      · exact Nat.le_refl _
      · exact Nat.le_succ _

/-- What a call adds is a new entry, of one handle, under one key. -/
theorem bmCall_new (r : Reg) (c : Call) (h : Nat) (bm : BaseMetric) (hb : r.heap[h]? = some bm) (k : Bytes) (e : Nat)
    (hk : (k, e) ∈ (bmCall h r.entries bm c).vals) :
    (k, e) ∈ bm.vals ∨ (e = r.entries ∧ r.entries < (r.call c).entries ∧
      ∃ vs, (c = .getEntry h vs ∨ c = .upsertEntry h vs) ∧ k = enc (bm.constLabelValues ++ vs)) := by
  cases c with
  | add => exact Or.inl hk
  | getEntry j vs =>
    simp only [bmCall] at hk
    split at hk
    · rename_i hl
      obtain ⟨rfl, hl⟩ := hl
      split at hk
      · exact Or.inl hk
      · rename_i hg
        rcases GoMap.mem_set hk with h1 | h1
        · cases h1
          refine Or.inr ⟨rfl, ?_, vs, Or.inl rfl, rfl⟩
          simp only [Reg.call, Reg.getEntry, hb, encode_eq]
          rw [if_neg (by simpa using hl)]
          simp only [hg]
          exact Nat.lt_succ_self _
        · exact Or.inl h1
    · exact Or.inl hk
  | upsertEntry j vs =>
    simp only [bmCall] at hk
    split at hk
    · rename_i hl
      obtain ⟨rfl, hl⟩ := hl
      rcases GoMap.mem_set hk with h1 | h1
      · cases h1
        refine Or.inr ⟨rfl, ?_, vs, Or.inr rfl, rfl⟩
        simp only [Reg.call, Reg.upsertEntry, hb, encode_eq]
        rw [if_neg (by simpa using hl)]
        exact Nat.lt_succ_self _
      · exact Or.inl (GoMap.mem_del h1)
    · exact Or.inl hk

theorem einv_call {r : Reg} (h : EInv r) (c : Call) : EInv (r.call c) := by
  have hle := call_entries r c
  constructor
  · intro i bm k e hb hk
    rcases heap_back r c i bm hb with ⟨bm0, h0, rfl⟩ | ⟨_, h0⟩
    · rcases bmCall_new r c i bm0 h0 k e hk with h1 | ⟨h1, h2, _⟩
      · exact Nat.lt_of_lt_of_le (h.lt i bm0 k e h0 h1) hle
      · omega
    · rw [h0] at hk; cases hk
  · intro i i' bm bm' k k' e hb hb' hk hk'
    rcases heap_back r c i bm hb with ⟨bm0, h0, rfl⟩ | ⟨_, h0⟩
    · rcases heap_back r c i' bm' hb' with ⟨bm0', h0', rfl⟩ | ⟨_, h0'⟩
      · rcases bmCall_new r c i bm0 h0 k e hk with h1 | ⟨h1, _, vs, h2, h3⟩
        · rcases bmCall_new r c i' bm0' h0' k' e hk' with h1' | ⟨h1', _⟩
          · exact h.inj i i' bm0 bm0' k k' e h0 h0' h1 h1'
          · have := h.lt i bm0 k e h0 h1; omega
        · rcases bmCall_new r c i' bm0' h0' k' e hk' with h1' | ⟨h1', _, vs', h2', h3'⟩
          · have := h.lt i' bm0' k' e h0' h1'; omega
          · have : i = i' ∧ vs = vs' := by
              rcases h2 with rfl | rfl <;> rcases h2' with h2' | h2' <;> cases h2' <;> exact ⟨rfl, rfl⟩
            obtain ⟨rfl, rfl⟩ := this
            rw [h0] at h0'; cases h0'
            exact ⟨rfl, by rw [h3, h3']⟩
      · rw [h0'] at hk'; cases hk'
    · rw [h0] at hk; cases hk

theorem einv_calls (cs : List Call) : EInv (Reg.empty.calls cs) := by
  induction cs using List.reverseRecOn with
  | nil => exact ⟨by simp [Reg.calls, Reg.empty], by simp [Reg.calls, Reg.empty]⟩
  | append_singleton cs c ih =>
    rw [calls_append]
    exact einv_call ih c

/-- What `GetEntry` returns is the entry under the label values, from then on. -/
theorem getEntry_ok {r : Reg} {i : Nat} {vs : List LabelValue} {e : Nat} (h : (r.getEntry i vs).2 = .ok e) :
    ∃ bm bm', r.heap[i]? = some bm ∧ (r.call (.getEntry i vs)).heap[i]? = some bm' ∧ SameMeta bm bm' ∧
      (bm.constLabelValues ++ vs).length = bm.keys.length ∧
      GoMap.get bm'.vals (enc (bm.constLabelValues ++ vs)) = some e := by
  cases hb : r.heap[i]? with
  | none => simp [Reg.getEntry, hb] at h
  | some bm =>
    refine ⟨bm, _, rfl, heap_call r _ i bm hb, bmCall_meta _ _ _ _, ?_⟩
    simp only [Reg.getEntry, hb, encode_eq] at h
    by_cases hl : (bm.constLabelValues ++ vs).length = bm.keys.length
    · refine ⟨hl, ?_⟩
      rw [if_neg (by simpa using hl)] at h
      simp only [bmCall]
      rw [if_pos (by simpa using hl)]
      cases hg : GoMap.get bm.vals (enc (bm.constLabelValues ++ vs)) with
      | some e' =>
        simp only [hg, Res.ok.injEq] at h
        subst h
        exact hg
      | none =>
        simp only [hg, Res.ok.injEq] at h
        subst h
        exact GoMap.get_set_same _ _ _
    · rw [if_pos (by simpa using hl)] at h
      cases h

/-- Calls without `UpsertEntry` keep entries. -/
theorem entry_under_key (r : Reg) (ds : List Call) (i : Nat) (bm : BaseMetric) (hb : r.heap[i]? = some bm) (k : Bytes) (e : Nat)
    (hg : GoMap.get bm.vals k = some e) (hu : ∀ vs, Call.upsertEntry i vs ∉ ds) :
    ∃ bm', (r.calls ds).heap[i]? = some bm' ∧ SameMeta bm bm' ∧ GoMap.get bm'.vals k = some e := by
  induction ds generalizing r bm with
  | nil => exact ⟨bm, hb, SameMeta.refl _, hg⟩
  | cons c ds ih =>
    have hstep : GoMap.get (bmCall i r.entries bm c).vals k = some e := by
      cases c with
      | add => exact hg
      | getEntry j vs =>
        simp only [bmCall]
        split
        · split
          · exact hg
          · rename_i hn
            rw [GoMap.get_set_other _ _ (by rintro rfl; rw [hg] at hn; cases hn)]
            exact hg
        · exact hg
      | upsertEntry j vs =>
        have : j ≠ i := by rintro rfl; exact hu vs (by simp)
        simp only [bmCall]
        rw [if_neg (by simp [this])]
        exact hg
    obtain ⟨bm', h1, h2, h3⟩ := ih (r.call c) _ (heap_call r c i bm hb) hstep (fun vs hx => hu vs (List.mem_cons_of_mem _ hx))
    exact ⟨bm', by simpa [Reg.calls] using h1, (bmCall_meta _ _ _ _).trans h2, h3⟩

theorem getEntry_of_get {r : Reg} {i : Nat} {vs : List LabelValue} {bm : BaseMetric} {e : Nat} (hb : r.heap[i]? = some bm)
    (hl : (bm.constLabelValues ++ vs).length = bm.keys.length)
    (hg : GoMap.get bm.vals (enc (bm.constLabelValues ++ vs)) = some e) : (r.getEntry i vs).2 = .ok e := by
  simp only [Reg.getEntry, hb, encode_eq]
  rw [if_neg (by simpa using hl)]
  simp [hg]

/-- `GetEntry` of a gauge or cumulative returns the same entry for the same label values, and different
entries for different label values or different handles. -/
theorem same_entry_iff (cs ds : List Call) (i j : Nat) (vs ws : List LabelValue) (e e' : Nat)
    (hc : ∀ c ∈ cs ++ .getEntry i vs :: ds, CallOK c) (hw : LabelsFit ws) (hu : ∀ h us, Call.upsertEntry h us ∉ ds)
    (h1 : ((Reg.empty.calls cs).getEntry i vs).2 = .ok e)
    (h2 : ((Reg.empty.calls (cs ++ .getEntry i vs :: ds)).getEntry j ws).2 = .ok e') :
    e = e' ↔ i = j ∧ vs.map norm = ws.map norm := by
  obtain ⟨bm, bm', b1, b2, b3, b4, b5⟩ := getEntry_ok h1
  obtain ⟨bm2, c1, c2, c3⟩ := entry_under_key _ ds i bm' b2 _ e b5 (hu i)
  have hE : Reg.empty.calls (cs ++ .getEntry i vs :: ds) = ((Reg.empty.calls cs).call (.getEntry i vs)).calls ds := by
    simp [Reg.calls]
  rw [← hE] at c1
  have hm := b3.trans c2
  have hinv := inv_calls _ hc
  constructor
  · rintro rfl
    obtain ⟨bw, bw', d1, d2, d3, d4, d5⟩ := getEntry_ok h2
    have hs := heap_call _ (.getEntry j ws) i bm2 c1
    have hget : GoMap.get (bmCall i (Reg.empty.calls (cs ++ .getEntry i vs :: ds)).entries bm2 (.getEntry j ws)).vals
        (enc (bm.constLabelValues ++ vs)) = some e := by
      obtain ⟨bm3, e1, e2, e3⟩ := entry_under_key _ [.getEntry j ws] i bm2 c1 _ e c3 (by simp)
      have e1' : (Reg.call (Reg.empty.calls (cs ++ .getEntry i vs :: ds)) (.getEntry j ws)).heap[i]? = some bm3 := e1
      rw [hs] at e1'; cases e1'
      exact e3
    have hein := einv_call (einv_calls (cs ++ .getEntry i vs :: ds)) (.getEntry j ws)
    obtain ⟨hij, hk⟩ := hein.inj i j _ bw' _ _ e hs d2 (GoMap.mem_of_get hget) (GoMap.mem_of_get d5)
    refine ⟨hij, ?_⟩
    subst hij
    rw [c1] at d1; cases d1
    have hok := hinv.bms bm2 (List.mem_of_getElem? c1)
    rw [hm.2.2.2.1] at hk b4
    rw [hm.2.2.1] at b4
    have hv : LabelsFit vs := hc (.getEntry i vs) (by simp)
    have hd1 := decode_enc _ (fit_append.2 ⟨hok.const, hv⟩)
    have hd2 := decode_enc _ (fit_append.2 ⟨hok.const, hw⟩)
    rw [b4, hk, ← d4, hd2] at hd1
    simp only [List.map_append, Res.ok.injEq, List.append_cancel_left_eq] at hd1
    exact hd1.symm
  · rintro ⟨rfl, hn⟩
    have hl : vs.length = ws.length := by simpa using congrArg List.length hn
    have : ((Reg.empty.calls (cs ++ .getEntry i vs :: ds)).getEntry i ws).2 = .ok e := by
      apply getEntry_of_get c1
      · rw [← hm.2.2.2.1, ← hm.2.2.1, ← b4]; simp [hl]
      · rw [← enc_norm, ← hm.2.2.2.1, List.map_append, ← hn, ← List.map_append, enc_norm]
        exact c3
    rw [h2] at this
    exact (Res.ok.inj this).symm

/-- An entry of a handle that is still exported is in every reading, under its label values: what it reads
as is what is exported. -/
theorem entry_exported_partial {V : Type} (look : Nat → V) (cs ds es : List Call) (ty : BMType) (name : Bytes)
    (o : Options) (ks : List LabelKey) (start : Int) (i : Nat) (vs : List LabelValue) (e : Nat)
    (hc : ∀ c ∈ cs ++ .add ty name o ks start :: (ds ++ .getEntry i vs :: es), CallOK c)
    (hn : NotAddedAgain ty name (ds ++ .getEntry i vs :: es)) (hu : ∀ ws, Call.upsertEntry i ws ∉ es)
    (ha : ((Reg.empty.calls cs).add ty name o ks start).2 = some i)
    (he : ((Reg.empty.calls (cs ++ .add ty name o ks start :: ds)).getEntry i vs).2 = .ok e)
    (now : Nat → Int) (orders : Nat → List (Bytes × Nat))
    (ho : Orders (Reg.empty.calls (cs ++ .add ty name o ks start :: (ds ++ .getEntry i vs :: es))) orders)
    (order : List (Bytes × Nat))
    (hor : order.Perm (Reg.empty.calls (cs ++ .add ty name o ks start :: (ds ++ .getEntry i vs :: es))).baseMetrics) :
    ∃ ms m ts, (Reg.empty.calls (cs ++ .add ty name o ks start :: (ds ++ .getEntry i vs :: es))).read look now orders order = .ok ms ∧
      m ∈ ms ∧ m.descriptor.name = name ∧ ts ∈ m.timeSeries ∧ ts.point = look e ∧
      ts.labelValues = (ks.map fun k => norm ((GoMap.get o.constLabels k).getD ⟨[], false⟩)) ++ vs.map norm ∧
      (bmTypeToMetricType ty = .cumulativeInt64 ∨ bmTypeToMetricType ty = .cumulativeFloat64 → ts.startTime = start) := by
  have hinv := inv_calls _ hc
  have h0 := inv_calls cs (fun c hx => hc c (by simp [hx]))
  obtain ⟨a1, a2, a3, a4⟩ := add_some h0 ha
  have hcall := inv_call h0 (.add ty name o ks start) (hc _ (by simp))
  have e0 : ∀ l, Reg.empty.calls (cs ++ .add ty name o ks start :: l) =
      ((Reg.empty.calls cs).call (.add ty name o ks start)).calls l := by intro l; simp [Reg.calls]
  have hft : firstType (cs ++ [.add ty name o ks start]) name = some ty := by
    obtain ⟨bm, b1, b2, b3⟩ := hcall.names name i a2
    have : some bm = some (newBaseMetric ty name o ks start) := by rw [← b1]; exact a1
    cases this
    exact b3
  have hname := name_kept hcall ty name i a2 hft _ (fun c hx => hc c (List.mem_append_right _ (List.mem_cons_of_mem _ hx))) hn
  obtain ⟨bmd, d1, d2, d3⟩ := heap_calls ((Reg.empty.calls cs).call (.add ty name o ks start)) ds i _ a1
  rw [← e0] at hname d1
  obtain ⟨bm, bm', b1, b2, b3, b4, b5⟩ := getEntry_ok he
  rw [d1] at b1; cases b1
  obtain ⟨bm2, c1, c2, c3⟩ := entry_under_key _ es i bm' b2 _ e b5 hu
  have e1 : Reg.empty.calls (cs ++ .add ty name o ks start :: (ds ++ .getEntry i vs :: es)) =
      ((Reg.empty.calls (cs ++ .add ty name o ks start :: ds)).call (.getEntry i vs)).calls es := by simp [Reg.calls]
  rw [← e1] at c1
  have hm : SameMeta (newBaseMetric ty name o ks start) bm2 := d2.trans (b3.trans c2)
  have hconst : bmd.constLabelValues = ks.map fun k => (GoMap.get o.constLabels k).getD ⟨[], false⟩ := d2.2.2.2.1.symm
  have hc2 : bmd.constLabelValues = bm2.constLabelValues := (b3.trans c2).2.2.2.1
  have hk2 : bmd.keys = bm2.keys := (b3.trans c2).2.2.1
  have hv : LabelsFit vs := hc (.getEntry i vs) (by simp)
  generalize Reg.empty.calls (cs ++ .add ty name o ks start :: (ds ++ .getEntry i vs :: es)) = r at hinv ho hor hname c1
  have hok := hinv.bms bm2 (List.mem_of_getElem? c1)
  have hat : bmAt r i = bm2 := by simp [bmAt, c1]
  refine ⟨_, readAt look r now orders i, ⟨bm2.startTime (now i), dec bm2.keys.length (enc (bmd.constLabelValues ++ vs)), look e⟩,
    read_eq look hinv now orders ho order (fun p hp => hor.mem_iff.1 hp), ?_, ?_, ?_, rfl, ?_, ?_⟩
  · exact List.mem_map.2 ⟨(name, i), hor.mem_iff.2 (GoMap.mem_of_get hname), rfl⟩
  · simp only [readAt, hat, ← hm.1]; rfl
  · simp only [readAt, hat]
    exact List.mem_map.2 ⟨_, (ho i bm2 c1).mem_iff.2 (GoMap.mem_of_get c3), rfl⟩
  · rw [hc2, hk2] at b4
    have hd := decode_enc _ (fit_append.2 ⟨hok.const, hv⟩)
    show dec bm2.keys.length (enc (bmd.constLabelValues ++ vs)) = _
    rw [← b4, hc2]
    simp only [dec, hd]
    rw [← hc2, hconst, List.map_append, List.map_map]
    rfl
  · intro hcum
    have hty : bm2.bmType = ty := hm.2.2.2.2.symm
    have hst : bm2.start = start := hm.2.1.symm
    cases ty <;> simp_all [BaseMetric.startTime, bmTypeToMetricType]

/-! ## Where the code differs -/

def exOpts : Options := ⟨[], [⟨str "k", []⟩], [], []⟩

/-- Adding a gauge again under its name gives another gauge. What is set through the first handle is no
longer exported, and what was set is gone. -/
theorem handle_no_longer_exported :
    let r1 := Reg.empty.calls [.add .gaugeInt64 (str "g") exOpts [] 0, .getEntry 0 [⟨str "v", true⟩]]
    let r2 := r1.calls [.add .gaugeInt64 (str "g") exOpts [] 1, .getEntry 0 [⟨str "v", true⟩]]
    -- no call failed, and the second `GetEntry` through the first handle gave the same entry as the first
    (r1.add .gaugeInt64 (str "g") exOpts [] 1).2 = some 1 ∧ (r1.getEntry 0 [⟨str "v", true⟩]).2 = .ok 0 ∧
    ((r2.getEntry 0 [⟨str "v", true⟩]).2 = .ok 0) ∧
    r1.read (fun e => e + 100) (fun _ => 5) (fun h => (bmAt r1 h).vals) r1.baseMetrics =
      .ok [⟨⟨str "g", [], [], .gaugeInt64, [⟨str "k", []⟩]⟩, [⟨5, [⟨str "v", true⟩], 100⟩]⟩] ∧
    r2.read (fun e => e + 100) (fun _ => 5) (fun h => (bmAt r2 h).vals) r2.baseMetrics =
      .ok [⟨⟨str "g", [], [], .gaugeInt64, [⟨str "k", []⟩]⟩, []⟩] := by decide +kernel

/-! ## Cases -/

/-- Options with constant labels and the calls of a small program. -/
def exConst : Options :=
  createMetricOption [.constLabel [(⟨str "z", []⟩, ⟨str "1", true⟩), (⟨str "a", []⟩, ⟨str "2", true⟩)],
    .labelKeys [str "k"], .unit (str "By"), .description (str "d")]

def exCalls : List Call :=
  [.add .gaugeInt64 (str "g") exConst [⟨str "a", []⟩, ⟨str "z", []⟩] 0, .getEntry 0 [⟨str "v", true⟩],
   .add .cumulativeFloat64 (str "c") exOpts [] 3, .add .gaugeFloat64 (str "g") exOpts [] 4,
   .getEntry 1 [⟨str "junk", false⟩], .getEntry 0 [⟨str "v", true⟩], .getEntry 0 []]

example : ∀ c ∈ exCalls, CallOK c := by
  intro c hc
  simp only [exCalls, List.mem_cons, List.not_mem_nil, or_false] at hc
  rcases hc with rfl | rfl | rfl | rfl | rfl | rfl | rfl
  · refine ⟨by unfold GoMap.WF; decide, ⟨?_, ?_⟩, ?_⟩
    · exact List.Perm.swap _ _ _
    · decide
    · unfold LabelsFit; decide
  · show LabelsFit _
    unfold LabelsFit; decide
  · exact ⟨GoMap.WF_nil, ⟨List.Perm.nil, List.Pairwise.nil⟩, by simp [LabelsFit, exOpts]⟩
  · exact ⟨GoMap.WF_nil, ⟨List.Perm.nil, List.Pairwise.nil⟩, by simp [LabelsFit, exOpts]⟩
  · show LabelsFit _
    unfold LabelsFit; decide
  · show LabelsFit _
    unfold LabelsFit; decide
  · simp [CallOK, LabelsFit]

example :
    let r := Reg.empty.calls exCalls
    r.read (fun e => e + 100) (fun _ => 5) (fun h => (bmAt r h).vals) r.baseMetrics =
      .ok [⟨⟨str "g", str "d", str "By", .gaugeInt64, [⟨str "a", []⟩, ⟨str "z", []⟩, ⟨str "k", []⟩]⟩,
            [⟨5, [⟨str "2", true⟩, ⟨str "1", true⟩, ⟨str "v", true⟩], 100⟩]⟩,
           ⟨⟨str "c", [], [], .cumulativeFloat64, [⟨str "k", []⟩]⟩, [⟨3, [⟨[], false⟩], 101⟩]⟩] := by decide +kernel

/-- The hypotheses of `add_fails_iff`, `handle_stays_exported_partial` and `entry_exported_partial`. -/
example : ((Reg.empty.calls exCalls).add .gaugeFloat64 (str "g") exOpts [] 9).2 = none ∧
    firstType exCalls (str "g") = some .gaugeInt64 := by decide +kernel

example : NotAddedAgain .gaugeInt64 (str "g") (exCalls.drop 1) ∧
    ((Reg.empty.calls []).add .gaugeInt64 (str "g") exConst [⟨str "a", []⟩, ⟨str "z", []⟩] 0).2 = some 0 := by
  refine ⟨?_, by decide⟩
  intro c hc o ks now h
  subst h
  simp [exCalls] at hc

example (r : Reg) : Orders r (fun h => (bmAt r h).vals) := by
  intro h bm hb
  simp [bmAt, hb]

end Verif.Props.Registry
