import Verif.TagEncoding

/-!
# Label values of metrics (metric/common.go)
-/

namespace Verif.Metric
open Verif Verif.TagEncoding

/-- `metricdata.LabelValue`, metric/metricdata/label.go:28-31. -/
structure LabelValue where
  value : Bytes
  present : Bool
  deriving DecidableEq, Repr

/-- The byte string written for one label value, metric/common.go:98-102. -/
def labelBytes (v : LabelValue) : Bytes := if v.present then 1 :: v.value else [0]

/-- `encodeLabelVals`, metric/common.go:95-106. -/
def encodeLabelVals (vs : List LabelValue) : Res Bytes :=
  (writeAll ⟨[], 0⟩ (vs.map labelBytes)).bind Values.bytes

/-- `decodeLabelVals`, metric/common.go:108-120: one value per label key (`n` keys). `v[0]` panics
on the nil slice. -/
def decodeLabelVals (rest : Bytes) : Nat → Res (List LabelValue)
  | 0 => .ok []
  | n + 1 => (readValue rest).bind fun (v, rest) =>
      match v with
      | none => .panic
      | some [] => .panic
      | some (b :: v) => (decodeLabelVals rest n).bind fun vals =>
          .ok ((if b = 0 then ⟨[], false⟩ else ⟨v, true⟩) :: vals)

/-! ## Lemmas -/

theorem encodeLabelVals_eq (vs : List LabelValue) :
    encodeLabelVals vs = .ok ((vs.map fun v => frame (labelBytes v)).flatten) := by
  unfold encodeLabelVals
  rw [writeAll_bytes]
  simp [Function.comp_def]

theorem decodeLabelVals_frames (vs : List LabelValue) (h : ∀ v ∈ vs, v.present = true → v.value.length ≤ 254)
    (rest : Bytes) :
    decodeLabelVals ((vs.map fun v => frame (labelBytes v)).flatten ++ rest) vs.length =
      .ok (vs.map fun v => if v.present then v else ⟨[], false⟩) := by
  induction vs with
  | nil => rfl
  | cons v vs ih =>
    have hv := h v (by simp)
    simp only [List.map_cons, List.flatten_cons, List.append_assoc, List.length_cons,
      decodeLabelVals, readValue_frame, Res.bind, ih (fun w hw => h w (by simp [hw]))]
    rcases v with ⟨val, pr⟩
    cases pr with
    | false => simp [labelBytes]
    | true =>
      have hl : val.length ≤ 254 := hv rfl
      have e : labelBytes ⟨val, true⟩ = 1 :: val := rfl
      rw [e, take_mod_small (by simp; omega), if_neg (by simp; omega)]
      simp

theorem labelBytes_length (v : LabelValue) (h : v.present = true → v.value.length ≤ 254) :
    (labelBytes v).length ≤ 255 := by
  unfold labelBytes
  split
  · next hp => have := h hp; simp; omega
  · simp

end Verif.Metric
