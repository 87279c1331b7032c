import Verif.Tag.Codec

/-!
# `internal/tagencoding`: the signature encoding used by the stats collector and by metrics

Reuses `putAt`/`copyAt` (Go element stores and `copy`) of the tag codec model.
-/

namespace Verif.TagEncoding
open Verif Verif.Tag

/-- Fields `Buffer` and `WriteIndex` of `Values`, internal/tagencoding/tagencoding.go:21-25. -/
structure Values where
  buffer : Bytes
  writeIndex : Nat
  deriving Repr

/-- `growIfRequired`, internal/tagencoding/tagencoding.go:27-33. -/
def Values.growIfRequired (vb : Values) (expected : Nat) : Values :=
  if (vb.buffer.length : Int) - vb.writeIndex < expected then
    { vb with buffer := vb.buffer ++
        List.replicate (2 * (vb.buffer.length + 1) + expected - vb.buffer.length) 0 }
  else vb

/-- `WriteValue`, internal/tagencoding/tagencoding.go:36-53. `v[:length]` cannot fail because
`length = len(v) & 0xff` is at most `len(v)`. -/
def Values.writeValue (vb : Values) (v : Bytes) : Res Values :=
  let length := v.length % 256
  let vb := vb.growIfRequired (1 + length)
  (putAt vb.buffer vb.writeIndex [UInt8.ofNat length]).bind fun b =>
    let wi := vb.writeIndex + 1
    if length = 0 then .ok ⟨b, wi⟩
    else (copyAt b wi (v.take length)).bind fun b' => .ok ⟨b', wi + length⟩

/-- `Bytes`, internal/tagencoding/tagencoding.go:75-77. -/
def Values.bytes (vb : Values) : Res Bytes :=
  if vb.writeIndex ≤ vb.buffer.length then .ok (vb.buffer.take vb.writeIndex) else .panic

/-- `ReadValue`, internal/tagencoding/tagencoding.go:56-72, on the unread suffix of the buffer:
`none` is the nil slice. Reading past the end panics (the code checks against the capacity of the
buffer, the model against its length; they differ only on encodings nobody writes). -/
def readValue (rest : Bytes) : Res (Option Bytes × Bytes) :=
  match rest with
  | [] => .panic
  | l :: rest =>
    if l.toNat = 0 then .ok (none, rest)
    else if l.toNat ≤ rest.length then .ok (some (rest.take l.toNat), rest.drop l.toNat)
    else .panic

/-! ## Lemmas -/

/-- What `WriteValue` appends. -/
def frame (v : Bytes) : Bytes := UInt8.ofNat (v.length % 256) :: v.take (v.length % 256)

def Rep (vb : Values) (w : Bytes) : Prop :=
  vb.writeIndex = w.length ∧ w.length ≤ vb.buffer.length ∧ vb.buffer.take w.length = w

theorem take_put' (buf w bs rest : Bytes) (h : buf.take w.length = w) :
    (buf.take w.length ++ bs ++ rest).take (w ++ bs).length = w ++ bs := by
  rw [h]; exact List.take_left

theorem putAt_rep' {buf w bs : Bytes} (h : buf.take w.length = w) (hl : w.length + bs.length ≤ buf.length) :
    ∃ b, putAt buf w.length bs = .ok b ∧ b.length = buf.length ∧ b.take (w ++ bs).length = w ++ bs := by
  refine ⟨_, by unfold putAt; rw [if_pos hl], ?_, take_put' buf w bs _ h⟩
  simp; omega

theorem copyAt_rep' {buf w bs : Bytes} (h : buf.take w.length = w) (hl : w.length + bs.length ≤ buf.length) :
    ∃ b, copyAt buf w.length bs = .ok b ∧ b.length = buf.length ∧ b.take (w ++ bs).length = w ++ bs := by
  have e : bs.take (buf.length - w.length) = bs := List.take_of_length_le (by omega)
  refine ⟨_, by unfold copyAt; rw [if_pos (by omega), e], ?_, take_put' buf w bs _ h⟩
  simp; omega

theorem grow_rep {vb : Values} {w : Bytes} (h : Rep vb w) (n : Nat) :
    Rep (vb.growIfRequired n) w ∧ w.length + n ≤ (vb.growIfRequired n).buffer.length := by
  obtain ⟨h1, h2, h3⟩ := h
  unfold Values.growIfRequired
  split
  · refine ⟨⟨h1, by simp; omega, ?_⟩, by simp; omega⟩
    simp only
    rw [List.take_append_of_le_length h2, h3]
  · exact ⟨⟨h1, h2, h3⟩, by omega⟩

theorem writeValue_rep {vb : Values} {w : Bytes} (h : Rep vb w) (v : Bytes) :
    ∃ vb', vb.writeValue v = .ok vb' ∧ Rep vb' (w ++ frame v) := by
  have hm : v.length % 256 ≤ v.length := Nat.mod_le _ _
  have htl : (v.take (v.length % 256)).length = v.length % 256 := by simp; omega
  obtain ⟨⟨h1, h2, h3⟩, h4⟩ := grow_rep h (1 + v.length % 256)
  obtain ⟨b, hb1, hb2, hb3⟩ := putAt_rep' (bs := [UInt8.ofNat (v.length % 256)]) h3
    (by simp; omega)
  by_cases hz : v.length % 256 = 0
  · refine ⟨⟨b, (vb.growIfRequired (1 + v.length % 256)).writeIndex + 1⟩, ?_, ?_⟩
    · simp only [Values.writeValue, h1, hb1, Res.bind]
      rw [if_pos hz]
    · have e : frame v = [UInt8.ofNat (v.length % 256)] := by simp [frame, hz]
      rw [e]
      refine ⟨by rw [List.length_append, ← h1]; rfl, ?_, hb3⟩
      rw [List.length_append, hb2]; simp only [List.length_cons, List.length_nil]; omega
  · have hl : (w ++ [UInt8.ofNat (v.length % 256)]).length = w.length + 1 := by simp
    obtain ⟨c, hc1, hc2, hc3⟩ := copyAt_rep' (bs := v.take (v.length % 256)) hb3 (by omega)
    rw [hl] at hc1
    refine ⟨⟨c, w.length + 1 + v.length % 256⟩, ?_, ?_, ?_, ?_⟩
    · simp only [Values.writeValue, h1, hb1, Res.bind]
      rw [if_neg hz]
      simp only [hc1]
    · simp [frame]; omega
    · simp [frame]; omega
    · simpa [frame, List.append_assoc] using hc3

/-- Writing a list of values. -/
def writeAll (vb : Values) : List Bytes → Res Values
  | [] => .ok vb
  | v :: vs => (vb.writeValue v).bind fun vb => writeAll vb vs

theorem writeAll_rep {vb : Values} {w : Bytes} (h : Rep vb w) (vs : List Bytes) :
    ∃ vb', writeAll vb vs = .ok vb' ∧ Rep vb' (w ++ (vs.map frame).flatten) := by
  induction vs generalizing vb w with
  | nil => exact ⟨vb, rfl, by simpa using h⟩
  | cons v vs ih =>
    obtain ⟨vb1, h1, r1⟩ := writeValue_rep h v
    obtain ⟨vb2, h2, r2⟩ := ih r1
    exact ⟨vb2, by simp [writeAll, h1, h2, Res.bind], by simpa using r2⟩

theorem writeAll_bytes (buf : Bytes) (vs : List Bytes) :
    ((writeAll ⟨buf, 0⟩ vs).bind Values.bytes) = .ok (vs.map frame).flatten := by
  obtain ⟨vb, h1, a, b, c⟩ := writeAll_rep (vb := ⟨buf, 0⟩) (w := []) ⟨rfl, by simp, by simp⟩ vs
  simp only [List.nil_append] at a b c
  rw [h1]
  simp only [Res.bind, Values.bytes, a]
  rw [if_pos b, c]

theorem ofNat_toNat_small {n : Nat} (h : n < 256) : (UInt8.ofNat n).toNat = n := by
  rw [UInt8.toNat_ofNat']; omega

/-- Reading back one frame. -/
theorem readValue_frame (v rest : Bytes) :
    readValue (frame v ++ rest) =
      .ok (if v.length % 256 = 0 then none else some (v.take (v.length % 256)), rest) := by
  have hm : v.length % 256 < 256 := Nat.mod_lt _ (by omega)
  have hle : v.length % 256 ≤ v.length := Nat.mod_le _ _
  simp only [frame, List.cons_append, readValue, ofNat_toNat_small hm]
  split
  · next h => simp [h]
  · have htl : (v.take (v.length % 256)).length = v.length % 256 := by simp; omega
    rw [if_pos (by simp only [List.length_append]; omega)]
    have h1 := List.take_left (l₁ := v.take (v.length % 256)) (l₂ := rest)
    have h2 := List.drop_left (l₁ := v.take (v.length % 256)) (l₂ := rest)
    rw [htl] at h1 h2
    rw [h1, h2]

/-- Frames are self-delimiting: equal concatenations of equally many frames have equal frames. -/
theorem frames_inj (vs ws : List Bytes) (hl : vs.length = ws.length)
    (h : (vs.map frame).flatten = (ws.map frame).flatten) :
    vs.map (fun v => v.take (v.length % 256)) = ws.map (fun v => v.take (v.length % 256)) := by
  induction vs generalizing ws with
  | nil => cases ws with
    | nil => rfl
    | cons _ _ => simp at hl
  | cons v vs ih =>
    cases ws with
    | nil => simp at hl
    | cons u us =>
      simp only [List.map_cons, List.flatten_cons] at h
      have h1 := readValue_frame v (vs.map frame).flatten
      have h2 := readValue_frame u (us.map frame).flatten
      rw [h, h2] at h1
      simp only [Res.ok.injEq, Prod.mk.injEq] at h1
      have ih := ih us (by simpa using hl) h1.2.symm
      simp only [List.map_cons, ih, List.cons.injEq, and_true]
      have h3 := h1.1
      by_cases hv : v.length % 256 = 0
      · by_cases hu : u.length % 256 = 0
        · simp [hv, hu]
        · simp [hv, hu] at h3
      · by_cases hu : u.length % 256 = 0
        · simp [hv, hu] at h3
        · simp [hv, hu] at h3; exact h3.symm

theorem take_mod_small {v : Bytes} (h : v.length ≤ 255) : v.take (v.length % 256) = v := by
  apply List.take_of_length_le; omega

end Verif.TagEncoding
