import Verif.Metric.Race
import Verif.Props.Registry

/-!
# C41: concurrent calls on a handle
-/

namespace Verif.Props.MetricRace
open Verif Verif.Metric Verif.Metric.Race Verif.Props.Registry

/-- The result of a call, if it has returned. -/
def result (s : St) (t : Nat) : Option (Res Nat) :=
  match s.pc t with
  | .done r => some r
  | _ => none

/-- What holds at every moment if the array of the constant label values has no room. -/
structure Inv (m : Meta) (calls : Nat → Race.Call) (s : St) : Prop where
  wf : GoMap.WF s.vals
  lt : ∀ k e, (k, e) ∈ s.vals → e < s.entries
  inj : ∀ k k' e, (k, e) ∈ s.vals → (k', e) ∈ s.vals → k = k'
  slices : ∀ t sl, s.pc t = .appended sl → s.elems m sl = m.const ++ (calls t).labelVals ∧
    (∀ n, sl = .shared n → n = 0)
  keys : ∀ t k, s.pc t = .encoded k ∨ s.pc t = .missed k →
    k = enc (m.const ++ (calls t).labelVals) ∧ (m.const ++ (calls t).labelVals).length = m.keys
  ok : ∀ t e, s.pc t = .done (.ok e) → (m.const ++ (calls t).labelVals).length = m.keys ∧
    GoMap.get s.vals (enc (m.const ++ (calls t).labelVals)) = some e
  err : ∀ t, s.pc t = .done .err → (m.const ++ (calls t).labelVals).length ≠ m.keys
  panic : ∀ t, s.pc t ≠ .done .panic
  deleted : ∀ t k, s.pc t ≠ .deleted k

theorem inv_start (m : Meta) (calls : Nat → Race.Call) : Inv m calls start := by
  refine ⟨GoMap.WF_nil, ?_, ?_, ?_, ?_, ?_, ?_, ?_, ?_⟩ <;> simp [start]

theorem set_same (s : St) (t : Nat) (pc : PC) : (s.set t pc).pc t = pc := by simp [St.set]
theorem set_other (s : St) {t u : Nat} (h : u ≠ t) (pc : PC) : (s.set t pc).pc u = s.pc u := by simp [St.set, h]

/-- A step of one goroutine that leaves the map alone. -/
theorem inv_local {m : Meta} {calls : Nat → Race.Call} {s s' : St} (h : Inv m calls s) (t : Nat) (pc : PC)
    (hpc : s'.pc = (s.set t pc).pc) (hv : s'.vals = s.vals) (he : s'.entries = s.entries)
    (hs : ∀ sl, (∀ n, sl = .shared n → n = 0) → s'.elems m sl = s.elems m sl)
    (h1 : ∀ sl, pc = .appended sl → s'.elems m sl = m.const ++ (calls t).labelVals ∧ (∀ n, sl = .shared n → n = 0))
    (h2 : ∀ k, pc = .encoded k ∨ pc = .missed k →
      k = enc (m.const ++ (calls t).labelVals) ∧ (m.const ++ (calls t).labelVals).length = m.keys)
    (h3 : ∀ e, pc = .done (.ok e) → (m.const ++ (calls t).labelVals).length = m.keys ∧
      GoMap.get s.vals (enc (m.const ++ (calls t).labelVals)) = some e)
    (h4 : pc = .done .err → (m.const ++ (calls t).labelVals).length ≠ m.keys)
    (h5 : pc ≠ .done .panic) (h6 : ∀ k, pc ≠ .deleted k) : Inv m calls s' := by
  have hcase : ∀ u, (u = t ∧ s'.pc u = pc) ∨ (u ≠ t ∧ s'.pc u = s.pc u) := by
    intro u
    by_cases hu : u = t
    · subst hu; exact Or.inl ⟨rfl, by rw [hpc, set_same]⟩
    · exact Or.inr ⟨hu, by rw [hpc, set_other _ hu]⟩
  refine ⟨by rw [hv]; exact h.wf, by rw [hv, he]; exact h.lt, by rw [hv]; exact h.inj, ?_, ?_, ?_, ?_, ?_, ?_⟩
  · intro u sl hu
    rcases hcase u with ⟨rfl, hp⟩ | ⟨_, hp⟩ <;> rw [hp] at hu
    · exact h1 sl hu
    · obtain ⟨a, b⟩ := h.slices u sl hu
      exact ⟨by rw [hs sl b]; exact a, b⟩
  · intro u k hu
    rcases hcase u with ⟨rfl, hp⟩ | ⟨_, hp⟩ <;> rw [hp] at hu
    · exact h2 k hu
    · exact h.keys u k hu
  · intro u e hu
    rw [hv]
    rcases hcase u with ⟨rfl, hp⟩ | ⟨_, hp⟩ <;> rw [hp] at hu
    · exact h3 e hu
    · exact h.ok u e hu
  · intro u hu
    rcases hcase u with ⟨rfl, hp⟩ | ⟨_, hp⟩ <;> rw [hp] at hu
    · exact h4 hu
    · exact h.err u hu
  · intro u hu
    rcases hcase u with ⟨rfl, hp⟩ | ⟨_, hp⟩ <;> rw [hp] at hu
    · exact h5 hu
    · exact h.panic u hu
  · intro u k hu
    rcases hcase u with ⟨rfl, hp⟩ | ⟨_, hp⟩ <;> rw [hp] at hu
    · exact h6 k hu
    · exact h.deleted u k hu

theorem inv_step {m : Meta} {calls : Nat → Race.Call} {s : St} (hcap : m.cap ≤ m.const.length)
    (hg : ∀ t, ∃ vs, calls t = .getEntry vs) (h : Inv m calls s) (t : Nat) : Inv m calls (step m (calls t) t s) := by
  unfold step
  cases hp : s.pc t with
  | start =>
    dsimp only
    split
    · rename_i hl
      have h0 : (calls t).labelVals = [] := List.length_eq_zero_iff.1 (by omega)
      refine inv_local h t (.appended (.shared (calls t).labelVals.length)) rfl rfl rfl ?_ ?_ (by simp) (by simp) (by simp) (by simp) (by simp)
      · intro sl hsl
        cases sl with
        | own => rfl
        | shared n => rw [hsl n rfl]; simp [St.elems]
      · intro sl hsl
        cases hsl
        simp [St.elems, h0]
    · refine inv_local h t _ rfl rfl rfl (fun sl _ => by cases sl <;> rfl) ?_ (by simp) (by simp) (by simp) (by simp) (by simp)
      intro sl hsl
      cases hsl
      exact ⟨rfl, by simp⟩
  | appended sl =>
    obtain ⟨a, b⟩ := h.slices t sl hp
    simp only [a, encode_eq]
    split
    · rename_i hl
      exact inv_local h t _ rfl rfl rfl (fun sl _ => by cases sl <;> rfl) (by simp) (by simp) (by simp) (fun _ => hl) (by simp) (by simp)
    · rename_i hl
      refine inv_local h t _ rfl rfl rfl (fun sl _ => by cases sl <;> rfl) (by simp) ?_ (by simp) (by simp) (by simp) (by simp)
      intro k hk
      simp only [PC.encoded.injEq, reduceCtorEq, or_false] at hk
      exact ⟨hk.symm, by simpa using hl⟩
  | encoded key =>
    obtain ⟨a, b⟩ := h.keys t key (Or.inl hp)
    obtain ⟨vs, hvs⟩ := hg t
    rw [hvs]
    dsimp only
    cases hget : GoMap.get s.vals key with
    | some e =>
      refine inv_local h t _ rfl rfl rfl (fun sl _ => by cases sl <;> rfl) (by simp) (by simp) ?_ (by simp) (by simp) (by simp)
      intro e' he
      cases he
      exact ⟨b, by rw [← a]; exact hget⟩
    | none =>
      refine inv_local h t _ rfl rfl rfl (fun sl _ => by cases sl <;> rfl) (by simp) ?_ (by simp) (by simp) (by simp) (by simp)
      intro k hk
      simp only [PC.missed.injEq, reduceCtorEq, or_false, false_or] at hk
      subst hk
      exact ⟨a, b⟩
  | missed key =>
    obtain ⟨a, b⟩ := h.keys t key (Or.inr hp)
    dsimp only
    cases hget : GoMap.get s.vals key with
    | some e =>
      refine inv_local h t _ rfl rfl rfl (fun sl _ => by cases sl <;> rfl) (by simp) (by simp) ?_ (by simp) (by simp) (by simp)
      intro e' he
      cases he
      exact ⟨b, by rw [← a]; exact hget⟩
    | none =>
      dsimp only
      have hcase : ∀ u, (u = t ∧ (s.set t (.done (.ok s.entries))).pc u = .done (.ok s.entries)) ∨
          (u ≠ t ∧ (s.set t (.done (.ok s.entries))).pc u = s.pc u) := by
        intro u
        by_cases hu : u = t
        · subst hu; exact Or.inl ⟨rfl, set_same _ _ _⟩
        · exact Or.inr ⟨hu, set_other _ hu _⟩
      refine ⟨GoMap.WF_set h.wf _ _, ?_, ?_, ?_, ?_, ?_, ?_, ?_, ?_⟩
      · intro k e hk
        rcases GoMap.mem_set hk with h1 | h1
        · cases h1; exact Nat.lt_succ_self _
        · exact Nat.lt_succ_of_lt (h.lt k e h1)
      · intro k k' e hk hk'
        rcases GoMap.mem_set hk with h1 | h1 <;> rcases GoMap.mem_set hk' with h2 | h2
        · cases h1; cases h2; rfl
        · cases h1; exact absurd (h.lt k' _ h2) (Nat.lt_irrefl _)
        · cases h2; exact absurd (h.lt k _ h1) (Nat.lt_irrefl _)
        · exact h.inj k k' e h1 h2
      · intro u sl hu
        rcases hcase u with ⟨rfl, hq⟩ | ⟨_, hq⟩ <;> rw [hq] at hu
        · cases hu
        · have := h.slices u sl hu
          exact ⟨by cases sl <;> exact this.1, this.2⟩
      · intro u k hu
        rcases hcase u with ⟨rfl, hq⟩ | ⟨_, hq⟩ <;> rw [hq] at hu
        · simp at hu
        · exact h.keys u k hu
      · intro u e hu
        rcases hcase u with ⟨rfl, hq⟩ | ⟨_, hq⟩ <;> rw [hq] at hu
        · cases hu
          exact ⟨b, by rw [← a]; exact GoMap.get_set_same _ _ _⟩
        · obtain ⟨c1, c2⟩ := h.ok u e hu
          refine ⟨c1, ?_⟩
          rw [GoMap.get_set_other _ _ (by intro hk; rw [hk, hget] at c2; cases c2)]
          exact c2
      · intro u hu
        rcases hcase u with ⟨rfl, hq⟩ | ⟨_, hq⟩ <;> rw [hq] at hu
        · cases hu
        · exact h.err u hu
      · intro u hu
        rcases hcase u with ⟨rfl, hq⟩ | ⟨_, hq⟩ <;> rw [hq] at hu
        · cases hu
        · exact h.panic u hu
      · intro u k hu
        rcases hcase u with ⟨rfl, hq⟩ | ⟨_, hq⟩ <;> rw [hq] at hu
        · cases hu
        · exact h.deleted u k hu
  | deleted key => exact absurd hp (h.deleted t key)
  | done r => exact h

theorem inv_run {m : Meta} {calls : Nat → Race.Call} (hcap : m.cap ≤ m.const.length)
    (hg : ∀ t, ∃ vs, calls t = .getEntry vs) (sched : List Nat) : Inv m calls (run m calls start sched) := by
  suffices ∀ s, Inv m calls s → Inv m calls (run m calls s sched) from this _ (inv_start m calls)
  induction sched with
  | nil => exact fun s h => h
  | cons t sched ih => exact fun s h => ih _ (inv_step hcap hg h t)

/-- If the array of the constant label values has no room (as with no constant labels, or 1, 2, 4 or 8),
concurrent `GetEntry` calls are safe, whatever the schedule: a call fails exactly if the number of label
values is wrong; two calls get the same entry exactly if they gave the same label values; and the entry
is the one a reading finds under the label values.

Partial: missing are the other numbers of constant labels, for which it fails: `wrong_entry`. -/
theorem concurrent_getEntry_partial (m : Meta) (calls : Nat → Race.Call) (hcap : m.cap ≤ m.const.length)
    (hg : ∀ t, ∃ vs, calls t = .getEntry vs) (hf : LabelsFit m.const) (hv : ∀ t, LabelsFit (calls t).labelVals)
    (sched : List Nat) (t u : Nat) (r r' : Res Nat)
    (ht : result (run m calls start sched) t = some r) (hu : result (run m calls start sched) u = some r') :
    (r = .err ↔ m.const.length + (calls t).labelVals.length ≠ m.keys) ∧
    (∀ e, r = .ok e → ∃ k, GoMap.get (run m calls start sched).vals k = some e ∧
      decodeLabelVals k m.keys = .ok ((m.const ++ (calls t).labelVals).map norm)) ∧
    (∀ e e', r = .ok e → r' = .ok e' → (e = e' ↔ (calls t).labelVals.map norm = (calls u).labelVals.map norm)) := by
  have h := inv_run hcap hg sched
  generalize run m calls start sched = s at h ht hu
  have hd : ∀ {t r}, result s t = some r → s.pc t = .done r := by
    intro t r hr
    unfold result at hr
    split at hr
    · rename_i hp; cases hr; exact hp
    · cases hr
  have h1 := hd ht
  have h2 := hd hu
  refine ⟨?_, ?_, ?_⟩
  · rw [← List.length_append]
    cases r with
    | err => simp only [true_iff]; exact h.err t h1
    | ok e =>
      have := (h.ok t e h1).1
      simp only [reduceCtorEq, false_iff, Decidable.not_not]; exact this
    | panic => exact absurd h1 (h.panic t)
  · rintro e rfl
    obtain ⟨a, b⟩ := h.ok t e h1
    exact ⟨_, b, by rw [← a]; exact decode_enc _ (fit_append.2 ⟨hf, hv t⟩)⟩
  · rintro e e' rfl rfl
    obtain ⟨a, b⟩ := h.ok t e h1
    obtain ⟨a', b'⟩ := h.ok u e' h2
    constructor
    · rintro rfl
      have hk := h.inj _ _ e (GoMap.mem_of_get b) (GoMap.mem_of_get b')
      have d1 := decode_enc _ (fit_append.2 ⟨hf, hv t⟩)
      have d2 := decode_enc _ (fit_append.2 ⟨hf, hv u⟩)
      rw [a, hk, ← a', d2] at d1
      simp only [List.map_append, Res.ok.injEq, List.append_cancel_left_eq] at d1
      exact d1.symm
    · intro hn
      rw [← enc_norm, List.map_append, hn, ← List.map_append, enc_norm, b'] at b
      exact (Option.some.inj b).symm

/-! ## Where the code differs -/

/-- Three constant labels, in an array of capacity 4, and one label key. -/
def exMeta : Meta := ⟨[⟨str "1", true⟩, ⟨str "2", true⟩, ⟨str "3", true⟩], 4, 4⟩

def exTwo : Nat → Race.Call := fun t => if t = 0 then .getEntry [⟨str "a", true⟩] else .getEntry [⟨str "b", true⟩]

/-- Two goroutines call `GetEntry` of the same gauge at the same time, with different label values. The
second overwrites the label value of the first before the first has read it: both get the same entry, the
one for the label value `b`. What the first sets is exported under the label value of the second. -/
theorem wrong_entry :
    let s := run exMeta exTwo start [0, 1, 0, 1, 0, 1, 0, 1]
    result s 0 = some (.ok 0) ∧ result s 1 = some (.ok 0) ∧
    s.vals = [(enc (exMeta.const ++ [⟨str "b", true⟩]), 0)] := by decide +kernel

/-- `UpsertEntry` deletes the entry before it stores the new one: a reading between the two does not have
the time series, though it was there before and is there after. -/
theorem upsert_gap :
    let m : Meta := ⟨[], 0, 1⟩
    let calls : Nat → Race.Call := fun _ => .upsertEntry [⟨str "a", true⟩]
    (run m calls start [0, 0, 0, 0]).vals.length = 1 ∧
    (run m calls start [0, 0, 0, 0, 1, 1, 1]).vals = [] ∧
    (run m calls start [0, 0, 0, 0, 1, 1, 1, 1]).vals.length = 1 := by decide +kernel

/-- The hypotheses of `concurrent_getEntry_partial`: without constant labels the same goroutines get
different entries. -/
example :
    let m : Meta := ⟨[], 0, 1⟩
    let s := run m exTwo start [0, 1, 0, 1, 0, 1, 0, 1]
    result s 0 = some (.ok 0) ∧ result s 1 = some (.ok 1) ∧ m.cap ≤ m.const.length ∧ LabelsFit m.const ∧
    (∀ t, ∃ vs, exTwo t = .getEntry vs) ∧ ∀ t, LabelsFit (exTwo t).labelVals := by
  refine ⟨by decide +kernel, by decide +kernel, by decide, by simp [LabelsFit], fun t => ?_, fun t => ?_⟩
  · unfold exTwo; split <;> exact ⟨_, rfl⟩
  · unfold exTwo LabelsFit; split <;> simp [Race.Call.labelVals] <;> decide

end Verif.Props.MetricRace
