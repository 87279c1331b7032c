import Verif.Runmetrics.Producer
import Verif.Props.Registry
import Mathlib.Data.List.Induction

/-!
# The state of a producer of runtime metrics

What the registry and the entries of a producer are, given what the fields stand for at the moment.
-/

namespace Verif.Runmetrics
open Verif Verif.Metric

theorem set_fresh {K V : Type} [DecidableEq K] {m : GoMap K V} {k : K} (h : k ∉ GoMap.keys m) (v : V) :
    GoMap.set m k v = m ++ [(k, v)] := by
  induction m with
  | nil => rfl
  | cons p m ih =>
    obtain ⟨k', v'⟩ := p
    have h1 : k' ≠ k := by rintro rfl; exact h (by simp)
    have h2 : k ∉ GoMap.keys m := fun x => h (by simp [x])
    simp [GoMap.set, h1, ih h2]

/-- What is in the entry of each field, if it has one. -/
abbrev Cur := Field → Option Cell

def Cur.upd (cur : Cur) (f : Field) (x : Option Cell) : Cur := fun g => if g = f then x else cur g

/-- A base metric made for `c`, with any entries. -/
def Base (pre : Bytes) (clock : Nat → Int) (i : Nat) (c : Create) (bm : BaseMetric) : Prop :=
  bm = { newBaseMetric c.type (pre ++ c.name) c.options [] (clock i) with vals := bm.vals }

/-- The base metric of `c` has the entry it should have. -/
def Holds (p : P) (i : Nat) (c : Create) (bm : BaseMetric) (x : Option Cell) : Prop :=
  (c.type = .derivedCumulativeInt64 → GoMap.get p.slots c.field = some (.derived i)) ∧
  ((x = none ∧ bm.vals = [] ∧ c.type = .derivedCumulativeInt64) ∨
    ∃ cell e, x = some cell ∧ bm.vals = [([], e)] ∧ GoMap.get p.cells e = some cell ∧
      (c.type ≠ .derivedCumulativeInt64 → GoMap.get p.slots c.field = some (.entry e)))

structure Good (pre : Bytes) (clock : Nat → Int) (cs : List Create) (cur : Cur) (p : P) : Prop where
  hpre : p.pre = pre
  names : p.reg.baseMetrics = cs.mapIdx fun i c => (pre ++ c.name, i)
  len : p.reg.heap.length = cs.length
  at_ : ∀ i c, cs[i]? = some c → ∃ bm, p.reg.heap[i]? = some bm ∧ Base pre clock i c bm ∧ Holds p i c bm (cur c.field)
  inj : ∀ (i j : Nat) (bm bm' : BaseMetric) (k k' : Bytes) (e : Nat), p.reg.heap[i]? = some bm → p.reg.heap[j]? = some bm' → (k, e) ∈ bm.vals →
    (k', e) ∈ bm'.vals → i = j
  lt : ∀ (i : Nat) (bm : BaseMetric) (k : Bytes) (e : Nat), p.reg.heap[i]? = some bm → (k, e) ∈ bm.vals → e < p.reg.entries

/-- The types that occur. -/
def TypeOK (c : Create) : Prop := c.type = .gaugeInt64 ∨ c.type = .gaugeFloat64 ∨ c.type = .derivedCumulativeInt64

/-- What a new field has. -/
def initial (c : Create) : Option Cell :=
  match c.type with
  | .derivedCumulativeInt64 => none
  | .gaugeFloat64 => some (.float (.fin 0))
  | _ => some (.int 0)

theorem good_empty (pre : Bytes) (clock : Nat → Int) (cur : Cur) :
    Good pre clock [] cur ⟨pre, Reg.empty, [], [], MemStats.zero, false, false⟩ :=
  ⟨rfl, rfl, rfl, by simp, by simp [Reg.empty], by simp [Reg.empty]⟩

theorem encode_nil : encodeLabelVals [] = .ok [] := rfl

theorem getElem?_snoc {α : Type} {l : List α} {a b : α} {i : Nat} (h : (l ++ [a])[i]? = some b) :
    (i < l.length ∧ l[i]? = some b) ∨ (i = l.length ∧ a = b) := by
  rcases Nat.lt_trichotomy i l.length with h1 | h1 | h1
  · exact Or.inl ⟨h1, by rwa [List.getElem?_append_left h1] at h⟩
  · subst h1; right; simpa using h
  · rw [List.getElem?_eq_none (by simp; omega)] at h; cases h

theorem upd_same (cur : Cur) (f : Field) (x : Option Cell) : cur.upd f x f = x := if_pos rfl
theorem upd_other (cur : Cur) {f g : Field} (x : Option Cell) (h : g ≠ f) : cur.upd f x g = cur g := if_neg h

theorem good_create {pre : Bytes} {clock : Nat → Int} {cs : List Create} {cur : Cur} {p : P}
    (h : Good pre clock cs cur p) (c : Create) (ht : TypeOK c) (hn : ∀ c' ∈ cs, c'.name ≠ c.name)
    (hf : ∀ c' ∈ cs, c'.field ≠ c.field) :
    ∃ p', create p c (clock p.reg.heap.length) = .ok p' ∧ Good pre clock (cs ++ [c]) (cur.upd c.field (initial c)) p' ∧
      p'.mem = p.mem ∧ p'.hasMem = p.hasMem ∧ p'.hasCPU = p.hasCPU := by
  have hname : (if p.pre.length > 0 then p.pre ++ c.name else c.name) = pre ++ c.name := by
    rw [h.hpre]
    cases pre <;> simp
  have hfresh : pre ++ c.name ∉ GoMap.keys p.reg.baseMetrics := by
    rw [h.names]
    intro hm
    obtain ⟨x, hx, hxe⟩ := List.mem_map.1 hm
    obtain ⟨i, hi, rfl⟩ := List.mem_mapIdx.1 hx
    exact hn _ (List.getElem_mem hi) (List.append_cancel_left hxe)
  have hget : GoMap.get p.reg.baseMetrics (pre ++ c.name) = none := (GoMap.get_eq_none_iff _ _).2 hfresh
  have hadd : p.reg.add c.type (pre ++ c.name) c.options [] (clock p.reg.heap.length) =
      ({ p.reg with heap := p.reg.heap ++ [newBaseMetric c.type (pre ++ c.name) c.options [] (clock p.reg.heap.length)]
                    baseMetrics := GoMap.set p.reg.baseMetrics (pre ++ c.name) p.reg.heap.length },
        some p.reg.heap.length) := by
    unfold Reg.add
    rw [hget]; rfl
  have hnames : GoMap.set p.reg.baseMetrics (pre ++ c.name) p.reg.heap.length =
      (cs ++ [c]).mapIdx fun i c => (pre ++ c.name, i) := by
    rw [set_fresh hfresh, h.names, h.len, List.mapIdx_append]
    simp
  by_cases hd : c.type = .derivedCumulativeInt64
  · refine ⟨{ p with
      reg := { p.reg with heap := p.reg.heap ++ [newBaseMetric c.type (pre ++ c.name) c.options [] (clock p.reg.heap.length)]
                          baseMetrics := GoMap.set p.reg.baseMetrics (pre ++ c.name) p.reg.heap.length }
      slots := GoMap.set p.slots c.field (.derived p.reg.heap.length) }, ?_, ?_, rfl, rfl, rfl⟩
    · unfold create
      simp only [hname, hadd]
      rw [hd]
    · refine ⟨h.hpre, hnames, by simp [h.len], ?_, ?_, ?_⟩
      · intro i x hx
        rcases getElem?_snoc hx with ⟨hi, hx⟩ | ⟨hi, rfl⟩
        · obtain ⟨bm, h1, h2, h3, h4⟩ := h.at_ i x hx
          have hne := hf x (List.mem_of_getElem? hx)
          refine ⟨bm, by simp only; rw [List.getElem?_append_left (by rw [h.len]; exact hi)]; exact h1, h2, ?_⟩
          rw [upd_other _ _ hne]
          unfold Holds
          simp only [GoMap.get_set_other _ _ hne]
          exact ⟨h3, h4⟩
        · subst hi
          refine ⟨newBaseMetric c.type (pre ++ c.name) c.options [] (clock p.reg.heap.length),
            by simp [← h.len], by rw [h.len]; rfl, ?_, Or.inl ⟨?_, rfl, hd⟩⟩
          · intro _
            rw [← h.len]
            exact GoMap.get_set_same _ _ _
          · rw [upd_same]; simp [initial, hd]
      · intro i j bm bm' k k' e h1 h2 h3 h4
        rcases getElem?_snoc h1 with ⟨_, h1⟩ | ⟨_, rfl⟩
        · rcases getElem?_snoc h2 with ⟨_, h2⟩ | ⟨_, rfl⟩
          · exact h.inj i j bm bm' k k' e h1 h2 h3 h4
          · simp [newBaseMetric] at h4
        · simp [newBaseMetric] at h3
      · intro i bm k e h1 h2
        rcases getElem?_snoc h1 with ⟨_, h1⟩ | ⟨_, rfl⟩
        · exact h.lt i bm k e h1 h2
        · simp [newBaseMetric] at h2
  · -- a gauge
    have hent : ({ p.reg with heap := p.reg.heap ++ [newBaseMetric c.type (pre ++ c.name) c.options [] (clock p.reg.heap.length)]
                              baseMetrics := GoMap.set p.reg.baseMetrics (pre ++ c.name) p.reg.heap.length } : Reg).getEntry
          p.reg.heap.length [] =
        ({ heap := p.reg.heap ++ [{ newBaseMetric c.type (pre ++ c.name) c.options [] (clock p.reg.heap.length) with
              vals := [([], p.reg.entries)] }]
           baseMetrics := GoMap.set p.reg.baseMetrics (pre ++ c.name) p.reg.heap.length
           entries := p.reg.entries + 1 }, .ok p.reg.entries) := by
      unfold Reg.getEntry
      simp only [List.getElem?_concat_length]
      rw [if_neg (by simp [newBaseMetric, Create.options, createMetricOption, Option'.apply])]
      have hl : (newBaseMetric c.type (pre ++ c.name) c.options [] (clock p.reg.heap.length)).constLabelValues ++ [] = [] := rfl
      rw [hl, encode_nil]
      simp [newBaseMetric, Reg.setVals, GoMap.set]
    obtain ⟨cell, hcell, hinit⟩ : ∃ cell, (match c.type with
        | .gaugeFloat64 => Cell.float (.fin 0)
        | _ => Cell.int 0) = cell ∧ initial c = some cell := by
      rcases ht with ht | ht | ht <;> simp [ht, initial] at hd ⊢
    refine ⟨{ p with
      reg := { heap := p.reg.heap ++ [{ newBaseMetric c.type (pre ++ c.name) c.options [] (clock p.reg.heap.length) with
                 vals := [([], p.reg.entries)] }]
               baseMetrics := GoMap.set p.reg.baseMetrics (pre ++ c.name) p.reg.heap.length
               entries := p.reg.entries + 1 }
      cells := GoMap.set p.cells p.reg.entries cell
      slots := GoMap.set p.slots c.field (.entry p.reg.entries) }, ?_, ?_, rfl, rfl, rfl⟩
    · unfold create
      simp only [hname, hadd]
      rcases ht with ht | ht | ht
      · rw [ht] at hcell hent ⊢
        simp only [hent]
        rw [← hcell]
      · rw [ht] at hcell hent ⊢
        simp only [hent]
        rw [← hcell]
      · exact absurd ht hd
    · refine ⟨h.hpre, hnames, by simp [h.len], ?_, ?_, ?_⟩
      · intro i x hx
        rcases getElem?_snoc hx with ⟨hi, hx⟩ | ⟨hi, rfl⟩
        · obtain ⟨bm, h1, h2, h3, h4⟩ := h.at_ i x hx
          have hne := hf x (List.mem_of_getElem? hx)
          refine ⟨bm, by simp only; rw [List.getElem?_append_left (by rw [h.len]; exact hi)]; exact h1, h2, ?_⟩
          rw [upd_other _ _ hne]
          unfold Holds
          simp only [GoMap.get_set_other _ _ hne]
          refine ⟨h3, ?_⟩
          rcases h4 with h4 | ⟨cl, e, g1, g2, g3, g4⟩
          · exact Or.inl h4
          · refine Or.inr ⟨cl, e, g1, g2, ?_, g4⟩
            have := h.lt i bm [] e h1 (by simp [g2])
            rw [GoMap.get_set_other _ _ (by omega)]
            exact g3
        · subst hi
          refine ⟨{ newBaseMetric c.type (pre ++ c.name) c.options [] (clock p.reg.heap.length) with
              vals := [([], p.reg.entries)] },
            by simp [← h.len], by rw [h.len]; rfl, fun hx => absurd hx hd, Or.inr ⟨cell, p.reg.entries, ?_, rfl, ?_, ?_⟩⟩
          · rw [upd_same]; exact hinit
          · exact GoMap.get_set_same _ _ _
          · intro _; exact GoMap.get_set_same _ _ _
      · intro i j bm bm' k k' e h1 h2 h3 h4
        rcases getElem?_snoc h1 with ⟨_, h1⟩ | ⟨hi, rfl⟩
        · rcases getElem?_snoc h2 with ⟨_, h2⟩ | ⟨_, rfl⟩
          · exact h.inj i j bm bm' k k' e h1 h2 h3 h4
          · have := h.lt i bm k e h1 h3
            simp at h4; omega
        · rcases getElem?_snoc h2 with ⟨_, h2⟩ | ⟨hj, rfl⟩
          · have := h.lt j bm' k' e h2 h4
            simp at h3; omega
          · omega
      · intro i bm k e h1 h2
        rcases getElem?_snoc h1 with ⟨_, h1⟩ | ⟨_, rfl⟩
        · have := h.lt i bm k e h1 h2
          simp only; omega
        · simp only [List.mem_singleton, Prod.mk.injEq] at h2
          simp only; omega

/-- What all the fields have at first. -/
def initials (cur : Cur) (cs : List Create) : Cur := cs.foldl (fun cur c => cur.upd c.field (initial c)) cur

theorem good_createAll {pre : Bytes} {clock : Nat → Int} (new : List Create) {cs : List Create} {cur : Cur} {p : P}
    (h : Good pre clock cs cur p) (ht : ∀ c ∈ new, TypeOK c) (hn : ((cs ++ new).map (·.name)).Nodup)
    (hf : ((cs ++ new).map (·.field)).Nodup) :
    ∃ p', createAll clock p new = .ok p' ∧ Good pre clock (cs ++ new) (initials cur new) p' ∧
      p'.mem = p.mem ∧ p'.hasMem = p.hasMem ∧ p'.hasCPU = p.hasCPU := by
  induction new generalizing cs cur p with
  | nil => exact ⟨p, rfl, by simpa [initials] using h, rfl, rfl, rfl⟩
  | cons c new ih =>
    have e : cs ++ c :: new = (cs ++ [c]) ++ new := by simp
    obtain ⟨p1, h1, h2, h3, h4, h5⟩ := good_create h c (ht c (by simp))
      (by
        intro c' hc' he
        rw [List.map_append] at hn
        exact (List.nodup_append.1 hn).2.2 _ (List.mem_map_of_mem hc') c.name (by simp) he)
      (by
        intro c' hc' he
        rw [List.map_append] at hf
        exact (List.nodup_append.1 hf).2.2 _ (List.mem_map_of_mem hc') c.field (by simp) he)
    obtain ⟨p2, g1, g2, g3, g4, g5⟩ := ih h2 (fun c hc => ht c (by simp [hc])) (by rw [← e]; exact hn) (by rw [← e]; exact hf)
    refine ⟨p2, ?_, ?_, g3.trans h3, g4.trans h4, g5.trans h5⟩
    · unfold createAll
      rw [h1]
      exact g1
    · rw [e]; exact g2

/-! ## Sampling -/

/-- The field and the entry of a statement. -/
def Action.field : Action → Field
  | .set f _ => f
  | .setFloat f _ => f
  | .upsert f _ => f

def Action.cell : Action → Cell
  | .set _ v => .int v
  | .setFloat _ v => .float v
  | .upsert _ fn => .derived fn

/-- Whether a statement fits what was created. -/
def Fits (cs : List Create) (a : Action) : Prop :=
  ∃ c ∈ cs, c.field = a.field ∧ ((∃ f fn, a = .upsert f fn) ↔ c.type = .derivedCumulativeInt64)

theorem good_act {pre : Bytes} {clock : Nat → Int} {cs : List Create} {cur : Cur} {p : P}
    (h : Good pre clock cs cur p) (hf : (cs.map (·.field)).Nodup) (a : Action) (ha : Fits cs a) :
    ∃ p', act p a = .ok p' ∧ Good pre clock cs (cur.upd a.field (some a.cell)) p' ∧
      p'.mem = p.mem ∧ p'.hasMem = p.hasMem ∧ p'.hasCPU = p.hasCPU := by
  obtain ⟨c, hc, hcf, hty⟩ := ha
  obtain ⟨i, hi⟩ := List.mem_iff_getElem?.1 hc
  obtain ⟨bm, h1, h2, h3, h4⟩ := h.at_ i c hi
  have hother : ∀ j x, cs[j]? = some x → j ≠ i → x.field ≠ a.field := by
    intro j x hx hj he
    apply hj
    have hj1 : (cs.map (·.field))[j]? = some x.field := by simp [hx]
    have hi1 : (cs.map (·.field))[i]? = some x.field := by simp [hi, hcf, he]
    exact (List.getElem?_inj (by
      rw [List.length_map]
      exact (List.getElem?_eq_some_iff.1 hx).1) hf).1 (hj1.trans hi1.symm)
  by_cases hd : c.type = .derivedCumulativeInt64
  · obtain ⟨f, fn, rfl⟩ := hty.2 hd
    have hcf' : c.field = f := hcf
    have hslot := h3 hd
    rw [hcf'] at hslot
    have hb : bm.keys = [] ∧ bm.constLabelValues = [] := by rw [h2]; exact ⟨rfl, rfl⟩
    have hvals : GoMap.set (GoMap.del bm.vals []) [] p.reg.entries = [([], p.reg.entries)] := by
      rcases h4 with ⟨_, hv, _⟩ | ⟨_, e, _, hv, _, _⟩ <;> simp [hv, GoMap.del, GoMap.set]
    have hup : p.reg.upsertEntry i [] = ({ p.reg with
        heap := p.reg.heap.set i { bm with vals := [([], p.reg.entries)] }, entries := p.reg.entries + 1 }, .ok p.reg.entries) := by
      unfold Reg.upsertEntry
      rw [h1]
      simp only [hb.1, hb.2, List.append_nil, List.length_nil, ne_eq, not_true, if_false]
      rw [encode_nil]
      simp only [Reg.setVals, hvals, hb.1, hb.2]
    have hset : ∀ j x, (p.reg.heap.set i { bm with vals := [([], p.reg.entries)] })[j]? = some x →
        (j = i ∧ x = { bm with vals := [([], p.reg.entries)] }) ∨ (j ≠ i ∧ p.reg.heap[j]? = some x) := by
      intro j x hx
      rw [List.getElem?_set] at hx
      by_cases hj : i = j
      · subst hj
        rw [if_pos rfl] at hx
        split at hx
        · exact Or.inl ⟨rfl, (Option.some.inj hx).symm⟩
        · cases hx
      · rw [if_neg hj] at hx
        exact Or.inr ⟨Ne.symm hj, hx⟩
    have hlt : i < p.reg.heap.length := (List.getElem?_eq_some_iff.1 h1).1
    refine ⟨{ p with
        reg := { p.reg with heap := p.reg.heap.set i { bm with vals := [([], p.reg.entries)] }, entries := p.reg.entries + 1 }
        cells := GoMap.set p.cells p.reg.entries (.derived fn) }, ?_, ?_, rfl, rfl, rfl⟩
    · simp only [act, hslot, hup]
    · refine ⟨h.hpre, h.names, by simp [h.len], ?_, ?_, ?_⟩
      · intro j x hx
        by_cases hj : j = i
        · subst hj
          rw [hi] at hx; cases hx
          refine ⟨{ bm with vals := [([], p.reg.entries)] }, by simp [hlt], ?_, ?_, ?_⟩
          · unfold Base at h2 ⊢
            conv_lhs => rw [h2]
          · intro _; rw [hcf']; exact hslot
          · refine Or.inr ⟨.derived fn, p.reg.entries, ?_, rfl, GoMap.get_set_same _ _ _, fun hx => absurd hd hx⟩
            rw [hcf', show (Action.upsert f fn).field = f from rfl, upd_same]; rfl
        · obtain ⟨bm', g1, g2, g3, g4⟩ := h.at_ j x hx
          refine ⟨bm', by simp only; rw [List.getElem?_set, if_neg (Ne.symm hj)]; exact g1, g2, g3, ?_⟩
          rw [upd_other _ _ (hother j x hx hj)]
          rcases g4 with g4 | ⟨cl, e, k1, k2, k3, k4⟩
          · exact Or.inl g4
          · refine Or.inr ⟨cl, e, k1, k2, ?_, k4⟩
            have := h.lt j bm' [] e g1 (by simp [k2])
            rw [GoMap.get_set_other _ _ (by omega)]
            exact k3
      · intro j k b b' u v e g1 g2 g3 g4
        rcases hset j b g1 with ⟨hj, hb1⟩ | ⟨hj, m1⟩
        · rcases hset k b' g2 with ⟨hk, hb2⟩ | ⟨hk, m2⟩
          · exact hj.trans hk.symm
          · have := h.lt k b' v e m2 g4
            rw [hb1] at g3
            simp at g3; omega
        · rcases hset k b' g2 with ⟨hk, hb2⟩ | ⟨hk, m2⟩
          · have := h.lt j b u e m1 g3
            rw [hb2] at g4
            simp at g4; omega
          · exact h.inj j k b b' u v e m1 m2 g3 g4
      · intro j b u e g1 g2
        rcases hset j b g1 with ⟨hj, hb1⟩ | ⟨hj, m1⟩
        · rw [hb1] at g2
          simp at g2; simp only; omega
        · have := h.lt j b u e m1 g2
          simp only; omega
  · rcases h4 with h4 | ⟨cl, e, k1, k2, k3, k4⟩
    · exact absurd h4.2.2 hd
    have hslot := k4 hd
    rw [hcf] at hslot
    have key : Good pre clock cs (cur.upd a.field (some a.cell)) { p with cells := GoMap.set p.cells e a.cell } := by
      refine ⟨h.hpre, h.names, h.len, ?_, h.inj, h.lt⟩
      intro j x hx
      by_cases hj : j = i
      · subst hj
        rw [hi] at hx; cases hx
        refine ⟨bm, h1, h2, h3, Or.inr ⟨a.cell, e, ?_, k2, GoMap.get_set_same _ _ _, k4⟩⟩
        rw [hcf, upd_same]
      · obtain ⟨bm', g1, g2, g3, g4⟩ := h.at_ j x hx
        refine ⟨bm', g1, g2, g3, ?_⟩
        rw [upd_other _ _ (hother j x hx hj)]
        rcases g4 with g4 | ⟨cl', e', m1, m2, m3, m4⟩
        · exact Or.inl g4
        · refine Or.inr ⟨cl', e', m1, m2, ?_, m4⟩
          rw [GoMap.get_set_other _ _ (by
            rintro rfl
            exact hj (h.inj j i bm' bm [] [] e' g1 h1 (by simp [m2]) (by simp [k2])))]
          exact m3
    cases a with
    | set f v => exact ⟨_, by simp only [act]; rw [show GoMap.get p.slots f = _ from hslot]; rfl, key, rfl, rfl, rfl⟩
    | setFloat f v => exact ⟨_, by simp only [act]; rw [show GoMap.get p.slots f = _ from hslot]; rfl, key, rfl, rfl, rfl⟩
    | upsert f fn => exact absurd (hty.1 ⟨f, fn, rfl⟩) hd

/-- What the fields have after some statements. -/
def after (cur : Cur) (as : List Action) : Cur := as.foldl (fun cur a => cur.upd a.field (some a.cell)) cur

theorem good_actAll {pre : Bytes} {clock : Nat → Int} {cs : List Create} (as : List Action) {cur : Cur} {p : P}
    (h : Good pre clock cs cur p) (hf : (cs.map (·.field)).Nodup) (ha : ∀ a ∈ as, Fits cs a) :
    ∃ p', actAll p as = .ok p' ∧ Good pre clock cs (after cur as) p' ∧
      p'.mem = p.mem ∧ p'.hasMem = p.hasMem ∧ p'.hasCPU = p.hasCPU := by
  induction as generalizing cur p with
  | nil => exact ⟨p, rfl, h, rfl, rfl, rfl⟩
  | cons a as ih =>
    obtain ⟨p1, h1, h2, h3, h4, h5⟩ := good_act h hf a (ha a (by simp))
    obtain ⟨p2, g1, g2, g3, g4, g5⟩ := ih h2 (fun a ha' => ha a (by simp [ha']))
    exact ⟨p2, by unfold actAll; rw [h1]; exact g1, g2, g3.trans h3, g4.trans h4, g5.trans h5⟩

/-! ## Reading -/

/-- The descriptor of a created metric. -/
def Create.descriptor (pre : Bytes) (c : Create) : Descriptor :=
  ⟨pre ++ c.name, c.description, c.unit, bmTypeToMetricType c.type, []⟩

/-- The points of a reading, without times. -/
def points {V : Type} (m : Metric' V) : List (List LabelValue × V) := m.timeSeries.map fun t => (t.labelValues, t.point)

theorem read_good {pre : Bytes} {clock : Nat → Int} {cs : List Create} {cur : Cur} {p : P}
    (h : Good pre clock cs cur p) (now : Nat → Int) (orders : Nat → List (Bytes × Nat))
    (ho : ∀ i bm, p.reg.heap[i]? = some bm → (orders i).Perm bm.vals)
    (order : List (Bytes × Nat)) (hor : order.Perm p.reg.baseMetrics) :
    ∃ ms, readReg p now orders order = .ok ms ∧
      (ms.map fun m => (m.descriptor, points m)).Perm
        (cs.map fun c => (c.descriptor pre, ((cur c.field).map fun x => (([] : List LabelValue), some (x.read p.mem))).toList)) := by
  -- one metric
  have one : ∀ (i : Nat) (c : Create), cs[i]? = some c → ∃ (bm : BaseMetric) (m : Metric' (Option Val)), p.reg.heap[i]? = some bm ∧
      bm.read (fun e => (GoMap.get p.cells e).map (Cell.read p.mem)) (now i) (orders i) = .ok m ∧
      (m.descriptor, points m) =
        (c.descriptor pre, ((cur c.field).map fun x => (([] : List LabelValue), some (x.read p.mem))).toList) := by
    intro i c hi
    obtain ⟨bm, h1, h2, h3, h4⟩ := h.at_ i c hi
    have hb : bm.keys = [] ∧ bm.desc = c.descriptor pre := by rw [h2]; exact ⟨rfl, rfl⟩
    have hp := ho i bm h1
    rcases h4 with ⟨hx, hv, _⟩ | ⟨cell, e, hx, hv, hg, _⟩
    · rw [hv] at hp
      refine ⟨bm, ⟨bm.desc, []⟩, h1, ?_, ?_⟩
      · unfold BaseMetric.read
        rw [List.perm_nil.1 hp]; rfl
      · rw [hx, hb.2]; rfl
    · rw [hv] at hp
      refine ⟨bm, ⟨bm.desc, [⟨bm.startTime (now i), [], some (cell.read p.mem)⟩]⟩, h1, ?_, ?_⟩
      · unfold BaseMetric.read
        rw [List.perm_singleton.1 hp, hb.1]
        simp only [readSeries, List.length_nil, decodeLabelVals, Res.bind, hg, Option.map_some]
      · rw [hx, hb.2]; rfl
  -- all of them
  have all : ∀ l : List (Bytes × Nat), (∀ q ∈ l, q.2 < cs.length) → ∃ ms,
      p.reg.read (fun e => (GoMap.get p.cells e).map (Cell.read p.mem)) now orders l = .ok ms ∧
      (ms.map fun m => (m.descriptor, points m)) = (l.map (·.2)).filterMap fun i => (cs[i]?).map fun c =>
        (c.descriptor pre, ((cur c.field).map fun x => (([] : List LabelValue), some (x.read p.mem))).toList) := by
    intro l hl
    induction l with
    | nil => exact ⟨[], rfl, rfl⟩
    | cons q l ih =>
      obtain ⟨n, i⟩ := q
      obtain ⟨ms, g1, g2⟩ := ih fun q hq => hl q (by simp [hq])
      have hi : i < cs.length := hl (n, i) (by simp)
      obtain ⟨bm, m, k1, k2, k3⟩ := one i cs[i] (List.getElem?_eq_getElem hi)
      refine ⟨m :: ms, ?_, ?_⟩
      · simp only [Reg.read, k1, k2, Res.bind, g1]
      · rw [List.map_cons, List.map_cons, List.filterMap_cons_some (b := (m.descriptor, points m)), g2]
        rw [List.getElem?_eq_getElem hi, k3]; rfl
  have hmem : ∀ q ∈ order, q.2 < cs.length := by
    intro q hq
    have := hor.mem_iff.1 hq
    rw [h.names] at this
    obtain ⟨i, hi, rfl⟩ := List.mem_mapIdx.1 this
    exact hi
  obtain ⟨ms, g1, g2⟩ := all order hmem
  refine ⟨ms, g1, ?_⟩
  rw [g2]
  have hperm : (order.map (·.2)).Perm (List.range cs.length) := by
    refine (hor.map _).trans ?_
    rw [h.names]
    apply List.Perm.of_eq
    apply List.ext_getElem?
    intro i
    rw [List.getElem?_map, List.getElem?_mapIdx]
    by_cases hi : i < cs.length
    · simp [hi]
    · rw [List.getElem?_eq_none (by omega), List.getElem?_eq_none (by simp; omega)]; rfl
  refine (hperm.filterMap _).trans (List.Perm.of_eq ?_)
  clear g2 g1 hmem hperm hor all one ho h
  induction cs using List.reverseRecOn with
  | nil => rfl
  | append_singleton cs c ih =>
    rw [List.length_append, List.length_singleton, List.range_succ, List.filterMap_append, List.map_append]
    congr 1
    · rw [← ih]
      apply List.filterMap_congr
      intro i hi
      rw [List.getElem?_append_left (by simpa using hi)]
    · simp

end Verif.Runmetrics
