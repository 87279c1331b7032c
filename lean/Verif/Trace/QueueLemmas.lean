import Verif.Trace.Queue
import Verif.Trace.BucketLemmas
import Mathlib.Data.List.Nodup
import Mathlib.Data.List.Induction
import Mathlib.Data.List.Perm.Subperm

namespace Verif.Trace
open Verif

/-! ## Queues -/

/-- The queue after the additions `hist`. -/
structure QInv {α : Type} (q : EvictedQueue α) (hist : List α) : Prop where
  cap : 0 < q.capacity
  queue : q.queue = lastN q.capacity.toNat hist
  dropped : q.droppedCount + q.queue.length = hist.length

theorem qinv_new {α : Type} {c : Int} (h : 0 < c) : QInv (EvictedQueue.new c : EvictedQueue α) [] :=
  ⟨h, by simp [EvictedQueue.new, lastN], by simp [EvictedQueue.new]⟩

theorem QInv.add {α : Type} {q : EvictedQueue α} {hist : List α} (h : QInv q hist) (v : α) :
    ∃ q', q.add v = .ok q' ∧ QInv q' (hist ++ [v]) ∧ q'.capacity = q.capacity := by
  have hc := h.cap
  have hq := h.queue
  have hd := h.dropped
  have hl := lastN_length q.capacity.toNat hist
  rw [← hq] at hl
  unfold EvictedQueue.add
  by_cases hf : (q.queue.length : Int) = q.capacity
  · rw [if_pos hf]
    cases hqq : q.queue with
    | nil => rw [hqq] at hf; simp at hf; omega
    | cons a rest =>
      refine ⟨_, rfl, ⟨hc, ?_, ?_⟩, rfl⟩
      · simp only
        rw [← lastN_snoc, ← hq, hqq]
        rw [show a :: rest ++ [v] = [a] ++ (rest ++ [v]) by simp]
        rw [lastN_append_of_ge]
        rw [hqq] at hf
        simp at hf ⊢
        omega
      · rw [hqq] at hd
        simp at hd ⊢
        omega
  · rw [if_neg hf]
    refine ⟨_, rfl, ⟨hc, ?_, ?_⟩, rfl⟩
    · simp only
      rw [hq]
      have h1 : hist.length < q.capacity.toNat := by omega
      rw [lastN_of_le (by omega), lastN_of_le (by simp; omega)]
    · simp only [List.length_append, List.length_singleton]
      push_cast; omega

/-! ## Attributes -/

/-- The keys set, most recently set first, each once. -/
def recent (hist : List (Bytes × V)) : List Bytes :=
  hist.foldl (fun ks a => a.1 :: ks.filter (fun k => decide (k ≠ a.1))) []

/-- The value last set for a key. -/
def lastVal {V : Type} (hist : List (Bytes × V)) (k : Bytes) : Option V :=
  (hist.reverse.find? (fun a => decide (a.1 = k))).map Prod.snd

/-- How often a key was set that was not among the `cap` most recently set ones at that time. -/
def misses {V : Type} (cap : Nat) (hist : List (Bytes × V)) : Nat :=
  ((List.range hist.length).filter fun n => match hist[n]? with
    | some a => decide (a.1 ∉ (recent (hist.take n)).take cap)
    | none => false).length

variable {V : Type}

theorem recent_snoc (hist : List (Bytes × V)) (a : Bytes × V) :
    recent (hist ++ [a]) = a.1 :: (recent hist).filter (fun k => decide (k ≠ a.1)) := by
  simp [recent]

theorem lastVal_snoc (hist : List (Bytes × V)) (a : Bytes × V) (k : Bytes) :
    lastVal (hist ++ [a]) k = if a.1 = k then some a.2 else lastVal hist k := by
  unfold lastVal
  simp only [List.reverse_append, List.reverse_cons, List.reverse_nil, List.nil_append, List.singleton_append,
    List.find?_cons]
  by_cases h : a.1 = k <;> simp [h]

theorem misses_snoc (cap : Nat) (hist : List (Bytes × V)) (a : Bytes × V) :
    misses cap (hist ++ [a]) = misses cap hist + if a.1 ∈ (recent hist).take cap then 0 else 1 := by
  unfold misses
  rw [List.length_append, List.length_singleton, List.range_succ, List.filter_append, List.length_append]
  congr 1
  · congr 1
    apply List.filter_congr
    intro n hn
    have hn : n < hist.length := List.mem_range.mp hn
    rw [List.getElem?_append_left hn, List.take_append_of_le_length (by omega)]
  · by_cases h : a.1 ∈ (recent hist).take cap <;> simp [h]

theorem recent_nodup (hist : List (Bytes × V)) : (recent hist).Nodup := by
  induction hist using List.reverseRecOn with
  | nil => simp [recent]
  | append_singleton hist a ih =>
    rw [recent_snoc, List.nodup_cons]
    exact ⟨by simp, ih.filter _⟩

theorem mem_recent {hist : List (Bytes × V)} {k : Bytes} : k ∈ recent hist ↔ ∃ v, lastVal hist k = some v := by
  induction hist using List.reverseRecOn with
  | nil => simp [recent, lastVal]
  | append_singleton hist a ih =>
    rw [recent_snoc, lastVal_snoc, List.mem_cons, List.mem_filter, ih]
    by_cases h : a.1 = k
    · simp [h]
    · simp [h, Ne.symm h]

theorem recent_snoc_length (hist : List (Bytes × V)) (a : Bytes × V) :
    (recent (hist ++ [a])).length = if a.1 ∈ recent hist then (recent hist).length else (recent hist).length + 1 := by
  rw [recent_snoc, List.length_cons]
  split
  · rename_i h
    have := (recent_nodup hist).erase_eq_filter a.1
    have e : (recent hist).filter (fun k => decide (k ≠ a.1)) = (recent hist).erase a.1 := by
      rw [this]; apply List.filter_congr; intro x _; by_cases hx : x = a.1 <;> simp [hx]
    rw [e, List.length_erase_of_mem h]
    have := List.length_pos_of_mem h
    omega
  · rename_i h
    rw [List.filter_eq_self.mpr]
    intro x hx
    simp only [ne_eq, decide_eq_true_eq]
    rintro rfl; exact h hx

/-- What always holds of the attributes, whatever was read in between. -/
structure AInv (m : LruMap V) (hist : List (Bytes × V)) : Prop where
  cap : 0 < m.maxEntries
  nodup : (m.entries.map Prod.fst).Nodup
  len : (m.entries.length : Int) ≤ m.maxEntries
  wf : GoMap.WF m.cacheKeys
  keys : ∀ k, k ∈ GoMap.keys m.cacheKeys ↔ k ∈ m.entries.map Prod.fst
  val : ∀ e ∈ m.entries, lastVal hist e.1 = some e.2
  count : m.entries.length = min (recent hist).length m.maxEntries.toNat
  lost : ((recent hist).length : Int) ≤ m.droppedCount + m.entries.length
  few : ((recent hist).length : Int) ≤ m.maxEntries → m.droppedCount = 0

theorem AInv.sub {m : LruMap V} {hist : List (Bytes × V)} (h : AInv m hist) {k : Bytes} (hk : k ∈ m.entries.map Prod.fst) :
    k ∈ recent hist := by
  obtain ⟨e, he, rfl⟩ := List.mem_map.mp hk
  exact mem_recent.mpr ⟨_, h.val e he⟩

/-- With no more keys than the limit all are kept. -/
theorem AInv.all {m : LruMap V} {hist : List (Bytes × V)} (h : AInv m hist) (hf : ((recent hist).length : Int) ≤ m.maxEntries)
    {k : Bytes} (hk : k ∈ recent hist) : k ∈ m.entries.map Prod.fst := by
  have hp : (m.entries.map Prod.fst).Perm (recent hist) :=
    (List.subperm_of_subset h.nodup fun _ hx => h.sub hx).perm_of_length_le (by
      rw [List.length_map, h.count]; omega)
  exact hp.mem_iff.mpr hk

/-- What holds when nothing was read in between. -/
structure AStrong (m : LruMap V) (hist : List (Bytes × V)) : Prop where
  kept : m.entries.map Prod.fst = (recent hist).take m.maxEntries.toNat
  dropped : m.droppedCount + m.entries.length = misses m.maxEntries.toNat hist

theorem ainv_new {c : Int} (h : 0 < c) : AInv (LruMap.new c : LruMap V) [] :=
  ⟨h, by simp [LruMap.new], by simp [LruMap.new]; omega, by simp [LruMap.new, GoMap.WF],
    by simp [LruMap.new], by simp [LruMap.new], by simp [LruMap.new, recent], by simp [LruMap.new, recent],
    by simp [LruMap.new]⟩

theorem astrong_new (c : Int) : AStrong (LruMap.new c : LruMap V) [] :=
  ⟨by simp [LruMap.new, recent], by simp [LruMap.new, misses]⟩

theorem map_fst_filter (l : List (Bytes × V)) (k : Bytes) :
    (l.filter (fun e => decide (e.1 ≠ k))).map Prod.fst = (l.map Prod.fst).filter (fun x => decide (x ≠ k)) := by
  rw [List.filter_map]; rfl

theorem nodup_front {l : List (Bytes × V)} (h : (l.map Prod.fst).Nodup) (k : Bytes) (v : V) :
    ((((k, v) :: l.filter (fun e => decide (e.1 ≠ k))) : List (Bytes × V)).map Prod.fst).Nodup := by
  rw [List.map_cons, map_fst_filter, List.nodup_cons]
  exact ⟨by simp, h.filter _⟩

theorem length_filter_key {l : List (Bytes × V)} (h : (l.map Prod.fst).Nodup) {k : Bytes}
    (hk : k ∈ l.map Prod.fst) : (l.filter (fun e => decide (e.1 ≠ k))).length + 1 = l.length := by
  induction l with
  | nil => simp at hk
  | cons e l ih =>
    simp only [List.map_cons, List.nodup_cons] at h
    by_cases he : e.1 = k
    · subst he
      rw [List.filter_cons_of_neg (by simp)]
      have : l.filter (fun x => decide (x.1 ≠ e.1)) = l := by
        apply List.filter_eq_self.mpr
        intro x hx
        simp only [decide_not, Bool.not_eq_eq_eq_not, Bool.not_true, decide_eq_false_iff_not]
        intro hc
        exact h.1 (hc ▸ List.mem_map_of_mem hx)
      rw [this]; rfl
    · rw [List.filter_cons_of_pos (by simp [he])]
      have := ih h.2 (by simpa [Ne.symm he] using hk)
      rw [List.length_cons, List.length_cons]; omega

theorem length_filter_key' {l : List Bytes} (h : l.Nodup) {k : Bytes}
    (hk : k ∈ l) : (l.filter (fun e => decide (e ≠ k))).length + 1 = l.length := by
  induction l with
  | nil => simp at hk
  | cons e l ih =>
    simp only [List.nodup_cons] at h
    by_cases he : e = k
    · subst he
      rw [List.filter_cons_of_neg (by simp)]
      have : l.filter (fun x => decide (x ≠ e)) = l := by
        apply List.filter_eq_self.mpr
        intro x hx
        simp only [decide_not, Bool.not_eq_eq_eq_not, Bool.not_true, decide_eq_false_iff_not]
        intro hc
        exact h.1 (hc ▸ hx)
      rw [this]; rfl
    · rw [List.filter_cons_of_pos (by simp [he])]
      have := ih h.2 (by simpa [Ne.symm he] using hk)
      rw [List.length_cons, List.length_cons]; omega

theorem any_key_iff (l : List (Bytes × V)) (k : Bytes) :
    l.any (fun e => decide (e.1 = k)) = true ↔ k ∈ l.map Prod.fst := by
  simp [List.any_eq_true]

/-- The three ways an addition can go. -/
theorem add_cases {m : LruMap V} {hist : List (Bytes × V)} (h : AInv m hist) (k : Bytes) (v : V) :
    (k ∈ m.entries.map Prod.fst ∧ m.add k v = { m with
        cacheKeys := GoMap.set m.cacheKeys k true,
        entries := (k, v) :: m.entries.filter (fun e => decide (e.1 ≠ k)) }) ∨
    (k ∉ m.entries.map Prod.fst ∧ (m.entries.length : Int) < m.maxEntries ∧ m.add k v = { m with
        cacheKeys := GoMap.set m.cacheKeys k true, entries := (k, v) :: m.entries }) ∨
    (k ∉ m.entries.map Prod.fst ∧ (m.entries.length : Int) = m.maxEntries ∧
      ∃ rest old, m.entries = rest ++ [old] ∧ m.add k v = { m with
        cacheKeys := GoMap.del (GoMap.set m.cacheKeys k true) old.1,
        entries := (k, v) :: rest, droppedCount := m.droppedCount + 1 }) := by
  have hc := h.cap
  have hl := h.len
  unfold LruMap.add LruMap.cacheAdd
  by_cases hk : k ∈ m.entries.map Prod.fst
  · left
    refine ⟨hk, ?_⟩
    simp only
    rw [if_pos ((any_key_iff _ _).mpr hk)]
  · right
    simp only
    rw [if_neg (by rw [any_key_iff]; exact hk)]
    by_cases hf : (m.entries.length : Int) < m.maxEntries
    · left
      refine ⟨hk, hf, ?_⟩
      rw [if_neg (by simp; omega)]
    · right
      refine ⟨hk, by omega, ?_⟩
      rcases List.eq_nil_or_concat m.entries with h0 | ⟨rest, old, hro⟩
      · rw [h0] at hf; simp at hf; omega
      · rw [List.concat_eq_append] at hro
        refine ⟨rest, old, hro, ?_⟩
        rw [if_pos (by simp; omega), hro]
        have e1 : ((k, v) :: (rest ++ [old])).getLast? = some old := by
          rw [← List.cons_append, List.getLast?_append]; simp
        have e2 : ((k, v) :: (rest ++ [old])).dropLast = (k, v) :: rest := by
          rw [← List.cons_append, List.dropLast_concat]
        rw [e1, e2]

theorem lastVal_of_ne {hist : List (Bytes × V)} {k k' : Bytes} {v : V} (h : k ≠ k') :
    lastVal (hist ++ [(k, v)]) k' = lastVal hist k' := by
  rw [lastVal_snoc, if_neg h]

theorem AInv.add {m : LruMap V} {hist : List (Bytes × V)} (h : AInv m hist) (k : Bytes) (v : V) :
    AInv (m.add k v) (hist ++ [(k, v)]) ∧ (m.add k v).maxEntries = m.maxEntries := by
  have hvk : lastVal (hist ++ [(k, v)]) k = some v := by rw [lastVal_snoc]; simp
  have hcap := h.cap
  have hcount := h.count
  have hlost := h.lost
  have hfew := h.few
  have hrl := recent_snoc_length hist (k, v)
  simp only at hrl
  rcases add_cases h k v with ⟨hk, e⟩ | ⟨hk, hl, e⟩ | ⟨hk, hl, rest, old, hro, e⟩
  · rw [e]
    rw [if_pos (h.sub hk)] at hrl
    have hfl := length_filter_key h.nodup hk
    refine ⟨⟨h.cap, nodup_front h.nodup k v, ?_, GoMap.WF_set h.wf _ _, ?_, ?_, ?_, ?_, by rw [hrl]; exact hfew⟩, rfl⟩
    · have := length_filter_key h.nodup hk
      have := h.len
      simp only [List.length_cons]; omega
    · intro k'
      rw [GoMap.keys_set_mem, h.keys, List.map_cons, map_fst_filter, List.mem_cons, List.mem_filter]
      by_cases hkk : k' = k <;> simp [hkk]
    · intro e he
      rcases List.mem_cons.mp he with rfl | he
      · exact hvk
      · have := List.mem_filter.mp he
        rw [lastVal_of_ne (by simpa using Ne.symm (of_decide_eq_true this.2))]
        exact h.val e this.1
    · rw [hrl]; simp only [List.length_cons]; omega
    · rw [hrl]; simp only [List.length_cons]; omega
  · rw [e]
    rw [if_neg (fun hc => hk (h.all (by omega) hc))] at hrl
    refine ⟨⟨h.cap, ?_, ?_, GoMap.WF_set h.wf _ _, ?_, ?_, ?_, ?_, ?_⟩, rfl⟩
    · rw [List.map_cons, List.nodup_cons]; exact ⟨hk, h.nodup⟩
    · simp only [List.length_cons]; omega
    · intro k'
      rw [GoMap.keys_set_mem, h.keys, List.map_cons, List.mem_cons]
    · intro e he
      rcases List.mem_cons.mp he with rfl | he
      · exact hvk
      · rw [lastVal_of_ne (fun hc => hk (by rw [hc]; exact List.mem_map_of_mem he))]
        exact h.val e he
    · rw [hrl]; simp only [List.length_cons]; omega
    · rw [hrl]; simp only [List.length_cons]; omega
    · rw [hrl]; intro hx; exact hfew (by omega)
  · rw [e]
    have hnd := h.nodup
    rw [hro, List.map_append, List.nodup_append] at hnd
    have hall : ((recent (hist ++ [(k, v)])).length : Int) > m.maxEntries ∧
        (recent (hist ++ [(k, v)])).length ≤ (recent hist).length + 1 := by
      rw [hrl]
      split
      · rename_i hc
        refine ⟨?_, by omega⟩
        by_contra hx
        exact hk (h.all (by omega) hc)
      · omega
    rw [hro] at hk hl hcount hlost
    have hkold : k ≠ old.1 := fun hc => hk (by simp [hc])
    refine ⟨⟨h.cap, ?_, ?_, GoMap.WF_del (GoMap.WF_set h.wf _ _) _, ?_, ?_, ?_, ?_, fun hx => absurd hx (by have := hall.1; simp only; omega)⟩, rfl⟩
    · rw [List.map_cons, List.nodup_cons]
      exact ⟨fun hc => hk (by simp at hc ⊢; exact .inl hc), hnd.1⟩
    · simp only [List.length_cons, List.length_append, List.length_nil] at hl ⊢; omega
    · intro k'
      rw [GoMap.keys_del_mem, GoMap.keys_set_mem, h.keys, hro]
      simp only [List.map_append, List.map_cons, List.map_nil, List.mem_append, List.mem_cons, List.not_mem_nil,
        or_false]
      constructor
      · rintro ⟨h1, h2 | h2 | h2⟩
        · exact .inl h2
        · exact .inr h2
        · exact absurd h2 h1
      · rintro (h1 | h1)
        · exact ⟨by rw [h1]; exact hkold, .inl h1⟩
        · refine ⟨fun hc => ?_, .inr (.inl h1)⟩
          exact hnd.2.2 k' h1 old.1 (by simp) hc
    · intro e he
      rcases List.mem_cons.mp he with rfl | he
      · exact hvk
      · rw [lastVal_of_ne (fun hc => hk (by rw [hc]; simp only [List.map_append, List.mem_append]; exact .inl (List.mem_map_of_mem he)))]
        exact h.val e (by rw [hro]; simp [he])
    · simp only [List.length_cons, List.length_append, List.length_nil] at hcount hl ⊢; omega
    · simp only [List.length_cons, List.length_append, List.length_nil] at hlost hl ⊢; omega

theorem take_filter_of_mem {l : List Bytes} (hn : l.Nodup) {k : Bytes} {c : Nat} (hk : k ∈ l.take c) :
    (l.filter (fun x => decide (x ≠ k))).take (c - 1) = (l.take c).filter (fun x => decide (x ≠ k)) := by
  induction l generalizing c with
  | nil => simp
  | cons a l ih =>
    cases c with
    | zero => simp at hk
    | succ c =>
      simp only [List.nodup_cons] at hn
      rw [List.take_succ_cons] at hk ⊢
      by_cases ha : a = k
      · subst ha
        have e1 : ∀ l' : List Bytes, a ∉ l' → l'.filter (fun x => decide (x ≠ a)) = l' := by
          intro l' hl'
          apply List.filter_eq_self.mpr
          intro x hx
          simp only [decide_not, Bool.not_eq_eq_eq_not, Bool.not_true, decide_eq_false_iff_not]
          rintro rfl; exact hl' hx
        rw [List.filter_cons_of_neg (by simp), List.filter_cons_of_neg (by simp), e1 l hn.1,
          e1 (l.take c) (fun hc => hn.1 (List.mem_of_mem_take hc))]
        rfl
      · have hk' : k ∈ l.take c := by
          rcases List.mem_cons.mp hk with h | h
          · exact absurd h.symm ha
          · exact h
        have hc : c ≠ 0 := by rintro rfl; simp at hk'
        rw [List.filter_cons_of_pos (by simp [ha]), List.filter_cons_of_pos (by simp [ha])]
        rw [show c + 1 - 1 = (c - 1) + 1 by omega, List.take_succ_cons, ih hn.2 hk']

theorem take_filter_of_not_mem {l : List Bytes} {k : Bytes} {c : Nat} (hk : k ∉ l.take c) :
    (l.filter (fun x => decide (x ≠ k))).take c = l.take c := by
  induction l generalizing c with
  | nil => simp
  | cons a l ih =>
    cases c with
    | zero => simp
    | succ c =>
      rw [List.take_succ_cons] at hk ⊢
      simp only [List.mem_cons, not_or] at hk
      rw [List.filter_cons_of_pos (by simp [Ne.symm hk.1]), List.take_succ_cons, ih hk.2]

theorem AStrong.add {m : LruMap V} {hist : List (Bytes × V)} (h : AInv m hist) (hs : AStrong m hist)
    (k : Bytes) (v : V) : AStrong (m.add k v) (hist ++ [(k, v)]) := by
  have hc := h.cap
  have hkept := hs.kept
  have hd := hs.dropped
  have hn := recent_nodup hist
  have hlen := congrArg List.length hkept
  simp only [List.length_map, List.length_take] at hlen
  obtain ⟨c, hce⟩ : ∃ c : Nat, m.maxEntries.toNat = c + 1 := ⟨m.maxEntries.toNat - 1, by omega⟩
  rcases add_cases h k v with ⟨hk, e⟩ | ⟨hk, hl, e⟩ | ⟨hk, hl, rest, old, hro, e⟩ <;> rw [e] <;> constructor <;>
    simp only [recent_snoc, misses_snoc, ← hkept]
  · rw [List.map_cons, map_fst_filter, hce, List.take_succ_cons, hkept]
    rw [hkept] at hk
    have := take_filter_of_mem hn hk
    rw [hce] at this ⊢
    rw [← this]; rfl
  · rw [if_pos hk]
    have := length_filter_key h.nodup hk
    simp only [List.length_cons]
    push_cast
    omega
  · rw [List.map_cons, hce, List.take_succ_cons, hkept]
    rw [hkept] at hk
    have hfull : (recent hist).length ≤ c := by omega
    rw [hce, List.take_of_length_le (by omega)] at hk
    rw [hce, List.take_of_length_le (by omega)]
    rw [List.filter_eq_self.mpr, List.take_of_length_le hfull]
    intro x hx
    simp only [decide_not, Bool.not_eq_eq_eq_not, Bool.not_true, decide_eq_false_iff_not]
    rintro rfl; exact hk hx
  · rw [if_neg hk]
    simp only [List.length_cons]; push_cast; omega
  · rw [List.map_cons, hce, List.take_succ_cons]
    congr 1
    have hk2 := hk
    rw [hkept, hce] at hk2
    have hk3 : k ∉ (recent hist).take c := fun hc => hk2 (List.take_subset_take_left _ (by omega) hc)
    rw [take_filter_of_not_mem hk3]
    have e1 : (rest ++ [old]).map Prod.fst = (recent hist).take (c + 1) := by rw [← hro, hkept, hce]
    have e2 := congrArg (List.take c) e1
    rw [List.take_take, show min c (c + 1) = c by omega] at e2
    rw [← e2, List.map_append, List.take_left']
    rw [hro] at hl
    simp only [List.length_append, List.length_cons, List.length_nil] at hl
    simp; omega
  · rw [if_neg hk]
    rw [hro] at hd
    simp only [List.length_append, List.length_cons, List.length_nil] at hd ⊢
    push_cast at hd ⊢; omega

/-! ## Reading -/

theorem get_mem_iff {l : List (Bytes × V)} (h : (l.map Prod.fst).Nodup) {k : Bytes} {v : V} :
    GoMap.get l k = some v ↔ (k, v) ∈ l := by
  induction l with
  | nil => simp
  | cons e l ih =>
    obtain ⟨a, b⟩ := e
    simp only [List.map_cons, List.nodup_cons] at h
    by_cases ha : a = k
    · subst ha
      simp only [GoMap.get, if_true, List.mem_cons, Prod.mk.injEq, true_and, Option.some.injEq]
      constructor
      · rintro rfl; exact .inl rfl
      · rintro (rfl | hm)
        · rfl
        · exact absurd (List.mem_map_of_mem hm) h.1
    · simp only [GoMap.get, ha, if_false, ih h.2, List.mem_cons, Prod.mk.injEq]
      constructor
      · exact .inr
      · rintro (⟨rfl, _⟩ | hm)
        · exact absurd rfl ha
        · exact hm

theorem get_none_iff {l : List (Bytes × V)} {k : Bytes} : GoMap.get l k = none ↔ k ∉ l.map Prod.fst := by
  induction l with
  | nil => simp
  | cons e l ih =>
    obtain ⟨a, b⟩ := e
    by_cases ha : a = k
    · subst ha; simp [GoMap.get]
    · simp only [GoMap.get, ha, if_false, ih, List.map_cons, List.mem_cons]
      simp [Ne.symm ha]

theorem LruMap.get_perm {m : LruMap V} (h : (m.entries.map Prod.fst).Nodup) (k : Bytes) :
    (m.get k).2 = GoMap.get m.entries k ∧ (m.get k).1.entries.Perm m.entries ∧
      (m.get k).1 = { m with entries := (m.get k).1.entries } := by
  unfold LruMap.get
  cases hg : GoMap.get m.entries k with
  | none => exact ⟨rfl, List.Perm.refl _, rfl⟩
  | some v =>
    refine ⟨rfl, ?_, rfl⟩
    have hm := (get_mem_iff h).mp hg
    obtain ⟨l1, l2, hl⟩ := List.append_of_mem hm
    simp only
    rw [hl] at h ⊢
    simp only [List.map_append, List.map_cons, List.nodup_append, List.nodup_cons] at h
    have e : ∀ l' : List (Bytes × V), k ∉ l'.map Prod.fst → l'.filter (fun e => decide (e.1 ≠ k)) = l' := by
      intro l' hl'
      apply List.filter_eq_self.mpr
      intro x hx
      simp only [decide_not, Bool.not_eq_eq_eq_not, Bool.not_true, decide_eq_false_iff_not]
      rintro rfl; exact hl' (List.mem_map_of_mem hx)
    rw [List.filter_append, List.filter_cons_of_neg (by simp), e l1, e l2 h.2.1.1]
    · exact List.perm_middle.symm
    · intro hc
      exact h.2.2 k hc k (by simp) rfl

theorem get_of_perm {l l' : List (Bytes × V)} (h : (l.map Prod.fst).Nodup) (hp : l'.Perm l) (k : Bytes) :
    GoMap.get l' k = GoMap.get l k := by
  have h' : (l'.map Prod.fst).Nodup := (hp.map Prod.fst).nodup_iff.mpr h
  ext v
  rw [get_mem_iff h, get_mem_iff h', hp.mem_iff]

theorem readLoop_spec {m : LruMap V} (h : (m.entries.map Prod.fst).Nodup) (acc : GoMap Bytes V) (order : List Bytes) :
    (m.readLoop acc order).1.entries.Perm m.entries ∧
    (m.readLoop acc order).1 = { m with entries := (m.readLoop acc order).1.entries } ∧
    ∀ k, GoMap.get (m.readLoop acc order).2 k =
      if k ∈ order ∧ (GoMap.get m.entries k).isSome then GoMap.get m.entries k else GoMap.get acc k := by
  induction order generalizing m acc with
  | nil => exact ⟨List.Perm.refl _, rfl, by simp [LruMap.readLoop]⟩
  | cons k0 ks ih =>
    obtain ⟨g1, g2, g3⟩ := LruMap.get_perm h k0
    have hnd : ((m.get k0).1.entries.map Prod.fst).Nodup := (g2.map Prod.fst).nodup_iff.mpr h
    have hgp := get_of_perm h g2
    simp only [LruMap.readLoop]
    cases hg : m.get k0 with
    | mk m1 o =>
      rw [hg] at g1 g2 g3 hnd hgp
      simp only at g1 g2 g3 hnd hgp
      cases o with
      | none =>
        obtain ⟨i1, i2, i3⟩ := ih hnd acc
        refine ⟨i1.trans g2, by rw [i2, g3], ?_⟩
        intro k
        simp only
        rw [i3, hgp]
        by_cases hk : k = k0
        · subst hk; rw [← g1]; simp
        · simp [hk]
      | some v =>
        obtain ⟨i1, i2, i3⟩ := ih hnd (GoMap.set acc k0 v)
        refine ⟨i1.trans g2, by rw [i2, g3], ?_⟩
        intro k
        simp only
        rw [i3, hgp, GoMap.get_set]
        by_cases hk : k = k0
        · subst hk; rw [← g1]; simp
        · simp [hk]

/-- What a report reads: exactly the entries. -/
theorem AInv.read {m : LruMap V} {hist : List (Bytes × V)} (h : AInv m hist) {order : List Bytes}
    (ho : order.Perm (GoMap.keys m.cacheKeys)) :
    AInv (m.toAttributeMap order).1 hist ∧
    (m.toAttributeMap order).1 = { m with entries := (m.toAttributeMap order).1.entries } ∧
    (m.toAttributeMap order).1.entries.Perm m.entries ∧
    ∀ k, GoMap.get (m.toAttributeMap order).2 k = GoMap.get m.entries k := by
  obtain ⟨h1, h2, h3⟩ := readLoop_spec h.nodup [] order
  unfold LruMap.toAttributeMap
  have hp := h1.map Prod.fst
  refine ⟨?_, h2, h1, ?_⟩
  · rw [h2]
    refine ⟨h.cap, hp.nodup_iff.mpr h.nodup, by simpa [h1.length_eq] using h.len, h.wf, ?_, ?_, ?_, ?_, h.few⟩
    · intro k; rw [h.keys]; exact hp.mem_iff.symm
    · intro e he; exact h.val e (h1.mem_iff.mp he)
    · simp only [h1.length_eq]; exact h.count
    · simp only [h1.length_eq]; exact h.lost
  · intro k
    rw [h3]
    cases hg : GoMap.get m.entries k with
    | none => simp
    | some v =>
      have : k ∈ order := by
        rw [ho.mem_iff, h.keys]
        by_contra hc
        rw [get_none_iff.mpr hc] at hg; cases hg
      simp [this]

end Verif.Trace
