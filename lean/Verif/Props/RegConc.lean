import Verif.Metric.RegConc
import Mathlib.Order.Basic
import Mathlib.Data.List.Nodup
import Mathlib.Data.List.Induction
import Mathlib.Data.Nat.Init

/-!
# Reading a registry beside its users (C75)

A moment is a number `j`: the first `j` operations have been executed.
-/

namespace Verif.Props.RegConc
open Verif Verif.Metric Verif.Metric.RegConc

variable {V : Type}

/-! ## Specification -/

/-- The last of the metrics added under the name. -/
def registered (n : Bytes) (l : List (Ev V)) : Option Nat := (l.filterMap fun x => match x with
  | .stored _ m p _ => if m = n then some p else none
  | _ => none).getLast?

/-- Its type. -/
def regType (n : Bytes) (l : List (Ev V)) : Option BMType := (l.filterMap fun x => match x with
  | .stored _ m _ ty => if m = n then some ty else none
  | _ => none).getLast?

/-- The entry for a key in a metric: the last one made for it, unless the key was deleted after that. -/
def entryAt (p : Nat) (k : Bytes) (l : List (Ev V)) : Option Nat := ((l.filterMap fun x => match x with
  | .put _ q k' e => if q = p ∧ k' = k then some (some e) else none
  | .deleted _ q k' => if q = p ∧ k' = k then some none else none
  | _ => none).getLast?).getD none

/-- The value of an entry: all its updates, one after the other. -/
def valueAt (zero : V) (e : Nat) (l : List (Ev V)) : V := (l.filterMap fun x => match x with
  | .update _ e' f => if e' = e then some f else none
  | _ => none).foldl (fun v f => f v) zero

/-! ## The memory -/

theorem mem_snoc (zero : V) (l : List (Ev V)) (x : Ev V) : mem zero (l ++ [x]) = (mem zero l).exec zero x := by
  simp [mem]

theorem last_snoc {α β : Type} (f : α → Option β) (l : List α) (x : α) :
    ((l ++ [x]).filterMap f).getLast? = match f x with
      | some y => some y
      | none => (l.filterMap f).getLast? := by
  rw [List.filterMap_append]
  cases h : f x <;> simp [List.filterMap_cons, h]

theorem registered_snoc (n : Bytes) (l : List (Ev V)) (x : Ev V) : registered n (l ++ [x]) = match x with
    | .stored _ m p _ => if m = n then some p else registered n l
    | _ => registered n l := by
  unfold registered
  rw [last_snoc]
  cases x <;> simp only []
  split <;> simp_all

theorem regType_snoc (n : Bytes) (l : List (Ev V)) (x : Ev V) : regType n (l ++ [x]) = match x with
    | .stored _ m _ ty => if m = n then some ty else regType n l
    | _ => regType n l := by
  unfold regType
  rw [last_snoc]
  cases x <;> simp only []
  split <;> simp_all

theorem entryAt_snoc (p : Nat) (k : Bytes) (l : List (Ev V)) (x : Ev V) : entryAt p k (l ++ [x]) = match x with
    | .put _ q k' e => if q = p ∧ k' = k then some e else entryAt p k l
    | .deleted _ q k' => if q = p ∧ k' = k then none else entryAt p k l
    | _ => entryAt p k l := by
  unfold entryAt
  rw [last_snoc]
  cases x <;> simp only []
  · rename_i q k' e
    by_cases h : q = p ∧ k' = k <;> simp [h]
  · rename_i q k'
    by_cases h : q = p ∧ k' = k <;> simp [h]

theorem valueAt_snoc (zero : V) (e : Nat) (l : List (Ev V)) (x : Ev V) : valueAt zero e (l ++ [x]) = match x with
    | .update _ e' f => if e' = e then f (valueAt zero e l) else valueAt zero e l
    | _ => valueAt zero e l := by
  cases x <;> simp [valueAt, List.filterMap_append, List.filterMap_cons]
  rename_i e' f
  by_cases h : e' = e <;> simp [h]

theorem names_eq (zero : V) (l : List (Ev V)) (n : Bytes) : GoMap.get (mem zero l).names n = registered n l := by
  induction l using List.reverseRecOn with
  | nil => rfl
  | append_singleton l x ih =>
    rw [mem_snoc, registered_snoc]
    cases x <;> simp only [Mem.exec, ih]
    rw [GoMap.get_set, ih]
    simp only [eq_comm]

theorem vals_eq (zero : V) (l : List (Ev V)) (p : Nat) (k : Bytes) :
    GoMap.get ((mem zero l).vals p) k = entryAt p k l := by
  induction l using List.reverseRecOn with
  | nil => rfl
  | append_singleton l x ih =>
    rw [mem_snoc, entryAt_snoc]
    cases x <;> simp only [Mem.exec, ih]
    · rename_i q k' e
      by_cases h : p = q
      · subst h
        simp only [if_true, true_and]
        rw [GoMap.get_set, ih]
        simp only [eq_comm]
      · simp only [if_neg h, ih, Ne.symm h, false_and, if_false]
    · rename_i q k'
      by_cases h : p = q
      · subst h
        simp only [if_true, true_and]
        rw [GoMap.get_del, ih]
        simp only [eq_comm]
      · simp only [if_neg h, ih, Ne.symm h, false_and, if_false]

/-- How many metrics have been added. -/
def metrics (l : List (Ev V)) : Nat := (l.filter fun x => match x with
  | .stored _ _ _ _ => true
  | _ => false).length

/-- How many entries have been made. -/
def made (l : List (Ev V)) : Nat := (l.filter fun x => match x with
  | .put _ _ _ _ => true
  | _ => false).length

theorem metrics_snoc (l : List (Ev V)) (x : Ev V) : metrics (l ++ [x]) = match x with
    | .stored _ _ _ _ => metrics l + 1
    | _ => metrics l := by
  cases x <;> simp [metrics]

theorem made_snoc (l : List (Ev V)) (x : Ev V) : made (l ++ [x]) = match x with
    | .put _ _ _ _ => made l + 1
    | _ => made l := by
  cases x <;> simp [made]

theorem types_eq (zero : V) (l : List (Ev V)) : (mem zero l).types.length = metrics l := by
  induction l using List.reverseRecOn with
  | nil => rfl
  | append_singleton l x ih =>
    rw [mem_snoc, metrics_snoc]
    cases x <;> simp [Mem.exec, ih]

theorem entries_eq (zero : V) (l : List (Ev V)) : (mem zero l).entries = made l := by
  induction l using List.reverseRecOn with
  | nil => rfl
  | append_singleton l x ih =>
    rw [mem_snoc, made_snoc]
    cases x <;> simp [Mem.exec, ih]

/-! ## What the log is like -/

/-- The goroutine. -/
def thread : Ev V → Nat
  | .addCalled t _ _ => t
  | .refused t _ _ => t
  | .stored t _ _ _ => t
  | .put t _ _ _ => t
  | .deleted t _ _ => t
  | .got t _ _ _ => t
  | .update t _ _ => t
  | .readCalled t => t
  | .readDone t _ => t

/-- The last operation of the goroutine is at `b`. -/
def Last (l : List (Ev V)) (t b : Nat) (x : Ev V) : Prop :=
  l[b]? = some x ∧ ∀ j y, b < j → l[j]? = some y → thread y ≠ t

/-- What is reported for a metric, of the moments from `since` to the end of `l`. -/
structure SeriesOK (zero : V) (l : List (Ev V)) (since : Nat) (p : Nat) (ser : List (Bytes × Nat × V)) : Prop where
  keys : (ser.map Prod.fst).Nodup
  sound : ∀ k e v, (k, e, v) ∈ ser → ∃ j i, since ≤ j ∧ j ≤ i ∧ i ≤ l.length ∧ entryAt p k (l.take j) = some e ∧
    v = valueAt zero e (l.take i)

def Complete (l : List (Ev V)) (since : Nat) (p : Nat) (ser : List (Bytes × Nat × V)) : Prop :=
  ∀ k, (∀ j, since ≤ j → j ≤ l.length → (entryAt p k (l.take j)).isSome) → k ∈ ser.map Prod.fst

structure ReportOK (zero : V) (l : List (Ev V)) (since : Nat) (r : Report V) : Prop where
  reg : ∃ j, since ≤ j ∧ j ≤ l.length ∧ registered r.name (l.take j) = some r.bm
  series : SeriesOK zero l since r.bm r.series
  complete : Complete l since r.bm r.series

structure ReportsOK (zero : V) (l : List (Ev V)) (since : Nat) (ms : List (Report V)) : Prop where
  names : (ms.map Report.name).Nodup
  each : ∀ r ∈ ms, ReportOK zero l since r

/-- What an operation says about those before it. -/
def EvOK (zero : V) (l : List (Ev V)) : Ev V → Prop
  | .refused t n ty => ∃ a, Last l t a (.addCalled t n ty) ∧
      ∃ j ty', a < j ∧ j ≤ l.length ∧ regType n (l.take j) = some ty' ∧ ty' ≠ ty
  | .stored t n p ty => p = metrics l ∧ ∃ a, Last l t a (.addCalled t n ty) ∧
      ∃ j, a < j ∧ j ≤ l.length ∧ (regType n (l.take j) = none ∨ regType n (l.take j) = some ty)
  | .put _ p k e => e = made l ∧ (entryAt p k l = none ∨ ∃ t, Ev.deleted t p k ∈ l)
  | .got _ p k e => ∃ j, j ≤ l.length ∧ entryAt p k (l.take j) = some e
  | .update _ e _ => e < made l
  | .readDone t ms => ∃ b, Last l t b (.readCalled t) ∧ ReportsOK zero l (b + 1) ms ∧
      ∀ n, (∀ j, b + 1 ≤ j → j ≤ l.length → (registered n (l.take j)).isSome) → n ∈ ms.map Report.name
  | _ => True

def LogOK (zero : V) (l : List (Ev V)) : Prop := ∀ i x, l[i]? = some x → EvOK zero (l.take i) x

/-- What is known where a goroutine is. -/
def PcOK (zero : V) (l : List (Ev V)) (t : Nat) : PC V → Prop
  | .idle => True
  | .called n ty => ∃ a, Last l t a (.addCalled t n ty)
  | .adding n ty => ∃ a, Last l t a (.addCalled t n ty) ∧
      ∃ j, a < j ∧ j ≤ l.length ∧ (regType n (l.take j) = none ∨ regType n (l.take j) = some ty)
  | .missed _ _ => True
  | .leaving p k e => ∃ j, j ≤ l.length ∧ entryAt p k (l.take j) = some e
  | .erased p k => ∃ t, Ev.deleted t p k ∈ l
  | .reading since ms => ∃ b, since = b + 1 ∧ Last l t b (.readCalled t) ∧ ReportsOK zero l since ms
  | .inside outer ms n p since ser => ∃ b, outer = b + 1 ∧ Last l t b (.readCalled t) ∧ ReportsOK zero l outer ms ∧
      n ∉ ms.map Report.name ∧ (∃ j, outer ≤ j ∧ j ≤ l.length ∧ registered n (l.take j) = some p) ∧ outer ≤ since ∧
      since ≤ l.length ∧ SeriesOK zero l outer p ser
  | .loading outer ms n p since ser k e => ∃ b, outer = b + 1 ∧ Last l t b (.readCalled t) ∧ ReportsOK zero l outer ms ∧
      n ∉ ms.map Report.name ∧ (∃ j, outer ≤ j ∧ j ≤ l.length ∧ registered n (l.take j) = some p) ∧ outer ≤ since ∧
      since ≤ l.length ∧ SeriesOK zero l outer p ser ∧ k ∉ ser.map Prod.fst ∧
      ∃ j, outer ≤ j ∧ j ≤ l.length ∧ entryAt p k (l.take j) = some e

structure Inv (zero : V) (s : St V) : Prop where
  log : LogOK zero s.log
  pc : ∀ t, PcOK zero s.log t (s.pc t)

/-! ### Longer logs -/

theorem take_old (l : List (Ev V)) (x : Ev V) {j : Nat} (h : j ≤ l.length) : (l ++ [x]).take j = l.take j := by
  rw [List.take_append_of_le_length h]

theorem Last.snoc {l : List (Ev V)} {t b : Nat} {y x : Ev V} (h : Last l t b y) (hx : thread x ≠ t) : Last (l ++ [x]) t b y := by
  have hb : b < l.length := (List.getElem?_eq_some_iff.1 h.1).1
  refine ⟨by rw [List.getElem?_append_left hb]; exact h.1, ?_⟩
  intro j z hj hz
  by_cases hl : j < l.length
  · rw [List.getElem?_append_left hl] at hz; exact h.2 j z hj hz
  · rw [List.getElem?_append_right (by omega)] at hz
    cases hd : j - l.length with
    | zero => rw [hd] at hz; simp at hz; exact hz ▸ hx
    | succ n => rw [hd] at hz; simp at hz

theorem Last.new (l : List (Ev V)) (x : Ev V) : Last (l ++ [x]) (thread x) l.length x := by
  refine ⟨by simp, ?_⟩
  intro j y hj hy
  rw [List.getElem?_append_right (by omega)] at hy
  cases hd : j - l.length with
  | zero => omega
  | succ n => rw [hd] at hy; simp at hy

theorem SeriesOK.snoc {zero : V} {l : List (Ev V)} {since p : Nat} {ser : List (Bytes × Nat × V)} (h : SeriesOK zero l since p ser)
    (x : Ev V) : SeriesOK zero (l ++ [x]) since p ser := by
  refine ⟨h.keys, ?_⟩
  intro k e v hv
  obtain ⟨j, i, h1, h2, h3, h4, h5⟩ := h.sound k e v hv
  refine ⟨j, i, h1, h2, by simp; omega, ?_, ?_⟩
  · rw [take_old l x (by omega)]; exact h4
  · rw [take_old l x h3]; exact h5

theorem Complete.snoc {l : List (Ev V)} {since p : Nat} {ser : List (Bytes × Nat × V)} (h : Complete l since p ser)
    (x : Ev V) : Complete (l ++ [x]) since p ser := by
  intro k hk
  apply h k
  intro j h1 h2
  rw [← take_old l x h2]
  exact hk j h1 (by simp; omega)

theorem ReportsOK.snoc {zero : V} {l : List (Ev V)} {since : Nat} {ms : List (Report V)} (h : ReportsOK zero l since ms)
    (x : Ev V) : ReportsOK zero (l ++ [x]) since ms := by
  refine ⟨h.names, ?_⟩
  intro r hr
  obtain ⟨⟨j, h1, h2, h3⟩, h4, h5⟩ := h.each r hr
  exact ⟨⟨j, h1, by simp; omega, by rw [take_old l x h2]; exact h3⟩, h4.snoc x, h5.snoc x⟩

theorem PcOK.snoc {zero : V} {l : List (Ev V)} {t : Nat} {pc : PC V} (h : PcOK zero l t pc) {x : Ev V} (hx : thread x ≠ t) :
    PcOK zero (l ++ [x]) t pc := by
  cases pc with
  | idle => trivial
  | missed p k => trivial
  | called n ty => obtain ⟨a, ha⟩ := h; exact ⟨a, ha.snoc hx⟩
  | adding n ty =>
    obtain ⟨a, ha, j, h1, h2, h3⟩ := h
    exact ⟨a, ha.snoc hx, j, h1, by simp; omega, by rw [take_old l x h2]; exact h3⟩
  | leaving p k e =>
    obtain ⟨j, h1, h2⟩ := h
    exact ⟨j, by simp; omega, by rw [take_old l x h1]; exact h2⟩
  | erased p k => obtain ⟨u, hu⟩ := h; exact ⟨u, by simp [hu]⟩
  | reading since ms =>
    obtain ⟨b, h1, h2, h3⟩ := h
    exact ⟨b, h1, h2.snoc hx, h3.snoc x⟩
  | inside outer ms n p since ser =>
    obtain ⟨b, h1, h2, h3, h4, ⟨j, j1, j2, j3⟩, h5, h6, h7⟩ := h
    exact ⟨b, h1, h2.snoc hx, h3.snoc x, h4, ⟨j, j1, by simp; omega, by rw [take_old l x j2]; exact j3⟩, h5, by simp; omega,
      h7.snoc x⟩
  | loading outer ms n p since ser k e =>
    obtain ⟨b, h1, h2, h3, h4, ⟨j, j1, j2, j3⟩, h5, h6, h7, h8, i, i1, i2, i3⟩ := h
    exact ⟨b, h1, h2.snoc hx, h3.snoc x, h4, ⟨j, j1, by simp; omega, by rw [take_old l x j2]; exact j3⟩, h5, by simp; omega,
      h7.snoc x, h8, i, i1, by simp; omega, by rw [take_old l x i2]; exact i3⟩

theorem LogOK.snoc {zero : V} {l : List (Ev V)} (h : LogOK zero l) {x : Ev V} (hx : EvOK zero l x) : LogOK zero (l ++ [x]) := by
  intro i y hy
  by_cases hl : i < l.length
  · rw [List.getElem?_append_left hl] at hy
    rw [take_old l x (by omega)]
    exact h i y hy
  · rw [List.getElem?_append_right (by omega)] at hy
    cases hd : i - l.length with
    | zero =>
      rw [hd] at hy
      simp at hy
      have : i = l.length := by omega
      subst this
      rw [take_old l x (Nat.le_refl _), List.take_length]
      exact hy ▸ hx
    | succ n => rw [hd] at hy; simp at hy

theorem Inv.at {zero : V} {s : St V} (h : Inv zero s) {t : Nat} {pc : PC V} (hp : PcOK zero s.log t pc) : Inv zero (s.at t pc) := by
  refine ⟨h.log, ?_⟩
  intro u
  by_cases hu : u = t
  · subst hu; simpa [St.at] using hp
  · simpa [St.at, hu] using h.pc u

theorem Inv.emit {zero : V} {s : St V} (h : Inv zero s) {t : Nat} {x : Ev V} {pc : PC V} (hx : thread x = t)
    (he : EvOK zero s.log x) (hp : PcOK zero (s.log ++ [x]) t pc) : Inv zero (s.emit x t pc) := by
  refine ⟨h.log.snoc he, ?_⟩
  intro u
  by_cases hu : u = t
  · subst hu; simpa [St.emit] using hp
  · simp only [St.emit, if_neg hu]
    exact (h.pc u).snoc (by rw [hx]; exact Ne.symm hu)

/-! ### What the log determines -/

theorem LogOK.take {zero : V} {l : List (Ev V)} (h : LogOK zero l) (j : Nat) : LogOK zero (l.take j) := by
  intro i x hx
  have hi : i < (l.take j).length := (List.getElem?_eq_some_iff.1 hx).1
  rw [List.length_take] at hi
  rw [List.getElem?_take_of_lt (by omega)] at hx
  rw [List.take_take, Nat.min_eq_left (by omega)]
  exact h i x hx

theorem LogOK.split {zero : V} {l : List (Ev V)} {x : Ev V} (h : LogOK zero (l ++ [x])) : LogOK zero l ∧ EvOK zero l x := by
  constructor
  · have := h.take l.length
    rwa [List.take_left] at this
  · have := h l.length x (by simp)
    rwa [List.take_left] at this

theorem value_eq {zero : V} {l : List (Ev V)} (h : LogOK zero l) (e : Nat) :
    (mem zero l).value e = valueAt zero e l ∧ (made l ≤ e → valueAt zero e l = zero) := by
  induction l using List.reverseRecOn generalizing e with
  | nil => exact ⟨rfl, fun _ => rfl⟩
  | append_singleton l x ih =>
    obtain ⟨h1, h2⟩ := h.split
    have ih := ih h1
    rw [mem_snoc, valueAt_snoc, made_snoc]
    cases x with
    | put t p k e' =>
      have he : e' = made l := h2.1
      simp only [Mem.exec]
      refine ⟨?_, fun hl => (ih e).2 (by omega)⟩
      by_cases hh : e = e'
      · rw [if_pos hh, (ih e).2 (by omega)]
      · rw [if_neg hh]; exact (ih e).1
    | update t e' f =>
      have he : e' < made l := h2
      simp only [Mem.exec]
      by_cases hh : e' = e
      · subst hh
        simp only [if_true]
        exact ⟨by rw [(ih e').1], fun hl => by omega⟩
      · simp only [if_neg hh, if_neg (Ne.symm hh)]
        exact ih e
    | _ => exact ih e

theorem reg_some (n : Bytes) (l : List (Ev V)) : (registered n l).isSome = (regType n l).isSome := by
  induction l using List.reverseRecOn with
  | nil => rfl
  | append_singleton l x ih =>
    rw [registered_snoc, regType_snoc]
    cases x <;> simp only [ih]
    split <;> simp [ih]

theorem type_eq {zero : V} {l : List (Ev V)} (h : LogOK zero l) (n : Bytes) (p : Nat) (hp : registered n l = some p) :
    (mem zero l).types[p]? = regType n l := by
  induction l using List.reverseRecOn with
  | nil => simp [registered] at hp
  | append_singleton l x ih =>
    obtain ⟨h1, h2⟩ := h.split
    have ih := ih h1
    rw [mem_snoc, regType_snoc]
    rw [registered_snoc] at hp
    cases x with
    | stored t m q ty =>
      have hq : q = metrics l := h2.1
      simp only [Mem.exec] at hp ⊢
      by_cases hm : m = n
      · rw [if_pos hm] at hp ⊢
        cases hp
        rw [hq, ← types_eq zero l]
        simp
      · rw [if_neg hm] at hp ⊢
        rw [← ih hp]
        have : p < (mem zero l).types.length := by
          by_contra hc
          have h' := ih hp
          rw [List.getElem?_eq_none (by omega)] at h'
          have := reg_some n l
          rw [hp, ← h'] at this
          simp at this
        rw [List.getElem?_append_left this]
    | _ => exact ih hp

theorem mayVisit_some {look : List (Ev V) → GoMap Bytes Nat} {log : List (Ev V)} {since : Nat} {visited : List Bytes}
    {k : Bytes} {j v : Nat} (h : mayVisit look log since visited k j = some v) :
    k ∉ visited ∧ since ≤ j ∧ j ≤ log.length ∧ GoMap.get (look (log.take j)) k = some v := by
  unfold mayVisit at h
  split at h
  · next hc => exact ⟨hc.1, hc.2.1, hc.2.2, h⟩
  · cases h

theorem mayStop_true {look : List (Ev V) → GoMap Bytes Nat} {log : List (Ev V)} {since : Nat} {visited : List Bytes}
    (h : mayStop look log since visited = true) (hs : since ≤ log.length) (k : Bytes)
    (hk : ∀ j, since ≤ j → j ≤ log.length → (GoMap.get (look (log.take j)) k).isSome) : k ∈ visited := by
  unfold mayStop at h
  rw [List.all_eq_true] at h
  obtain ⟨v, hv⟩ := Option.isSome_iff_exists.1 (hk since (Nat.le_refl _) hs)
  have := h k (List.mem_map.2 ⟨(k, v), GoMap.mem_of_get hv, rfl⟩)
  rw [Bool.or_eq_true] at this
  rcases this with h1 | h1
  · exact of_decide_eq_true h1
  · rw [List.any_eq_true] at h1
    obtain ⟨j, hj, h2⟩ := h1
    rw [Bool.and_eq_true] at h2
    have h3 := hk j (of_decide_eq_true h2.1) (by rw [List.mem_range] at hj; omega)
    have h4 := h2.2
    rw [Option.isNone_iff_eq_none] at h4
    rw [h4] at h3
    cases h3

theorem inv_init (zero : V) : Inv zero (init : St V) := ⟨by intro i x h; simp [init] at h, fun _ => trivial⟩

theorem inv_step {zero : V} {s s' : St V} (h : Inv zero s) {t : Nat} {mv : Move V} (hs : step zero s t mv = some s') : Inv zero s' := by
  have hp := h.pc t
  have hnames := fun n => names_eq zero s.log n
  unfold step at hs
  split at hs
  all_goals (try dsimp only at hs)
  · next n ty hpc =>
    cases hs
    exact h.emit rfl trivial ⟨_, Last.new _ _⟩
  · next n ty hpc =>
    rw [hpc] at hp
    obtain ⟨a, ha⟩ := hp
    have ha' : a < s.log.length := (List.getElem?_eq_some_iff.1 ha.1).1
    rw [hnames] at hs
    split at hs
    · next p hp' =>
      have ht := type_eq h.log n p hp'
      split at hs
      · next hty =>
        cases hs
        refine h.at ⟨a, ha, s.log.length, ha', Nat.le_refl _, Or.inr ?_⟩
        rw [List.take_length, ← ht, hty]
      · next hty =>
        cases hs
        refine h.emit rfl ⟨a, ha, s.log.length, ?_⟩ trivial
        rw [List.take_length, ← ht]
        have : p < (mem zero s.log).types.length := by
          by_contra hc
          rw [List.getElem?_eq_none (by omega)] at ht
          have := reg_some n s.log
          rw [hp', ← ht] at this
          simp at this
        exact ⟨_, ha', Nat.le_refl _, List.getElem?_eq_getElem this, fun e => hty (by rw [List.getElem?_eq_getElem this, e])⟩
    · next hn =>
      cases hs
      refine h.at ⟨a, ha, s.log.length, ha', Nat.le_refl _, Or.inl ?_⟩
      have := reg_some n s.log
      rw [hn] at this
      rw [List.take_length]
      simpa using this.symm
  · next n ty hpc =>
    rw [hpc] at hp
    cases hs
    exact h.emit rfl ⟨types_eq _ _, hp⟩ trivial
  · next p k hpc =>
    split at hs
    · split at hs
      · next e he =>
        cases hs
        rw [vals_eq] at he
        exact h.at ⟨s.log.length, Nat.le_refl _, by rw [List.take_length]; exact he⟩
      · cases hs; exact h.at trivial
    · cases hs
  · next p k hpc =>
    split at hs
    · next e he =>
      cases hs
      rw [vals_eq] at he
      exact h.at ⟨s.log.length, Nat.le_refl _, by rw [List.take_length]; exact he⟩
    · next he =>
      cases hs
      rw [vals_eq] at he
      refine h.emit rfl ⟨entries_eq _ _, Or.inl he⟩ ⟨s.log.length + 1, by simp, ?_⟩
      rw [List.take_of_length_le (by simp), entryAt_snoc]
      simp
  · next p k e hpc =>
    rw [hpc] at hp
    cases hs
    exact h.emit rfl hp trivial
  · next p k hpc =>
    split at hs
    · cases hs
      exact h.emit rfl trivial ⟨t, by simp⟩
    · cases hs
  · next p k hpc =>
    rw [hpc] at hp
    cases hs
    exact h.emit rfl ⟨entries_eq _ _, Or.inr hp⟩ trivial
  · next e f hpc =>
    split at hs
    · next he =>
      cases hs
      refine h.emit rfl ?_ trivial
      rw [entries_eq] at he
      exact he
    · cases hs
  · next hpc =>
    cases hs
    exact h.emit rfl trivial ⟨_, rfl, Last.new _ _, by simp, by simp⟩
  · next since ms n j hpc =>
    rw [hpc] at hp
    obtain ⟨b, h1, h2, h3⟩ := hp
    rw [Option.map_eq_some_iff] at hs
    obtain ⟨p, hv, rfl⟩ := hs
    obtain ⟨v1, v2, v3, v4⟩ := mayVisit_some hv
    rw [names_eq] at v4
    exact h.at ⟨b, h1, h2, h3, v1, ⟨j, v2, v3, v4⟩, by omega, Nat.le_refl _, by simp, by simp⟩
  · next since ms hpc =>
    rw [hpc] at hp
    obtain ⟨b, h1, h2, h3⟩ := hp
    split at hs
    · next hc =>
      cases hs
      refine h.emit rfl ⟨b, h2, h1 ▸ h3, ?_⟩ trivial
      intro n hn
      have : b < s.log.length := (List.getElem?_eq_some_iff.1 h2.1).1
      exact mayStop_true hc (by omega) n (fun j j1 j2 => by rw [names_eq]; exact hn j (by omega) j2)
    · cases hs
  · next outer ms n p since ser k j hpc =>
    rw [hpc] at hp
    obtain ⟨b, h1, h2, h3, h4, h5, h6, h7, h8⟩ := hp
    rw [Option.map_eq_some_iff] at hs
    obtain ⟨e, hv, rfl⟩ := hs
    obtain ⟨v1, v2, v3, v4⟩ := mayVisit_some hv
    rw [vals_eq] at v4
    exact h.at ⟨b, h1, h2, h3, h4, h5, h6, h7, h8, v1, j, by omega, v3, v4⟩
  · next outer ms n p since ser k e hpc =>
    rw [hpc] at hp
    obtain ⟨b, h1, h2, h3, h4, h5, h6, h7, h8, h9, j, j1, j2, j3⟩ := hp
    cases hs
    refine h.at ⟨b, h1, h2, h3, h4, h5, h6, h7, ?_, ?_⟩
    · rw [List.map_append, List.nodup_append]
      refine ⟨h8.keys, by simp, ?_⟩
      rintro a ha c hc rfl
      simp at hc
      exact h9 (hc ▸ ha)
    · intro k' e' v hv
      rw [List.mem_append] at hv
      rcases hv with hv | hv
      · exact h8.sound k' e' v hv
      · simp only [List.mem_singleton, Prod.mk.injEq] at hv
        obtain ⟨rfl, rfl, rfl⟩ := hv
        exact ⟨j, s.log.length, j1, j2, Nat.le_refl _, j3, by rw [List.take_length]; exact (value_eq h.log _).1⟩
  · next outer ms n p since ser hpc =>
    rw [hpc] at hp
    obtain ⟨b, h1, h2, h3, h4, h5, h6, h7, h8⟩ := hp
    split at hs
    · next hc =>
      cases hs
      refine h.at ⟨b, h1, h2, ?_, ?_⟩
      · rw [List.map_append, List.nodup_append]
        refine ⟨h3.names, by simp, ?_⟩
        rintro a ha c hc rfl
        simp at hc
        exact h4 (hc ▸ ha)
      · intro r hr
        rw [List.mem_append] at hr
        rcases hr with hr | hr
        · exact h3.each r hr
        · simp only [List.mem_singleton] at hr
          subst hr
          refine ⟨h5, h8, ?_⟩
          intro k hk
          exact mayStop_true hc h7 k (fun j j1 j2 => by rw [vals_eq]; exact hk j (by omega) j2)
    · cases hs
  · cases hs

theorem inv_run {zero : V} {mvs : List (Nat × Move V)} {s s' : St V} (h : Inv zero s) (hr : run zero s mvs = some s') :
    Inv zero s' := by
  induction mvs generalizing s with
  | nil => cases hr; exact h
  | cons x mvs ih =>
    obtain ⟨t, mv⟩ := x
    simp only [run, Option.bind_eq_some_iff] at hr
    obtain ⟨s1, h1, h2⟩ := hr
    exact ih (inv_step h h1) h2

/-! ## The theorems -/

/-- The `Read` that is called by `t` at `b` returns `ms` at `i`. -/
structure ReadIs (l : List (Ev V)) (t b i : Nat) (ms : List (Report V)) : Prop where
  called : l[b]? = some (.readCalled t)
  done : l[i]? = some (.readDone t ms)
  order : b < i
  same : ∀ j, b < j → j < i → l[j]? ≠ some (.readCalled t)

theorem read_last {zero : V} {l : List (Ev V)} (h : LogOK zero l) {t b i : Nat} {ms : List (Report V)} (hr : ReadIs l t b i ms) :
    ReportsOK zero (l.take i) (b + 1) ms ∧
      ∀ n, (∀ j, b < j → j ≤ i → (registered n (l.take j)).isSome) → n ∈ ms.map Report.name := by
  obtain ⟨b', h1, h2, h3⟩ := h i _ hr.done
  have hi : i < l.length := (List.getElem?_eq_some_iff.1 hr.done).1
  have hb' : b' < i := by
    have := (List.getElem?_eq_some_iff.1 h1.1).1
    rw [List.length_take] at this
    omega
  have e : b' = b := by
    rcases Nat.lt_trichotomy b' b with hl | he | hl
    · exact absurd rfl (h1.2 b _ hl (by rw [List.getElem?_take_of_lt hr.order]; exact hr.called))
    · exact he
    · have := h1.1
      rw [List.getElem?_take_of_lt hb'] at this
      exact absurd this (hr.same b' hl hb')
  subst e
  refine ⟨h2, ?_⟩
  intro n hn
  apply h3
  intro j j1 j2
  rw [List.length_take] at j2
  rw [List.take_take, Nat.min_eq_left (by omega)]
  exact hn j (by omega) (by omega)

/-- What `Read` returns: no name twice; each metric was the one of its name at some moment of the call; each of its series
was the one of its key at some moment of the call and has the value its entry had at a moment after that, of the call too;
no key twice; nothing that was there all the time is missing. -/
theorem read_beside {zero : V} {mvs : List (Nat × Move V)} {s : St V} (h : run zero init mvs = some s) {t b i : Nat}
    {ms : List (Report V)} (hr : ReadIs s.log t b i ms) :
    (ms.map Report.name).Nodup ∧
    (∀ n, (∀ j, b < j → j ≤ i → (registered n (s.log.take j)).isSome) → n ∈ ms.map Report.name) ∧
    ∀ r ∈ ms, (∃ j, b < j ∧ j ≤ i ∧ registered r.name (s.log.take j) = some r.bm) ∧
      (r.series.map Prod.fst).Nodup ∧
      (∀ k e v, (k, e, v) ∈ r.series → ∃ j j', b < j ∧ j ≤ j' ∧ j' ≤ i ∧ entryAt r.bm k (s.log.take j) = some e ∧
        v = valueAt zero e (s.log.take j')) ∧
      (∀ k, (∀ j, b < j → j ≤ i → (entryAt r.bm k (s.log.take j)).isSome) → k ∈ r.series.map Prod.fst) := by
  have hi : i < s.log.length := (List.getElem?_eq_some_iff.1 hr.done).1
  obtain ⟨h1, h2⟩ := read_last (inv_run (inv_init zero) h).log hr
  have ht : ∀ {j}, j ≤ (s.log.take i).length → j ≤ i ∧ (s.log.take i).take j = s.log.take j := by
    intro j hj
    rw [List.length_take] at hj
    exact ⟨by omega, by rw [List.take_take, Nat.min_eq_left (by omega)]⟩
  refine ⟨h1.names, h2, ?_⟩
  intro r hm
  obtain ⟨⟨j, j1, j2, j3⟩, hs, hc⟩ := h1.each r hm
  refine ⟨⟨j, j1, (ht j2).1, (ht j2).2 ▸ j3⟩, hs.keys, ?_, ?_⟩
  · intro k e v hv
    obtain ⟨j, j', k1, k2, k3, k4, k5⟩ := hs.sound k e v hv
    exact ⟨j, j', k1, k2, (ht k3).1, (ht (Nat.le_trans k2 k3)).2 ▸ k4, (ht k3).2 ▸ k5⟩
  · intro k hk
    apply hc
    intro j j1 j2
    rw [(ht j2).2]
    exact hk j j1 (ht j2).1

/-! ### Entries -/

theorem take_succ_get {l : List (Ev V)} {j : Nat} {x : Ev V} (h : l[j]? = some x) : l.take (j + 1) = l.take j ++ [x] := by
  rw [List.take_succ, h]; rfl

/-- Unless it is upserted, the entry of a key is for ever. -/
theorem entry_kept {zero : V} {l : List (Ev V)} (h : LogOK zero l) {p e j i : Nat} {k : Bytes} (hj : j ≤ i) (hi : i ≤ l.length)
    (hd : ∀ c < i, ∀ t, l[c]? ≠ some (.deleted t p k)) (he : entryAt p k (l.take j) = some e) :
    entryAt p k (l.take i) = some e := by
  induction i, hj using Nat.le_induction with
  | base => exact he
  | succ i hij ih =>
    have ih := ih (by omega) (fun c hc => hd c (by omega))
    have hx := List.getElem?_eq_getElem (show i < l.length by omega)
    rw [take_succ_get hx, entryAt_snoc]
    have hev := h i _ hx
    have hdel := hd i (by omega)
    rw [hx] at hdel
    revert hev hdel
    generalize l[i] = x
    intro hev hdel
    cases x with
    | put t q k' e' =>
      simp only
      split
      · next hc =>
        obtain ⟨rfl, rfl⟩ := hc
        rcases hev.2 with h1 | ⟨u, h1⟩
        · rw [ih] at h1; cases h1
        · obtain ⟨c, hc⟩ := List.mem_iff_getElem?.1 h1
          have hl := (List.getElem?_eq_some_iff.1 hc).1
          rw [List.length_take] at hl
          rw [List.getElem?_take_of_lt (by omega)] at hc
          exact absurd hc (hd c (by omega) u)
      · exact ih
    | deleted t q k' =>
      simp only
      split
      · next hc =>
        obtain ⟨rfl, rfl⟩ := hc
        exact absurd rfl (hdel t)
      · exact ih
    | _ => exact ih

/-- An entry that `GetEntry` has returned before `Read` is called, in a metric that has its name throughout, is reported
with the value it has at some moment of the call; once, and no other entry for its labels. -/
theorem entry_seen {zero : V} {mvs : List (Nat × Move V)} {s : St V} (h : run zero init mvs = some s) {t b i : Nat}
    {ms : List (Report V)} (hr : ReadIs s.log t b i ms) {n k : Bytes} {p e c u : Nat}
    (hreg : ∀ j, b < j → j ≤ i → registered n (s.log.take j) = some p)
    (hgot : s.log[c]? = some (.got u p k e)) (hc : c < b)
    (hdel : ∀ d < i, ∀ t, s.log[d]? ≠ some (.deleted t p k)) :
    ∃ r ∈ ms, (∀ r' ∈ ms, r'.name = n → r' = r) ∧ r.name = n ∧ r.bm = p ∧ ∃ v, (k, e, v) ∈ r.series ∧
      (∀ e' v', (k, e', v') ∈ r.series → e' = e ∧ v' = v) ∧ ∃ j, b < j ∧ j ≤ i ∧ v = valueAt zero e (s.log.take j) := by
  have hl := (inv_run (inv_init zero) h).log
  have hi : i < s.log.length := (List.getElem?_eq_some_iff.1 hr.done).1
  obtain ⟨h1, h2, h3⟩ := read_beside h hr
  have hn := h2 n (fun j j1 j2 => by rw [hreg j j1 j2]; rfl)
  obtain ⟨r, hm, rfl⟩ := List.mem_map.1 hn
  obtain ⟨⟨j, j1, j2, j3⟩, h5, h6, h7⟩ := h3 r hm
  rw [hreg j j1 j2] at j3
  cases j3
  obtain ⟨g, g1, g2⟩ := hl c _ hgot
  rw [List.length_take] at g1
  rw [List.take_take, Nat.min_eq_left (by omega)] at g2
  have hkept : ∀ j, b < j → j ≤ i → entryAt r.bm k (s.log.take j) = some e := fun j j1 j2 =>
    entry_kept hl (by omega) (by omega) (fun d hd => hdel d (by omega)) g2
  have hk := h7 k (fun j j1 j2 => by rw [hkept j j1 j2]; rfl)
  obtain ⟨⟨k', e', v⟩, hv, rfl⟩ := List.mem_map.1 hk
  simp only at hkept hk
  obtain ⟨a, a', a1, a2, a3, a4, a5⟩ := h6 _ _ _ hv
  rw [hkept a a1 (by omega)] at a4
  cases a4
  refine ⟨r, hm, fun r' hr' he => List.inj_on_of_nodup_map h1 hr' hm he, rfl, rfl, v, hv, ?_, a', by omega, a3, a5⟩
  intro e' v' hv'
  have := List.inj_on_of_nodup_map h5 hv' hv rfl
  simp only [Prod.mk.injEq, true_and] at this
  exact this

theorem valueAt_mono [Preorder V] {zero : V} {l : List (Ev V)} {e : Nat}
    (hup : ∀ t f, Ev.update t e f ∈ l → ∀ v, v ≤ f v) {j i : Nat} (hj : j ≤ i) :
    valueAt zero e (l.take j) ≤ valueAt zero e (l.take i) := by
  induction i, hj using Nat.le_induction with
  | base => exact le_refl _
  | succ i hij ih =>
    by_cases hi : i < l.length
    · have hx := List.getElem?_eq_getElem hi
      rw [take_succ_get hx, valueAt_snoc]
      have hmem : l[i] ∈ l := List.getElem_mem hi
      revert hmem
      generalize l[i] = x
      intro hmem
      cases x with
      | update t e' f =>
        simp only
        split
        · next he => subst he; exact le_trans ih (hup t f hmem _)
        · exact ih
      | _ => exact ih
    · have : l.take (i + 1) = l.take i := by
        rw [List.take_of_length_le (show l.length ≤ i + 1 by omega), List.take_of_length_le (show l.length ≤ i by omega)]
      rw [this]
      exact ih

/-- If every update makes the value greater, as those of a cumulative do, what is reported is at least what the entry had
when `Read` was called, and at most what it has when it returns. -/
theorem value_between [Preorder V] {zero : V} {mvs : List (Nat × Move V)} {s : St V} (h : run zero init mvs = some s) {t b i : Nat}
    {ms : List (Report V)} (hr : ReadIs s.log t b i ms) {r : Report V} (hm : r ∈ ms) {k : Bytes} {e : Nat} {v : V}
    (hv : (k, e, v) ∈ r.series) (hup : ∀ t f, Ev.update t e f ∈ s.log → ∀ v, v ≤ f v) :
    valueAt zero e (s.log.take b) ≤ v ∧ v ≤ valueAt zero e (s.log.take i) := by
  obtain ⟨_, _, h3⟩ := read_beside h hr
  obtain ⟨_, _, h6, _⟩ := h3 r hm
  obtain ⟨j, j', h1, h2, h4, _, rfl⟩ := h6 k e v hv
  exact ⟨valueAt_mono hup (by omega), valueAt_mono hup h4⟩

/-! ### Adding metrics -/

/-- `Add…` returns an error only if at some moment of the call the name had a metric of another type. -/
theorem add_refused {zero : V} {mvs : List (Nat × Move V)} {s : St V} (h : run zero init mvs = some s) {t i : Nat} {n : Bytes}
    {ty : BMType} (hi : s.log[i]? = some (.refused t n ty)) :
    ∃ a j ty', s.log[a]? = some (.addCalled t n ty) ∧ a < j ∧ j ≤ i ∧ regType n (s.log.take j) = some ty' ∧ ty' ≠ ty := by
  obtain ⟨a, h1, j, ty', h2, h3, h4, h5⟩ := (inv_run (inv_init zero) h).log i _ hi
  have ha : a < (s.log.take i).length := (List.getElem?_eq_some_iff.1 h1.1).1
  rw [List.length_take] at ha h3
  have h1 := h1.1
  rw [List.getElem?_take_of_lt (by omega)] at h1
  rw [List.take_take, Nat.min_eq_left (by omega)] at h4
  exact ⟨a, j, ty', h1, h2, by omega, h4, h5⟩

/-- `Add…` that succeeds adds a new metric; and if no other `Add…` of the name takes effect between its call and its
return, as the documentation asks, then the name had no metric of another type. -/
theorem add_stored {zero : V} {mvs : List (Nat × Move V)} {s : St V} (h : run zero init mvs = some s) {t i p : Nat} {n : Bytes}
    {ty : BMType} (hi : s.log[i]? = some (.stored t n p ty)) :
    (∀ c u m q ty', c < i → s.log[c]? = some (.stored u m q ty') → q ≠ p) ∧
    ∃ a, a < i ∧ s.log[a]? = some (.addCalled t n ty) ∧
      ((∀ c u q ty', a < c → c < i → s.log[c]? ≠ some (.stored u n q ty')) →
        ∀ ty', regType n (s.log.take a) = some ty' → ty' = ty) := by
  have hl := (inv_run (inv_init zero) h).log
  obtain ⟨hp, a, h1, j, h2, h3, h4⟩ := hl i _ hi
  have hii : i < s.log.length := (List.getElem?_eq_some_iff.1 hi).1
  constructor
  · intro c u m q ty' hc hx
    have hq : q = metrics (s.log.take c) := (hl c _ hx).1
    have : metrics (s.log.take (c + 1)) ≤ metrics (s.log.take i) := by
      have hle : c + 1 ≤ i := hc
      have hii := Nat.le_of_lt hii
      clear hp h3 h4 hi h1
      induction i, hle using Nat.le_induction with
      | base => exact Nat.le_refl _
      | succ i hij ih =>
        have hy := List.getElem?_eq_getElem (show i < s.log.length by omega)
        rw [take_succ_get hy, metrics_snoc]
        have := ih (by omega) (by omega)
        split <;> omega
    rw [take_succ_get hx, metrics_snoc] at this
    simp only at this
    omega
  · have ha : a < (s.log.take i).length := (List.getElem?_eq_some_iff.1 h1.1).1
    rw [List.length_take] at ha h3
    have h1 := h1.1
    rw [List.getElem?_take_of_lt (by omega)] at h1
    rw [List.take_take, Nat.min_eq_left (by omega)] at h4
    refine ⟨a, by omega, h1, ?_⟩
    intro hno ty' hty
    have hsame : regType n (s.log.take j) = some ty' := by
      have hj : j ≤ i := by omega
      have haj : a ≤ j := by omega
      clear h2 h3 h4
      induction j, haj using Nat.le_induction with
      | base => exact hty
      | succ j hij ih =>
        have ih := ih (by omega)
        have hy := List.getElem?_eq_getElem (show j < s.log.length by omega)
        rw [take_succ_get hy, regType_snoc]
        have hno' : ∀ u q ty', s.log[j] ≠ .stored u n q ty' := by
          intro u q ty' e
          rw [e] at hy
          rcases Nat.eq_or_lt_of_le hij with rfl | hlt
          · rw [h1] at hy; cases hy
          · exact hno j u q ty' hlt (by omega) hy
        revert hno'
        generalize s.log[j] = x
        intro hno'
        cases x with
        | stored u m q ty'' =>
          simp only
          split
          · next e => subst e; exact absurd rfl (hno' u q ty'')
          · exact ih
        | _ => exact ih
    rw [hsame] at h4
    rcases h4 with h4 | h4
    · cases h4
    · exact Option.some.inj h4

/-! ### Cases -/

/-- What the `Read`s of a log return, with their places. -/
def readings {V : Type} (l : List (Ev V)) : List (Nat × Nat × List (Bytes × Nat × List (Bytes × Nat × V))) :=
  l.zipIdx.filterMap fun x => match x.1 with
    | .readDone t ms => some (x.2, t, ms.map fun r => (r.name, r.bm, r.series))
    | _ => none

/-- Goroutine 0 adds a cumulative, gets an entry and increments it by 5; goroutine 1 reads. When it has visited the entry,
goroutine 0 increments it by 2, gets a second entry and replaces the metric by one of the same type. -/
def demo : List (Nat × Move Nat) := [(0, .add [1] .cumulativeInt64), (0, .go), (0, .go), (0, .getEntry 0 [7]), (0, .go), (0, .go),
  (0, .update 0 (· + 5)), (1, .read), (1, .visit [1] 6), (1, .visit [7] 6), (0, .update 0 (· + 2)), (1, .go),
  (0, .getEntry 0 [8]), (0, .go), (0, .go), (0, .add [1] .cumulativeInt64), (0, .go), (0, .go), (1, .stop), (1, .stop)]

example : (run 0 init demo).map (fun s => readings s.log) = some [(11, 1, [([1], 0, [([7], 0, 7)])])] := rfl

/-- The hypotheses of `read_beside` and of `value_between` hold. -/
example : ∃ s : St Nat, run 0 init demo = some s ∧ ReadIs s.log 1 5 11 [⟨[1], 0, [([7], 0, 7)]⟩] ∧
    valueAt 0 0 (s.log.take 5) = 5 ∧ valueAt 0 0 (s.log.take 11) = 7 ∧
    ∀ t f, Ev.update t 0 f ∈ s.log → ∀ v, v ≤ f v := by
  refine ⟨_, rfl, ⟨rfl, rfl, by decide, ?_⟩, by decide +kernel, by decide +kernel, ?_⟩
  · intro j h1 h2
    have : j = 6 ∨ j = 7 ∨ j = 8 ∨ j = 9 ∨ j = 10 := by omega
    rcases this with rfl | rfl | rfl | rfl | rfl <;> exact fun h => by cases h
  · intro t f hf v
    obtain ⟨i, hi⟩ := List.mem_iff_getElem?.1 hf
    have hl : i < 12 := (List.getElem?_eq_some_iff.1 hi).1
    have : i = 0 ∨ i = 1 ∨ i = 2 ∨ i = 3 ∨ i = 4 ∨ i = 5 ∨ i = 6 ∨ i = 7 ∨ i = 8 ∨ i = 9 ∨ i = 10 ∨ i = 11 := by omega
    rcases this with rfl | rfl | rfl | rfl | rfl | rfl | rfl | rfl | rfl | rfl | rfl | rfl <;> cases hi
    · exact Nat.le_add_right _ _
    · exact Nat.le_add_right _ _

/-- Without the replacement the hypotheses of `entry_seen` hold: the metric is there from before the call to the return. -/
def demo' : List (Nat × Move Nat) := [(0, .add [1] .cumulativeInt64), (0, .go), (0, .go), (0, .getEntry 0 [7]), (0, .go), (0, .go),
  (1, .read), (1, .visit [1] 5), (1, .visit [7] 5), (0, .update 0 (· + 2)), (1, .go), (1, .stop), (1, .stop)]

example : ∃ s : St Nat, run 0 init demo' = some s ∧ ReadIs s.log 1 4 6 [⟨[1], 0, [([7], 0, 2)]⟩] ∧
    (∀ j, 4 < j → j ≤ 6 → registered [1] (s.log.take j) = some 0) ∧ s.log[3]? = some (.got 0 0 [7] 0) ∧
    ∀ d < 6, ∀ t, s.log[d]? ≠ some (.deleted t 0 [7]) := by
  refine ⟨_, rfl, ⟨rfl, rfl, by decide, ?_⟩, ?_, rfl, ?_⟩
  · intro j h1 h2
    have : j = 5 := by omega
    subst this
    exact fun h => by cases h
  · intro j h1 h2
    have : j = 5 ∨ j = 6 := by omega
    rcases this with rfl | rfl <;> rfl
  · intro d hd t
    have : d = 0 ∨ d = 1 ∨ d = 2 ∨ d = 3 ∨ d = 4 ∨ d = 5 := by omega
    rcases this with rfl | rfl | rfl | rfl | rfl | rfl <;> exact fun h => by cases h

/-- Why `add_stored` needs that hypothesis: of two overlapping calls that add a name in different types, both succeed, and
the metric of one of them is not exported. -/
theorem add_race : ∃ (mvs : List (Nat × Move Nat)) (s : St Nat), run 0 init mvs = some s ∧
    s.log[2]? = some (.stored 0 [1] 0 .gaugeInt64) ∧ s.log[3]? = some (.stored 1 [1] 1 .cumulativeFloat64) ∧
    ReadIs s.log 0 4 5 [⟨[1], 1, []⟩] :=
  ⟨[(0, .add [1] .gaugeInt64), (1, .add [1] .cumulativeFloat64), (0, .go), (1, .go), (0, .go), (1, .go), (0, .read),
    (0, .visit [1] 5), (0, .stop), (0, .stop)], _, rfl, rfl, rfl, rfl, rfl, by decide, by intro j h1 h2; omega⟩

/-- One after the other, the second is refused. -/
example : ∃ s : St Nat, run 0 init [(0, .add [1] .gaugeInt64), (0, .go), (0, .go), (1, .add [1] .cumulativeFloat64), (1, .go)] =
    some s ∧ s.log[3]? = some (.refused 1 [1] .cumulativeFloat64) := ⟨_, rfl, rfl⟩

end Verif.Props.RegConc
