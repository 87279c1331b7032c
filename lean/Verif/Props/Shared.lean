import Verif.Conc.Lin
import Verif.Conc.Shared

/-!
# C74: the configuration, the measures, the producers and the span stores used by many goroutines
-/

namespace Verif.Props.Shared
open Verif Verif.Conc

theorem runs_split {S Op R : Type} {spec : Op → S → S → R → Prop} {s s' : S} {a b : List (Id × Op × R)} {id : Id} {op : Op}
    {r : R} (h : Runs spec s (a ++ (id, op, r) :: b) s') :
    ∃ s1 s2, Runs spec s a s1 ∧ spec op s1 s2 r ∧ Runs spec s2 b s' := by
  generalize e : a ++ (id, op, r) :: b = l at h
  induction h generalizing b with
  | nil => simp at e
  | snoc h1 h2 ih =>
    rcases List.eq_nil_or_concat b with rfl | ⟨b', y, rfl⟩
    · have e' := List.append_inj' e rfl
      obtain ⟨rfl, e2⟩ := e'
      simp only [List.cons.injEq, Prod.mk.injEq, and_true] at e2
      obtain ⟨_, rfl, rfl⟩ := e2
      exact ⟨_, _, h1, h2, Runs.nil _⟩
    · rw [List.concat_eq_append, ← List.cons_append, ← List.append_assoc] at e
      have e' := List.append_inj' e rfl
      simp only [List.cons.injEq, and_true] at e'
      obtain ⟨s1, s2, g1, g2, g3⟩ := ih e'.1
      rw [List.concat_eq_append, e'.2]
      exact ⟨s1, s2, g1, g2, g3.snoc h2⟩

/-! ## The tracing configuration -/

namespace Conf
open Verif.Trace (Config)
open Verif.Conc.Conf

/-- The arguments of the calls of `ApplyConfig`. -/
def applied (l : List (Id × Op × Option Config)) : List Config := l.filterMap fun x => match x.2.1 with
  | .apply cfg => some cfg
  | .load => none

/-- The last limit given, among those that are positive. -/
def lastLimit (f : Config → Int) (d : Int) (l : List Config) : Int := ((l.map f).filter fun n => decide (0 < n)).getLastD d

/-- What the configuration is after these calls of `ApplyConfig`: for each field the last value given. -/
structure Is (l : List Config) (c : Config) : Prop where
  sampler : c.sampler = (l.filterMap Config.sampler).getLast?.or Config.initial.sampler
  idGenerator : c.idGenerator = (l.filterMap Config.idGenerator).getLast?.or (some 0)
  annotations : c.maxAnnotations = lastLimit Config.maxAnnotations 32 l
  messageEvents : c.maxMessageEvents = lastLimit Config.maxMessageEvents 128 l
  attributes : c.maxAttributes = lastLimit Config.maxAttributes 32 l
  links : c.maxLinks = lastLimit Config.maxLinks 32 l

def spec : Op → Config → Config → Option Config → Prop
  | .apply cfg, s, s', _ => s' = s.apply cfg
  | .load, s, s', r => s' = s ∧ r = some s

def correct : Correct obj spec (fun _ => True) where
  mode
    | .locked => .write
    | .loaded _ => .write
    | .stored => .write
    | _ => .none
  res
    | .stored => some none
    | .unlocked => some none
    | .got c => some (some c)
    | _ => none
  J
    | .apply _, .start, _ => True
    | .apply _, .locked, _ => True
    | .apply _, .loaded c, s => c = s
    | .apply _, .stored, _ => True
    | .apply _, .unlocked, _ => True
    | .load, .start, _ => True
    | .load, .got _, _ => True
    | _, _, _ => False
  enter op := ⟨rfl, rfl, fun _ _ _ => by cases op <;> trivial⟩
  read {op l s c l'} _ hJ h := by
    cases op <;> cases l <;> simp only [obj, Option.some.injEq, Act.read.injEq, reduceCtorEq] at h <;> subst h <;> exact ⟨rfl, rfl, rfl⟩
  eff {op l s c s' l' r} _ hJ h := by
    cases op <;> cases l <;> simp only [obj, Option.some.injEq, Act.eff.injEq, reduceCtorEq] at h <;> obtain ⟨rfl, rfl, rfl⟩ := h
    · simp only at hJ
      subst hJ
      refine ⟨rfl, rfl, rfl, rfl, trivial, trivial, ?_⟩
      intro op2 l2 hc h2
      cases op2 <;> cases l2 <;> first | trivial | exact h2 | exact False.elim hc
    · exact ⟨rfl, rfl, rfl, ⟨rfl, rfl⟩, trivial, trivial, fun _ _ _ h => h⟩
  lock {op l s c l'} _ hJ h := by
    cases op <;> cases l <;> simp only [obj, Option.some.injEq, Act.lock.injEq, reduceCtorEq] at h <;> subst h <;> exact ⟨rfl, rfl, rfl, trivial⟩
  unlock {op l s c l'} _ hJ h := by
    cases op <;> cases l <;> simp only [obj, Option.some.injEq, Act.unlock.injEq, reduceCtorEq] at h <;> subst h <;> exact ⟨rfl, rfl, rfl, trivial⟩
  rlock {op l s c l'} _ hJ h := by
    cases op <;> cases l <;> simp only [obj, Option.some.injEq, reduceCtorEq] at h
  runlock {op l s c l'} _ hJ h := by
    cases op <;> cases l <;> simp only [obj, Option.some.injEq, reduceCtorEq] at h
  ret {op l s c r} _ hJ h := by
    cases op <;> cases l <;> simp only [obj, Option.some.injEq, Act.ret.injEq, reduceCtorEq] at h <;> subst h <;> exact ⟨rfl, rfl⟩
  panic {op l s c} _ hJ h := by
    cases op <;> cases l <;> simp only [obj, Option.some.injEq, reduceCtorEq] at h
  live {op l s} _ hJ := by
    cases op <;> cases l <;> first | exact ⟨0, _, rfl⟩ | exact False.elim hJ

theorem applied_snoc (l : List (Id × Op × Option Config)) (x : Id × Op × Option Config) :
    applied (l ++ [x]) = applied l ++ applied [x] := by simp [applied]

theorem lastLimit_snoc (f : Config → Int) (d : Int) (l : List Config) (c : Config) :
    lastLimit f d (l ++ [c]) = if f c > 0 then f c else lastLimit f d l := by
  by_cases h : 0 < f c <;> simp [lastLimit, List.filter_append, h]

theorem getLast_snoc {α : Type} (f : Config → Option α) (d : Option α) (l : List Config) (c : Config) :
    ((l ++ [c]).filterMap f).getLast?.or d = if (f c).isSome then f c else (l.filterMap f).getLast?.or d := by
  cases h : f c <;> simp [List.filterMap_append, h]

theorem is_runs {l : List (Id × Op × Option Config)} {s0 s : Config} (h0 : s0 = Config.initial) (h : Runs spec s0 l s) :
    Is (applied l) s := by
  induction h with
  | nil => subst h0; exact ⟨rfl, rfl, rfl, rfl, rfl, rfl⟩
  | @snoc s1 s2 l id op r h1 h2 ih =>
    rw [applied_snoc]
    cases op with
    | load =>
      obtain ⟨rfl, _⟩ := h2
      simpa [applied] using ih
    | apply cfg =>
      have h2 : s2 = s1.apply cfg := h2
      subst h2
      have e : applied [(id, .apply cfg, r)] = [cfg] := rfl
      rw [e]
      refine ⟨?_, ?_, ?_, ?_, ?_, ?_⟩
      · rw [getLast_snoc, ← ih.sampler]; rfl
      · rw [getLast_snoc, ← ih.idGenerator]; rfl
      · rw [lastLimit_snoc, ← ih.annotations]; rfl
      · rw [lastLimit_snoc, ← ih.messageEvents]; rfl
      · rw [lastLimit_snoc, ← ih.attributes]; rfl
      · rw [lastLimit_snoc, ← ih.links]; rfl

/-- C74 for the configuration: in every execution the calls take effect one at a time, each between its call and its
return, and the configuration a new span uses has in each field the last value given by a call of `ApplyConfig` that
took effect before: no update is lost, and no span sees part of one. -/
theorem config_seen {programs : Nat → List Op} {ms : List (Nat × Nat)} {st : St Config Op Loc (Option Config)}
    (h : run obj (init Config.initial programs) ms = some st) :
    st.crashed = false ∧ Linear spec Config.initial st.log st.mem ∧
      ∀ a b id r, tooks st.log = a ++ (id, .load, r) :: b → ∃ c, r = some c ∧ Is (applied a) c := by
  obtain ⟨h1, h2⟩ := linear correct trivial h
  refine ⟨h1, h2, ?_⟩
  intro a b id r e
  obtain ⟨s1, s2, g1, g2, _⟩ := runs_split (e ▸ h2.runs)
  exact ⟨s1, g2.2, is_runs rfl g1⟩

/-- Two goroutines set different fields at once, a third starts spans. -/
def demo : Nat → List Op
  | 0 => [.apply ⟨none, none, 5, 0, 0, 0⟩]
  | 1 => [.apply ⟨none, none, 0, 7, 0, 0⟩]
  | 2 => [.load, .load]
  | _ => []

def demoSched : List (Nat × Nat) := [0, 0, 0, 1, 2, 2, 0, 2, 0, 1, 0, 1, 1, 1, 1, 2, 2, 2].map fun t => (t, 0)

example : (run obj (init Config.initial demo) demoSched).map (fun st => (tooks st.log).map fun x =>
    (x.1, x.2.2.map fun c => (c.maxAnnotations, c.maxMessageEvents))) =
    some [((2, 0), some (32, 128)), ((0, 0), none), ((1, 0), none), ((2, 1), some (5, 7))] := by decide +kernel

/-- No deadlock: while a call is in progress, or one is to be made and can be, somebody can go on. -/
theorem config_progress {programs : Nat → List Op} {ms : List (Nat × Nat)} {st : St Config Op Loc (Option Config)}
    (h : run obj (init Config.initial programs) ms = some st) {t : Nat}
    (ht : st.pc t ≠ none ∨ ∃ op rest, st.todo t = op :: rest ∧ obj.can op st.mem = true) :
    ∃ u c st', step obj st u c = some st' := progress correct trivial h ht

end Conf
/-! ## The measures -/

namespace Meas
open Verif.Stats (Desc)
open Verif.Conc.Meas

/-- The history of the calls that took effect. -/
abbrev Hist := List (Id × Op × Result)

/-- The measure `p` was created with this name. -/
def Named (l : Hist) (p : Nat) (n : Bytes) : Prop := ∃ id d u, (id, Op.register n d u, Result.ptr p) ∈ l

/-- The description and unit of the first call that registered the name. -/
def firstOf (n : Bytes) (l : Hist) : Option (Bytes × Bytes) := l.findSome? fun x => match x.2.1 with
  | .register n' d u => if n' = n then some (d, u) else none
  | _ => none

def Subscribed (l : Hist) (n : Bytes) : Prop := ∃ id r, (id, Op.subscribe n, r) ∈ l

def spec : Op → Mem → Mem → Result → Prop
  | .register n d u, s, s', r => match GoMap.get s.names n with
    | some p => s' = s ∧ r = .ptr p
    | none => s' = ⟨GoMap.set s.names n s.heap.length, s.heap ++ [⟨false, n, d, u⟩]⟩ ∧ r = .ptr s.heap.length
  | .describe p, s, s', r => s' = s ∧ ∃ x, s.heap[p]? = some x ∧ r = .text x.name x.description x.unit
  | .subscribe n, s, s', r => ∃ p x, GoMap.get s.names n = some p ∧ s.heap[p]? = some x ∧
      s' = { s with heap := s.heap.set p { x with subs := true } } ∧ r = .unit
  | .subscribed p, s, s', r => s' = s ∧ ∃ x, s.heap[p]? = some x ∧ r = .flag x.subs

def Valid (s : Mem) : Prop := ∀ n p, GoMap.get s.names n = some p → p < s.heap.length

def mode : Loc → Mode
  | .locked => .write
  | .missing => .write
  | .found _ => .write
  | .leave _ => .write
  | _ => .none

def J : Op → Loc → Mem → Prop
  | .register _ _ _, .start, _ => True
  | .register _ _ _, .locked, _ => True
  | .register n _ _, .missing, s => GoMap.get s.names n = none
  | .register _ _ _, .leave _, _ => True
  | .register _ _ _, .done _, _ => True
  | .describe p, .start, s => p < s.heap.length
  | .describe _, .done _, _ => True
  | .subscribe n, .start, s => (GoMap.get s.names n).isSome
  | .subscribe n, .locked, s => (GoMap.get s.names n).isSome
  | .subscribe n, .found p, s => GoMap.get s.names n = some p
  | .subscribe _, .leave _, _ => True
  | .subscribe _, .done _, _ => True
  | .subscribed p, .start, s => p < s.heap.length
  | .subscribed _, .done _, _ => True
  | _, _, _ => False

theorem J_stable {s s' : Mem} {m : Mode} (hn : ∀ n p, GoMap.get s.names n = some p → GoMap.get s'.names n = some p)
    (hl : s.heap.length ≤ s'.heap.length) {op : Op} {l : Loc} (hm : m = .write) (hc : compat m (mode l)) (h : J op l s) : J op l s' := by
  have hs : ∀ n, (GoMap.get s.names n).isSome → (GoMap.get s'.names n).isSome := by
    intro n h
    obtain ⟨p, hp⟩ := Option.isSome_iff_exists.1 h
    rw [hn n p hp]; rfl
  subst hm
  cases op <;> cases l <;>
    first
    | trivial
    | exact False.elim h
    | exact False.elim hc
    | exact hs _ h
    | exact Nat.lt_of_lt_of_le h hl

def correct : Correct obj spec Valid where
  mode := mode
  res
    | .leave r => some r
    | .done r => some r
    | _ => none
  J := J
  enter op := ⟨rfl, rfl, fun s _ hc => by
    cases op <;> simp only [obj, decide_eq_true_eq] at hc <;> first | trivial | exact hc⟩
  read {op l s c l'} _ hJ h := by
    cases op <;> cases l <;> simp only [obj, Option.some.injEq, reduceCtorEq] at h
    · next n d u =>
      cases e : GoMap.get s.names n with
      | none => simp only [e, Option.some.injEq, Act.read.injEq] at h; subst h; exact ⟨rfl, rfl, e⟩
      | some p => simp [e] at h
    · next p =>
      cases e : s.heap[p]? with
      | none => simp [e] at h
      | some x => simp [e] at h
    · next n =>
      cases e : GoMap.get s.names n with
      | none => simp [e] at h
      | some p => simp only [e, Option.some.injEq, Act.read.injEq] at h; subst h; exact ⟨rfl, rfl, e⟩
    · next n p =>
      cases e : s.heap[p]? with
      | none => simp [e] at h
      | some x => simp [e] at h
    · next p =>
      cases e : s.heap[p]? with
      | none => simp [e] at h
      | some x => simp [e] at h
  eff {op l s c s' l' r} hv hJ h := by
    cases op <;> cases l <;> simp only [obj, Option.some.injEq, Act.eff.injEq, reduceCtorEq] at h
    · next n d u =>
      cases e : GoMap.get s.names n with
      | none => simp [e] at h
      | some p =>
        simp only [e, Option.some.injEq, Act.eff.injEq] at h
        obtain ⟨rfl, rfl, rfl⟩ := h
        exact ⟨rfl, rfl, rfl, by simp [spec, e], hv, trivial, fun _ _ _ h => h⟩
    · next n d u =>
      obtain ⟨rfl, rfl, rfl⟩ := h
      have e : GoMap.get s.names n = none := hJ
      refine ⟨rfl, rfl, rfl, by simp [spec, e], ?_, trivial, ?_⟩
      · intro m p hp
        rw [GoMap.get_set] at hp
        simp only [List.length_append, List.length_singleton]
        split at hp
        · cases hp; omega
        · have := hv m p hp; omega
      · intro op2 l2 hc h2
        refine J_stable ?_ (by simp) rfl hc h2
        intro m p hp
        rw [GoMap.get_set, if_neg (by rintro rfl; rw [e] at hp; cases hp)]
        exact hp
    · next p =>
      cases e : s.heap[p]? with
      | none => simp [e] at h
      | some x =>
        simp only [e, Option.some.injEq, Act.eff.injEq] at h
        obtain ⟨rfl, rfl, rfl⟩ := h
        exact ⟨rfl, rfl, rfl, ⟨rfl, x, e, rfl⟩, hv, trivial, fun _ _ _ h => h⟩
    · next n =>
      cases e : GoMap.get s.names n with
      | none => simp [e] at h
      | some p => simp [e] at h
    · next n p =>
      cases e : s.heap[p]? with
      | none => simp [e] at h
      | some x =>
        simp only [e, Option.some.injEq, Act.eff.injEq] at h
        obtain ⟨rfl, rfl, rfl⟩ := h
        refine ⟨rfl, rfl, rfl, ⟨p, x, hJ, e, rfl, rfl⟩, ?_, trivial, ?_⟩
        · intro m q hq; simp only [List.length_set]; exact hv m q hq
        · intro op2 l2 hc h2
          refine J_stable (s := s) (s' := { s with heap := s.heap.set p { x with subs := true } }) (fun _ _ h => h) ?_ rfl hc h2
          simp
    · next p =>
      cases e : s.heap[p]? with
      | none => simp [e] at h
      | some x =>
        simp only [e, Option.some.injEq, Act.eff.injEq] at h
        obtain ⟨rfl, rfl, rfl⟩ := h
        exact ⟨rfl, rfl, rfl, ⟨rfl, x, e, rfl⟩, hv, trivial, fun _ _ _ h => h⟩
  lock {op l s c l'} _ hJ h := by
    cases op <;> cases l <;> simp only [obj, Option.some.injEq, Act.lock.injEq, reduceCtorEq] at h <;>
      first
      | (subst h; exact ⟨rfl, rfl, rfl, trivial⟩)
      | (subst h; exact ⟨rfl, rfl, rfl, hJ⟩)
      | (split at h <;> simp at h)
  unlock {op l s c l'} _ hJ h := by
    cases op <;> cases l <;> simp only [obj, Option.some.injEq, Act.unlock.injEq, reduceCtorEq] at h <;>
      first
      | exact False.elim hJ
      | (subst h; exact ⟨rfl, rfl, rfl, trivial⟩)
      | (split at h <;> simp at h)
  rlock {op l s c l'} _ hJ h := by
    cases op <;> cases l <;> simp only [obj, Option.some.injEq, reduceCtorEq] at h <;> (split at h <;> simp at h)
  runlock {op l s c l'} _ hJ h := by
    cases op <;> cases l <;> simp only [obj, Option.some.injEq, reduceCtorEq] at h <;> (split at h <;> simp at h)
  ret {op l s c r} _ hJ h := by
    cases op <;> cases l <;> simp only [obj, Option.some.injEq, Act.ret.injEq, reduceCtorEq] at h <;>
      first
      | (subst h; exact ⟨rfl, rfl⟩)
      | (split at h <;> simp at h)
  panic {op l s c} hv hJ h := by
    cases op <;> cases l <;> simp only [obj, Option.some.injEq, reduceCtorEq] at h
    · split at h <;> simp at h
    · next p =>
      have hp : p < s.heap.length := hJ
      simp [List.getElem?_eq_getElem hp] at h
    · next n =>
      obtain ⟨p, hp⟩ := Option.isSome_iff_exists.1 (show (GoMap.get s.names n).isSome from hJ)
      simp [hp] at h
    · next n p =>
      have hp : p < s.heap.length := hv n p hJ
      simp [List.getElem?_eq_getElem hp] at h
    · next p =>
      have hp : p < s.heap.length := hJ
      simp [List.getElem?_eq_getElem hp] at h
  live {op l s} _ hJ := by
    cases op <;> cases l <;> first | exact ⟨0, _, rfl⟩ | exact False.elim hJ | (simp only [obj]; split <;> exact ⟨0, _, rfl⟩)

/-- What the history says of the memory. -/
structure Says (l : Hist) (s : Mem) : Prop where
  names : ∀ n p, GoMap.get s.names n = some p ↔ Named l p n
  desc : ∀ p x, s.heap[p]? = some x → Named l p x.name ∧ firstOf x.name l = some (x.description, x.unit) ∧
    (x.subs = true ↔ Subscribed l x.name)
  valid : Valid s
  inj : ∀ n m p, GoMap.get s.names n = some p → GoMap.get s.names m = some p → n = m

theorem named_snoc (l : Hist) (x : Id × Op × Result) (p : Nat) (n : Bytes) :
    Named (l ++ [x]) p n ↔ Named l p n ∨ ∃ d u, x.2 = (.register n d u, .ptr p) := by
  unfold Named
  constructor
  · rintro ⟨id, d, u, h⟩
    rcases List.mem_append.1 h with h | h
    · exact Or.inl ⟨id, d, u, h⟩
    · simp only [List.mem_singleton] at h; subst h; exact Or.inr ⟨d, u, rfl⟩
  · rintro (⟨id, d, u, h⟩ | ⟨d, u, h⟩)
    · exact ⟨id, d, u, List.mem_append_left _ h⟩
    · exact ⟨x.1, d, u, by rw [← h]; simp⟩

theorem subscribed_snoc (l : Hist) (x : Id × Op × Result) (n : Bytes) :
    Subscribed (l ++ [x]) n ↔ Subscribed l n ∨ x.2.1 = .subscribe n := by
  unfold Subscribed
  constructor
  · rintro ⟨id, r, h⟩
    rcases List.mem_append.1 h with h | h
    · exact Or.inl ⟨id, r, h⟩
    · simp only [List.mem_singleton] at h; subst h; exact Or.inr rfl
  · rintro (⟨id, r, h⟩ | h)
    · exact ⟨id, r, List.mem_append_left _ h⟩
    · exact ⟨x.1, x.2.2, by rw [← h]; simp⟩

theorem firstOf_snoc (n : Bytes) (l : Hist) (x : Id × Op × Result) :
    firstOf n (l ++ [x]) = (firstOf n l).or (firstOf n [x]) := by
  simp [firstOf, List.findSome?_append]

theorem firstOf_none {n : Bytes} {l : Hist} (h : ∀ p, ¬ Named l p n)
    (hr : ∀ id n' d u r, (id, Op.register n' d u, r) ∈ l → ∃ p, r = .ptr p) : firstOf n l = none := by
  rw [firstOf, List.findSome?_eq_none_iff]
  rintro ⟨id, op, r⟩ hx
  cases op <;> simp only
  next n' d u =>
    split
    · next e =>
      subst e
      obtain ⟨p, rfl⟩ := hr _ _ _ _ _ hx
      exact absurd ⟨id, d, u, hx⟩ (h p)
    · rfl

theorem ptrs {l : Hist} {s0 s : Mem} (h : Runs spec s0 l s) :
    ∀ id n' d u r, (id, Op.register n' d u, r) ∈ l → ∃ p, r = .ptr p := by
  induction h with
  | nil => simp
  | @snoc s1 s2 l id op r h1 h2 ih =>
    intro id' n d u r' hm
    rcases List.mem_append.1 hm with hm | hm
    · exact ih _ _ _ _ _ hm
    · simp only [List.mem_singleton, Prod.mk.injEq] at hm
      obtain ⟨rfl, rfl, rfl⟩ := hm
      simp only [spec] at h2
      split at h2
      · exact ⟨_, h2.2⟩
      · exact ⟨_, h2.2⟩

theorem mem_says {l : Hist} {s0 s : Mem} (h0 : s0 = ⟨[], []⟩) (h : Runs spec s0 l s) : Says l s := by
  induction h with
  | nil =>
    subst h0
    refine ⟨?_, ?_, ?_, ?_⟩
    · intro n p; simp [Named]
    · intro p x hx; simp at hx
    · intro n p hp; simp at hp
    · intro n m p hp; simp at hp
  | @snoc s1 s2 l id op r h1 h2 ih =>
    -- a call that changes nothing and registers nothing
    have same : (∀ n p d u, (op, r) ≠ (Op.register n d u, Result.ptr p)) → (∀ n, op ≠ .subscribe n) →
        (∀ n, firstOf n [(id, op, r)] = none) → s2 = s1 → Says (l ++ [(id, op, r)]) s2 := by
      rintro c1 c2 c3 rfl
      refine ⟨?_, ?_, ih.valid, ih.inj⟩
      · intro n p
        rw [named_snoc, ih.names]
        simp only [iff_self_or]
        rintro ⟨d, u, e⟩
        exact absurd e (c1 n p d u)
      · intro p x hx
        obtain ⟨g1, g2, g3⟩ := ih.desc p x hx
        refine ⟨(named_snoc ..).2 (Or.inl g1), by rw [firstOf_snoc, g2]; rfl, ?_⟩
        rw [subscribed_snoc, g3]
        simp only [iff_self_or]
        intro e
        exact absurd e (c2 _)
    cases op with
    | describe p =>
      obtain ⟨e, _⟩ := h2
      exact same (by simp) (by simp) (by simp [firstOf]) e
    | subscribed p =>
      obtain ⟨e, _⟩ := h2
      exact same (by simp) (by simp) (by simp [firstOf]) e
    | subscribe n =>
      obtain ⟨p, x, e1, e2, rfl, rfl⟩ := h2
      have hx := ih.desc p x e2
      have hnx : x.name = n := by
        have := (ih.names x.name p).2 hx.1
        exact ih.inj _ _ _ this e1
      refine ⟨?_, ?_, ?_, ih.inj⟩
      · intro m q
        rw [named_snoc, ← ih.names]
        simp
      · intro q y hy
        rw [List.getElem?_set] at hy
        by_cases hpq : p = q
        · subst hpq
          rw [if_pos rfl] at hy
          split at hy
          · simp only [Option.some.injEq] at hy
            subst hy
            refine ⟨(named_snoc ..).2 (Or.inl hx.1), by rw [firstOf_snoc, hx.2.1]; rfl, ?_⟩
            simp only [true_iff]
            rw [subscribed_snoc]
            exact Or.inr (by rw [hnx])
          · simp at hy
        · rw [if_neg hpq] at hy
          obtain ⟨g1, g2, g3⟩ := ih.desc q y hy
          refine ⟨(named_snoc ..).2 (Or.inl g1), by rw [firstOf_snoc, g2]; rfl, ?_⟩
          rw [subscribed_snoc, g3]
          simp only [iff_self_or, Op.subscribe.injEq]
          intro e
          have h3 := (ih.names y.name q).2 g1
          rw [← e, e1] at h3
          exact absurd (Option.some.inj h3) hpq
      · intro m q hq
        simp only [List.length_set]
        exact ih.valid m q hq
    | register n d u =>
      simp only [spec] at h2
      cases e : GoMap.get s1.names n with
      | some p =>
        rw [e] at h2
        obtain ⟨rfl, rfl⟩ := h2
        refine ⟨?_, ?_, ih.valid, ih.inj⟩
        · intro m q
          rw [named_snoc, ih.names]
          simp only [iff_self_or]
          rintro ⟨d', u', e'⟩
          cases e'
          exact (ih.names n p).1 e
        · intro q x hx
          obtain ⟨g1, g2, g3⟩ := ih.desc q x hx
          refine ⟨(named_snoc ..).2 (Or.inl g1), by rw [firstOf_snoc, g2]; rfl, ?_⟩
          rw [subscribed_snoc, g3]
          simp
      | none =>
        rw [e] at h2
        obtain ⟨rfl, rfl⟩ := h2
        have hnone : ∀ p, ¬ Named l p n := by
          intro p hp
          rw [← ih.names, e] at hp
          cases hp
        refine ⟨?_, ?_, ?_, ?_⟩
        · intro m q
          rw [named_snoc, GoMap.get_set]
          split
          · next hm =>
            subst hm
            constructor
            · intro h; cases h; exact Or.inr ⟨d, u, rfl⟩
            · rintro (h | ⟨_, _, h⟩)
              · exact absurd h (hnone q)
              · cases h; rfl
          · next hm =>
            rw [ih.names]
            simp only [iff_self_or]
            rintro ⟨_, _, h⟩
            cases h
            exact absurd rfl hm
        · intro q x hx
          rw [List.getElem?_append] at hx
          split at hx
          · obtain ⟨g1, g2, g3⟩ := ih.desc q x hx
            refine ⟨(named_snoc ..).2 (Or.inl g1), by rw [firstOf_snoc, g2]; rfl, ?_⟩
            rw [subscribed_snoc, g3]
            simp
          · next hge =>
            have hq : q = s1.heap.length := by
              have := (List.getElem?_eq_some_iff.1 hx).1
              simp at this
              omega
            subst hq
            simp only [Nat.sub_self, List.getElem?_cons_zero, Option.some.injEq] at hx
            subst hx
            refine ⟨(named_snoc ..).2 (Or.inr ⟨d, u, rfl⟩), ?_, ?_⟩
            · rw [firstOf_snoc, firstOf_none hnone (ptrs h1)]
              simp [firstOf]
            · simp only [Bool.false_eq_true, false_iff]
              rw [subscribed_snoc]
              rintro (⟨id', r', hm⟩ | h)
              · -- only names that are registered are subscribed
                obtain ⟨a, b, rfl⟩ := List.append_of_mem hm
                have : ∀ {l' : Hist} {s' : Mem}, Runs spec ⟨[], []⟩ l' s' → ∀ id' r', (id', Op.subscribe n, r') ∈ l' →
                    (GoMap.get s'.names n).isSome := by
                  intro l' s' hr
                  induction hr with
                  | nil => simp
                  | @snoc t1 t2 l2 id2 op2 r2 k1 k2 kih =>
                    intro id' r' hm
                    have mono : (GoMap.get t1.names n).isSome → (GoMap.get t2.names n).isSome := by
                      intro hs
                      cases op2 with
                      | describe p => obtain ⟨rfl, _⟩ := k2; exact hs
                      | subscribed p => obtain ⟨rfl, _⟩ := k2; exact hs
                      | subscribe m => obtain ⟨p, x, _, _, rfl, _⟩ := k2; exact hs
                      | register m d u =>
                        simp only [spec] at k2
                        split at k2
                        · obtain ⟨rfl, _⟩ := k2; exact hs
                        · obtain ⟨rfl, _⟩ := k2
                          rw [GoMap.get_set]; split
                          · rfl
                          · exact hs
                    rcases List.mem_append.1 hm with hm | hm
                    · exact mono (kih _ _ hm)
                    · simp only [List.mem_singleton, Prod.mk.injEq] at hm
                      obtain ⟨rfl, rfl, rfl⟩ := hm
                      obtain ⟨p, x, c1, _, rfl, _⟩ := k2
                      rw [c1]; rfl
                subst h0
                have := this h1 id' r' hm
                rw [e] at this
                cases this
              · cases h
        · intro m q hq
          rw [GoMap.get_set] at hq
          simp only [List.length_append, List.length_singleton]
          split at hq
          · cases hq; omega
          · have := ih.valid m q hq; omega
        · intro m m' q hm hm'
          rw [GoMap.get_set] at hm hm'
          split at hm <;> split at hm'
          · next a b => rw [a, b]
          · cases hm
            have := ih.valid _ _ hm'; omega
          · cases hm'
            have := ih.valid _ _ hm; omega
          · exact ih.inj _ _ _ hm hm'

/-- C74 for measures: in every execution the calls take effect one at a time. Two calls of `Int64` or `Float64` give
handles of the same measure exactly if they give the same name. A measure has the description and unit of the first
such call with its name. `Record` sees the measure as subscribed exactly if a view on it was registered before. -/
theorem measures_shared {programs : Nat → List Op} {ms : List (Nat × Nat)} {st : St Mem Op Loc Result}
    (h : run obj (init ⟨[], []⟩ programs) ms = some st) :
    st.crashed = false ∧ Linear spec ⟨[], []⟩ st.log st.mem ∧
      (∀ p q n m, Named (tooks st.log) p n → Named (tooks st.log) q m → (p = q ↔ n = m)) ∧
      (∀ a b id n d u r, tooks st.log = a ++ (id, .register n d u, r) :: b → ∃ p, r = .ptr p) ∧
      (∀ a b id p r, tooks st.log = a ++ (id, .describe p, r) :: b →
        ∃ n d u, r = .text n d u ∧ Named a p n ∧ firstOf n a = some (d, u)) ∧
      (∀ a b id p r, tooks st.log = a ++ (id, .subscribed p, r) :: b →
        ∃ n f, r = .flag f ∧ Named a p n ∧ (f = true ↔ Subscribed a n)) := by
  obtain ⟨h1, h2⟩ := linear correct (by intro n p h; simp at h) h
  refine ⟨h1, h2, ?_, ?_, ?_, ?_⟩
  · intro p q n m hp hq
    have hs := mem_says rfl h2.runs
    rw [← hs.names] at hp hq
    constructor
    · rintro rfl; exact hs.inj _ _ _ hp hq
    · rintro rfl; rw [hp] at hq; exact Option.some.inj hq
  · intro a b id n d u r e
    exact ptrs h2.runs id n d u r (by rw [e]; simp)
  · intro a b id p r e
    obtain ⟨s1, s2, g1, g2, _⟩ := runs_split (e ▸ h2.runs)
    obtain ⟨_, x, k1, k2⟩ := g2
    obtain ⟨f1, f2, _⟩ := (mem_says rfl g1).desc p x k1
    exact ⟨_, _, _, k2, f1, f2⟩
  · intro a b id p r e
    obtain ⟨s1, s2, g1, g2, _⟩ := runs_split (e ▸ h2.runs)
    obtain ⟨_, x, k1, k2⟩ := g2
    obtain ⟨f1, _, f3⟩ := (mem_says rfl g1).desc p x k1
    exact ⟨_, _, k2, f1, f3⟩

/-- Two goroutines make the measure `[1]` at once; one registers a view on it, the other records. -/
def demo : Nat → List Op
  | 0 => [.register [1] [2] [], .subscribe [1]]
  | 1 => [.register [1] [3] [], .subscribed 0, .describe 0, .subscribed 0]
  | _ => []

example : (run obj (init ⟨[], []⟩ demo) ([0, 1, 1, 1, 1, 1, 1, 1, 1, 1, 0, 0, 0, 0, 0, 0, 0, 0, 0, 1, 0, 1, 1, 1, 1, 1].map fun t => (t, 0))).map
    (fun st => (tooks st.log).map fun x => (x.1, x.2.2)) =
    some [((1, 0), .ptr 0), ((1, 1), .flag false), ((0, 0), .ptr 0), ((0, 1), .unit), ((1, 2), .text [1] [3] []), ((1, 3), .flag true)] := by
  decide +kernel

/-- No deadlock: while a call is in progress, or one is to be made and can be, somebody can go on. -/
theorem measures_progress {programs : Nat → List Op} {ms : List (Nat × Nat)} {st : St Mem Op Loc Result}
    (h : run obj (init ⟨[], []⟩ programs) ms = some st) {t : Nat}
    (ht : st.pc t ≠ none ∨ ∃ op rest, st.todo t = op :: rest ∧ obj.can op st.mem = true) :
    ∃ u c st', step obj st u c = some st' := progress correct (by intro n p h; simp at h) h ht

end Meas
/-! ## The producers -/

namespace Prod
open Verif.Conc.Prod

abbrev Hist := List (Id × Op × List (Option Nat))

/-- The producer was added, and not deleted since. -/
def Active (l : Hist) (p : Nat) : Prop :=
  ∃ a b id r, l = a ++ (id, Op.add (some p), r) :: b ∧ ∀ id' r', (id', Op.delete (some p), r') ∉ b

def spec : Op → List Nat → List Nat → List (Option Nat) → Prop
  | .add none, s, s', _ => s' = s
  | .add (some p), s, s', _ => s' = if p ∈ s then s else s ++ [p]
  | .delete none, s, s', _ => s' = s
  | .delete (some p), s, s', _ => s' = s.filter fun q => decide (q ≠ p)
  | .getAll, s, s', r => s' = s ∧ ∃ out : List Nat, r = out.map some ∧ out.Perm s

def mode : Loc → Mode
  | .locked => .write
  | .loop _ _ => .write
  | .leave _ => .write
  | _ => .none

def J : Op → Loc → List Nat → Prop
  | .add none, .start, _ => True
  | .add none, .done _, _ => True
  | .delete none, .start, _ => True
  | .delete none, .done _, _ => True
  | .add (some _), .loop _ _, _ => False
  | .add (some _), _, _ => True
  | .delete (some _), .loop _ _, _ => False
  | .delete (some _), _, _ => True
  | .getAll, .loop n out, s => n = s.length ∧ out.Nodup ∧ ∀ p ∈ out, p ∈ s
  | .getAll, _, _ => True
  | _, _, _ => False

theorem J_stable {s s' : List Nat} {op : Op} {l : Loc} (hc : compat .write (mode l)) (h : J op l s) : J op l s' := by
  cases op with
  | getAll => cases l <;> first | trivial | exact False.elim hc
  | add p => cases p <;> cases l <;> first | trivial | exact False.elim h
  | delete p => cases p <;> cases l <;> first | trivial | exact False.elim h

theorem getAll_cases {s : List Nat} {n c : Nat} {out : List Nat} {x : Act (List Nat) Loc (List (Option Nat))} (hs : s.Nodup)
    (hJ : J .getAll (.loop n out) s) (h : obj.act .getAll (.loop n out) s c = some x) :
    (x = .eff s (.leave (out.map some)) (out.map some) ∧ out.Perm s) ∨
      ∃ p, x = .read (.loop n (out ++ [p])) ∧ J .getAll (.loop n (out ++ [p])) s := by
  obtain ⟨hn, hd, hsub⟩ := hJ
  simp only [obj] at h
  split at h
  · next hl =>
    have hperm : out.Perm s := by
      refine (List.perm_ext_iff_of_nodup hd hs).2 fun p => ⟨hsub p, fun hp => ?_⟩
      rw [List.filter_eq_nil_iff] at hl
      simpa using hl p hp
    have : n - out.length = 0 := by rw [hn, hperm.length_eq]; omega
    rw [this] at h
    simp only [List.replicate_zero, List.append_nil, Option.some.injEq] at h
    exact Or.inl ⟨h.symm, hperm⟩
  · next hl =>
    have hlt : out.length < n := by
      obtain ⟨p, hp⟩ := List.exists_mem_of_ne_nil _ hl
      simp only [List.mem_filter, decide_eq_true_eq] at hp
      have : (p :: out).Subperm s := (List.nodup_cons.2 ⟨hp.2, hd⟩).subperm
        (fun q hq => by rcases List.mem_cons.1 hq with rfl | hq; exacts [hp.1, hsub q hq])
      have := this.length_le
      simp at this
      omega
    rw [if_neg (by omega)] at h
    cases hc : (s.filter fun q => decide (q ∉ out))[c]? with
    | none => simp only [hc, reduceCtorEq] at h
    | some p =>
      simp only [hc, Option.some.injEq] at h
      have hp := List.mem_of_getElem? hc
      simp only [List.mem_filter, decide_eq_true_eq] at hp
      refine Or.inr ⟨p, h.symm, hn, ?_, ?_⟩
      · rw [List.nodup_append]
        refine ⟨hd, by simp, ?_⟩
        rintro q hq r hr rfl
        simp only [List.mem_singleton] at hr
        subst hr
        exact hp.2 hq
      · intro q hq
        rcases List.mem_append.1 hq with hq | hq
        · exact hsub q hq
        · simp only [List.mem_singleton] at hq; subst hq; exact hp.1

def correct : Correct obj spec List.Nodup where
  mode := mode
  res
    | .leave r => some r
    | .done r => some r
    | _ => none
  J := J
  enter op := ⟨rfl, rfl, fun s _ _ => by
    cases op with
    | getAll => trivial
    | add p => cases p <;> trivial
    | delete p => cases p <;> trivial⟩
  read {op l s c l'} hv hJ h := by
    cases op with
    | getAll =>
      cases l with
      | loop n out =>
        rcases getAll_cases hv hJ h with ⟨e, _⟩ | ⟨p, e, hJ'⟩
        · cases e
        · cases e; exact ⟨rfl, rfl, hJ'⟩
      | locked =>
        simp only [obj, Option.some.injEq, Act.read.injEq] at h
        subst h
        exact ⟨rfl, rfl, rfl, by simp, by simp⟩
      | _ => simp [obj] at h
    | add p => cases p <;> cases l <;> simp [obj] at h
    | delete p => cases p <;> cases l <;> simp [obj] at h
  eff {op l s c s' l' r} hv hJ h := by
    cases op with
    | getAll =>
      cases l with
      | loop n out =>
        rcases getAll_cases hv hJ h with ⟨e, hp⟩ | ⟨p, e, _⟩
        · cases e; exact ⟨rfl, rfl, rfl, ⟨rfl, out, rfl, hp⟩, hv, trivial, fun _ _ _ h => h⟩
        · cases e
      | _ => simp [obj] at h
    | add p =>
      cases p with
      | none =>
        cases l <;> simp only [obj, Option.some.injEq, Act.eff.injEq, reduceCtorEq] at h
        obtain ⟨rfl, rfl, rfl⟩ := h
        exact ⟨rfl, rfl, rfl, rfl, hv, trivial, fun _ _ _ h => h⟩
      | some p =>
        cases l <;> simp only [obj, Option.some.injEq, Act.eff.injEq, reduceCtorEq] at h
        obtain ⟨rfl, rfl, rfl⟩ := h
        refine ⟨rfl, rfl, rfl, rfl, ?_, trivial, fun _ _ hc h => J_stable hc h⟩
        split
        · exact hv
        · next hp =>
          rw [List.nodup_append]
          refine ⟨hv, by simp, ?_⟩
          rintro q hq r hr rfl
          simp only [List.mem_singleton] at hr
          subst hr
          exact hp hq
    | delete p =>
      cases p with
      | none =>
        cases l <;> simp only [obj, Option.some.injEq, Act.eff.injEq, reduceCtorEq] at h
        obtain ⟨rfl, rfl, rfl⟩ := h
        exact ⟨rfl, rfl, rfl, rfl, hv, trivial, fun _ _ _ h => h⟩
      | some p =>
        cases l <;> simp only [obj, Option.some.injEq, Act.eff.injEq, reduceCtorEq] at h
        obtain ⟨rfl, rfl, rfl⟩ := h
        exact ⟨rfl, rfl, rfl, rfl, hv.filter _, trivial, fun _ _ hc h => J_stable hc h⟩
  lock {op l s c l'} hv hJ h := by
    cases op with
    | getAll =>
      cases l with
      | loop n out => rcases getAll_cases hv hJ h with ⟨e, _⟩ | ⟨p, e, _⟩ <;> cases e
      | start => simp only [obj, Option.some.injEq, Act.lock.injEq] at h; subst h; exact ⟨rfl, rfl, rfl, trivial⟩
      | _ => simp [obj] at h
    | add p =>
      cases p <;> cases l <;> simp only [obj, Option.some.injEq, Act.lock.injEq, reduceCtorEq] at h
      subst h; exact ⟨rfl, rfl, rfl, trivial⟩
    | delete p =>
      cases p <;> cases l <;> simp only [obj, Option.some.injEq, Act.lock.injEq, reduceCtorEq] at h
      subst h; exact ⟨rfl, rfl, rfl, trivial⟩
  unlock {op l s c l'} hv hJ h := by
    cases op with
    | getAll =>
      cases l with
      | loop n out => rcases getAll_cases hv hJ h with ⟨e, _⟩ | ⟨p, e, _⟩ <;> cases e
      | leave r => simp only [obj, Option.some.injEq, Act.unlock.injEq] at h; subst h; exact ⟨rfl, rfl, rfl, trivial⟩
      | _ => simp [obj] at h
    | add p =>
      cases p <;> cases l <;> simp only [obj, Option.some.injEq, Act.unlock.injEq, reduceCtorEq] at h <;>
        first | exact False.elim hJ | (subst h; exact ⟨rfl, rfl, rfl, trivial⟩)
    | delete p =>
      cases p <;> cases l <;> simp only [obj, Option.some.injEq, Act.unlock.injEq, reduceCtorEq] at h <;>
        first | exact False.elim hJ | (subst h; exact ⟨rfl, rfl, rfl, trivial⟩)
  rlock {op l s c l'} hv hJ h := by
    cases op with
    | getAll =>
      cases l with
      | loop n out => rcases getAll_cases hv hJ h with ⟨e, _⟩ | ⟨p, e, _⟩ <;> cases e
      | _ => simp [obj] at h
    | add p => cases p <;> cases l <;> simp [obj] at h
    | delete p => cases p <;> cases l <;> simp [obj] at h
  runlock {op l s c l'} hv hJ h := by
    cases op with
    | getAll =>
      cases l with
      | loop n out => rcases getAll_cases hv hJ h with ⟨e, _⟩ | ⟨p, e, _⟩ <;> cases e
      | _ => simp [obj] at h
    | add p => cases p <;> cases l <;> simp [obj] at h
    | delete p => cases p <;> cases l <;> simp [obj] at h
  ret {op l s c r} hv hJ h := by
    cases op with
    | getAll =>
      cases l with
      | loop n out => rcases getAll_cases hv hJ h with ⟨e, _⟩ | ⟨p, e, _⟩ <;> cases e
      | done r => simp only [obj, Option.some.injEq, Act.ret.injEq] at h; subst h; exact ⟨rfl, rfl⟩
      | _ => simp [obj] at h
    | add p =>
      cases p <;> cases l <;> simp only [obj, Option.some.injEq, Act.ret.injEq, reduceCtorEq] at h <;>
        (subst h; exact ⟨rfl, rfl⟩)
    | delete p =>
      cases p <;> cases l <;> simp only [obj, Option.some.injEq, Act.ret.injEq, reduceCtorEq] at h <;>
        (subst h; exact ⟨rfl, rfl⟩)
  panic {op l s c} hv hJ h := by
    cases op with
    | getAll =>
      cases l with
      | loop n out => rcases getAll_cases hv hJ h with ⟨e, _⟩ | ⟨p, e, _⟩ <;> cases e
      | _ => simp [obj] at h
    | add p => cases p <;> cases l <;> simp [obj] at h
    | delete p => cases p <;> cases l <;> simp [obj] at h
  live {op l s} hv hJ := by
    cases op with
    | getAll =>
      cases l with
      | loop n out =>
        refine ⟨0, ?_⟩
        simp only [obj]
        cases hl : s.filter fun q => decide (q ∉ out) with
        | nil => exact ⟨_, if_pos rfl⟩
        | cons p l =>
          by_cases hn : n ≤ out.length
          · exact ⟨.panic, by simp [hn]⟩
          · exact ⟨.read (.loop n (out ++ [p])), by simp [hn]⟩
      | _ => exact ⟨0, _, rfl⟩
    | add p => cases p <;> cases l <;> first | exact ⟨0, _, rfl⟩ | exact False.elim hJ
    | delete p => cases p <;> cases l <;> first | exact ⟨0, _, rfl⟩ | exact False.elim hJ

theorem active_snoc (l : Hist) (x : Id × Op × List (Option Nat)) (p : Nat) :
    Active (l ++ [x]) p ↔ x.2.1 = .add (some p) ∨ (Active l p ∧ x.2.1 ≠ .delete (some p)) := by
  obtain ⟨id, op, r⟩ := x
  constructor
  · rintro ⟨a, b, id', r', e, hn⟩
    rcases snoc_split e with ⟨_, e⟩ | ⟨q', e'⟩
    · cases e; exact Or.inl rfl
    · have hb : b = q' ++ [(id, op, r)] := by
        rw [e', List.append_assoc, List.cons_append] at e
        have := List.append_cancel_left e
        simpa using this.symm
      subst hb
      refine Or.inr ⟨⟨a, q', id', r', e', fun i r hm => hn i r (List.mem_append_left _ hm)⟩, ?_⟩
      rintro rfl
      exact hn id r (by simp)
  · rintro (rfl | ⟨⟨a, b, id', r', rfl, hn⟩, hne⟩)
    · exact ⟨l, [], id, r, rfl, by simp⟩
    · refine ⟨a, b ++ [(id, op, r)], id', r', by simp, ?_⟩
      intro i r2 hm
      rcases List.mem_append.1 hm with hm | hm
      · exact hn _ _ hm
      · simp only [List.mem_singleton, Prod.mk.injEq] at hm
        exact hne hm.2.1.symm

theorem mem_active {l : Hist} {s0 s : List Nat} (h0 : s0 = []) (h : Runs spec s0 l s) : ∀ p, p ∈ s ↔ Active l p := by
  induction h with
  | nil =>
    subst h0
    intro p
    simp [Active]
  | @snoc s1 s2 l id op r h1 h2 ih =>
    intro p
    rw [active_snoc, ← ih]
    cases op with
    | getAll => obtain ⟨rfl, _⟩ := h2; simp
    | add q =>
      cases q with
      | none => have h2 : s2 = s1 := h2; simp [h2]
      | some q =>
        have h2 : s2 = if q ∈ s1 then s1 else s1 ++ [q] := h2
        subst h2
        by_cases hq : q ∈ s1
        · simp only [hq, if_true]
          constructor
          · intro h; exact Or.inr ⟨h, by simp⟩
          · rintro (h | h)
            · cases h; exact hq
            · exact h.1
        · simp only [hq, if_false, List.mem_append, List.mem_singleton, Op.add.injEq, Option.some.injEq, ne_eq, reduceCtorEq,
            not_false_iff, and_true]
          constructor
          · rintro (h | h)
            · exact Or.inr h
            · exact Or.inl h.symm
          · rintro (h | h)
            · exact Or.inr h.symm
            · exact Or.inl h
    | delete q =>
      cases q with
      | none => have h2 : s2 = s1 := h2; simp [h2]
      | some q =>
        have h2 : s2 = s1.filter fun x => decide (x ≠ q) := h2
        subst h2
        simp only [List.mem_filter, decide_eq_true_eq, reduceCtorEq, false_or, ne_eq, Op.delete.injEq, Option.some.injEq]
        constructor
        · rintro ⟨a, b⟩; exact ⟨a, fun e => b e.symm⟩
        · rintro ⟨a, b⟩; exact ⟨a, fun e => b e.symm⟩

/-- C74 for producers: in every execution the calls take effect one at a time, and `GetAll` returns, in some order, each
producer that was added and not deleted since, once, and no nil. -/
theorem producers_shared {programs : Nat → List Op} {ms : List (Nat × Nat)} {st : St (List Nat) Op Loc (List (Option Nat))}
    (h : run obj (init [] programs) ms = some st) :
    st.crashed = false ∧ Linear spec [] st.log st.mem ∧
      ∀ a b id r, tooks st.log = a ++ (id, .getAll, r) :: b →
        ∃ out : List Nat, r = out.map some ∧ out.Nodup ∧ ∀ p, p ∈ out ↔ Active a p := by
  obtain ⟨h1, h2⟩ := linear correct List.nodup_nil h
  refine ⟨h1, h2, ?_⟩
  intro a b id r e
  obtain ⟨s1, s2, g1, g2, _⟩ := runs_split (e ▸ h2.runs)
  obtain ⟨_, out, k1, k2⟩ := g2
  have hnd : s1.Nodup := by
    have : ∀ {l : Hist} {s0 s : List Nat}, s0 = [] → Runs spec s0 l s → s.Nodup := by
      intro l s0 s e h
      induction h with
      | nil => subst e; simp
      | @snoc s1 s2 l id op r h1 h2 ih =>
        cases op with
        | getAll => obtain ⟨rfl, _⟩ := h2; exact ih
        | add q =>
          cases q with
          | none => have h2 : s2 = s1 := h2; exact h2 ▸ ih
          | some q =>
            have h2 : s2 = if q ∈ s1 then s1 else s1 ++ [q] := h2
            subst h2
            split
            · exact ih
            · next hp =>
              rw [List.nodup_append]
              refine ⟨ih, by simp, ?_⟩
              rintro x hx r hr rfl
              simp only [List.mem_singleton] at hr
              subst hr
              exact hp hx
        | delete q =>
          cases q with
          | none => have h2 : s2 = s1 := h2; exact h2 ▸ ih
          | some q =>
            have h2 : s2 = s1.filter fun x => decide (x ≠ q) := h2
            subst h2
            exact ih.filter _
    exact this rfl g1
  exact ⟨out, k1, k2.nodup_iff.2 hnd, fun p => k2.mem_iff.trans (mem_active rfl g1 p)⟩

def demo : Nat → List Op
  | 0 => [.add (some 1), .add (some 2), .delete (some 1)]
  | 1 => [.getAll, .getAll]
  | _ => []

example : (run obj (init [] demo) ([0, 0, 0, 0, 0, 0, 0, 1, 0, 0, 0, 1].map (fun t => (t, 0)) ++ [(1, 0), (1, 1), (1, 0), (1, 0), (1, 0), (1, 0)] ++
    [0, 0, 0, 0, 0, 1, 1, 1, 1, 1].map fun t => (t, 0))).map (fun st => (tooks st.log).map fun x => (x.1, x.2.2)) =
    some [((0, 0), []), ((0, 1), []), ((1, 0), [some 2, some 1]), ((0, 2), []), ((1, 1), [some 2])] := by decide +kernel

/-- No deadlock: while a call is in progress, or one is to be made and can be, somebody can go on. -/
theorem producers_progress {programs : Nat → List Op} {ms : List (Nat × Nat)} {st : St (List Nat) Op Loc (List (Option Nat))}
    (h : run obj (init [] programs) ms = some st) {t : Nat}
    (ht : st.pc t ≠ none ∨ ∃ op rest, st.todo t = op :: rest ∧ obj.can op st.mem = true) :
    ∃ u c st', step obj st u c = some st' := progress correct List.nodup_nil h ht

end Prod

/-! ## The span stores -/

namespace Stores
open Verif.Conc.Stores

abbrev Hist := List (Id × Op × Result)

/-- A call with this name has returned the store `p`. -/
def Named (l : Hist) (p : Nat) (n : Bytes) : Prop :=
  ∃ id, (id, Op.create n, Result.ptr (some p)) ∈ l ∨ (id, Op.find n, Result.ptr (some p)) ∈ l

/-- A span of this name was started, or the size of its buckets was set. -/
def Exists (l : Hist) (n : Bytes) : Prop :=
  ∃ id r, (id, Op.create n, r) ∈ l ∨ ∃ x y, (id, Op.setSize n x y, r) ∈ l

/-- The sizes last set for the name; ten if none were. -/
def lastSize (n : Bytes) (l : Hist) : Nat × Nat := (l.filterMap fun x => match x.2.1 with
  | .setSize m lat err => if m = n then some (lat, err) else none
  | _ => none).getLastD (10, 10)

def spec : Op → Mem → Mem → Result → Prop
  | .find n, s, s', r => s' = s ∧ r = .ptr (GoMap.get s.names n)
  | .create n, s, s', r => match GoMap.get s.names n with
    | some p => s' = s ∧ r = .ptr (some p)
    | none => s' = ⟨GoMap.set s.names n s.sizes.length, s.sizes ++ [(10, 10)]⟩ ∧ r = .ptr (some s.sizes.length)
  | .setSize n lat err, s, s', _ => match GoMap.get s.names n with
    | some p => s' = { s with sizes := s.sizes.set p (lat, err) }
    | none => s' = ⟨GoMap.set s.names n s.sizes.length, s.sizes ++ [(lat, err)]⟩
  | .sizes p, s, s', r => s' = s ∧ ∃ x, s.sizes[p]? = some x ∧ r = .sizes x.1 x.2

def mode : Loc → Mode
  | .rlocked => .read
  | .rmissing => .read
  | .rfound _ => .read
  | .rleave _ => .read
  | .locked => .write
  | .missing => .write
  | .found _ => .write
  | .leave _ => .write
  | _ => .none

def J : Op → Loc → Mem → Prop
  | .find _, .start, _ => True
  | .find _, .rlocked, _ => True
  | .find _, .rleave _, _ => True
  | .find _, .done _, _ => True
  | .create _, .rfound _, _ => False
  | .create _, .free _, _ => False
  | .create _, .found _, _ => False
  | .create n, .missing, s => GoMap.get s.names n = none
  | .create _, _, _ => True
  | .setSize n _ _, .rfound p, s => GoMap.get s.names n = some p
  | .setSize n _ _, .free p, s => GoMap.get s.names n = some p
  | .setSize n _ _, .found p, s => GoMap.get s.names n = some p
  | .setSize n _ _, .missing, s => GoMap.get s.names n = none
  | .setSize _ _ _, _, _ => True
  | .sizes p, .start, s => p < s.sizes.length
  | .sizes _, .done _, _ => True
  | _, _, _ => False

theorem J_stable {s s' : Mem} {m : Mode} (hn : ∀ n p, GoMap.get s.names n = some p → GoMap.get s'.names n = some p)
    (hl : s.sizes.length ≤ s'.sizes.length) {op : Op} {l : Loc} (hm : m = .write) (hc : compat m (mode l)) (h : J op l s) :
    J op l s' := by
  subst hm
  cases op <;> cases l <;>
    first
    | trivial
    | exact False.elim h
    | exact False.elim hc
    | exact hn _ _ h
    | exact Nat.lt_of_lt_of_le h hl

theorem J_sizes {s s' : Mem} (hn : s'.names = s.names) (hl : s'.sizes.length = s.sizes.length) {op : Op} {l : Loc}
    (h : J op l s) : J op l s' := by
  cases op <;> cases l <;>
    first
    | trivial
    | exact False.elim h
    | (simp only [J] at h ⊢; rw [hn]; exact h)
    | (simp only [J] at h ⊢; rw [hl]; exact h)

theorem grow {s : Mem} {n : Bytes} (e : GoMap.get s.names n = none) (m : Bytes) (p : Nat)
    (hp : GoMap.get s.names m = some p) : GoMap.get (GoMap.set s.names n s.sizes.length) m = some p := by
  rw [GoMap.get_set, if_neg (by rintro rfl; rw [e] at hp; cases hp)]
  exact hp

def Valid (s : Mem) : Prop := ∀ n p, GoMap.get s.names n = some p → p < s.sizes.length

theorem valid_grow {s : Mem} (hv : Valid s) (n : Bytes) (x : Nat × Nat) :
    Valid ⟨GoMap.set s.names n s.sizes.length, s.sizes ++ [x]⟩ := by
  intro m p hp
  rw [GoMap.get_set] at hp
  simp only [List.length_append, List.length_singleton]
  split at hp
  · cases hp; omega
  · have := hv m p hp; omega

def correct : Correct obj spec Valid where
  mode := mode
  res
    | .rleave r => some r
    | .leave r => some r
    | .done r => some r
    | _ => none
  J := J
  enter op := ⟨rfl, rfl, fun s _ hc => by
    cases op <;> simp only [obj, decide_eq_true_eq] at hc <;> first | trivial | exact hc⟩
  read {op l s c l'} _ hJ h := by
    cases op <;> cases l <;> simp only [obj, Option.some.injEq, reduceCtorEq] at h <;>
      (split at h <;> simp only [Option.some.injEq, Act.read.injEq, reduceCtorEq] at h <;> subst h <;>
        first | exact ⟨rfl, rfl, trivial⟩ | exact ⟨rfl, rfl, by assumption⟩)
  eff {op l s c s' l' r} hv hJ h := by
    cases op <;> cases l <;> simp only [obj, Option.some.injEq, Act.eff.injEq, reduceCtorEq] at h
    · obtain ⟨rfl, rfl, rfl⟩ := h
      exact ⟨rfl, rfl, rfl, ⟨rfl, rfl⟩, hv, trivial, fun _ _ _ h => h⟩
    · split at h <;> simp only [Option.some.injEq, Act.eff.injEq, reduceCtorEq] at h
      next e =>
      obtain ⟨rfl, rfl, rfl⟩ := h
      exact ⟨rfl, rfl, rfl, by simp [spec, e], hv, trivial, fun _ _ _ h => h⟩
    · split at h <;> simp only [Option.some.injEq, Act.eff.injEq, reduceCtorEq] at h
      next e =>
      obtain ⟨rfl, rfl, rfl⟩ := h
      exact ⟨rfl, rfl, rfl, by simp [spec, e], hv, trivial, fun _ _ _ h => h⟩
    · next n =>
      obtain ⟨rfl, rfl, rfl⟩ := h
      have e : GoMap.get s.names n = none := hJ
      refine ⟨rfl, rfl, rfl, by simp [spec, e], valid_grow hv _ _, trivial, ?_⟩
      intro op2 l2 hc h2
      exact J_stable (s' := ⟨GoMap.set s.names n s.sizes.length, s.sizes ++ [(10, 10)]⟩) (grow e) (by simp) rfl hc h2
    · split at h <;> simp at h
    · split at h <;> simp at h
    · next n lat err =>
      obtain ⟨rfl, rfl, rfl⟩ := h
      have e : GoMap.get s.names n = none := hJ
      refine ⟨rfl, rfl, rfl, by simp [spec, e], valid_grow hv _ _, trivial, ?_⟩
      intro op2 l2 hc h2
      exact J_stable (s' := ⟨GoMap.set s.names n s.sizes.length, s.sizes ++ [(lat, err)]⟩) (grow e) (by simp) rfl hc h2
    · next n lat err p =>
      obtain ⟨rfl, rfl, rfl⟩ := h
      have e : GoMap.get s.names n = some p := hJ
      refine ⟨rfl, rfl, rfl, by simp [spec, e], ?_, trivial, fun _ _ _ h =>
        J_sizes (s := s) (s' := { s with sizes := s.sizes.set p (lat, err) }) rfl (by simp) h⟩
      intro m q hq; simp only [List.length_set]; exact hv m q hq
    · next n lat err p =>
      obtain ⟨rfl, rfl, rfl⟩ := h
      have e : GoMap.get s.names n = some p := hJ
      refine ⟨rfl, rfl, rfl, by simp [spec, e], ?_, trivial, fun _ _ _ h =>
        J_sizes (s := s) (s' := { s with sizes := s.sizes.set p (lat, err) }) rfl (by simp) h⟩
      intro m q hq; simp only [List.length_set]; exact hv m q hq
    · split at h <;> simp only [Option.some.injEq, Act.eff.injEq, reduceCtorEq] at h
      next e =>
      obtain ⟨rfl, rfl, rfl⟩ := h
      exact ⟨rfl, rfl, rfl, ⟨rfl, _, e, rfl⟩, hv, trivial, fun _ _ _ h => h⟩
  lock {op l s c l'} _ hJ h := by
    cases op <;> cases l <;> simp only [obj, Option.some.injEq, Act.lock.injEq, reduceCtorEq] at h <;>
      first
      | (subst h; exact ⟨rfl, rfl, rfl, trivial⟩)
      | (split at h <;> simp at h)
  unlock {op l s c l'} _ hJ h := by
    cases op <;> cases l <;> simp only [obj, Option.some.injEq, Act.unlock.injEq, reduceCtorEq] at h <;>
      first
      | exact False.elim hJ
      | (subst h; exact ⟨rfl, rfl, rfl, trivial⟩)
      | (split at h <;> simp at h)
  rlock {op l s c l'} _ hJ h := by
    cases op <;> cases l <;> simp only [obj, Option.some.injEq, Act.rlock.injEq, reduceCtorEq] at h <;>
      first
      | (subst h; exact ⟨rfl, rfl, rfl, trivial⟩)
      | (split at h <;> simp at h)
  runlock {op l s c l'} _ hJ h := by
    cases op <;> cases l <;> simp only [obj, Option.some.injEq, Act.runlock.injEq, reduceCtorEq] at h <;>
      first
      | exact False.elim hJ
      | (subst h; exact ⟨rfl, rfl, rfl, trivial⟩)
      | (subst h; exact ⟨rfl, rfl, rfl, hJ⟩)
      | (split at h <;> simp at h)
  ret {op l s c r} _ hJ h := by
    cases op <;> cases l <;> simp only [obj, Option.some.injEq, Act.ret.injEq, reduceCtorEq] at h <;>
      first
      | (subst h; exact ⟨rfl, rfl⟩)
      | (split at h <;> simp at h)
  panic {op l s c} hv hJ h := by
    cases op <;> cases l <;> simp only [obj, Option.some.injEq, reduceCtorEq] at h
    · split at h <;> simp at h
    · split at h <;> simp at h
    · split at h <;> simp at h
    · split at h <;> simp at h
    · next p =>
      have hp : p < s.sizes.length := hJ
      simp [List.getElem?_eq_getElem hp] at h
  live {op l s} _ hJ := by
    cases op <;> cases l <;> first | exact ⟨0, _, rfl⟩ | exact False.elim hJ | (simp only [obj]; split <;> exact ⟨0, _, rfl⟩)

/-- What the history says of the memory. -/
structure Says (l : Hist) (s : Mem) : Prop where
  named : ∀ n p, Named l p n → GoMap.get s.names n = some p
  exists_ : ∀ n, (GoMap.get s.names n).isSome ↔ Exists l n
  size : ∀ n p, GoMap.get s.names n = some p → s.sizes[p]? = some (lastSize n l)
  inj : ∀ n m p, GoMap.get s.names n = some p → GoMap.get s.names m = some p → n = m
  onto : ∀ p, p < s.sizes.length → ∃ n, GoMap.get s.names n = some p

theorem named_snoc {l : Hist} {x : Id × Op × Result} {p : Nat} {n : Bytes} (h : Named (l ++ [x]) p n) :
    Named l p n ∨ x.2 = (.create n, .ptr (some p)) ∨ x.2 = (.find n, .ptr (some p)) := by
  obtain ⟨id, h | h⟩ := h
  · rcases List.mem_append.1 h with h | h
    · exact Or.inl ⟨id, Or.inl h⟩
    · simp only [List.mem_singleton] at h; subst h; exact Or.inr (Or.inl rfl)
  · rcases List.mem_append.1 h with h | h
    · exact Or.inl ⟨id, Or.inr h⟩
    · simp only [List.mem_singleton] at h; subst h; exact Or.inr (Or.inr rfl)

theorem exists_snoc (l : Hist) (x : Id × Op × Result) (n : Bytes) :
    Exists (l ++ [x]) n ↔ Exists l n ∨ x.2.1 = .create n ∨ ∃ a b, x.2.1 = .setSize n a b := by
  constructor
  · rintro ⟨id, r, h | ⟨a, b, h⟩⟩
    · rcases List.mem_append.1 h with h | h
      · exact Or.inl ⟨id, r, Or.inl h⟩
      · simp only [List.mem_singleton] at h; subst h; exact Or.inr (Or.inl rfl)
    · rcases List.mem_append.1 h with h | h
      · exact Or.inl ⟨id, r, Or.inr ⟨a, b, h⟩⟩
      · simp only [List.mem_singleton] at h; subst h; exact Or.inr (Or.inr ⟨a, b, rfl⟩)
  · rintro (⟨id, r, h | ⟨a, b, h⟩⟩ | h | ⟨a, b, h⟩)
    · exact ⟨id, r, Or.inl (List.mem_append_left _ h)⟩
    · exact ⟨id, r, Or.inr ⟨a, b, List.mem_append_left _ h⟩⟩
    · exact ⟨x.1, x.2.2, Or.inl (by rw [← h]; simp)⟩
    · exact ⟨x.1, x.2.2, Or.inr ⟨a, b, by rw [← h]; simp⟩⟩

theorem lastSize_snoc (n : Bytes) (l : Hist) (id : Id) (op : Op) (r : Result) : lastSize n (l ++ [(id, op, r)]) =
    match op with
    | .setSize m lat err => if m = n then (lat, err) else lastSize n l
    | _ => lastSize n l := by
  cases op <;> simp only [lastSize, List.filterMap_append, List.filterMap_cons, List.filterMap_nil, List.append_nil]
  next m lat err =>
  by_cases h : m = n <;> simp [h]

theorem lastSize_none {n : Bytes} {l : Hist} (h : ¬ Exists l n) : lastSize n l = (10, 10) := by
  have : (l.filterMap fun x => match x.2.1 with
      | .setSize m lat err => if m = n then some (lat, err) else none
      | _ => none) = ([] : List (Nat × Nat)) := by
    rw [List.filterMap_eq_nil_iff]
    rintro ⟨id, op, r⟩ hx
    cases op <;> simp only
    next m lat err =>
    split
    · next e => subst e; exact absurd ⟨id, r, Or.inr ⟨_, _, hx⟩⟩ h
    · rfl
  rw [lastSize, this]; rfl

theorem mem_says {l : Hist} {s0 s : Mem} (h0 : s0 = ⟨[], []⟩) (h : Runs spec s0 l s) : Says l s := by
  induction h with
  | nil =>
    subst h0
    refine ⟨?_, ?_, ?_, ?_, by simp⟩
    · rintro n p ⟨id, h | h⟩ <;> simp at h
    · intro n; simp [Exists]
    · intro n p h; simp at h
    · intro n m p h; simp at h
  | @snoc s1 s2 l id op r h1 h2 ih =>
    have valid : Valid s1 := fun n p hp => (List.getElem?_eq_some_iff.1 (ih.size n p hp)).1
    have fresh : ∀ {n m p}, GoMap.get (GoMap.set s1.names n s1.sizes.length) m = some p →
        (m = n ∧ p = s1.sizes.length) ∨ (m ≠ n ∧ GoMap.get s1.names m = some p) := by
      intro n m p h
      rw [GoMap.get_set] at h
      split at h
      · next e => exact Or.inl ⟨e, (Option.some.inj h).symm⟩
      · next e => exact Or.inr ⟨e, h⟩
    have inj' : ∀ n a b p, GoMap.get (GoMap.set s1.names n s1.sizes.length) a = some p →
        GoMap.get (GoMap.set s1.names n s1.sizes.length) b = some p → a = b := by
      intro n a b p ha hb
      rcases fresh ha with ⟨e1, e2⟩ | ⟨e1, e2⟩ <;> rcases fresh hb with ⟨f1, f2⟩ | ⟨f1, f2⟩
      · rw [e1, f1]
      · have := valid _ _ f2; omega
      · have := valid _ _ e2; omega
      · exact ih.inj _ _ _ e2 f2
    have onto' : ∀ n (x : Nat × Nat), GoMap.get s1.names n = none → ∀ p, p < (s1.sizes ++ [x]).length →
        ∃ m, GoMap.get (GoMap.set s1.names n s1.sizes.length) m = some p := by
      intro n x e p hp
      by_cases h : p < s1.sizes.length
      · obtain ⟨m, hm⟩ := ih.onto p h
        exact ⟨m, grow e m p hm⟩
      · refine ⟨n, ?_⟩
        have : p = s1.sizes.length := by simp at hp; omega
        rw [this]; simp
    have isSome' : ∀ n m, (GoMap.get (GoMap.set s1.names n s1.sizes.length) m).isSome ↔ (GoMap.get s1.names m).isSome ∨ n = m := by
      intro n m
      rw [GoMap.get_set]
      by_cases e : m = n
      · simp [e]
      · have : ¬ n = m := fun x => e x.symm
        simp [e, this]
    cases op with
    | sizes p =>
      obtain ⟨rfl, _⟩ := h2
      refine ⟨?_, ?_, ?_, ih.inj, ih.onto⟩
      · intro n q hn
        rcases named_snoc hn with hn | hn | hn
        · exact ih.named n q hn
        · cases hn
        · cases hn
      · intro n; rw [exists_snoc, ih.exists_]; simp
      · intro n q hq; rw [lastSize_snoc]; exact ih.size n q hq
    | find n =>
      obtain ⟨rfl, rfl⟩ := h2
      refine ⟨?_, ?_, ?_, ih.inj, ih.onto⟩
      · intro m q hn
        rcases named_snoc hn with hn | hn | hn
        · exact ih.named m q hn
        · cases hn
        · simp only [Prod.mk.injEq, Op.find.injEq, Result.ptr.injEq] at hn
          rw [← hn.1, hn.2]
      · intro n; rw [exists_snoc, ih.exists_]; simp
      · intro n q hq; rw [lastSize_snoc]; exact ih.size n q hq
    | create n =>
      simp only [spec] at h2
      cases e : GoMap.get s1.names n with
      | some p =>
        rw [e] at h2
        obtain ⟨rfl, rfl⟩ := h2
        refine ⟨?_, ?_, ?_, ih.inj, ih.onto⟩
        · intro m q hn
          rcases named_snoc hn with hn | hn | hn
          · exact ih.named m q hn
          · simp only [Prod.mk.injEq, Op.create.injEq, Result.ptr.injEq] at hn
            rw [← hn.1, e, hn.2]
          · cases hn
        · intro m
          rw [exists_snoc, ← ih.exists_]
          simp only [Op.create.injEq, reduceCtorEq, exists_const, or_false, iff_self_or]
          rintro rfl; rw [e]; rfl
        · intro m q hq; rw [lastSize_snoc]; exact ih.size m q hq
      | none =>
        rw [e] at h2
        obtain ⟨rfl, rfl⟩ := h2
        refine ⟨?_, ?_, ?_, inj' n, onto' n _ e⟩
        · intro m q hn
          rcases named_snoc hn with hn | hn | hn
          · have h3 := ih.named m q hn
            exact grow e m q h3
          · simp only [Prod.mk.injEq, Op.create.injEq, Result.ptr.injEq, Option.some.injEq] at hn
            rw [← hn.1, ← hn.2]; simp
          · cases hn
        · intro m
          rw [exists_snoc, isSome', ← ih.exists_]
          simp
        · intro m q hq
          rw [lastSize_snoc]
          rcases fresh hq with ⟨rfl, rfl⟩ | ⟨_, hq⟩
          · simp only [List.getElem?_append_right (Nat.le_refl _), Nat.sub_self, List.getElem?_cons_zero]
            rw [lastSize_none]
            rw [← ih.exists_, e]; simp
          · have h3 := ih.size m q hq
            rw [List.getElem?_append_left (valid m q hq)]
            exact h3
    | setSize n lat err =>
      simp only [spec] at h2
      cases e : GoMap.get s1.names n with
      | some p =>
        rw [e] at h2
        subst h2
        refine ⟨?_, ?_, ?_, ih.inj, fun q hq => ih.onto q (by simpa using hq)⟩
        · intro m q hn
          rcases named_snoc hn with hn | hn | hn
          · exact ih.named m q hn
          · cases hn
          · cases hn
        · intro m
          rw [exists_snoc, ← ih.exists_]
          simp only [reduceCtorEq, false_or, Op.setSize.injEq, iff_self_or]
          rintro ⟨_, _, rfl, _⟩; rw [e]; rfl
        · intro m q hq
          rw [lastSize_snoc]
          simp only [List.getElem?_set]
          by_cases hpq : p = q
          · subst hpq
            have : n = m := ih.inj _ _ _ e hq
            simp [this, valid m p hq]
          · have : ¬ n = m := by
              rintro rfl
              rw [e] at hq
              exact hpq (Option.some.inj hq)
            simp only [hpq, this, if_false]
            exact ih.size m q hq
      | none =>
        rw [e] at h2
        subst h2
        refine ⟨?_, ?_, ?_, inj' n, onto' n _ e⟩
        · intro m q hn
          rcases named_snoc hn with hn | hn | hn
          · have h3 := ih.named m q hn
            exact grow e m q h3
          · cases hn
          · cases hn
        · intro m
          rw [exists_snoc, isSome', ← ih.exists_]
          simp
        · intro m q hq
          rw [lastSize_snoc]
          rcases fresh hq with ⟨rfl, rfl⟩ | ⟨hne, hq⟩
          · simp
          · have h3 := ih.size m q hq
            rw [List.getElem?_append_left (valid m q hq)]
            have : ¬ n = m := fun x => hne x.symm
            simp only [this, if_false]
            exact h3

/-- Names that have stores keep them. -/
theorem names_mono {l : Hist} {s s' : Mem} (h : Runs spec s l s') (n : Bytes) (p : Nat) (hp : GoMap.get s.names n = some p) :
    GoMap.get s'.names n = some p := by
  induction h with
  | nil => exact hp
  | @snoc s1 s2 l id op r h1 h2 ih =>
    cases op with
    | sizes p => obtain ⟨rfl, _⟩ := h2; exact ih
    | find n => obtain ⟨rfl, _⟩ := h2; exact ih
    | create m =>
      simp only [spec] at h2
      cases e : GoMap.get s1.names m with
      | some q => rw [e] at h2; obtain ⟨rfl, _⟩ := h2; exact ih
      | none => rw [e] at h2; obtain ⟨rfl, _⟩ := h2; exact grow e _ _ ih
    | setSize m lat err =>
      simp only [spec] at h2
      cases e : GoMap.get s1.names m with
      | some q => rw [e] at h2; subst h2; exact ih
      | none => rw [e] at h2; subst h2; exact grow e _ _ ih

/-- C74 for span stores: in every execution the calls take effect one at a time. Every name has at most one store, and
different names have different stores; one that a span was started with, or whose size was set, has one. A store keeps
as many spans as was last set for its name, ten if nothing was. -/
theorem stores_shared {programs : Nat → List Op} {ms : List (Nat × Nat)} {st : St Mem Op Loc Result}
    (h : run obj (init ⟨[], []⟩ programs) ms = some st) :
    st.crashed = false ∧ Linear spec ⟨[], []⟩ st.log st.mem ∧
      (∀ p q n m, Named (tooks st.log) p n → Named (tooks st.log) q m → (p = q ↔ n = m)) ∧
      (∀ a b id n r, tooks st.log = a ++ (id, .create n, r) :: b → ∃ p, r = .ptr (some p)) ∧
      (∀ a b id n r, tooks st.log = a ++ (id, .find n, r) :: b → ∃ o, r = .ptr o ∧ (o.isSome ↔ Exists a n)) ∧
      (∀ a b id p r, tooks st.log = a ++ (id, .sizes p, r) :: b →
        ∃ x, r = .sizes x.1 x.2 ∧ ∀ n, Named (tooks st.log) p n → x = lastSize n a) := by
  obtain ⟨h1, h2⟩ := linear correct (by intro n p h; simp at h) h
  have hs := mem_says rfl h2.runs
  refine ⟨h1, h2, ?_, ?_, ?_, ?_⟩
  · intro p q n m hp hq
    have hp := hs.named _ _ hp
    have hq := hs.named _ _ hq
    constructor
    · rintro rfl; exact hs.inj _ _ _ hp hq
    · rintro rfl; rw [hp] at hq; exact Option.some.inj hq
  · intro a b id n r e
    obtain ⟨s1, s2, g1, g2, _⟩ := runs_split (e ▸ h2.runs)
    simp only [spec] at g2
    split at g2
    · exact ⟨_, g2.2⟩
    · exact ⟨_, g2.2⟩
  · intro a b id n r e
    obtain ⟨s1, s2, g1, g2, _⟩ := runs_split (e ▸ h2.runs)
    exact ⟨_, g2.2, (mem_says rfl g1).exists_ n⟩
  · intro a b id p r e
    obtain ⟨s1, s2, g1, ⟨rfl, x, k1, k2⟩, g3⟩ := runs_split (e ▸ h2.runs)
    refine ⟨x, k2, ?_⟩
    intro n hn
    obtain ⟨m, hm⟩ := (mem_says rfl g1).onto p (List.getElem?_eq_some_iff.1 k1).1
    have := hs.inj _ _ _ (hs.named _ _ hn) (names_mono g3 m p hm)
    subst this
    have h3 := (mem_says rfl g1).size _ _ hm
    rw [k1] at h3
    exact Option.some.inj h3

/-- Two goroutines start the first spans of a name while a third sets its sizes. -/
def demo : Nat → List Op
  | 0 => [.create [1], .sizes 0]
  | 1 => [.create [1], .find [2]]
  | 2 => [.setSize [1] 3 4]
  | _ => []

example : (run obj (init ⟨[], []⟩ demo) ([0, 1, 2, 0, 1, 2, 0, 1, 2, 0, 1, 2, 2, 2, 2, 2, 2, 0, 0, 0, 0, 1, 1, 1, 1, 0, 0, 1, 1, 1].map fun t => (t, 0))).map
    (fun st => (tooks st.log).map fun x => (x.1, x.2.2)) =
    some [((2, 0), .unit), ((0, 0), .ptr (some 0)), ((1, 0), .ptr (some 0)), ((0, 1), .sizes 3 4), ((1, 1), .ptr none)] := by
  decide +kernel

/-- No deadlock: while a call is in progress, or one is to be made and can be, somebody can go on. -/
theorem stores_progress {programs : Nat → List Op} {ms : List (Nat × Nat)} {st : St Mem Op Loc Result}
    (h : run obj (init ⟨[], []⟩ programs) ms = some st) {t : Nat}
    (ht : st.pc t ≠ none ∨ ∃ op rest, st.todo t = op :: rest ∧ obj.can op st.mem = true) :
    ∃ u c st', step obj st u c = some st' := progress correct (by intro n p h; simp at h) h ht

end Stores
end Verif.Props.Shared
