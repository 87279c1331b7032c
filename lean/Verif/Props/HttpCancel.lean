import Verif.Http.Cancel
import Mathlib.Data.List.Nodup

/-!
# C104: giving up HTTP requests
-/

namespace Verif.Props.HttpCancel
open Verif Verif.Http Verif.Http.Cancel

/-! ## Specification -/

/-- The transport at the bottom. -/
def bottom : RT → Nat
  | .base b _ => b
  | .transport _ inner => bottom inner

/-- Whether it can cancel requests. -/
def canCancel : RT → Bool
  | .base _ c => c
  | .transport _ inner => canCancel inner

/-- Whether the caller's request itself gets to the bottom: there is no `Transport`, or it is for a health endpoint. -/
def direct (t : RT) (path : Bytes) : Bool := (match t with | .base _ _ => true | .transport _ _ => false) || isHealthEndpoint path

/-- A call of `RoundTrip` with the caller's request `handle`. -/
structure Call where
  base : Nat
  handle : Nat
  direct : Bool
  status : Status
  deriving DecidableEq

/-- The caller's view: requests, calls, and which contexts are cancelled and channels closed. -/
structure View where
  reqs : List Req
  calls : List Call
  cancelled : List Nat
  closed : List Nat

def nothing : View := ⟨[], [], [], []⟩

/-- The request is under the context. -/
def Under (r : Req) (c : Nat) : Prop := .cancel c ∈ r.ctx

instance (r : Req) (c : Nat) : Decidable (Under r c) := by unfold Under; infer_instance

def Call.giveUp (x : Call) : Call := if x.status = .running then { x with status := .givenUp } else x

/-- Give up the running calls for which this holds. -/
def View.giveUp (v : View) (p : Nat → Call → Bool) : View :=
  { v with calls := v.calls.mapIdx fun n x => if p n x then x.giveUp else x }

/-- What callers may expect. -/
def expect (v : View) : Op → View
  | .make r => { v with reqs := v.reqs ++ [r] }
  | .roundTrip t h => match v.reqs[h]? with
    | none => v
    | some r =>
      let dead := (v.cancelled.any fun c => decide (Under r c)) || (v.closed.any fun k => decide (r.chan = some k))
      { v with calls := v.calls ++ [⟨bottom t, h, direct t r.path, if dead then .givenUp else .running⟩] }
  | .cancelRequest t h => v.giveUp fun _ x => canCancel t && decide (x.base = bottom t ∧ x.handle = h)
  | .cancelResponse t n => v.giveUp fun m x => canCancel t && decide (x.base = bottom t) &&
      match v.calls[n]? with
      | some y => decide (m = n ∨ (x.direct = true ∧ y.direct = true ∧ x.handle = y.handle))
      | none => false
  | .cancel c => { v.giveUp (fun _ x => match v.reqs[x.handle]? with | some r => decide (Under r c) | none => false) with
      cancelled := c :: v.cancelled }
  | .close k => { v.giveUp (fun _ x => match v.reqs[x.handle]? with | some r => decide (r.chan = some k) | none => false) with
      closed := k :: v.closed }
  | .finish n => { v with calls := v.calls.modify n fun x => if x.status = .running then { x with status := .finished } else x }

def expectAll (v : View) : List Op → View
  | [] => v
  | o :: os => expectAll (expect v o) os

/-- `CancelRequest` is not called with a request that the same base is handling through a `Transport`. -/
def Spared (v : View) : List Op → Prop
  | [] => True
  | o :: os => (match o with
      | .cancelRequest t h => ∀ x ∈ v.calls, x.base = bottom t → x.handle = h → x.direct = true
      | _ => True) ∧ Spared (expect v o) os

/-- How the calls went. -/
def outcomes (s : St) : List Status := s.flights.map Flight.status
def View.outcomes (v : View) : List Status := v.calls.map Call.status

/-! ## What happens in any history -/

/-- What happens: `CancelRequest` with the caller's own request gives up only calls that did not go through a `Transport`. -/
def happens (v : View) : Op → View
  | .cancelRequest t h => v.giveUp fun _ x => canCancel t && x.direct && decide (x.base = bottom t ∧ x.handle = h)
  | o => expect v o

def happensAll (v : View) : List Op → View
  | [] => v
  | o :: os => happensAll (happens v o) os

/-! ## Down to the base -/

def conts (l : List Node) : List Nat := l.filterMap fun x => match x with
  | .cancel c => some c
  | .value => none

theorem mem_conts (l : List Node) (c : Nat) : c ∈ conts l ↔ .cancel c ∈ l := by
  simp only [conts, List.mem_filterMap]
  constructor
  · rintro ⟨x, hx, he⟩
    cases x with
    | value => cases he
    | cancel d => cases he; exact hx
  · intro h; exact ⟨_, h, rfl⟩

theorem conts_values (n : Nat) (r : Req) : conts (withValues n r).ctx = conts r.ctx := by
  induction n with
  | zero => rfl
  | succ n ih =>
    have : (withValues (n + 1) r).ctx = .value :: (withValues n r).ctx := by simp [withValues, List.replicate_succ]
    rw [this]
    simpa [conts] using ih

theorem send_spec (t : RT) (reqs : List Req) (i : Nat) (r : Req) {reqs' : List Req} {j : Nat} {r' : Req} {b : Nat}
    (h : send reqs i r t = (reqs', j, r', b)) (hi : reqs[i]? = some r) :
    b = bottom t ∧ reqs <+: reqs' ∧ conts r'.ctx = conts r.ctx ∧ r'.chan = r.chan ∧ r'.path = r.path ∧ reqs'[j]? = some r' ∧
    (direct t r.path = true → j = i ∧ reqs' = reqs) ∧ (direct t r.path = false → reqs.length ≤ j) := by
  induction t generalizing reqs i r with
  | base b' c =>
    simp only [send, Prod.mk.injEq] at h
    obtain ⟨rfl, rfl, rfl, rfl⟩ := h
    exact ⟨rfl, List.prefix_refl _, rfl, rfl, rfl, hi, fun _ => ⟨rfl, rfl⟩, by simp [direct]⟩
  | transport traces inner ih =>
    simp only [send] at h
    split at h
    · rename_i hh
      obtain ⟨h1, h2, h3, h4, h5, h6, h7, _⟩ := ih reqs i r h hi
      refine ⟨h1, h2, h3, h4, h5, h6, fun _ => h7 (by simp [direct, hh]), by simp [direct, hh]⟩
    · rename_i hh
      simp only [stats, trace] at h
      have hget : ((reqs ++ [withValues 1 r]) ++ [withValues (if traces then 2 else 1) (withValues 1 r)])[((reqs ++ [withValues 1 r]) ++
          [withValues (if traces then 2 else 1) (withValues 1 r)]).length - 1]? = some (withValues (if traces then 2 else 1) (withValues 1 r)) := by
        simp
      obtain ⟨h1, h2, h3, h4, h5, h6, h7, h8⟩ := ih _ _ _ h hget
      refine ⟨h1, ?_, ?_, ?_, ?_, h6, ?_, ?_⟩
      · exact List.IsPrefix.trans ⟨_, (List.append_assoc _ _ _).symm⟩ h2
      · rw [h3, conts_values, conts_values]
      · rw [h4]; rfl
      · rw [h5]; rfl
      · simp [direct, hh]
      · intro _
        cases hd : direct inner (withValues (if traces then 2 else 1) (withValues 1 r)).path with
        | true =>
          rw [(h7 hd).1]
          simp
        | false =>
          have := h8 hd
          simp at this
          omega

theorem cancels_eq (t : RT) : cancels t = if canCancel t then some (bottom t) else none := by
  induction t with
  | base b c => rfl
  | transport _ inner ih => exact ih

/-! ## The invariant -/

/-- A request in flight is the call. -/
structure FRel (s : St) (v : View) (f : Flight) (x : Call) : Prop where
  base : f.base = x.base
  status : f.status = x.status
  req : ∃ r, v.reqs[x.handle]? = some r ∧ conts f.ctx = conts r.ctx ∧ f.chan = r.chan
  known : f.req < s.reqs.length
  straight : x.direct = true → s.own[x.handle]? = some f.req
  copy : x.direct = false → f.req ∉ s.own

structure Rel (s : St) (v : View) : Prop where
  own : s.own.length = v.reqs.length
  req : ∀ (h : Nat) (r : Req), v.reqs[h]? = some r → ∃ i : Nat, s.own[h]? = some i ∧ s.reqs[i]? = some r
  nodup : s.own.Nodup
  bound : ∀ i ∈ s.own, i < s.reqs.length
  flights : List.Forall₂ (FRel s v) s.flights v.calls
  apart : ∀ (m n : Nat) (f f' : Flight) (x x' : Call), s.flights[m]? = some f → s.flights[n]? = some f' → v.calls[m]? = some x → v.calls[n]? = some x' →
    x.direct = false → f.req = f'.req → m = n
  cancelled : s.cancelled = v.cancelled
  closed : s.closed = v.closed

theorem rel_init : Rel init nothing := by
  refine ⟨rfl, by simp [nothing], by simp [init], by simp [init], .nil, by simp [init], rfl, rfl⟩

theorem giveUp_fields (f : Flight) : f.giveUp.base = f.base ∧ f.giveUp.req = f.req ∧ f.giveUp.ctx = f.ctx ∧ f.giveUp.chan = f.chan := by
  unfold Flight.giveUp; split <;> exact ⟨rfl, rfl, rfl, rfl⟩

theorem callGiveUp_fields (x : Call) : x.giveUp.base = x.base ∧ x.giveUp.handle = x.handle ∧ x.giveUp.direct = x.direct := by
  unfold Call.giveUp; split <;> exact ⟨rfl, rfl, rfl⟩

theorem giveUp_rel {s : St} {v : View} {f : Flight} {x : Call} (h : FRel s v f x) : FRel s v f.giveUp x.giveUp := by
  obtain ⟨a1, a2, a3, a4⟩ := giveUp_fields f
  obtain ⟨b1, b2, b3⟩ := callGiveUp_fields x
  refine ⟨by rw [a1, b1]; exact h.base, ?_, by rw [a3, a4, b2]; exact h.req, by rw [a2]; exact h.known, by rw [a2, b2, b3]; exact h.straight,
    by rw [a2, b3]; exact h.copy⟩
  have := h.status
  unfold Flight.giveUp Call.giveUp
  rw [this]
  split
  · rfl
  · exact this

/-- A change of some flights, and of the same calls, keeps the relation. -/
theorem rel_change {s : St} {v : View} (h : Rel s v) {F : Nat → Flight → Flight} {G : Nat → Call → Call} {fs : List Flight} {cs : List Call}
    (hF : fs = s.flights.mapIdx F) (hG : cs = v.calls.mapIdx G) {ca cl : List Nat}
    (hFG : ∀ n f x, s.flights[n]? = some f → v.calls[n]? = some x → FRel s v f x → FRel s v (F n f) (G n x))
    (hreq : ∀ n f, (F n f).req = f.req) (hdir : ∀ n x, (G n x).direct = x.direct) :
    Rel { s with flights := fs, cancelled := ca, closed := cl } { v with calls := cs, cancelled := ca, closed := cl } := by
  have hlen := h.flights.length_eq
  refine ⟨h.own, h.req, h.nodup, h.bound, ?_, ?_, rfl, rfl⟩
  · rw [List.forall₂_iff_get]
    refine ⟨by simp [hF, hG, hlen], ?_⟩
    intro n hn1 hn2
    simp only [hF, hG, List.length_mapIdx] at hn1 hn2
    have hr := (List.forall₂_iff_get.1 h.flights).2 n hn1 hn2
    simp only [List.get_eq_getElem] at hr
    have := hFG n _ _ (List.getElem?_eq_getElem hn1) (List.getElem?_eq_getElem hn2) hr
    simp only [List.get_eq_getElem, hF, hG, List.getElem_mapIdx]
    exact ⟨this.base, this.status, this.req, this.known, this.straight, this.copy⟩
  · intro m n f f' x x' h1 h2 h3 h4 hd he
    simp only [hF, hG, List.getElem?_mapIdx, Option.map_eq_some_iff] at h1 h2 h3 h4
    obtain ⟨f0, e1, rfl⟩ := h1
    obtain ⟨f0', e2, rfl⟩ := h2
    obtain ⟨x0, e3, rfl⟩ := h3
    obtain ⟨x0', e4, rfl⟩ := h4
    rw [hdir] at hd
    rw [hreq, hreq] at he
    exact h.apart m n f0 f0' x0 x0' e1 e2 e3 e4 hd he

theorem map_mapIdx {α β : Type} (f : α → β) (l : List α) : l.map f = l.mapIdx fun _ x => f x := by
  induction l with
  | nil => rfl
  | cons a l ih => simp [List.mapIdx_cons, ih]

theorem modify_mapIdx {α : Type} (f : α → α) (l : List α) (n : Nat) : l.modify n f = l.mapIdx fun m x => if m = n then f x else x := by
  apply List.ext_getElem?
  intro i
  simp only [List.getElem?_modify, List.getElem?_mapIdx]
  cases l[i]? with
  | none => simp
  | some a =>
    by_cases h : n = i
    · simp [h]
    · simp [h, Ne.symm h]

/-- Cancelling at a pointer gives up the calls that have it. -/
theorem cancelAt_rel {s : St} {v : View} (h : Rel s v) (b p : Nat) (q : Nat → Call → Bool)
    (hq : ∀ n f x, s.flights[n]? = some f → v.calls[n]? = some x → FRel s v f x → (q n x = true ↔ f.base = b ∧ f.req = p)) :
    Rel (s.cancelAt b p) (v.giveUp q) := by
  have := rel_change h (F := fun _ f => if f.base = b ∧ f.req = p then f.giveUp else f) (G := fun n x => if q n x then x.giveUp else x)
    (fs := (s.cancelAt b p).flights) (cs := (v.giveUp q).calls) (map_mapIdx _ _) rfl (ca := s.cancelled) (cl := s.closed) (by
      intro n f x h1 h2 hr
      by_cases hc : f.base = b ∧ f.req = p
      · rw [if_pos hc, if_pos ((hq n f x h1 h2 hr).2 hc)]; exact giveUp_rel hr
      · rw [if_neg hc, if_neg (fun e => hc ((hq n f x h1 h2 hr).1 e))]; exact hr) (by
      intro n f; split
      · exact (giveUp_fields f).2.1
      · rfl) (by
      intro n x; split
      · exact (callGiveUp_fields x).2.2
      · rfl)
  have e : (v.giveUp q) = { v with calls := (v.giveUp q).calls, cancelled := s.cancelled, closed := s.closed } := by
    rw [h.cancelled, h.closed]; rfl
  rw [e]
  exact this

theorem giveUp_none (v : View) (q : Nat → Call → Bool) (h : ∀ n x, v.calls[n]? = some x → q n x = false) : v.giveUp q = v := by
  unfold View.giveUp
  congr
  apply List.ext_getElem?
  intro n
  rw [List.getElem?_mapIdx]
  cases hx : v.calls[n]? with
  | none => rfl
  | some x => simp [h n x hx]

theorem get_of_forall₂ {α β : Type} {R : α → β → Prop} {l : List α} {l' : List β} (h : List.Forall₂ R l l') {n : Nat} {a : α}
    (ha : l[n]? = some a) : ∃ b, l'[n]? = some b ∧ R a b := by
  induction h generalizing n with
  | nil => simp at ha
  | cons h1 _ ih =>
    cases n with
    | zero => simp only [List.getElem?_cons_zero, Option.some.injEq] at ha; subst ha; exact ⟨_, rfl, h1⟩
    | succ n => simpa using ih (by simpa using ha)

theorem get_of_forall₂' {α β : Type} {R : α → β → Prop} {l : List α} {l' : List β} (h : List.Forall₂ R l l') {n : Nat} {b : β}
    (hb : l'[n]? = some b) : ∃ a, l[n]? = some a ∧ R a b := get_of_forall₂ h.flip hb

theorem step_rel {s : St} {v : View} (h : Rel s v) (o : Op) : Rel (step s o) (happens v o) := by
  cases o with
  | make r =>
    simp only [step, happens, expect]
    have hfr : ∀ f x, FRel s v f x → FRel { s with reqs := s.reqs ++ [r], own := s.own ++ [s.reqs.length] } { v with reqs := v.reqs ++ [r] } f x := by
      intro f x hf
      refine ⟨hf.base, hf.status, ?_, ?_, ?_, ?_⟩
      · obtain ⟨q, h1, h2⟩ := hf.req
        exact ⟨q, by simp only; rw [List.getElem?_append_left (List.getElem?_eq_some_iff.1 h1).1]; exact h1, h2⟩
      · have := hf.known
        simp only [List.length_append]; omega
      · intro hd
        have := hf.straight hd
        simp only; rw [List.getElem?_append_left (List.getElem?_eq_some_iff.1 this).1]; exact this
      · intro hd
        have := hf.copy hd
        have := hf.known
        simp only [List.mem_append, List.mem_singleton, not_or]
        exact ⟨hf.copy hd, by omega⟩
    refine ⟨by simp [h.own], ?_, ?_, ?_, h.flights.imp hfr, h.apart, h.cancelled, h.closed⟩
    · intro k q hk
      simp only at hk
      by_cases hlt : k < v.reqs.length
      · rw [List.getElem?_append_left hlt] at hk
        obtain ⟨i, h1, h2⟩ := h.req k q hk
        refine ⟨i, by simp only; rw [List.getElem?_append_left (by rw [h.own]; exact hlt)]; exact h1, ?_⟩
        simp only
        rw [List.getElem?_append_left (List.getElem?_eq_some_iff.1 h2).1]; exact h2
      · rw [List.getElem?_append_right (by omega)] at hk
        have hk0 : k = v.reqs.length := by
          have := (List.getElem?_eq_some_iff.1 hk).1
          simp at this; omega
        subst hk0
        simp only [Nat.sub_self, List.getElem?_cons_zero, Option.some.injEq] at hk
        subst hk
        exact ⟨s.reqs.length, by simp only; rw [← h.own]; simp, by simp⟩
    · rw [List.nodup_append]
      refine ⟨h.nodup, by simp, ?_⟩
      intro a ha b hb
      rw [List.mem_singleton] at hb
      have := h.bound a ha
      omega
    · intro i hi
      simp only [List.mem_append, List.mem_singleton, List.length_append, List.length_singleton] at hi ⊢
      rcases hi with hi | hi
      · have := h.bound i hi; omega
      · omega
  | roundTrip t k =>
    simp only [step, happens, expect]
    cases hv : v.reqs[k]? with
    | none =>
      have : s.own[k]? = none := by
        rw [List.getElem?_eq_none_iff] at hv ⊢
        rw [h.own]; exact hv
      rw [this]; exact h
    | some r =>
      obtain ⟨i, h1, h2⟩ := h.req k r hv
      rw [h1]
      simp only [h2]
      obtain ⟨reqs', j, r', b, hsend⟩ : ∃ reqs' j r' b, send s.reqs i r t = (reqs', j, r', b) := ⟨_, _, _, _, rfl⟩
      rw [hsend]
      obtain ⟨e1, e2, e3, e4, _, e6, e7, e8⟩ := send_spec t _ _ _ hsend h2
      simp only
      have hle : s.reqs.length ≤ reqs'.length := e2.length_le
      have hdead : s.gone r' = ((v.cancelled.any fun c => decide (Under r c)) || (v.closed.any fun k => decide (r.chan = some k))) := by
        unfold St.gone
        congr 1
        · rw [Bool.eq_iff_iff, List.any_eq_true, List.any_eq_true]
          constructor
          · rintro ⟨x, hx, hc⟩
            cases x with
            | value => cases hc
            | cancel c =>
              refine ⟨c, by rw [← h.cancelled]; simpa using hc, ?_⟩
              have := (mem_conts _ _).2 hx
              rw [e3] at this
              exact decide_eq_true ((mem_conts _ _).1 this)
          · rintro ⟨c, hc, hu⟩
            have : c ∈ conts r.ctx := (mem_conts _ _).2 (of_decide_eq_true hu)
            rw [← e3] at this
            exact ⟨.cancel c, (mem_conts _ _).1 this, by rw [h.cancelled]; simpa using hc⟩
        · rw [e4, h.closed]
          cases r.chan with
          | none => simp
          | some q => rw [Bool.eq_iff_iff]; simp
      rw [hdead]
      have hold : ∀ f x, FRel s v f x → ∀ fs cs, FRel { s with reqs := reqs', flights := fs } { v with calls := cs } f x := by
        intro f x hf fs cs
        exact ⟨hf.base, hf.status, hf.req, by have := hf.known; simp only; omega, hf.straight, hf.copy⟩
      have hj : j < reqs'.length := (List.getElem?_eq_some_iff.1 e6).1
      refine ⟨h.own, ?_, h.nodup, ?_, ?_, ?_, h.cancelled, h.closed⟩
      · intro q x hx
        obtain ⟨i', g1, g2⟩ := h.req q x hx
        refine ⟨i', g1, ?_⟩
        obtain ⟨tl, htl⟩ := e2
        simp only
        rw [← htl, List.getElem?_append_left (List.getElem?_eq_some_iff.1 g2).1]; exact g2
      · intro q hq
        have := h.bound q hq
        simp only; omega
      · refine List.rel_append (h.flights.imp fun f x hf => hold f x hf _ _) (.cons ?_ .nil)
        refine ⟨e1, rfl, ⟨r, hv, e3, e4⟩, hj, ?_, ?_⟩
        · intro hd
          simp only at hd ⊢
          rw [(e7 hd).1]; exact h1
        · intro hd
          simp only at hd ⊢
          intro hc
          have := h.bound _ hc
          have := e8 hd
          omega
      · intro m n f f' x x' g1 g2 g3 g4 hd he
        simp only at g1 g2 g3 g4
        have hlen := h.flights.length_eq
        -- a request of an earlier flight was known before
        have old : ∀ (l : List Flight) (q : Nat) (g : Flight), (s.flights ++ l)[q]? = some g → q < s.flights.length → g.req < s.reqs.length := by
          intro l q g hg hq
          rw [List.getElem?_append_left hq] at hg
          obtain ⟨y, _, hy⟩ := get_of_forall₂ h.flights hg
          exact hy.known
        have hm := (List.getElem?_eq_some_iff.1 g1).1
        have hn := (List.getElem?_eq_some_iff.1 g2).1
        simp only [List.length_append, List.length_singleton] at hm hn
        by_cases m1 : m < s.flights.length
        · have gm := g3
          rw [List.getElem?_append_left (by omega)] at gm
          have gf := g1
          rw [List.getElem?_append_left m1] at gf
          by_cases n1 : n < s.flights.length
          · rw [List.getElem?_append_left n1] at g2
            rw [List.getElem?_append_left (by omega)] at g4
            exact h.apart m n f f' x x' gf g2 gm g4 hd he
          · exfalso
            have hn0 : n = s.flights.length := by omega
            subst hn0
            rw [List.getElem?_append_right (Nat.le_refl _)] at g2
            simp only [Nat.sub_self, List.getElem?_cons_zero, Option.some.injEq] at g2
            subst g2
            simp only at he
            obtain ⟨y, hy1, hy2⟩ := get_of_forall₂ h.flights gf
            rw [gm] at hy1
            cases hy1
            cases hdt : direct t r.path with
            | true => rw [(e7 hdt).1] at he; exact hy2.copy hd (by rw [he]; exact List.mem_of_getElem? h1)
            | false =>
              have := e8 hdt
              have := hy2.known
              omega
        · have hm0 : m = s.flights.length := by omega
          subst hm0
          have gf := g1
          rw [List.getElem?_append_right (Nat.le_refl _)] at gf
          simp only [Nat.sub_self, List.getElem?_cons_zero, Option.some.injEq] at gf
          rw [hlen, List.getElem?_append_right (Nat.le_refl _)] at g3
          simp only [Nat.sub_self, List.getElem?_cons_zero, Option.some.injEq] at g3
          subst gf g3
          simp only at hd he
          by_cases n1 : n < s.flights.length
          · exfalso
            have := old _ n f' g2 n1
            have := e8 hd
            omega
          · omega
  | cancelRequest t k =>
    simp only [step, happens, expect]
    rw [cancels_eq]
    cases hc : canCancel t with
    | false =>
      rw [giveUp_none v _ (by simp)]
      cases s.own[k]? <;> exact h
    | true =>
      cases ho : s.own[k]? with
      | none =>
        simp only
        rw [giveUp_none v _ ?_]
        · exact h
        · intro n x hx
          obtain ⟨f, _, hf⟩ := get_of_forall₂' h.flights hx
          obtain ⟨r, hr, _⟩ := hf.req
          have h1 := (List.getElem?_eq_some_iff.1 hr).1
          have h2 := List.getElem?_eq_none_iff.1 ho
          rw [h.own] at h2
          simp only [Bool.true_and, Bool.and_eq_false_iff, decide_eq_false_iff_not, not_and]
          right
          intro _ he
          omega
      | some i =>
        simp only [if_true]
        refine cancelAt_rel h (bottom t) i _ ?_
        intro n f x h1 h2 hf
        simp only [Bool.true_and, Bool.and_eq_true, decide_eq_true_eq]
        rw [hf.base]
        constructor
        · rintro ⟨hd, g1, g2⟩
          have := hf.straight hd
          rw [g2, ho] at this
          exact ⟨g1, by simpa using this.symm⟩
        · rintro ⟨g1, g2⟩
          have hmem : f.req ∈ s.own := by rw [g2]; exact List.mem_of_getElem? ho
          have hd : x.direct = true := by
            cases hx : x.direct with
            | true => rfl
            | false => exact absurd hmem (hf.copy hx)
          have := hf.straight hd
          rw [g2] at this
          refine ⟨hd, g1, ?_⟩
          have e1 := List.getElem?_eq_some_iff.1 this
          have e2 := List.getElem?_eq_some_iff.1 ho
          exact (List.Nodup.getElem_inj_iff h.nodup).1 (e1.2.trans e2.2.symm)
  | cancelResponse t k =>
    simp only [step, happens, expect]
    rw [cancels_eq]
    cases hc : canCancel t with
    | false =>
      rw [giveUp_none v _ (by simp)]
      cases s.flights[k]? <;> exact h
    | true =>
      cases ho : s.flights[k]? with
      | none =>
        have hk : v.calls[k]? = none := by
          rw [List.getElem?_eq_none_iff] at ho ⊢
          rw [← h.flights.length_eq]; exact ho
        rw [giveUp_none v _ (by simp [hk])]
        exact h
      | some g =>
        obtain ⟨y, hy, hgy⟩ := get_of_forall₂ h.flights ho
        simp only [if_true, hy]
        refine cancelAt_rel h (bottom t) g.req _ ?_
        intro n f x h1 h2 hf
        simp only [Bool.true_and, Bool.and_eq_true, decide_eq_true_eq]
        rw [hf.base]
        refine and_congr_right fun _ => ?_
        constructor
        · rintro (rfl | ⟨g1, g2, g3⟩)
          · rw [h1] at ho; cases ho; rfl
          · have e1 := hf.straight g1
            have e2 := hgy.straight g2
            rw [g3, e2] at e1
            simpa using e1.symm
        · intro he
          cases hx : x.direct with
          | false => exact .inl (h.apart n k f g x y h1 ho h2 hy hx he)
          | true =>
            cases hyd : y.direct with
            | false => exact .inl (h.apart k n g f y x ho h1 hy h2 hyd he.symm).symm
            | true =>
              refine .inr ⟨rfl, rfl, ?_⟩
              have e1 := hf.straight hx
              have e2 := hgy.straight hyd
              rw [he] at e1
              have e1 := List.getElem?_eq_some_iff.1 e1
              have e2 := List.getElem?_eq_some_iff.1 e2
              exact (List.Nodup.getElem_inj_iff h.nodup).1 (e1.2.trans e2.2.symm)
  | cancel c =>
    simp only [step, happens, expect]
    have := rel_change h (F := fun _ f => if .cancel c ∈ f.ctx then f.giveUp else f)
      (G := fun n x => if (match v.reqs[x.handle]? with | some r => decide (Under r c) | none => false) then x.giveUp else x)
      (map_mapIdx _ _) rfl (ca := c :: s.cancelled) (cl := s.closed) (by
        intro n f x h1 h2 hf
        obtain ⟨r, g1, g2, _⟩ := hf.req
        have hiff : .cancel c ∈ f.ctx ↔ Under r c := by
          rw [← mem_conts, g2, mem_conts]; rfl
        simp only [g1]
        by_cases hu : Under r c
        · rw [if_pos (hiff.2 hu), if_pos (by simpa using hu)]; exact giveUp_rel hf
        · rw [if_neg (fun e => hu (hiff.1 e)), if_neg (by simpa using hu)]; exact hf) (by
        intro n f; split
        · exact (giveUp_fields f).2.1
        · rfl) (by
        intro n x
        generalize (match v.reqs[x.handle]? with | some r => _ | none => false) = q
        cases q
        · rfl
        · exact (callGiveUp_fields x).2.2)
    rw [h.cancelled, h.closed] at this ⊢
    exact this
  | close k =>
    simp only [step, happens, expect]
    have := rel_change h (F := fun _ f => if f.chan = some k then f.giveUp else f)
      (G := fun n x => if (match v.reqs[x.handle]? with | some r => decide (r.chan = some k) | none => false) then x.giveUp else x)
      (map_mapIdx _ _) rfl (ca := s.cancelled) (cl := k :: s.closed) (by
        intro n f x h1 h2 hf
        obtain ⟨r, g1, _, g2⟩ := hf.req
        simp only [g1, g2]
        by_cases hu : r.chan = some k
        · rw [if_pos hu, if_pos (by simpa using hu)]; exact giveUp_rel hf
        · rw [if_neg hu, if_neg (by simpa using hu)]; exact hf) (by
        intro n f; split
        · exact (giveUp_fields f).2.1
        · rfl) (by
        intro n x
        generalize (match v.reqs[x.handle]? with | some r => _ | none => false) = q
        cases q
        · rfl
        · exact (callGiveUp_fields x).2.2)
    rw [h.cancelled, h.closed] at this ⊢
    exact this
  | finish k =>
    simp only [step, happens, expect]
    have := rel_change h (F := fun m f => if m = k then (if f.status = .running then { f with status := .finished } else f) else f)
      (G := fun m x => if m = k then (if x.status = .running then { x with status := .finished } else x) else x)
      (modify_mapIdx _ _ _) (modify_mapIdx _ _ _) (ca := s.cancelled) (cl := s.closed) (by
        intro n f x _ _ hf
        split
        · rw [hf.status]
          split
          · exact ⟨hf.base, rfl, hf.req, hf.known, hf.straight, hf.copy⟩
          · exact hf
        · exact hf) (by
        intro n f; split
        · split <;> rfl
        · rfl) (by
        intro n f; split
        · split <;> rfl
        · rfl)
    rw [h.cancelled, h.closed] at this ⊢
    exact this

theorem run_rel {s : St} {v : View} (h : Rel s v) (os : List Op) : Rel (run s os) (happensAll v os) := by
  induction os generalizing s v with
  | nil => exact h
  | cons o os ih => exact ih (step_rel h o)

theorem happens_expect (v : View) (os : List Op) (hs : Spared v os) : happensAll v os = expectAll v os := by
  induction os generalizing v with
  | nil => rfl
  | cons o os ih =>
    have : happens v o = expect v o := by
      cases o with
      | cancelRequest t k =>
        have hd := hs.1
        simp only [happens, expect, View.giveUp]
        congr 1
        apply List.ext_getElem?
        intro n
        rw [List.getElem?_mapIdx, List.getElem?_mapIdx]
        cases hx : v.calls[n]? with
        | none => rfl
        | some x =>
          by_cases hc : x.base = bottom t ∧ x.handle = k
          · simp [hc, hd x (List.mem_of_getElem? hx) hc.1 hc.2]
          · simp [hc]
      | _ => rfl
    simp only [happensAll, expectAll, this]
    exact ih _ hs.2

theorem outcomes_of {s : St} {v : View} (h : Rel s v) : outcomes s = v.outcomes := by
  have := h.flights
  unfold outcomes View.outcomes
  generalize s.flights = l at this
  generalize v.calls = l' at this
  induction this with
  | nil => rfl
  | cons h1 _ ih => rw [List.map_cons, List.map_cons, ih, h1.status]

/-- C104. Through any number of `Transport`s, requests are given up exactly when the caller's context is cancelled or the caller's channel
closed, or with `CancelRequest` on the response's request; as long as `CancelRequest` is not called with the caller's own request on its way
through a `Transport`. -/
theorem given_up_partial (os : List Op) (hs : Spared nothing os) : outcomes (run init os) = (expectAll nothing os).outcomes := by
  rw [← happens_expect _ _ hs]
  exact outcomes_of (run_rel rel_init os)

/-- C104, and in any history: as expected, but for `CancelRequest` with a request that goes through a `Transport`. -/
theorem given_up (os : List Op) : outcomes (run init os) = (happensAll nothing os).outcomes :=
  outcomes_of (run_rel rel_init os)

/-! ## `CancelRequest` -/

/-- What a call is, whatever became of it. -/
def Call.what (x : Call) : Nat × Nat × Bool := (x.base, x.handle, x.direct)

theorem giveUp_what (v : View) (q : Nat → Call → Bool) : (v.giveUp q).calls.map Call.what = v.calls.map Call.what := by
  apply List.ext_getElem?
  intro n
  simp only [View.giveUp, List.getElem?_map, List.getElem?_mapIdx]
  cases v.calls[n]? with
  | none => rfl
  | some x =>
    simp only [Option.map_some, Option.some.injEq]
    split
    · obtain ⟨a, b, c⟩ := callGiveUp_fields x
      simp [Call.what, a, b, c]
    · rfl

theorem expect_what {v w : View} (hr : v.reqs = w.reqs) (hc : v.calls.map Call.what = w.calls.map Call.what) (o : Op) :
    (happens v o).reqs = (expect w o).reqs ∧ (happens v o).calls.map Call.what = (expect w o).calls.map Call.what := by
  cases o with
  | make r => exact ⟨by simp [happens, expect, hr], hc⟩
  | roundTrip t h =>
    simp only [happens, expect]
    rw [hr]
    cases w.reqs[h]? with
    | none => exact ⟨hr, hc⟩
    | some r => exact ⟨rfl, by simp only [List.map_append, hc]; rfl⟩
  | cancelRequest t h => exact ⟨hr, by simp only [happens, expect]; rw [giveUp_what, giveUp_what]; exact hc⟩
  | cancelResponse t n => exact ⟨hr, by simp only [happens, expect]; rw [giveUp_what, giveUp_what]; exact hc⟩
  | cancel c => exact ⟨hr, by simp only [happens, expect]; rw [giveUp_what, giveUp_what]; exact hc⟩
  | close k => exact ⟨hr, by simp only [happens, expect]; rw [giveUp_what, giveUp_what]; exact hc⟩
  | finish n =>
    refine ⟨hr, ?_⟩
    have : ∀ l : List Call, (l.modify n fun x => if x.status = .running then { x with status := .finished } else x).map Call.what =
        l.map Call.what := by
      intro l
      apply List.ext_getElem?
      intro m
      simp only [List.getElem?_map, List.getElem?_modify]
      cases l[m]? with
      | none => rfl
      | some x =>
        simp only [Option.map_some, Option.map_map, Option.some.injEq]
        split
        · simp only [Option.map_eq_map, Option.map_some, Option.some.injEq]; split <;> rfl
        · rfl
    simp only [happens, expect, this, hc]

theorem all_what {v w : View} (hr : v.reqs = w.reqs) (hc : v.calls.map Call.what = w.calls.map Call.what) (os : List Op) :
    (happensAll v os).calls.map Call.what = (expectAll w os).calls.map Call.what := by
  induction os generalizing v w with
  | nil => exact hc
  | cons o os ih => obtain ⟨a, b⟩ := expect_what hr hc o; exact ih a b

theorem happensAll_append (v : View) (a b : List Op) : happensAll v (a ++ b) = happensAll (happensAll v a) b := by
  induction a generalizing v with
  | nil => rfl
  | cons o a ih => exact ih _

/-- C104. After any history, `CancelRequest` with the caller's request does nothing to a request that went through a `Transport`, other than
to a health endpoint; whatever the base is. -/
theorem cancel_request_lost (os : List Op) (t : RT) (h n : Nat) (x : Call) (hx : (expectAll nothing os).calls[n]? = some x)
    (hd : x.direct = false) : (outcomes (run init (os ++ [.cancelRequest t h])))[n]? = (outcomes (run init os))[n]? := by
  rw [given_up, given_up, happensAll_append]
  have hw := congrArg (fun l => l[n]?) (all_what (v := nothing) (w := nothing) rfl rfl os)
  simp only [List.getElem?_map, hx, Option.map_some] at hw
  cases hy : (happensAll nothing os).calls[n]? with
  | none => rw [hy] at hw; cases hw
  | some y =>
    rw [hy] at hw
    simp only [Option.map_some, Option.some.injEq, Call.what, Prod.mk.injEq] at hw
    simp only [happensAll, happens, View.giveUp, View.outcomes, List.getElem?_map, List.getElem?_mapIdx, hy, Option.map_some]
    simp [hw.2.2, hd]

/-- C104. And it never gives up another of the caller's requests. -/
theorem cancel_request_only (os : List Op) (t : RT) (h n : Nat) (x : Call) (hx : (expectAll nothing os).calls[n]? = some x)
    (hd : x.handle ≠ h) : (outcomes (run init (os ++ [.cancelRequest t h])))[n]? = (outcomes (run init os))[n]? := by
  rw [given_up, given_up, happensAll_append]
  have hw := congrArg (fun l => l[n]?) (all_what (v := nothing) (w := nothing) rfl rfl os)
  simp only [List.getElem?_map, hx, Option.map_some] at hw
  cases hy : (happensAll nothing os).calls[n]? with
  | none => rw [hy] at hw; cases hw
  | some y =>
    rw [hy] at hw
    simp only [Option.map_some, Option.some.injEq, Call.what, Prod.mk.injEq] at hw
    simp only [happensAll, happens, View.giveUp, View.outcomes, List.getElem?_map, List.getElem?_mapIdx, hy, Option.map_some]
    simp [hw.2.1, hd]

/-- C104. With the response's request it gets through, where the base can cancel requests: the call is not running afterwards. -/
theorem cancel_response (os : List Op) (t : RT) (n : Nat) (x : Call) (hx : (expectAll nothing os).calls[n]? = some x)
    (ht : canCancel t = true) (hb : x.base = bottom t) : (outcomes (run init (os ++ [.cancelResponse t n])))[n]? ≠ some .running := by
  rw [given_up, happensAll_append]
  have hw := congrArg (fun l => l[n]?) (all_what (v := nothing) (w := nothing) rfl rfl os)
  simp only [List.getElem?_map, hx, Option.map_some] at hw
  cases hy : (happensAll nothing os).calls[n]? with
  | none => rw [hy] at hw; cases hw
  | some y =>
    rw [hy] at hw
    simp only [Option.map_some, Option.some.injEq, Call.what, Prod.mk.injEq] at hw
    simp only [happensAll, happens, expect, View.giveUp, View.outcomes, List.getElem?_map, List.getElem?_mapIdx, hy, Option.map_some]
    simp only [ht, hw.1, hb, Bool.true_and, decide_true, true_or, if_true, ne_eq, Option.some.injEq]
    unfold Call.giveUp
    split
    · simp
    · assumption

/-! ## Cases -/

def web : RT := .transport true (.base 0 true)
def get : Req := ⟨str "/", [.value, .cancel 7], some 3⟩
def health : Req := ⟨str "/healthz", [], none⟩

/-- The request of a caller who calls `CancelRequest`, as one might on a timeout, goes on running; without the `Transport` it would be given up. -/
theorem not_given_up : ∃ os, outcomes (run init os) ≠ (expectAll nothing os).outcomes :=
  ⟨[.make get, .roundTrip web 0, .cancelRequest web 0], by decide +kernel⟩

example : outcomes (run init [.make get, .roundTrip web 0, .cancelRequest web 0]) = [.running] := by decide +kernel
example : outcomes (run init [.make get, .roundTrip (.base 0 true) 0, .cancelRequest web 0]) = [.givenUp] := by decide +kernel

/-- A history the theorem is about: a request through two `Transport`s, a health check and a request without, given up by a channel, with
`CancelRequest`, and by a context; and one sent when its context was over. -/
def busy : List Op := [.make get, .make health, .make ⟨str "/a", [.cancel 8], none⟩, .roundTrip (.transport false web) 0, .roundTrip web 1,
  .roundTrip (.base 0 true) 2, .roundTrip web 2, .cancelResponse web 3, .cancelRequest web 1, .close 3, .cancel 8, .finish 2, .roundTrip web 2]

instance (v : View) (os : List Op) : Decidable (Spared v os) := by
  induction os generalizing v with
  | nil => exact .isTrue trivial
  | cons o os ih =>
    have := ih (expect v o)
    unfold Spared
    cases o <;> infer_instance

example : Spared nothing busy := by decide +kernel
example : outcomes (run init busy) = [.givenUp, .givenUp, .givenUp, .givenUp, .givenUp] := by decide +kernel
example : ∃ x, (expectAll nothing busy).calls[0]? = some x ∧ x.direct = false ∧ canCancel web = true ∧ x.base = bottom web :=
  ⟨⟨0, 0, false, .givenUp⟩, by decide +kernel, rfl, rfl, rfl⟩
example : ∃ x, (expectAll nothing busy).calls[3]? = some x ∧ x.handle ≠ 0 := ⟨⟨0, 2, false, .givenUp⟩, by decide +kernel, by decide⟩

end Verif.Props.HttpCancel
