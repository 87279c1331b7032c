import Verif.Trace.SpanConc
import Verif.Props.Spans

/-!
# C70: concurrent calls on a span
-/

namespace Verif.Props.SpanConc
open Verif Verif.Trace Verif.Trace.SpanConc
open Verif.Props.Start (Blank)
open Verif.Props.Spans (newest queue_export makeSpanData_events wrap64_succ)

/-! ## Specification -/

/-- A call that took effect: which one, what it was, and the time it read from the clock. -/
abbrev Took := Id × Mut × Int

/-- What a call adds to the span's annotations, message events, links and attributes. -/
def mutAdds (now : Int) : Mut → Adds
  | .annotate l msg => { Adds.none with anns := [⟨now, msg, attrMap l⟩] }
  | .message t id un co => { Adds.none with msgs := [⟨now, t, id, un, co⟩] }
  | .addLink l => { Adds.none with links := [l] }
  | .addAttributes l => { Adds.none with attrs := l.map fun a => (a.key, a.value) }
  | _ => .none

def addsOf : List Took → Adds
  | [] => .none
  | x :: l => (mutAdds x.2.2 x.2.1).append (addsOf l)

def names (l : List Took) : List Bytes := l.filterMap fun x => match x.2.1 with
  | .setName n => some n
  | _ => none
def statuses (l : List Took) : List Status := l.filterMap fun x => match x.2.1 with
  | .setStatus s => some s
  | _ => none
def children (l : List Took) : Nat := l.countP fun x => match x.2.1 with
  | .addChild => true
  | _ => false

/-- `sd` is what a span started as `d0` with these limits shows after the calls `l`, made one after the other.
`exact` is for attributes: which keys are kept when there are too many (C29). -/
structure Shows (d0 : SpanData) (lim : Config) (l : List Took) (exact : Prop) (sd : SpanData) : Prop where
  anns : sd.annotations = newest lim.maxAnnotations (addsOf l).anns
  annsDropped : sd.droppedAnnotations + sd.annotations.length = (addsOf l).anns.length
  msgs : sd.messageEvents = newest lim.maxMessageEvents (addsOf l).msgs
  msgsDropped : sd.droppedMessageEvents + sd.messageEvents.length = (addsOf l).msgs.length
  links : sd.links = newest lim.maxLinks (addsOf l).links
  linksDropped : sd.droppedLinks + sd.links.length = (addsOf l).links.length
  attrs : ∀ k v, GoMap.get sd.attributes k = some v → lastVal (addsOf l).attrs k = some v
  attrsMany : ∃ kept : List Bytes, kept.Nodup ∧ kept.length = min (recent (addsOf l).attrs).length lim.maxAttributes.toNat ∧
    ∀ k, k ∈ kept ↔ (GoMap.get sd.attributes k).isSome
  attrsFew : (recent (addsOf l).attrs).length ≤ lim.maxAttributes →
    (∀ k, GoMap.get sd.attributes k = lastVal (addsOf l).attrs k) ∧ sd.droppedAttributes = 0
  attrsExact : exact → ∀ k, GoMap.get sd.attributes k =
    if k ∈ (recent (addsOf l).attrs).take lim.maxAttributes.toNat then lastVal (addsOf l).attrs k else none
  attrsDropped : exact → sd.droppedAttributes + ((recent (addsOf l).attrs).take lim.maxAttributes.toNat).length =
    misses lim.maxAttributes.toNat (addsOf l).attrs
  name : sd.name = (names l).getLastD d0.name
  status : sd.status = (statuses l).getLastD d0.status
  children : children l < 2 ^ 63 → sd.childSpanCount = children l
  fixed : sd.ctx = d0.ctx ∧ sd.startTime = d0.startTime ∧ sd.parentSpanID = d0.parentSpanID ∧ sd.kind = d0.kind ∧
    sd.hasRemoteParent = d0.hasRemoteParent

/-- A call had returned when another one was made. -/
def Earlier (log : List (Int × Ev)) (a b : Id) : Prop :=
  ∃ p q τ τ' c, log = p ++ (τ, .called b c) :: q ∧ (τ', .returned a) ∈ p

/-! ## What the span holds after the calls -/

theorem addsOf_snoc (l : List Took) (x : Took) : addsOf (l ++ [x]) = (addsOf l).append (mutAdds x.2.2 x.2.1) := by
  induction l with
  | nil => simp [addsOf, Adds.append, Adds.none]
  | cons y l ih => simp only [List.cons_append, addsOf, ih, Adds.append_assoc]

/-- A span that has just been started. -/
structure Started (d0 : SpanData) (lim : Config) (now : Int) : Prop where
  blank : Blank d0
  children : d0.childSpanCount = 0
  time : d0.startTime = now
  annotations : 0 < lim.maxAnnotations
  messageEvents : 0 < lim.maxMessageEvents
  attributes : 0 < lim.maxAttributes
  links : 0 < lim.maxLinks

structure RecOk (d0 : SpanData) (lim : Config) (l : List Took) (r : Rec) : Prop where
  inv : RecInv r (addsOf l)
  capA : r.annotations.capacity = lim.maxAnnotations
  capM : r.messageEvents.capacity = lim.maxMessageEvents
  capL : r.links.capacity = lim.maxLinks
  capT : r.attrs.maxEntries = lim.maxAttributes
  name : r.data.name = (names l).getLastD d0.name
  status : r.data.status = (statuses l).getLastD d0.status
  children : r.data.childSpanCount = wrap64 (children l)
  frame : r.data = { d0 with name := r.data.name, status := r.data.status, childSpanCount := r.data.childSpanCount }

theorem Adds.append_fields (a b : Adds) : (a.append b).anns = a.anns ++ b.anns ∧ (a.append b).msgs = a.msgs ++ b.msgs ∧
    (a.append b).links = a.links ++ b.links ∧ (a.append b).attrs = a.attrs ++ b.attrs := ⟨rfl, rfl, rfl, rfl⟩

theorem apply_ok {d0 : SpanData} {lim : Config} {l : List Took} {r : Rec} (h : RecOk d0 lim l r) (x : Took) :
    ∃ r', x.2.1.apply x.2.2 r = .ok r' ∧ RecOk d0 lim (l ++ [x]) r' ∧
      (AStrong r.attrs (addsOf l).attrs → AStrong r'.attrs (addsOf (l ++ [x])).attrs) := by
  obtain ⟨id, m, now⟩ := x
  have hn : names (l ++ [(id, m, now)]) = names l ++ names [(id, m, now)] := by simp [names]
  have hs : statuses (l ++ [(id, m, now)]) = statuses l ++ statuses [(id, m, now)] := by simp [statuses]
  have hc : children (l ++ [(id, m, now)]) = children l + children [(id, m, now)] := by simp [children]
  have ha := addsOf_snoc l (id, m, now)
  cases m with
  | setName n =>
    refine ⟨_, rfl, ⟨?_, h.capA, h.capM, h.capL, h.capT, ?_, ?_, ?_, ?_⟩, ?_⟩
    · rw [ha]; simp only [mutAdds, Adds.append_none]; exact ⟨h.inv.anns, h.inv.msgs, h.inv.links, h.inv.attrs⟩
    · rw [hn]; simp [names]
    · rw [hs]; simpa [statuses] using h.status
    · rw [hc]; simpa [children] using h.children
    · have := h.frame; simp only; rw [this]
    · rw [ha]; simp only [mutAdds, Adds.append_none]; exact fun h => h
  | setStatus s =>
    refine ⟨_, rfl, ⟨?_, h.capA, h.capM, h.capL, h.capT, ?_, ?_, ?_, ?_⟩, ?_⟩
    · rw [ha]; simp only [mutAdds, Adds.append_none]; exact ⟨h.inv.anns, h.inv.msgs, h.inv.links, h.inv.attrs⟩
    · rw [hn]; simpa [names] using h.name
    · rw [hs]; simp [statuses]
    · rw [hc]; simpa [children] using h.children
    · have := h.frame; simp only; rw [this]
    · rw [ha]; simp only [mutAdds, Adds.append_none]; exact fun h => h
  | addChild =>
    refine ⟨_, rfl, ⟨?_, h.capA, h.capM, h.capL, h.capT, ?_, ?_, ?_, ?_⟩, ?_⟩
    · rw [ha]; simp only [mutAdds, Adds.append_none]; exact ⟨h.inv.anns, h.inv.msgs, h.inv.links, h.inv.attrs⟩
    · rw [hn]; simpa [names] using h.name
    · rw [hs]; simpa [statuses] using h.status
    · rw [hc]; simp only; rw [h.children, wrap64_succ]; simp [children]
    · have := h.frame; simp only; rw [this]
    · rw [ha]; simp only [mutAdds, Adds.append_none]; exact fun h => h
  | annotate at' msg =>
    obtain ⟨q, h1, h2, h3⟩ := h.inv.anns.add ⟨now, msg, attrMap at'⟩
    refine ⟨{ r with annotations := q }, by simp [Mut.apply, Rec.annotate, h1, Res.bind],
      ⟨?_, h3.trans h.capA, h.capM, h.capL, h.capT, ?_, ?_, ?_, h.frame⟩, ?_⟩
    · rw [ha]; exact ⟨h2, by simpa [mutAdds, Adds.append, Adds.none] using h.inv.msgs,
        by simpa [mutAdds, Adds.append, Adds.none] using h.inv.links, by simpa [mutAdds, Adds.append, Adds.none] using h.inv.attrs⟩
    · rw [hn]; simpa [names] using h.name
    · rw [hs]; simpa [statuses] using h.status
    · rw [hc]; simpa [children] using h.children
    · rw [ha]; simp [mutAdds, Adds.append, Adds.none]
  | message t i un co =>
    obtain ⟨q, h1, h2, h3⟩ := h.inv.msgs.add ⟨now, t, i, un, co⟩
    refine ⟨{ r with messageEvents := q }, by simp [Mut.apply, Rec.addMessageEvent, h1, Res.bind],
      ⟨?_, h.capA, h3.trans h.capM, h.capL, h.capT, ?_, ?_, ?_, h.frame⟩, ?_⟩
    · rw [ha]; exact ⟨by simpa [mutAdds, Adds.append, Adds.none] using h.inv.anns, h2,
        by simpa [mutAdds, Adds.append, Adds.none] using h.inv.links, by simpa [mutAdds, Adds.append, Adds.none] using h.inv.attrs⟩
    · rw [hn]; simpa [names] using h.name
    · rw [hs]; simpa [statuses] using h.status
    · rw [hc]; simpa [children] using h.children
    · rw [ha]; simp [mutAdds, Adds.append, Adds.none]
  | addLink k =>
    obtain ⟨q, h1, h2, h3⟩ := h.inv.links.add k
    refine ⟨{ r with links := q }, by simp [Mut.apply, Rec.addLink, h1, Res.bind],
      ⟨?_, h.capA, h.capM, h3.trans h.capL, h.capT, ?_, ?_, ?_, h.frame⟩, ?_⟩
    · rw [ha]; exact ⟨by simpa [mutAdds, Adds.append, Adds.none] using h.inv.anns,
        by simpa [mutAdds, Adds.append, Adds.none] using h.inv.msgs, h2, by simpa [mutAdds, Adds.append, Adds.none] using h.inv.attrs⟩
    · rw [hn]; simpa [names] using h.name
    · rw [hs]; simpa [statuses] using h.status
    · rw [hc]; simpa [children] using h.children
    · rw [ha]; simp [mutAdds, Adds.append, Adds.none]
  | addAttributes as =>
    obtain ⟨h1, h2, h3⟩ := foldl_attrs h.inv.attrs as
    refine ⟨_, rfl, ⟨?_, h.capA, h.capM, h.capL, h3.trans h.capT, ?_, ?_, ?_, h.frame⟩, ?_⟩
    · rw [ha]; exact ⟨by simpa [mutAdds, Adds.append, Adds.none] using h.inv.anns,
        by simpa [mutAdds, Adds.append, Adds.none] using h.inv.msgs, by simpa [mutAdds, Adds.append, Adds.none] using h.inv.links, h1⟩
    · rw [hn]; simpa [names] using h.name
    · rw [hs]; simpa [statuses] using h.status
    · rw [hc]; simpa [children] using h.children
    · rw [ha]; exact h2

theorem shows_of {d0 : SpanData} {lim : Config} {l : List Took} {r r' : Rec} {order : List Bytes} {sd : SpanData}
    {exact : Prop} (hb : Blank d0) (h : RecOk d0 lim l r) (hs : exact → AStrong r.attrs (addsOf l).attrs)
    (hm : r.makeSpanData order = .ok (r', sd)) : Shows d0 lim l exact sd ∧ RecOk d0 lim l r' := by
  have hb' : Blank r.data := by
    rw [h.frame]; exact hb
  obtain ⟨g1, g2, g3, g4, g5, g6⟩ := makeSpanData_events hb' hm
  obtain ⟨f1, f2, f3, f4, f5, f6, f7, f8⟩ := makeSpanData_fields hm
  obtain ⟨q1, q2⟩ := Spans.makeSpanData_attrs h.inv.attrs hb' hm
  obtain ⟨k1, k2⟩ := Trace.makeSpanData_attrs h.inv hm
  obtain ⟨m1, m2, m3, m4, _⟩ := makeSpanData_ok hm
  have A := queue_export h.inv.anns
  have M := queue_export h.inv.msgs
  have L := queue_export h.inv.links
  rw [h.capA, ← g1, ← g2] at A
  rw [h.capM, ← g3, ← g4] at M
  rw [h.capL, ← g5, ← g6] at L
  have hf := h.frame
  refine ⟨⟨A.1, by rw [A.1]; exact A.2, M.1, by rw [M.1]; exact M.2, L.1, by rw [L.1]; exact L.2, ?_, ?_, ?_, ?_, ?_,
    by rw [f5, h.name], by rw [f3, h.status], ?_, ?_⟩, ?_⟩
  · intro k v hkv
    rw [q1] at hkv
    exact h.inv.attrs.val (k, v) ((get_mem_iff h.inv.attrs.nodup).mp hkv)
  · refine ⟨r.attrs.entries.map Prod.fst, h.inv.attrs.nodup, ?_, ?_⟩
    · rw [← h.capT, List.length_map]; exact h.inv.attrs.count
    · intro k
      rw [q1]
      cases hg : GoMap.get r.attrs.entries k with
      | none => simpa using get_none_iff.mp hg
      | some v =>
        have := (get_mem_iff h.inv.attrs.nodup).mp hg
        simp only [Option.isSome_some, iff_true]
        exact List.mem_map.mpr ⟨_, this, rfl⟩
  · intro hfew
    rw [← h.capT] at hfew
    refine ⟨?_, by rw [q2, h.inv.attrs.few hfew]; simp⟩
    intro k
    rw [q1]
    by_cases hk : k ∈ recent (addsOf l).attrs
    · obtain ⟨en, hen, rfl⟩ := List.mem_map.mp (h.inv.attrs.all hfew hk)
      rw [h.inv.attrs.val en hen]; exact (get_mem_iff h.inv.attrs.nodup).mpr hen
    · rw [get_none_iff.mpr (fun hc => hk (h.inv.attrs.sub hc))]
      cases hv : lastVal (addsOf l).attrs k with
      | none => rfl
      | some v => exact absurd (mem_recent.mpr ⟨v, hv⟩) hk
  · intro he k
    have hk := (hs he).kept
    rw [h.capT] at hk
    rw [← hk, q1]
    by_cases hkm : k ∈ r.attrs.entries.map Prod.fst
    · rw [if_pos hkm]
      obtain ⟨en, hen, rfl⟩ := List.mem_map.mp hkm
      rw [h.inv.attrs.val en hen]
      exact (get_mem_iff h.inv.attrs.nodup).mpr hen
    · rw [if_neg hkm]; exact get_none_iff.mpr hkm
  · intro he
    have hk := (hs he).kept
    have hd := (hs he).dropped
    rw [h.capT] at hk hd
    rw [← hk, q2, List.length_map]
    by_cases h0 : r.attrs.len > 0
    · rw [if_pos h0]; exact hd
    · rw [if_neg h0]
      have he : r.attrs.entries = [] := List.length_eq_zero_iff.mp (by unfold LruMap.len at h0; omega)
      rw [he, List.map_nil] at hk
      rw [he]
      have hpos := h.inv.attrs.cap
      rw [h.capT] at hpos
      have hrec : recent (addsOf l).attrs = [] := by
        cases hrc : recent (addsOf l).attrs with
        | nil => rfl
        | cons a l' =>
          rw [hrc] at hk
          obtain ⟨m, hm⟩ : ∃ m, lim.maxAttributes.toNat = m + 1 := ⟨lim.maxAttributes.toNat - 1, by omega⟩
          rw [hm] at hk; simp at hk
      have hnil : (addsOf l).attrs = [] := by
        cases hh : (addsOf l).attrs using List.reverseRecOn with
        | nil => rfl
        | append_singleton l' a => rw [hh, recent_snoc] at hrec; simp at hrec
      rw [hnil]; simp [misses]
  · intro hlt
    rw [f7, h.children]
    unfold wrap64; omega
  · refine ⟨?_, ?_, ?_, ?_, ?_⟩
    · rw [f1, hf]
    · rw [f2, hf]
    · rw [f4, hf]
    · rw [f6, hf]
    · rw [f8, hf]
  · exact ⟨k1, by rw [m2]; exact h.capA, by rw [m3]; exact h.capM, by rw [m4]; exact h.capL, k2.trans h.capT,
      by rw [m1]; exact h.name, by rw [m1]; exact h.status, by rw [m1]; exact h.children, by rw [m1]; exact h.frame⟩

/-! ## The log: every event is allowed by those before it -/

/-- The calls that took effect, in order. -/
def tookOf (log : List (Int × Ev)) : List Took := log.filterMap fun x => match x.2 with
  | .applied id m now => some (id, m, now)
  | _ => none

def Returned (log : List (Int × Ev)) (id : Id) : Prop := ∃ τ, (τ, Ev.returned id) ∈ log
def Called (log : List (Int × Ev)) (id : Id) (c : Call) : Prop := ∃ τ, (τ, Ev.called id c) ∈ log
def Applied (log : List (Int × Ev)) (id : Id) : Prop := ∃ τ m x, (τ, Ev.applied id m x) ∈ log
/-- Nobody has read the span's attributes. -/
def Unread (log : List (Int × Ev)) : Prop := ∀ τ id sd, (τ, Ev.copied id sd) ∉ log

def Ended (log : List (Int × Ev)) (id : Id) : Prop := ∃ τ sd, (τ, Ev.ended id sd) ∈ log

/-- `sd` is what the call `w` of `End` made up. -/
def Final (p : List (Int × Ev)) (τ : Int) (w : Id) (sd : SpanData) : Prop :=
  ∃ τ0, (τ0, Ev.ended w sd) ∈ p ∧ τ0 ≤ τ ∧ ¬ Returned p w

/-- What an event needs of those before it. -/
def Pre (d0 : SpanData) (lim : Config) (p : List (Int × Ev)) (τ : Int) : Ev → Prop
  | .called id _ => ∀ c, ¬ Called p id c
  | .applied id m x => (∃ τ0, (τ0, Ev.called id (.mutate m)) ∈ p ∧ (m.timed = true → τ0 ≤ x ∧ x ≤ τ)) ∧
      ¬ Returned p id ∧ ¬ Applied p id
  | .snapshot w sd => Called p w .endSpan ∧ ¬ Returned p w ∧ (∀ id, Returned p id → ¬ Called p id .endSpan) ∧
      (∀ τ' w' sd', (τ', Ev.snapshot w' sd') ∉ p) ∧ Shows d0 lim (tookOf p) (Unread p) sd
  | .ended w sd => (∃ τ0 sd0, (τ0, Ev.snapshot w sd0) ∈ p ∧ sd = finalData sd0 τ) ∧ ¬ Returned p w ∧ ¬ Ended p w
  | .stored sd => ∃ w, Final p τ w sd
  | .exported _ sd => ∃ w, Final p τ w sd
  | .copied id sd => Called p id .report ∧ ¬ Returned p id ∧ Shows d0 lim (tookOf p) (Unread p ∧ ∀ τ' w' sd', (τ', Ev.snapshot w' sd') ∉ p) sd
  | .reported id sd => ∃ τ0, (τ0, Ev.copied id sd) ∈ p
  | .returned id => (∃ c, Called p id c ∧ ∀ m, c = .mutate m → Applied p id) ∧ ¬ Returned p id

structure Legal (d0 : SpanData) (lim : Config) (t0 : Int) (log : List (Int × Ev)) : Prop where
  times : log.Pairwise (fun a b => a.1 ≤ b.1)
  start : ∀ x ∈ log, t0 ≤ x.1
  pre : ∀ p x q, log = p ++ x :: q → Pre d0 lim p x.1 x.2

theorem Legal.nil (d0 : SpanData) (lim : Config) (t0 : Int) : Legal d0 lim t0 [] :=
  ⟨List.Pairwise.nil, by simp, by simp⟩

theorem split_snoc {α : Type} {l p q : List α} {x y : α} (h : l ++ [x] = p ++ y :: q) :
    (p = l ∧ y = x ∧ q = []) ∨ ∃ q', q = q' ++ [x] ∧ l = p ++ y :: q' := by
  cases q using List.reverseRecOn with
  | nil =>
    have := List.append_inj' h rfl
    exact .inl ⟨this.1.symm, by simpa using this.2.symm, rfl⟩
  | append_singleton q' z =>
    rw [show p ++ y :: (q' ++ [z]) = (p ++ y :: q') ++ [z] by simp] at h
    have := List.append_inj' h rfl
    exact .inr ⟨q', by simpa using this.2.symm, this.1⟩

theorem Legal.snoc {d0 : SpanData} {lim : Config} {t0 : Int} {log : List (Int × Ev)} (h : Legal d0 lim t0 log) {x : Int × Ev}
    (h0 : t0 ≤ x.1) (h1 : ∀ y ∈ log, y.1 ≤ x.1) (h2 : Pre d0 lim log x.1 x.2) : Legal d0 lim t0 (log ++ [x]) := by
  refine ⟨?_, ?_, ?_⟩
  · rw [List.pairwise_append]
    exact ⟨h.times, by simp, by simpa using h1⟩
  · intro y hy
    rcases List.mem_append.mp hy with hy | hy
    · exact h.start y hy
    · rw [List.mem_singleton] at hy; rw [hy]; exact h0
  · intro p y q he
    rcases split_snoc he with ⟨rfl, rfl, _⟩ | ⟨q', _, e⟩
    · exact h2
    · exact h.pre p y q' e

theorem Legal.prefix {d0 : SpanData} {lim : Config} {t0 : Int} {p q : List (Int × Ev)} (h : Legal d0 lim t0 (p ++ q)) :
    Legal d0 lim t0 p :=
  ⟨(List.pairwise_append.mp h.times).1, fun x hx => h.start x (by simp [hx]),
    fun p' x q' he => h.pre p' x (q' ++ q) (by rw [he]; simp)⟩

theorem tookOf_append (p q : List (Int × Ev)) : tookOf (p ++ q) = tookOf p ++ tookOf q := by simp [tookOf]

theorem mem_tookOf {log : List (Int × Ev)} {x : Took} : x ∈ tookOf log ↔ ∃ τ, (τ, Ev.applied x.1 x.2.1 x.2.2) ∈ log := by
  obtain ⟨id, m, now⟩ := x
  unfold tookOf
  rw [List.mem_filterMap]
  constructor
  · rintro ⟨⟨τ, ev⟩, h1, h2⟩
    cases ev <;> simp at h2
    obtain ⟨rfl, rfl, rfl⟩ := h2
    exact ⟨τ, h1⟩
  · rintro ⟨τ, h⟩
    exact ⟨_, h, rfl⟩

/-! ## Consequences for the order of calls -/

section
variable {d0 : SpanData} {lim : Config} {t0 : Int}

/-- A call that was made in `p2` was made where it was made. -/
theorem Legal.call_before {log : List (Int × Ev)} (h : Legal d0 lim t0 log) {p q p2 q2 : List (Int × Ev)} {τ : Int} {id : Id}
    {c c' : Call} (e1 : log = p ++ (τ, .called id c) :: q) (e2 : log = p2 ++ q2) (hc : Called p2 id c') :
    ∃ r, p2 = p ++ (τ, .called id c) :: r := by
  have h1 := h.pre _ _ _ e1
  rw [e1] at e2
  rcases List.append_eq_append_iff.mp e2 with ⟨as, h3, h4⟩ | ⟨as, h3, h4⟩
  · cases as with
    | nil =>
      rw [List.append_nil] at h3
      rw [h3] at hc
      exact absurd hc (h1 _)
    | cons a as =>
      simp only [List.cons_append, List.cons.injEq] at h4
      exact ⟨as, by rw [h3, h4.1]⟩
  · refine absurd ?_ (h1 c')
    obtain ⟨τ', hm⟩ := hc
    exact ⟨τ', by rw [h3]; simp [hm]⟩

theorem mem_split {α : Type} {x : α} {l : List α} (h : x ∈ l) : ∃ p q, l = p ++ x :: q := List.append_of_mem h

theorem Legal.took_nodup {p : List (Int × Ev)} (h : Legal d0 lim t0 p) : ((tookOf p).map Prod.fst).Nodup := by
  induction p using List.reverseRecOn with
  | nil => simp [tookOf]
  | append_singleton p x ih =>
    rw [tookOf_append, List.map_append, List.nodup_append]
    refine ⟨ih h.prefix, ?_, ?_⟩
    · obtain ⟨τ, ev⟩ := x
      cases ev <;> simp [tookOf]
    · rintro a ha b hb rfl
      obtain ⟨⟨id, m, now⟩, h1, rfl⟩ := List.mem_map.mp ha
      obtain ⟨⟨id', m', now'⟩, h2, e⟩ := List.mem_map.mp hb
      simp only at e; subst e
      obtain ⟨τ, h1⟩ := mem_tookOf.mp h1
      obtain ⟨τ', h2⟩ := mem_tookOf.mp h2
      rw [List.mem_singleton] at h2
      have := h.pre p x [] rfl
      rw [← h2] at this
      exact this.2.2 ⟨_, _, _, h1⟩

/-- Calls take effect between being made and returning, so in an order that respects real time. -/
theorem Legal.order {log p q : List (Int × Ev)} (h : Legal d0 lim t0 log) (e : log = p ++ q) {l1 l2 : List Took} {a b : Took}
    (hl : tookOf p = l1 ++ a :: l2) (hb : b ∈ l2) : ¬ Earlier log b.1 a.1 := by
  rintro ⟨p', q', τ, τ', c, e1, hr⟩
  unfold tookOf at hl
  rw [List.filterMap_eq_append_iff] at hl
  obtain ⟨pa, pr, rfl, h1, h2⟩ := hl
  rw [List.filterMap_eq_cons_iff] at h2
  obtain ⟨n1, x, n2, rfl, h3, h4, h5⟩ := h2
  obtain ⟨τx, ev⟩ := x
  cases ev with
  | applied id m now =>
    simp only [Option.some.injEq] at h4
    subst h4
    have hb' : b ∈ tookOf n2 := by unfold tookOf; rw [h5]; exact hb
    obtain ⟨τb, hb'⟩ := mem_tookOf.mp hb'
    obtain ⟨s1, s2, rfl⟩ := mem_split hb'
    have k1 := h.pre (pa ++ n1) (τx, .applied id m now) ((s1 ++ (τb, .applied b.1 b.2.1 b.2.2) :: s2) ++ q) (by rw [e]; simp)
    have k2 := h.pre (pa ++ n1 ++ (τx, .applied id m now) :: s1) (τb, .applied b.1 b.2.1 b.2.2) (s2 ++ q) (by rw [e]; simp)
    obtain ⟨⟨τ0, hc, _⟩, _⟩ := k1
    obtain ⟨r, hr'⟩ := h.call_before e1 (p2 := pa ++ n1) (by rw [e, List.append_assoc, List.append_assoc, ← List.append_assoc pa]) ⟨τ0, hc⟩
    refine k2.2.1 ⟨τ', ?_⟩
    rw [hr']; simp [hr]
  | _ => simp at h4

end

/-! ## Invariant -/

/-- Whether a goroutine holds the span's mutex there. -/
def inMu : PC → Bool
  | .body _ _ => true
  | .write _ _ _ => true
  | .unlock => true
  | .snap _ _ => true
  | .snapWrite _ _ _ _ => true
  | .snapUnlock _ _ _ => true
  | .repBody => true
  | .repWrite _ _ => true
  | .repUnlock _ => true
  | _ => false

/-- Whether it holds the lock of the span's Once there. -/
def inOnce : PC → Bool
  | .check => true
  | .load => true
  | .snapLock _ _ => true
  | .snap _ _ => true
  | .snapWrite _ _ _ _ => true
  | .snapUnlock _ _ _ => true
  | .endTime _ _ _ => true
  | .finish _ _ _ => true
  | .exporting _ _ => true
  | .setDone => true
  | .onceUnlock => true
  | _ => false

/-- End has copied the data and is not done. -/
def past : PC → Bool
  | .snapUnlock _ _ _ => true
  | .endTime _ _ _ => true
  | .finish _ _ _ => true
  | .exporting _ _ => true
  | .setDone => true
  | _ => false

/-- The goroutine is in the call `c`. -/
structure Open (st : St) (t : Nat) (c : Call) : Prop where
  made : 0 < st.made t
  called : Called st.log (st.cur t) c
  open' : ¬ Returned st.log (st.cur t)

/-- What is known at a program counter. -/
def PCInv (st : St) (t : Nat) : PC → Prop
  | .idle => True
  | .clock m => Open st t (.mutate m) ∧ ¬ Applied st.log (st.cur t)
  | .lock m x => Open st t (.mutate m) ∧ ¬ Applied st.log (st.cur t) ∧
      (m.timed = true → ∃ τ0, (τ0, Ev.called (st.cur t) (.mutate m)) ∈ st.log ∧ τ0 ≤ x ∧ x ≤ st.now)
  | .body m x => Open st t (.mutate m) ∧ ¬ Applied st.log (st.cur t) ∧
      (m.timed = true → ∃ τ0, (τ0, Ev.called (st.cur t) (.mutate m)) ∈ st.log ∧ τ0 ≤ x ∧ x ≤ st.now)
  | .write m x r => Open st t (.mutate m) ∧ ¬ Applied st.log (st.cur t) ∧
      (m.timed = true → ∃ τ0, (τ0, Ev.called (st.cur t) (.mutate m)) ∈ st.log ∧ τ0 ≤ x ∧ x ≤ st.now) ∧
      m.apply x st.data = .ok r
  | .unlock => ∃ m, Open st t (.mutate m) ∧ Applied st.log (st.cur t)
  | .fast => Open st t .endSpan
  | .onceLock => Open st t .endSpan
  | .check => Open st t .endSpan
  | .load => Open st t .endSpan ∧ st.done = false
  | .snapLock _ _ => Open st t .endSpan ∧ st.done = false
  | .snap _ _ => Open st t .endSpan ∧ st.done = false
  | .snapWrite _ _ r sd => Open st t .endSpan ∧ st.done = false ∧ ∃ order, st.data.makeSpanData order = .ok (r, sd)
  | .snapUnlock _ _ sd => Open st t .endSpan ∧ st.done = false ∧ (∃ τ0, (τ0, Ev.snapshot (st.cur t) sd) ∈ st.log) ∧
      ¬ Ended st.log (st.cur t)
  | .endTime _ _ sd => Open st t .endSpan ∧ st.done = false ∧ (∃ τ0, (τ0, Ev.snapshot (st.cur t) sd) ∈ st.log) ∧
      ¬ Ended st.log (st.cur t)
  | .finish _ _ sd => Open st t .endSpan ∧ st.done = false ∧ Final st.log st.now (st.cur t) sd
  | .exporting _ sd => Open st t .endSpan ∧ st.done = false ∧ Final st.log st.now (st.cur t) sd
  | .setDone => Open st t .endSpan ∧ st.done = false
  | .onceUnlock => Open st t .endSpan ∧ st.done = true
  | .repLock => Open st t .report
  | .repBody => Open st t .report
  | .repWrite r sd => Open st t .report ∧ ∃ order, st.data.makeSpanData order = .ok (r, sd)
  | .repUnlock sd => Open st t .report ∧ ∃ τ0, (τ0, Ev.copied (st.cur t) sd) ∈ st.log

structure Inv (d0 : SpanData) (lim : Config) (t0 : Int) (st : St) : Prop where
  legal : Legal d0 lim t0 st.log
  ids : ∀ τ t k c, (τ, Ev.called (t, k) c) ∈ st.log → k < st.made t
  now : t0 ≤ st.now ∧ ∀ x ∈ st.log, x.1 ≤ st.now
  crashed : st.crashed = false
  data : RecOk d0 lim (tookOf st.log) st.data
  strong : Unread st.log → (∀ τ w sd, (τ, Ev.snapshot w sd) ∉ st.log) → AStrong st.data.attrs (addsOf (tookOf st.log)).attrs
  mu : ∀ t, inMu (st.pc t) = true ↔ st.mu = some t
  once : ∀ t, inOnce (st.pc t) = true ↔ st.once = some t
  pcs : ∀ t, PCInv st t (st.pc t)
  ended : ∀ id, Returned st.log id → Called st.log id .endSpan → st.done = true
  snap : ∀ τ w sd, (τ, Ev.snapshot w sd) ∈ st.log → st.done = true ∨ ∃ t, past (st.pc t) = true

/-- The event says nothing about other goroutines' calls. -/
def About (t : Nat) : Ev → Prop
  | .called id _ => id.1 = t
  | .applied id _ _ => id.1 = t
  | .snapshot id _ => id.1 = t
  | .ended id _ => id.1 = t
  | .copied id _ => id.1 = t
  | .reported id _ => id.1 = t
  | .returned id => id.1 = t
  | _ => True

theorem returned_append {log evs : List (Int × Ev)} {t : Nat} {id : Id} (ha : ∀ x ∈ evs, About t x.2) (hn : id.1 ≠ t)
    (h : Returned (log ++ evs) id) : Returned log id := by
  obtain ⟨τ, h⟩ := h
  rcases List.mem_append.mp h with h | h
  · exact ⟨τ, h⟩
  · exact absurd (ha _ h) hn

theorem applied_append {log evs : List (Int × Ev)} {t : Nat} {id : Id} (ha : ∀ x ∈ evs, About t x.2) (hn : id.1 ≠ t)
    (h : Applied (log ++ evs) id) : Applied log id := by
  obtain ⟨τ, m, y, h⟩ := h
  rcases List.mem_append.mp h with h | h
  · exact ⟨τ, m, y, h⟩
  · exact absurd (ha _ h) hn

theorem ended_append {log evs : List (Int × Ev)} {t : Nat} {id : Id} (ha : ∀ x ∈ evs, About t x.2) (hn : id.1 ≠ t)
    (h : Ended (log ++ evs) id) : Ended log id := by
  obtain ⟨τ, y, h⟩ := h
  rcases List.mem_append.mp h with h | h
  · exact ⟨τ, y, h⟩
  · exact absurd (ha _ h) hn

theorem Called.append {log : List (Int × Ev)} {id : Id} {c : Call} (h : Called log id c) (evs : List (Int × Ev)) :
    Called (log ++ evs) id c := by
  obtain ⟨τ, h⟩ := h; exact ⟨τ, by simp [h]⟩

/-- What another goroutine does leaves what is known at `u`'s program counter. -/
theorem pcinv_other {st st' : St} {t u : Nat} {evs : List (Int × Ev)} {p : PC} (hu : u ≠ t) (h : PCInv st u p)
    (hl : st'.log = st.log ++ evs) (ha : ∀ x ∈ evs, About t x.2) (hm : st'.made u = st.made u) (hn : st.now ≤ st'.now)
    (hd : inOnce p = true → st'.done = st.done) (hdt : inMu p = true → st'.data = st.data) : PCInv st' u p := by
  have hc : st'.cur u = st.cur u := by unfold St.cur; rw [hm]
  have hne : (st.cur u).1 ≠ t := hu
  have ho : ∀ {c}, Open st u c → Open st' u c := by
    intro c h
    exact ⟨by rw [hm]; exact h.made, by rw [hc, hl]; exact h.called.append _,
      by rw [hc, hl]; exact fun hr => h.open' (returned_append ha hne hr)⟩
  have hnap : ¬ Applied st.log (st.cur u) → ¬ Applied st'.log (st'.cur u) := by
    rw [hc, hl]; exact fun h hr => h (applied_append ha hne hr)
  have hmem : ∀ {x}, x ∈ st.log → x ∈ st'.log := by intro x hx; rw [hl]; simp [hx]
  have hfin : ∀ {sd}, Final st.log st.now (st.cur u) sd → Final st'.log st'.now (st'.cur u) sd := by
    rintro sd ⟨τ0, h1, h2, h5⟩
    refine ⟨τ0, hmem (by rw [hc]; exact h1), Int.le_trans h2 hn, ?_⟩
    rw [hc, hl]; exact fun hr => h5 (returned_append ha hne hr)
  have hne' : ¬ Ended st.log (st.cur u) → ¬ Ended st'.log (st'.cur u) := by
    rw [hc, hl]; exact fun h hr => h (ended_append ha hne hr)
  have htm : ∀ {m : Mut} {x : Int}, (m.timed = true → ∃ τ0, (τ0, Ev.called (st.cur u) (.mutate m)) ∈ st.log ∧ τ0 ≤ x ∧ x ≤ st.now) →
      (m.timed = true → ∃ τ0, (τ0, Ev.called (st'.cur u) (.mutate m)) ∈ st'.log ∧ τ0 ≤ x ∧ x ≤ st'.now) := by
    intro m x h hm
    obtain ⟨τ0, h1, h2, h3⟩ := h hm
    exact ⟨τ0, hmem (by rw [hc]; exact h1), h2, Int.le_trans h3 hn⟩
  cases p with
  | idle => trivial
  | clock m => exact ⟨ho h.1, hnap h.2⟩
  | lock m x => exact ⟨ho h.1, hnap h.2.1, htm h.2.2⟩
  | body m x => exact ⟨ho h.1, hnap h.2.1, htm h.2.2⟩
  | write m x r => exact ⟨ho h.1, hnap h.2.1, htm h.2.2.1, by rw [hdt rfl]; exact h.2.2.2⟩
  | unlock =>
    obtain ⟨m, h1, τ, m', x, h2⟩ := h
    exact ⟨m, ho h1, τ, m', x, hmem (by rw [hc]; exact h2)⟩
  | fast => exact ho h
  | onceLock => exact ho h
  | check => exact ho h
  | load => exact ⟨ho h.1, by rw [hd rfl]; exact h.2⟩
  | snapLock _ _ => exact ⟨ho h.1, by rw [hd rfl]; exact h.2⟩
  | snap _ _ => exact ⟨ho h.1, by rw [hd rfl]; exact h.2⟩
  | snapWrite _ _ r sd => exact ⟨ho h.1, by rw [hd rfl]; exact h.2.1, by rw [hdt rfl]; exact h.2.2⟩
  | snapUnlock _ _ sd =>
    obtain ⟨h1, h2, ⟨τ0, h3⟩, h4⟩ := h
    exact ⟨ho h1, by rw [hd rfl]; exact h2, ⟨τ0, hmem (by rw [hc]; exact h3)⟩, hne' h4⟩
  | endTime _ _ sd =>
    obtain ⟨h1, h2, ⟨τ0, h3⟩, h4⟩ := h
    exact ⟨ho h1, by rw [hd rfl]; exact h2, ⟨τ0, hmem (by rw [hc]; exact h3)⟩, hne' h4⟩
  | finish _ _ sd => exact ⟨ho h.1, by rw [hd rfl]; exact h.2.1, hfin h.2.2⟩
  | exporting _ sd => exact ⟨ho h.1, by rw [hd rfl]; exact h.2.1, hfin h.2.2⟩
  | setDone => exact ⟨ho h.1, by rw [hd rfl]; exact h.2⟩
  | onceUnlock => exact ⟨ho h.1, by rw [hd rfl]; exact h.2⟩
  | repLock => exact ho h
  | repBody => exact ho h
  | repWrite r sd => exact ⟨ho h.1, by rw [hdt rfl]; exact h.2⟩
  | repUnlock sd =>
    obtain ⟨h1, τ0, h3⟩ := h
    exact ⟨ho h1, τ0, hmem (by rw [hc]; exact h3)⟩

/-- The same span after events that do not touch it. -/
def Quiet : Ev → Prop
  | .applied _ _ _ => False
  | .copied _ _ => False
  | .snapshot _ _ => False
  | _ => True

theorem tookOf_quiet {evs : List (Int × Ev)} (h : ∀ x ∈ evs, Quiet x.2) : tookOf evs = [] := by
  unfold tookOf
  rw [List.filterMap_eq_nil_iff]
  rintro ⟨τ, ev⟩ hx
  have := h _ hx
  cases ev <;> simp_all [Quiet]

section
variable {d0 : SpanData} {lim : Config} {t0 : Int}

/-- How the locks may change: `held'` says whether the goroutine holds it at its new place. -/
inductive LockStep (old new : Option Nat) (t : Nat) : Bool → Bool → Prop where
  | keep (b : Bool) (h : new = old) : LockStep old new t b b
  | take (h0 : old = none) (h : new = some t) : LockStep old new t false true
  | release (h : new = none) : LockStep old new t true false

theorem LockStep.holds {f : PC → Bool} {pc : Nat → PC} {old new : Option Nat} {t : Nat} {p : PC}
    (h : ∀ u, f (pc u) = true ↔ old = some u) (hs : LockStep old new t (f (pc t)) (f p)) :
    ∀ u, f (upd pc t p u) = true ↔ new = some u := by
  intro u
  unfold upd
  generalize hb : f (pc t) = b at hs
  generalize hb' : f p = b' at hs
  by_cases hu : u = t
  · subst hu
    rw [if_pos rfl, hb']
    cases hs with
    | keep b hn => rw [hn, ← h u, hb]
    | take h0 hn => simp [hn]
    | release hn => simp [hn]
  · rw [if_neg hu]
    cases hs with
    | keep b hn => rw [hn]; exact h u
    | take h0 hn => rw [h u, h0, hn]; simp [Ne.symm hu]
    | release hn =>
      rw [hn, h u]
      have := (h t).mp hb
      rw [this]; simp [Ne.symm hu]

/-- A step of goroutine `t` that leaves the span's data alone. -/
theorem Inv.quiet {st st' : St} (h : Inv d0 lim t0 st) (t : Nat) (p : PC) (evs : List (Int × Ev))
    (hl : st'.log = st.log ++ evs) (ha : ∀ x ∈ evs, About t x.2) (hq : ∀ x ∈ evs, Quiet x.2)
    (hlegal : Legal d0 lim t0 st'.log) (htime : ∀ x ∈ evs, x.1 = st.now)
    (hids : ∀ x ∈ evs, ∀ t k c, x.2 = Ev.called (t, k) c → k < st'.made t)
    (hmade : ∀ u, u ≠ t → st'.made u = st.made u) (hmt : st.made t ≤ st'.made t)
    (hnow : st'.now = st.now) (hcr : st'.crashed = st.crashed) (hdata : st'.data = st.data)
    (hpc : st'.pc = upd st.pc t p)
    (hmu : LockStep st.mu st'.mu t (inMu (st.pc t)) (inMu p))
    (honce : LockStep st.once st'.once t (inOnce (st.pc t)) (inOnce p))
    (hdone : st'.done = st.done ∨ inOnce (st.pc t) = true)
    (hp : PCInv st' t p)
    (hend : ∀ id, Returned st'.log id → Called st'.log id .endSpan → st'.done = true)
    (hpast : past (st.pc t) = true → st'.done = true ∨ past p = true) (hdm : st.done = true → st'.done = true) :
    Inv d0 lim t0 st' := by
  have htk : tookOf st'.log = tookOf st.log := by
    rw [hl, tookOf_append, tookOf_quiet hq, List.append_nil]
  refine ⟨hlegal, ?_, ?_, by rw [hcr]; exact h.crashed, by rw [htk, hdata]; exact h.data, ?_, ?_, ?_, ?_, hend, ?_⟩
  · intro τ u k c hm
    rw [hl] at hm
    rcases List.mem_append.mp hm with hm | hm
    · have := h.ids τ u k c hm
      by_cases hu : u = t
      · subst hu; omega
      · rw [hmade u hu]; exact this
    · exact hids _ hm u k c rfl
  · refine ⟨by rw [hnow]; exact h.now.1, ?_⟩
    intro x hx
    rw [hl] at hx
    rcases List.mem_append.mp hx with hx | hx
    · rw [hnow]; exact h.now.2 x hx
    · rw [hnow, htime x hx]
  · intro h1 h2
    rw [htk, hdata]
    exact h.strong (fun τ id sd hm => h1 τ id sd (by rw [hl]; simp [hm])) (fun τ id sd hm => h2 τ id sd (by rw [hl]; simp [hm]))
  · rw [hpc]; exact hmu.holds h.mu
  · rw [hpc]; exact honce.holds h.once
  · intro u
    by_cases hu : u = t
    · subst hu; rw [hpc]; simpa [upd] using hp
    · have : st'.pc u = st.pc u := by rw [hpc]; simp [upd, hu]
      rw [this]
      refine pcinv_other hu (h.pcs u) hl ha (hmade u hu) (by rw [hnow]) ?_ (fun _ => hdata)
      intro hi
      rcases hdone with hd | hd
      · exact hd
      · have h1 := (h.once u).mp hi
        have h2 := (h.once t).mp hd
        rw [h1] at h2; cases h2; exact absurd rfl hu
  · intro τ w sd hm
    rw [hl] at hm
    rcases List.mem_append.mp hm with hm | hm
    · rcases h.snap τ w sd hm with hd | ⟨u, hu⟩
      · exact .inl (hdm hd)
      · by_cases hut : u = t
        · subst hut
          rcases hpast hu with hd | hd
          · exact .inl hd
          · exact .inr ⟨u, by rw [hpc]; simpa [upd] using hd⟩
        · exact .inr ⟨u, by rw [hpc]; simpa [upd, hut] using hu⟩
    · exact absurd (hq _ hm) (by simp [Quiet])

/-- Without an event. -/
theorem Inv.silent {st st' : St} (h : Inv d0 lim t0 st) (t : Nat) (p : PC)
    (hl : st'.log = st.log) (hmade : st'.made = st.made)
    (hnow : st'.now = st.now) (hcr : st'.crashed = st.crashed) (hdata : st'.data = st.data)
    (hpc : st'.pc = upd st.pc t p)
    (hmu : LockStep st.mu st'.mu t (inMu (st.pc t)) (inMu p))
    (honce : LockStep st.once st'.once t (inOnce (st.pc t)) (inOnce p))
    (hdone : st'.done = st.done ∨ inOnce (st.pc t) = true)
    (hp : PCInv st' t p)
    (hpast : past (st.pc t) = true → st'.done = true ∨ past p = true) (hdm : st.done = true → st'.done = true) :
    Inv d0 lim t0 st' := by
  refine h.quiet t p [] (by simpa using hl) (by simp) (by simp) (by rw [hl]; exact h.legal) (by simp) (by simp)
    (fun u _ => by rw [hmade]) (by rw [hmade]) hnow hcr hdata hpc hmu honce hdone hp ?_ hpast hdm
  intro id h1 h2
  rw [hl] at h1 h2
  exact hdm (h.ended id h1 h2)

theorem Open.congr {st st' : St} {t : Nat} {c : Call} (h : Open st t c) (hl : st'.log = st.log) (hm : st'.made = st.made) :
    Open st' t c := by
  have hc : st'.cur t = st.cur t := by unfold St.cur; rw [hm]
  exact ⟨by rw [hm]; exact h.made, by rw [hl, hc]; exact h.called, by rw [hl, hc]; exact h.open'⟩

theorem Legal.called_unique {log : List (Int × Ev)} (h : Legal d0 lim t0 log) {id : Id} {c c' : Call}
    (h1 : Called log id c) (h2 : Called log id c') : c = c' := by
  obtain ⟨τ, h1⟩ := h1
  obtain ⟨τ', h2⟩ := h2
  obtain ⟨p, q, e⟩ := mem_split h1
  rw [e] at h2
  rcases List.mem_append.mp h2 with h2 | h2
  · exact absurd ⟨τ', h2⟩ (h.pre _ _ _ e c')
  · rcases List.mem_cons.mp h2 with h2 | h2
    · cases h2; rfl
    · obtain ⟨q1, q2, rfl⟩ := mem_split h2
      have := h.pre (p ++ (τ, .called id c) :: q1) (τ', .called id c') q2 (by rw [e]; simp)
      exact absurd ⟨τ, by simp⟩ (this c)

/-- A call returns. -/
theorem Inv.ret {st st' : St} (h : Inv d0 lim t0 st) (t : Nat) {c : Call} (ho : Open st t c)
    (happ : ∀ m, c = .mutate m → Applied st.log (st.cur t)) (hdn : c = .endSpan → st.done = true)
    (pre : List (Int × Ev)) (hpre : ∀ x ∈ pre, About t x.2 ∧ Quiet x.2 ∧ x.1 = st.now ∧ (∀ id, x.2 ≠ .returned id) ∧
      (∀ id c, x.2 ≠ .called id c)) (hlp : Legal d0 lim t0 (st.log ++ pre))
    (hl : st'.log = (st.log ++ pre) ++ [(st.now, .returned (st.cur t))]) (hmade : st'.made = st.made)
    (hnow : st'.now = st.now) (hcr : st'.crashed = st.crashed) (hdata : st'.data = st.data)
    (hpc : st'.pc = upd st.pc t .idle)
    (hmu : LockStep st.mu st'.mu t (inMu (st.pc t)) false)
    (honce : LockStep st.once st'.once t (inOnce (st.pc t)) false)
    (hdone : st'.done = st.done) (hpast : past (st.pc t) = false) :
    Inv d0 lim t0 st' := by
  have hl' : st'.log = st.log ++ (pre ++ [(st.now, .returned (st.cur t))]) := by rw [hl]; simp
  have hnr : ¬ Returned (st.log ++ pre) (st.cur t) := by
    rintro ⟨τ, hm⟩
    rcases List.mem_append.mp hm with hm | hm
    · exact ho.open' ⟨τ, hm⟩
    · exact (hpre _ hm).2.2.2.1 _ rfl
  refine h.quiet t .idle _ hl' ?_ ?_ ?_ ?_ ?_ (fun u _ => by rw [hmade]) (by rw [hmade]) hnow hcr hdata hpc hmu honce (.inl hdone)
    trivial ?_ (by simp [hpast]) (by rw [hdone]; exact id)
  · intro x hx
    rcases List.mem_append.mp hx with hx | hx
    · exact (hpre x hx).1
    · rw [List.mem_singleton] at hx; subst hx; rfl
  · intro x hx
    rcases List.mem_append.mp hx with hx | hx
    · exact (hpre x hx).2.1
    · rw [List.mem_singleton] at hx; subst hx; trivial
  · rw [hl]
    refine hlp.snoc h.now.1 ?_ ⟨⟨c, ho.called.append _, ?_⟩, hnr⟩
    · intro y hy
      rcases List.mem_append.mp hy with hy | hy
      · exact h.now.2 y hy
      · rw [(hpre y hy).2.2.1]
    · intro m hm
      obtain ⟨τ, m', x, ha⟩ := happ m hm
      exact ⟨τ, m', x, by simp [ha]⟩
  · intro x hx
    rcases List.mem_append.mp hx with hx | hx
    · exact (hpre x hx).2.2.1
    · rw [List.mem_singleton] at hx; subst hx; rfl
  · intro x hx u k c hc
    rcases List.mem_append.mp hx with hx | hx
    · exact absurd hc ((hpre x hx).2.2.2.2 _ _)
    · rw [List.mem_singleton] at hx; subst hx; cases hc
  · intro id h1 h2
    rw [hdone]
    have h2' : Called st.log id .endSpan := by
      obtain ⟨τ, h2⟩ := h2
      rw [hl', List.mem_append, List.mem_append, List.mem_singleton] at h2
      rcases h2 with h2 | h2 | h2
      · exact ⟨τ, h2⟩
      · exact absurd rfl ((hpre _ h2).2.2.2.2 _ _)
      · cases h2
    obtain ⟨τ, h1⟩ := h1
    rw [hl', List.mem_append, List.mem_append, List.mem_singleton] at h1
    rcases h1 with h1 | h1 | h1
    · exact h.ended id ⟨τ, h1⟩ h2'
    · exact absurd rfl ((hpre _ h1).2.2.2.1 _)
    · cases h1
      exact hdn (h.legal.called_unique ho.called h2')

/-- A step under the mutex that changes the data, or reads it. -/
theorem Inv.touch {st st' : St} (h : Inv d0 lim t0 st) (t : Nat) (p : PC) (ev : Ev)
    (hl : st'.log = st.log ++ [(st.now, ev)]) (ha : About t ev) (hpre : Pre d0 lim st.log st.now ev)
    (hcl : ∀ id c, ev ≠ .called id c) (hre : ∀ id, ev ≠ .returned id)
    (hmade : st'.made = st.made) (hnow : st'.now = st.now) (hcr : st'.crashed = st.crashed)
    (hdata : RecOk d0 lim (tookOf st'.log) st'.data)
    (hstrong : Unread st'.log → (∀ τ w sd, (τ, Ev.snapshot w sd) ∉ st'.log) →
      AStrong st'.data.attrs (addsOf (tookOf st'.log)).attrs)
    (hpc : st'.pc = upd st.pc t p) (hmu : st'.mu = st.mu) (hmut : inMu (st.pc t) = true) (hmup : inMu p = true)
    (honce : st'.once = st.once) (honcep : inOnce (st.pc t) = inOnce p) (hdone : st'.done = st.done)
    (hp : PCInv st' t p) (hpast : past (st.pc t) = true → past p = true)
    (hsn : ∀ w sd, ev = .snapshot w sd → past p = true) : Inv d0 lim t0 st' := by
  have hsub : ∀ id, Returned st'.log id → Returned st.log id := by
    rintro id ⟨τ, hm⟩
    rw [hl, List.mem_append, List.mem_singleton] at hm
    rcases hm with hm | hm
    · exact ⟨τ, hm⟩
    · cases hm; exact absurd rfl (hre _)
  have hsubc : ∀ id c, Called st'.log id c → Called st.log id c := by
    rintro id c ⟨τ, hm⟩
    rw [hl, List.mem_append, List.mem_singleton] at hm
    rcases hm with hm | hm
    · exact ⟨τ, hm⟩
    · cases hm; exact absurd rfl (hcl _ _)
  refine ⟨?_, ?_, ?_, by rw [hcr]; exact h.crashed, hdata, hstrong, ?_, ?_, ?_, ?_, ?_⟩
  · rw [hl]; exact h.legal.snoc h.now.1 h.now.2 hpre
  · intro τ u k c hm
    obtain ⟨τ', hm⟩ := hsubc _ _ ⟨τ, hm⟩
    rw [hmade]; exact h.ids τ' u k c hm
  · refine ⟨by rw [hnow]; exact h.now.1, ?_⟩
    intro x hx
    rw [hl, List.mem_append, List.mem_singleton] at hx
    rw [hnow]
    rcases hx with hx | hx
    · exact h.now.2 x hx
    · rw [hx]
  · rw [hpc]; refine LockStep.holds h.mu ?_; rw [hmut, hmup]; exact .keep _ hmu
  · rw [hpc]; refine LockStep.holds h.once ?_; rw [honcep]; exact .keep _ honce
  · intro u
    by_cases hu : u = t
    · subst hu; rw [hpc]; simpa [upd] using hp
    · have : st'.pc u = st.pc u := by rw [hpc]; simp [upd, hu]
      rw [this]
      exact pcinv_other hu (h.pcs u) hl (by simpa using ha) (by rw [hmade]) (by rw [hnow]) (fun _ => hdone)
        (fun hi => by have h1 := (h.mu u).mp hi; have h2 := (h.mu t).mp hmut; rw [h1] at h2; cases h2; exact absurd rfl hu)
  · intro id h1 h2
    rw [hdone]; exact h.ended id (hsub _ h1) (hsubc _ _ h2)
  · intro τ w sd hm
    rw [hl, List.mem_append, List.mem_singleton] at hm
    rw [hdone]
    rcases hm with hm | hm
    · rcases h.snap τ w sd hm with hd | ⟨u, hu⟩
      · exact .inl hd
      · by_cases hut : u = t
        · subst hut
          exact .inr ⟨u, by rw [hpc]; simpa [upd] using hpast hu⟩
        · exact .inr ⟨u, by rw [hpc]; simpa [upd, hut] using hu⟩
    · cases hm
      exact .inr ⟨t, by rw [hpc]; simpa [upd] using hsn _ _ rfl⟩

/-- Before End copies the data nobody has. -/
theorem Inv.no_snapshot {st : St} (h : Inv d0 lim t0 st) {t : Nat} (ho : inOnce (st.pc t) = true)
    (hp : past (st.pc t) = false) (hd : st.done = false) (τ : Int) (w : Id) (sd : SpanData) :
    (τ, Ev.snapshot w sd) ∉ st.log := by
  intro hm
  rcases h.snap τ w sd hm with h1 | ⟨u, hu⟩
  · rw [hd] at h1; cases h1
  · have hpo : ∀ p, past p = true → inOnce p = true := by intro p; cases p <;> simp [past, inOnce]
    have h1 := (h.once u).mp (hpo _ hu)
    have h2 := (h.once t).mp ho
    rw [h1] at h2; cases h2
    rw [hp] at hu; cases hu

theorem Inv.call {st st' : St} (h : Inv d0 lim t0 st) (t : Nat) (c : Call) (p : PC) (hidle : st.pc t = .idle)
    (hl : st'.log = st.log ++ [(st.now, .called (t, st.made t) c)]) (hmade : st'.made = upd st.made t (st.made t + 1))
    (hnow : st'.now = st.now) (hcr : st'.crashed = st.crashed) (hdata : st'.data = st.data)
    (hpc : st'.pc = upd st.pc t p) (hmu : st'.mu = st.mu) (honce : st'.once = st.once) (hdone : st'.done = st.done)
    (hmup : inMu p = false) (honcep : inOnce p = false)
    (hp : Open st' t c → ¬ Applied st'.log (st'.cur t) → PCInv st' t p) : Inv d0 lim t0 st' := by
  have hcur : st'.cur t = (t, st.made t) := by unfold St.cur; rw [hmade]; simp [upd]
  have hnc : ∀ c, ¬ Called st.log (t, st.made t) c := by
    rintro c ⟨τ, hm⟩
    have := h.ids _ _ _ _ hm
    omega
  have hnr : ¬ Returned st.log (t, st.made t) := by
    rintro ⟨τ, hm⟩
    obtain ⟨p, q, e⟩ := mem_split hm
    obtain ⟨⟨c', ⟨τ', h1⟩, _⟩, _⟩ := h.legal.pre _ _ _ e
    exact hnc c' ⟨τ', by rw [e]; simp [h1]⟩
  have hna : ¬ Applied st.log (t, st.made t) := by
    rintro ⟨τ, m, x, hm⟩
    obtain ⟨p, q, e⟩ := mem_split hm
    obtain ⟨⟨τ', h1, _⟩, _⟩ := h.legal.pre _ _ _ e
    exact hnc (.mutate m) ⟨τ', by rw [e]; simp [h1]⟩
  have hnr' : ¬ Returned st'.log (t, st.made t) := by
    rintro ⟨τ, hm⟩
    rw [hl, List.mem_append, List.mem_singleton] at hm
    rcases hm with hm | hm
    · exact hnr ⟨τ, hm⟩
    · cases hm
  have hna' : ¬ Applied st'.log (t, st.made t) := by
    rintro ⟨τ, m, x, hm⟩
    rw [hl, List.mem_append, List.mem_singleton] at hm
    rcases hm with hm | hm
    · exact hna ⟨τ, m, x, hm⟩
    · cases hm
  refine h.quiet t p _ hl (by simp [About]) (by simp [Quiet]) ?_ (by simp) ?_ ?_ ?_ hnow hcr hdata hpc ?_ ?_ (.inl hdone) ?_ ?_ ?_ ?_
  · rw [hl]; exact h.legal.snoc h.now.1 h.now.2 hnc
  · intro x hx u k c' he
    rw [List.mem_singleton] at hx; subst hx; cases he
    rw [hmade]; simp [upd]
  · intro u hu; rw [hmade]; simp [upd, hu]
  · rw [hmade]; simp [upd]
  · rw [hidle, hmup]; exact .keep _ hmu
  · rw [hidle, honcep]; exact .keep _ honce
  · refine hp ⟨by rw [hmade]; simp [upd], ?_, by rw [hcur]; exact hnr'⟩ (by rw [hcur]; exact hna')
    rw [hcur]; exact ⟨st.now, by rw [hl]; simp⟩
  · intro id h1 h2
    rw [hdone]
    have hne : id ≠ (t, st.made t) := fun e => hnr' (e ▸ h1)
    obtain ⟨τ1, h1⟩ := h1
    obtain ⟨τ2, h2⟩ := h2
    rw [hl, List.mem_append, List.mem_singleton] at h1 h2
    rcases h1 with h1 | h1
    · rcases h2 with h2 | h2
      · exact h.ended id ⟨_, h1⟩ ⟨_, h2⟩
      · cases h2; exact absurd rfl hne
    · cases h1
  · rw [hidle]; simp [past]
  · rw [hdone]; exact id

theorem inv_step {st st' : St} {sampled hasStore : Bool} (hb : Blank d0) (h : Inv d0 lim t0 st) (t c : Nat) (order : List Bytes)
    (hs : step sampled hasStore st t c order = some st') : Inv d0 lim t0 st' := by
  unfold SpanConc.step at hs
  rw [if_neg (show ¬ st.crashed = true by rw [h.crashed]; simp)] at hs
  have hpcs := h.pcs t
  cases hpc : st.pc t with
  | idle =>
    rw [hpc] at hs
    simp only at hs
    cases htd : st.todo t with
    | nil => rw [htd] at hs; cases hs
    | cons call rest =>
      rw [htd] at hs
      simp only at hs
      cases call with
      | mutate m =>
        simp only [Option.some.injEq] at hs
        subst hs
        refine h.call t (.mutate m) _ hpc rfl rfl rfl rfl rfl rfl rfl rfl rfl ?_ ?_ ?_
        · split <;> rfl
        · split <;> rfl
        · intro ho ha
          by_cases hm : m.timed = true
          · rw [if_pos hm] at *; exact ⟨ho, ha⟩
          · rw [if_neg hm] at *; exact ⟨ho, ha, fun h => absurd h hm⟩
      | endSpan =>
        simp only [Option.some.injEq] at hs
        subst hs
        exact h.call t .endSpan .fast hpc rfl rfl rfl rfl rfl rfl rfl rfl rfl rfl rfl (fun ho _ => ho)
      | report =>
        simp only [Option.some.injEq] at hs
        subst hs
        exact h.call t .report .repLock hpc rfl rfl rfl rfl rfl rfl rfl rfl rfl rfl rfl (fun ho _ => ho)
  | clock m =>
    rw [hpc] at hs hpcs
    simp only [Option.some.injEq] at hs
    subst hs
    refine h.silent t (.lock m st.now) rfl rfl rfl rfl rfl rfl (by rw [hpc]; exact .keep _ rfl) (by rw [hpc]; exact .keep _ rfl)
      (.inl rfl) ⟨hpcs.1.congr rfl rfl, hpcs.2, ?_⟩ (by rw [hpc]; simp [past]) id
    intro _
    obtain ⟨τ0, h0⟩ := hpcs.1.called
    exact ⟨τ0, h0, h.now.2 _ h0, Int.le_refl _⟩
  | lock m x =>
    rw [hpc] at hs hpcs
    simp only at hs
    split at hs
    · next hmu =>
      simp only [Option.some.injEq] at hs
      subst hs
      exact h.silent t (.body m x) rfl rfl rfl rfl rfl rfl (by rw [hpc]; exact .take hmu rfl) (by rw [hpc]; exact .keep _ rfl)
        (.inl rfl) ⟨hpcs.1.congr rfl rfl, hpcs.2.1, hpcs.2.2⟩ (by rw [hpc]; simp [past]) id
    · cases hs
  | body m x =>
    rw [hpc] at hs hpcs
    simp only at hs
    obtain ⟨r', h1, h2, h3⟩ := apply_ok h.data (st.cur t, m, x)
    simp only at h1
    rw [h1] at hs
    simp only [Option.some.injEq] at hs
    subst hs
    exact h.silent t (.write m x r') rfl rfl rfl rfl rfl rfl (by rw [hpc]; exact .keep _ rfl) (by rw [hpc]; exact .keep _ rfl)
      (.inl rfl) ⟨hpcs.1.congr rfl rfl, hpcs.2.1, hpcs.2.2, h1⟩ (by rw [hpc]; simp [past]) id
  | write m x r =>
    rw [hpc] at hs hpcs
    simp only [Option.some.injEq] at hs
    subst hs
    obtain ⟨r', h1, h2, h3⟩ := apply_ok h.data (st.cur t, m, x)
    simp only at h1
    have hr : r = r' := by have := hpcs.2.2.2; rw [h1] at this; cases this; rfl
    subst hr
    have htk : tookOf (st.log ++ [(st.now, Ev.applied (st.cur t) m x)]) = tookOf st.log ++ [(st.cur t, m, x)] := by
      rw [tookOf_append]; rfl
    refine h.touch t .unlock (.applied (st.cur t) m x) rfl rfl ?_ (by simp) (by simp) rfl rfl rfl ?_ ?_ rfl rfl (by rw [hpc]; rfl) rfl rfl
      (by rw [hpc]; rfl) rfl ?_ (by rw [hpc]; simp [past]) (by simp)
    · refine ⟨?_, hpcs.1.open', hpcs.2.1⟩
      by_cases hm : m.timed = true
      · obtain ⟨τ0, k1, k2, k3⟩ := hpcs.2.2.1 hm
        exact ⟨τ0, k1, fun _ => ⟨k2, k3⟩⟩
      · obtain ⟨τ0, k1⟩ := hpcs.1.called
        exact ⟨τ0, k1, fun h => absurd h hm⟩
    · exact htk ▸ h2
    · intro k1 k2
      show AStrong r.attrs (addsOf (tookOf (st.log ++ [(st.now, Ev.applied (st.cur t) m x)]))).attrs
      rw [htk]
      exact h3 (h.strong (fun τ id sd hm => k1 τ id sd (List.mem_append_left _ hm))
        (fun τ id sd hm => k2 τ id sd (List.mem_append_left _ hm)))
    · refine ⟨m, ⟨hpcs.1.made, hpcs.1.called.append _, ?_⟩, st.now, m, x, List.mem_append_right _ (List.mem_singleton.mpr rfl)⟩
      rintro ⟨τ, hm⟩
      rcases List.mem_append.mp hm with hm | hm
      · exact hpcs.1.open' ⟨τ, hm⟩
      · rw [List.mem_singleton] at hm; cases hm
  | unlock =>
    rw [hpc] at hs hpcs
    simp only [Option.some.injEq] at hs
    subst hs
    obtain ⟨m, h1, h2⟩ := hpcs
    exact h.ret t h1 (fun _ _ => h2) (by simp) [] (by simp) (by simpa using h.legal) (by simp [St.note, St.goto, St.cur]) rfl rfl rfl rfl rfl
      (by rw [hpc]; exact .release rfl) (by rw [hpc]; exact .keep _ rfl) rfl (by rw [hpc]; rfl)
  | fast =>
    rw [hpc] at hs hpcs
    simp only at hs
    split at hs
    · next hd =>
      simp only [Option.some.injEq] at hs
      subst hs
      exact h.ret t hpcs (by simp) (fun _ => hd) [] (by simp) (by simpa using h.legal) (by simp [St.note, St.goto, St.cur]) rfl rfl rfl rfl rfl
        (by rw [hpc]; exact .keep _ rfl) (by rw [hpc]; exact .keep _ rfl) rfl (by rw [hpc]; rfl)
    · simp only [Option.some.injEq] at hs
      subst hs
      exact h.silent t .onceLock rfl rfl rfl rfl rfl rfl (by rw [hpc]; exact .keep _ rfl) (by rw [hpc]; exact .keep _ rfl)
        (.inl rfl) (Open.congr hpcs rfl rfl) (by rw [hpc]; simp [past]) id
  | onceLock =>
    rw [hpc] at hs hpcs
    simp only at hs
    split at hs
    · next ho =>
      simp only [Option.some.injEq] at hs
      subst hs
      exact h.silent t .check rfl rfl rfl rfl rfl rfl (by rw [hpc]; exact .keep _ rfl) (by rw [hpc]; exact .take ho rfl)
        (.inl rfl) (Open.congr hpcs rfl rfl) (by rw [hpc]; simp [past]) id
    · cases hs
  | check =>
    rw [hpc] at hs hpcs
    simp only [Option.some.injEq] at hs
    subst hs
    by_cases hd : st.done = true
    · rw [if_pos hd]
      exact h.silent t .onceUnlock rfl rfl rfl rfl rfl rfl (by rw [hpc]; exact .keep _ rfl) (by rw [hpc]; exact .keep _ rfl)
        (.inl rfl) ⟨Open.congr hpcs rfl rfl, hd⟩ (by rw [hpc]; simp [past]) id
    · rw [if_neg hd]
      exact h.silent t .load rfl rfl rfl rfl rfl rfl (by rw [hpc]; exact .keep _ rfl) (by rw [hpc]; exact .keep _ rfl)
        (.inl rfl) ⟨Open.congr hpcs rfl rfl, Bool.eq_false_of_not_eq_true hd⟩ (by rw [hpc]; simp [past]) id
  | load =>
    rw [hpc] at hs hpcs
    simp only [Option.some.injEq] at hs
    subst hs
    split
    · exact h.silent t (.snapLock _ _) rfl rfl rfl rfl rfl rfl (by rw [hpc]; exact .keep _ rfl) (by rw [hpc]; exact .keep _ rfl)
        (.inl rfl) ⟨Open.congr hpcs.1 rfl rfl, hpcs.2⟩ (by rw [hpc]; simp [past]) id
    · exact h.silent t .setDone rfl rfl rfl rfl rfl rfl (by rw [hpc]; exact .keep _ rfl) (by rw [hpc]; exact .keep _ rfl)
        (.inl rfl) ⟨Open.congr hpcs.1 rfl rfl, hpcs.2⟩ (by rw [hpc]; simp [past]) id
  | snapLock exp must =>
    rw [hpc] at hs hpcs
    simp only at hs
    split at hs
    · next hmu =>
      simp only [Option.some.injEq] at hs
      subst hs
      exact h.silent t (.snap exp must) rfl rfl rfl rfl rfl rfl (by rw [hpc]; exact .take hmu rfl) (by rw [hpc]; exact .keep _ rfl)
        (.inl rfl) ⟨Open.congr hpcs.1 rfl rfl, hpcs.2⟩ (by rw [hpc]; simp [past]) id
    · cases hs
  | snap exp must =>
    rw [hpc] at hs hpcs
    simp only at hs
    cases hm : st.data.makeSpanData order with
    | err => rw [hm] at hs; cases hs
    | panic =>
      unfold Rec.makeSpanData at hm
      split at hm <;> simp at hm
    | ok x =>
      obtain ⟨r', sd⟩ := x
      rw [hm] at hs
      simp only [Option.some.injEq] at hs
      subst hs
      exact h.silent t (.snapWrite exp must r' sd) rfl rfl rfl rfl rfl rfl (by rw [hpc]; exact .keep _ rfl) (by rw [hpc]; exact .keep _ rfl)
        (.inl rfl) ⟨Open.congr hpcs.1 rfl rfl, hpcs.2, order, hm⟩ (by rw [hpc]; simp [past]) id
  | snapWrite exp must r sd =>
    rw [hpc] at hs hpcs
    simp only [Option.some.injEq] at hs
    subst hs
    obtain ⟨ho, hdn, order', hm⟩ := hpcs
    have hpcs : Open st t .endSpan ∧ st.done = false := ⟨ho, hdn⟩
    · have hno := h.no_snapshot (t := t) (by rw [hpc]; rfl) (by rw [hpc]; rfl) hpcs.2
      obtain ⟨hsh, hrec⟩ := shows_of (exact := Unread st.log) hb h.data (fun hu => h.strong hu hno) hm
      have htk : tookOf (st.log ++ [(st.now, Ev.snapshot (st.cur t) sd)]) = tookOf st.log := by
        rw [tookOf_append]; simp [tookOf]
      refine h.touch t (.snapUnlock exp must sd) (.snapshot (st.cur t) sd) rfl rfl ?_ (by simp) (by simp) rfl rfl rfl ?_ ?_ rfl rfl
        (by rw [hpc]; rfl) rfl rfl (by rw [hpc]; rfl) rfl ?_ (by rw [hpc]; simp [past]) (by simp [past])
      · refine ⟨hpcs.1.called, hpcs.1.open', ?_, hno, hsh⟩
        intro id h1 h2
        have := h.ended id h1 h2
        rw [hpcs.2] at this; cases this
      · exact htk ▸ hrec
      · intro _ k2
        exact absurd (List.mem_append_right _ (List.mem_singleton.mpr rfl)) (k2 st.now (st.cur t) sd)
      · refine ⟨⟨hpcs.1.made, hpcs.1.called.append _, ?_⟩, hpcs.2, ⟨st.now, List.mem_append_right _ (List.mem_singleton.mpr rfl)⟩, ?_⟩
        · rintro ⟨τ, hm⟩
          rcases List.mem_append.mp hm with hm | hm
          · exact hpcs.1.open' ⟨τ, hm⟩
          · rw [List.mem_singleton] at hm; cases hm
        · rintro ⟨τ, sd', hm⟩
          rcases List.mem_append.mp hm with hm | hm
          · obtain ⟨p, q, e⟩ := mem_split hm
            obtain ⟨⟨τ0, sd0, k1, _⟩, _⟩ := h.legal.pre _ _ _ e
            exact hno τ0 _ sd0 (by rw [e]; exact List.mem_append_left _ k1)
          · rw [List.mem_singleton] at hm; cases hm
  | snapUnlock exp must sd =>
    rw [hpc] at hs hpcs
    simp only [Option.some.injEq] at hs
    subst hs
    exact h.silent t (.endTime exp must sd) rfl rfl rfl rfl rfl rfl (by rw [hpc]; exact .release rfl) (by rw [hpc]; exact .keep _ rfl)
      (.inl rfl) ⟨Open.congr hpcs.1 rfl rfl, hpcs.2.1, hpcs.2.2⟩ (by simp [past]) id
  | endTime exp must sd =>
    rw [hpc] at hs hpcs
    simp only [Option.some.injEq] at hs
    subst hs
    obtain ⟨h1, h2, ⟨τ0, h3⟩, h4⟩ := hpcs
    have hnr : ¬ Returned (st.log ++ [(st.now, Ev.ended (st.cur t) { sd with endTime := monotonicEndTime sd.startTime st.now })]) (st.cur t) := by
      rintro ⟨τ, hm⟩
      rcases List.mem_append.mp hm with hm | hm
      · exact h1.open' ⟨τ, hm⟩
      · rw [List.mem_singleton] at hm; cases hm
    refine h.quiet t (.finish exp must _) [(st.now, .ended (st.cur t) _)] rfl (by simp [About, St.cur]) (by simp [Quiet])
      (h.legal.snoc h.now.1 h.now.2 ⟨⟨τ0, sd, h3, rfl⟩, h1.open', h4⟩) (by simp) (by simp) (fun _ _ => rfl) (Nat.le_refl _) rfl rfl rfl rfl
      (by rw [hpc]; exact .keep _ rfl) (by rw [hpc]; exact .keep _ rfl) (.inl rfl) ?_ ?_ (by simp [past]) id
    · exact ⟨⟨h1.made, h1.called.append _, hnr⟩, h2, st.now, List.mem_append_right _ (List.mem_singleton.mpr rfl), Int.le_refl _, hnr⟩
    · rintro id ⟨τ1, k1⟩ ⟨τ2, k2⟩
      rcases List.mem_append.mp k1 with k1 | k1
      · rcases List.mem_append.mp k2 with k2 | k2
        · exact h.ended id ⟨_, k1⟩ ⟨_, k2⟩
        · rw [List.mem_singleton] at k2; cases k2
      · rw [List.mem_singleton] at k1; cases k1
  | finish exp must sd =>
    rw [hpc] at hs hpcs
    simp only [Option.some.injEq] at hs
    obtain ⟨h1, h2, h3⟩ := hpcs
    by_cases hst : hasStore = true
    · rw [if_pos hst] at hs
      subst hs
      have hnr : ¬ Returned (st.log ++ [(st.now, Ev.stored sd)]) (st.cur t) := by
        rintro ⟨τ, hm⟩
        rcases List.mem_append.mp hm with hm | hm
        · exact h1.open' ⟨τ, hm⟩
        · rw [List.mem_singleton] at hm; cases hm
      refine h.quiet t (.exporting _ sd) [(st.now, .stored sd)] rfl (by simp [About]) (by simp [Quiet])
        (h.legal.snoc h.now.1 h.now.2 ⟨_, h3⟩) (by simp) (by simp) (fun _ _ => rfl) (Nat.le_refl _) rfl rfl rfl rfl
        (by rw [hpc]; exact .keep _ rfl) (by rw [hpc]; exact .keep _ rfl) (.inl rfl) ?_ ?_ (by simp [past]) id
      · refine ⟨⟨h1.made, h1.called.append _, hnr⟩, h2, ?_⟩
        obtain ⟨τ0, k1, k2, _⟩ := h3
        exact ⟨τ0, List.mem_append_left _ k1, k2, hnr⟩
      · rintro id ⟨τ1, k1⟩ ⟨τ2, k2⟩
        rcases List.mem_append.mp k1 with k1 | k1
        · rcases List.mem_append.mp k2 with k2 | k2
          · exact h.ended id ⟨_, k1⟩ ⟨_, k2⟩
          · rw [List.mem_singleton] at k2; cases k2
        · rw [List.mem_singleton] at k1; cases k1
    · rw [if_neg hst] at hs
      subst hs
      exact h.silent t (.exporting _ sd) rfl rfl rfl rfl rfl rfl (by rw [hpc]; exact .keep _ rfl) (by rw [hpc]; exact .keep _ rfl)
        (.inl rfl) ⟨h1.congr rfl rfl, h2, h3⟩ (by simp [past]) id
  | exporting rem sd =>
    rw [hpc] at hs hpcs
    obtain ⟨h1, h2, h3⟩ := hpcs
    cases rem with
    | nil =>
      simp only [Option.some.injEq] at hs
      subst hs
      exact h.silent t .setDone rfl rfl rfl rfl rfl rfl (by rw [hpc]; exact .keep _ rfl) (by rw [hpc]; exact .keep _ rfl)
        (.inl rfl) ⟨h1.congr rfl rfl, h2⟩ (by simp [past]) id
    | cons e0 rem =>
      simp only at hs
      cases he : (e0 :: rem)[c]? with
      | none => rw [he] at hs; cases hs
      | some e =>
        rw [he] at hs
        simp only [Option.some.injEq] at hs
        subst hs
        have hnr : ¬ Returned (st.log ++ [(st.now, Ev.exported e sd)]) (st.cur t) := by
          rintro ⟨τ, hm⟩
          rcases List.mem_append.mp hm with hm | hm
          · exact h1.open' ⟨τ, hm⟩
          · rw [List.mem_singleton] at hm; cases hm
        refine h.quiet t (.exporting _ sd) [(st.now, .exported e sd)] rfl (by simp [About]) (by simp [Quiet])
          (h.legal.snoc h.now.1 h.now.2 ⟨_, h3⟩) (by simp) (by simp) (fun _ _ => rfl) (Nat.le_refl _) rfl rfl rfl rfl
          (by rw [hpc]; exact .keep _ rfl) (by rw [hpc]; exact .keep _ rfl) (.inl rfl) ?_ ?_ (by simp [past]) id
        · refine ⟨⟨h1.made, h1.called.append _, hnr⟩, h2, ?_⟩
          obtain ⟨τ0, k1, k2, _⟩ := h3
          exact ⟨τ0, List.mem_append_left _ k1, k2, hnr⟩
        · rintro id ⟨τ1, k1⟩ ⟨τ2, k2⟩
          rcases List.mem_append.mp k1 with k1 | k1
          · rcases List.mem_append.mp k2 with k2 | k2
            · exact h.ended id ⟨_, k1⟩ ⟨_, k2⟩
            · rw [List.mem_singleton] at k2; cases k2
          · rw [List.mem_singleton] at k1; cases k1
  | setDone =>
    rw [hpc] at hs hpcs
    simp only [Option.some.injEq] at hs
    subst hs
    exact h.silent t .onceUnlock rfl rfl rfl rfl rfl rfl (by rw [hpc]; exact .keep _ rfl) (by rw [hpc]; exact .keep _ rfl)
      (.inr (by rw [hpc]; rfl)) ⟨Open.congr hpcs.1 rfl rfl, rfl⟩ (fun _ => .inl rfl) (fun _ => rfl)
  | onceUnlock =>
    rw [hpc] at hs hpcs
    simp only [Option.some.injEq] at hs
    subst hs
    exact h.ret t hpcs.1 (by simp) (fun _ => hpcs.2) [] (by simp) (by simpa using h.legal) (by simp [St.note, St.goto, St.cur]) rfl rfl rfl rfl rfl
      (by rw [hpc]; exact .keep _ rfl) (by rw [hpc]; exact .release rfl) rfl (by rw [hpc]; rfl)
  | repLock =>
    rw [hpc] at hs hpcs
    simp only at hs
    split at hs
    · next hmu =>
      simp only [Option.some.injEq] at hs
      subst hs
      exact h.silent t .repBody rfl rfl rfl rfl rfl rfl (by rw [hpc]; exact .take hmu rfl) (by rw [hpc]; exact .keep _ rfl)
        (.inl rfl) (Open.congr hpcs rfl rfl) (by rw [hpc]; simp [past]) id
    · cases hs
  | repBody =>
    rw [hpc] at hs hpcs
    simp only at hs
    cases hm : st.data.makeSpanData order with
    | err => rw [hm] at hs; cases hs
    | panic =>
      unfold Rec.makeSpanData at hm
      split at hm <;> simp at hm
    | ok x =>
      obtain ⟨r', sd⟩ := x
      rw [hm] at hs
      simp only [Option.some.injEq] at hs
      subst hs
      exact h.silent t (.repWrite r' sd) rfl rfl rfl rfl rfl rfl (by rw [hpc]; exact .keep _ rfl) (by rw [hpc]; exact .keep _ rfl)
        (.inl rfl) ⟨Open.congr hpcs rfl rfl, order, hm⟩ (by rw [hpc]; simp [past]) id
  | repWrite r sd =>
    rw [hpc] at hs hpcs
    simp only [Option.some.injEq] at hs
    subst hs
    obtain ⟨hpcs, order', hm⟩ := hpcs
    · obtain ⟨hsh, hrec⟩ := shows_of (exact := Unread st.log ∧ ∀ τ w sd, (τ, Ev.snapshot w sd) ∉ st.log) hb h.data
        (fun hu => h.strong hu.1 hu.2) hm
      have htk : tookOf (st.log ++ [(st.now, Ev.copied (st.cur t) sd)]) = tookOf st.log := by
        rw [tookOf_append]; simp [tookOf]
      have ho : Open st t .report := hpcs
      refine h.touch t (.repUnlock sd) (.copied (st.cur t) sd) rfl rfl ⟨ho.called, ho.open', hsh⟩ (by simp) (by simp) rfl rfl rfl
        (htk ▸ hrec) ?_ rfl rfl (by rw [hpc]; rfl) rfl rfl (by rw [hpc]; rfl) rfl ?_ (by rw [hpc]; simp [past]) (by simp)
      · intro k1 _
        exact absurd (List.mem_append_right _ (List.mem_singleton.mpr rfl)) (k1 st.now (st.cur t) sd)
      · refine ⟨⟨ho.made, ho.called.append _, ?_⟩, st.now, List.mem_append_right _ (List.mem_singleton.mpr rfl)⟩
        rintro ⟨τ, hm⟩
        rcases List.mem_append.mp hm with hm | hm
        · exact ho.open' ⟨τ, hm⟩
        · rw [List.mem_singleton] at hm; cases hm
  | repUnlock sd =>
    rw [hpc] at hs hpcs
    simp only [Option.some.injEq] at hs
    subst hs
    obtain ⟨h1, τ0, h2⟩ := hpcs
    refine h.ret t h1 (by simp) (by simp) [(st.now, .reported (st.cur t) sd)] ?_
      (h.legal.snoc h.now.1 h.now.2 ⟨τ0, h2⟩) (by simp [St.note, St.goto, St.cur]) rfl rfl rfl rfl rfl
      (by rw [hpc]; exact .release rfl) (by rw [hpc]; exact .keep _ rfl) rfl (by rw [hpc]; rfl)
    intro x hx
    rw [List.mem_singleton] at hx; subst hx
    exact ⟨rfl, trivial, rfl, by simp, by simp⟩

theorem inv_move {st st' : St} {sampled hasStore : Bool} (hb : Blank d0) (h : Inv d0 lim t0 st) (m : Move)
    (hs : move sampled hasStore st m = some st') : Inv d0 lim t0 st' := by
  cases m with
  | step t c order => exact inv_step hb h t c order hs
  | tick d =>
    simp only [move, Option.some.injEq] at hs
    subst hs
    have hle : st.now ≤ st.now + (d : Int) := by omega
    refine ⟨h.legal, h.ids, ⟨Int.le_trans h.now.1 hle, fun x hx => Int.le_trans (h.now.2 x hx) hle⟩, h.crashed, h.data, h.strong,
      h.mu, h.once, ?_, h.ended, h.snap⟩
    intro u
    exact pcinv_other (t := u + 1) (evs := []) (by omega) (h.pcs u) (by simp) (by simp) rfl hle (fun _ => rfl) (fun _ => rfl)
  | exporters l =>
    simp only [move, Option.some.injEq] at hs
    subst hs
    refine ⟨h.legal, h.ids, h.now, h.crashed, h.data, h.strong, h.mu, h.once, ?_, h.ended, h.snap⟩
    intro u
    exact pcinv_other (t := u + 1) (evs := []) (by omega) (h.pcs u) (by simp) (by simp) rfl (Int.le_refl _) (fun _ => rfl) (fun _ => rfl)

theorem inv_run {sampled hasStore : Bool} (hb : Blank d0) : ∀ (ms : List Move) (st st' : St), Inv d0 lim t0 st →
    run sampled hasStore st ms = some st' → Inv d0 lim t0 st'
  | [], st, st', h, hr => by cases hr; exact h
  | m :: ms, st, st', h, hr => by
    simp only [SpanConc.run] at hr
    cases hm : move sampled hasStore st m with
    | none => rw [hm] at hr; cases hr
    | some st1 =>
      rw [hm] at hr
      exact inv_run hb ms st1 st' (inv_move hb h m hm) hr

theorem inv_init (hd : Started d0 lim t0) (exps : List Exporter) (programs : Nat → List Call) :
    Inv d0 lim t0 (init d0 lim t0 exps programs) := by
  refine ⟨Legal.nil _ _ _, by simp [init], ⟨Int.le_refl _, by simp [init]⟩, rfl, ?_, ?_, by simp [init, inMu], by simp [init, inOnce],
    fun t => trivial, ?_, by simp [init]⟩
  · exact ⟨⟨qinv_new hd.annotations, qinv_new hd.messageEvents, qinv_new hd.links, ainv_new hd.attributes⟩, rfl, rfl, rfl, rfl, rfl, rfl,
      hd.children.trans (by simp [init, tookOf, children, wrap64]), rfl⟩
  · intro _ _; exact astrong_new _
  · rintro id ⟨τ, h⟩; simp [init] at h

end

/-! ## C70 -/

/-- The calls `l` took effect one at a time, in an order in which a call that had returned before another was
made comes first; those that carry a time read it between being made and returning. -/
structure Serial (t0 : Int) (log : List (Int × Ev)) (l : List Took) : Prop where
  once : (l.map Prod.fst).Nodup
  calls : ∀ x ∈ l, Called log x.1 (.mutate x.2.1)
  order : ∀ l1 a l2 b, l = l1 ++ a :: l2 → b ∈ l2 → ¬ Earlier log b.1 a.1
  stamps : ∀ x ∈ l, x.2.1.timed = true → t0 ≤ x.2.2 ∧ (∀ τ c, (τ, Ev.called x.1 c) ∈ log → τ ≤ x.2.2) ∧
    ∀ τ, (τ, Ev.returned x.1) ∈ log → x.2.2 ≤ τ

section
variable {d0 : SpanData} {lim : Config} {t0 : Int}

theorem Legal.called_at {log : List (Int × Ev)} (h : Legal d0 lim t0 log) {id : Id} {c c' : Call} {τ τ' : Int}
    (h1 : (τ, Ev.called id c) ∈ log) (h2 : (τ', Ev.called id c') ∈ log) : τ = τ' ∧ c = c' := by
  obtain ⟨p, q, e⟩ := mem_split h1
  have k := h.pre _ _ _ e
  obtain ⟨p', q', e'⟩ := mem_split h2
  have k' := h.pre _ _ _ e'
  rw [e] at e'
  rcases List.append_eq_append_iff.mp e' with ⟨as, h3, h4⟩ | ⟨as, h3, h4⟩
  · cases as with
    | nil => simp only [List.nil_append, List.cons.injEq, Prod.mk.injEq, Ev.called.injEq] at h4; exact ⟨h4.1.1, h4.1.2.2⟩
    | cons a as =>
      simp only [List.cons_append, List.cons.injEq] at h4
      exact absurd ⟨τ, by rw [h3, ← h4.1]; simp⟩ (k' c)
  · cases as with
    | nil => simp only [List.nil_append, List.cons.injEq, Prod.mk.injEq, Ev.called.injEq] at h4; exact ⟨h4.1.1.symm, h4.1.2.2.symm⟩
    | cons a as =>
      simp only [List.cons_append, List.cons.injEq] at h4
      exact absurd ⟨τ', by rw [h3, ← h4.1]; simp⟩ (k c')

theorem Legal.serial {log p q : List (Int × Ev)} (h : Legal d0 lim t0 log) (e : log = p ++ q) : Serial t0 log (tookOf p) := by
  have hp : Legal d0 lim t0 p := Legal.prefix (q := q) (by rw [← e]; exact h)
  have key : ∀ x ∈ tookOf p, ∃ p1 q1 τ, p = p1 ++ (τ, Ev.applied x.1 x.2.1 x.2.2) :: q1 := by
    intro x hx
    obtain ⟨τ, hm⟩ := mem_tookOf.mp hx
    obtain ⟨p1, q1, e1⟩ := mem_split hm
    exact ⟨p1, q1, τ, e1⟩
  refine ⟨hp.took_nodup, ?_, fun l1 a l2 b hl hb => h.order e hl hb, ?_⟩
  · intro x hx
    obtain ⟨p1, q1, τ, e1⟩ := key x hx
    obtain ⟨⟨τ0, hc, _⟩, _⟩ := hp.pre _ _ _ e1
    exact ⟨τ0, by rw [e, e1]; simp [hc]⟩
  · intro x hx ht
    obtain ⟨p1, q1, τ, e1⟩ := key x hx
    obtain ⟨⟨τ0, hc, hs⟩, hr, _⟩ := hp.pre _ _ _ e1
    have hlog : log = p1 ++ (τ, Ev.applied x.1 x.2.1 x.2.2) :: (q1 ++ q) := by rw [e, e1]; simp
    have hc' : (τ0, Ev.called x.1 (.mutate x.2.1)) ∈ log := by rw [hlog]; simp [hc]
    refine ⟨Int.le_trans (h.start _ hc') (hs ht).1, ?_, ?_⟩
    · intro τ' c hm
      rw [(h.called_at hm hc').1]; exact (hs ht).1
    · intro τ' hm
      rw [hlog, List.mem_append, List.mem_cons] at hm
      rcases hm with hm | hm | hm
      · exact absurd ⟨τ', hm⟩ hr
      · cases hm
      · have hpw := h.times
        rw [hlog, List.pairwise_append] at hpw
        exact Int.le_trans (hs ht).2 ((List.pairwise_cons.mp hpw.2.1).1 _ hm)

/-- A call that had returned before `b` was made took effect in any part of the log in which `b` was made. -/
theorem Legal.takes {log p q : List (Int × Ev)} (h : Legal d0 lim t0 log) (e : log = p ++ q) {a b : Id} {m : Mut} {c : Call}
    (hb : Called p b c) (ha : Called log a (.mutate m)) (hab : Earlier log a b) : ∃ now, (a, m, now) ∈ tookOf p := by
  obtain ⟨p', q', τ, τ', c', e1, hr⟩ := hab
  obtain ⟨r, hp⟩ := h.call_before e1 e hb
  obtain ⟨s1, s2, e2⟩ := mem_split hr
  have hlog : log = s1 ++ (τ', Ev.returned a) :: (s2 ++ (τ, .called b c') :: q') := by rw [e1, e2]; simp
  obtain ⟨⟨c2, ⟨τ2, hc2⟩, happ⟩, _⟩ := h.pre _ _ _ hlog
  obtain ⟨τm, ha⟩ := ha
  have hc2' : (τ2, Ev.called a c2) ∈ log := by rw [hlog]; simp [hc2]
  obtain ⟨_, rfl⟩ := h.called_at hc2' ha
  obtain ⟨τ3, m3, now, h3⟩ := happ m rfl
  obtain ⟨u1, u2, e3⟩ := mem_split h3
  obtain ⟨⟨τ4, h4, _⟩, _⟩ := h.pre u1 (τ3, Ev.applied a m3 now) (u2 ++ (τ', Ev.returned a) :: (s2 ++ (τ, .called b c') :: q'))
    (by rw [hlog, e3]; simp)
  have h4' : (τ4, Ev.called a (.mutate m3)) ∈ log := by rw [hlog, e3]; simp [h4]
  obtain ⟨_, hm⟩ := h.called_at h4' ha
  cases hm
  exact ⟨now, mem_tookOf.mpr ⟨τ3, by rw [hp, e2]; simp [h3]⟩⟩

/-- A call made after `b` returned did not take effect in a part of the log in which `b` had not returned. -/
theorem Legal.not_takes {log p q : List (Int × Ev)} (h : Legal d0 lim t0 log) (e : log = p ++ q) {x : Took} {b : Id}
    (hx : x ∈ tookOf p) (hb : ¬ Returned p b) : ¬ Earlier log b x.1 := by
  rintro ⟨p', q', τ, τ', c', e1, hr⟩
  obtain ⟨τ1, hm⟩ := mem_tookOf.mp hx
  obtain ⟨p1, q1, e2⟩ := mem_split hm
  have hp : Legal d0 lim t0 p := Legal.prefix (q := q) (by rw [← e]; exact h)
  obtain ⟨⟨τ0, hc, _⟩, _⟩ := hp.pre _ _ _ e2
  obtain ⟨r, hr'⟩ := h.call_before e1 e (c' := .mutate x.2.1) ⟨τ0, by rw [e2]; simp [hc]⟩
  exact hb ⟨τ', by rw [hr']; simp [hr]⟩

/-- What `End` hands to exporters and to the span store. -/
def Delivered (log : List (Int × Ev)) (τ : Int) (sd : SpanData) : Prop :=
  (τ, Ev.stored sd) ∈ log ∨ ∃ e, (τ, Ev.exported e sd) ∈ log

/-- A span used by any number of goroutines: what is exported is what the span shows after some of the
calls, made one after the other in an order that agrees with real time. A call that had returned when the
`End` that exports was made is among them, one made after any `End` had returned is not. The times recorded
lie between the call and its return, and between the start and the end of the span. -/
theorem exported_linearizable (hd : Started d0 lim t0) {sampled hasStore : Bool} {exps : List Exporter}
    {programs : Nat → List Call} {ms : List Move} {st : St}
    (hr : SpanConc.run sampled hasStore (init d0 lim t0 exps programs) ms = some st) {τ : Int} {sd : SpanData}
    (hx : Delivered st.log τ sd) :
    ∃ (l : List Took) (w : Id), Serial t0 st.log l ∧ Called st.log w .endSpan ∧
      Shows d0 lim l (∀ id, ¬ Called st.log id .report) sd ∧
      (∀ a m, Called st.log a (.mutate m) → Earlier st.log a w → ∃ now, (a, m, now) ∈ l) ∧
      (∀ x ∈ l, ∀ b, Called st.log b .endSpan → ¬ Earlier st.log b x.1) ∧
      (∀ x ∈ l, x.2.1.timed = true → sd.startTime ≤ x.2.2 ∧ x.2.2 ≤ sd.endTime) ∧
      sd.startTime ≤ sd.endTime ∧ sd.endTime ≤ τ ∧
      (∀ τ' c, (τ', Ev.called w c) ∈ st.log → τ' ≤ sd.endTime) ∧
      ∀ τ', (τ', Ev.returned w) ∈ st.log → sd.endTime ≤ τ' := by
  have hinv := inv_run hd.blank ms _ _ (inv_init hd exps programs) hr
  have h := hinv.legal
  -- the event at which the end time was read
  obtain ⟨w, p0, τ0, q0, hτ0, e0⟩ : ∃ w p0 τ0 q0, τ0 ≤ τ ∧ st.log = p0 ++ (τ0, Ev.ended w sd) :: q0 := by
    have : ∃ p ev q, st.log = p ++ (τ, ev) :: q ∧ ∃ w, Final p τ w sd := by
      rcases hx with hx | ⟨e, hx⟩
      · obtain ⟨p, q, e1⟩ := mem_split hx
        exact ⟨p, _, q, e1, h.pre _ _ _ e1⟩
      · obtain ⟨p, q, e1⟩ := mem_split hx
        exact ⟨p, _, q, e1, h.pre _ _ _ e1⟩
    obtain ⟨p, ev, q, e1, w, τ0, h1, h2, _⟩ := this
    obtain ⟨p0, q0, e2⟩ := mem_split h1
    exact ⟨w, p0, τ0, q0 ++ (τ, ev) :: q, h2, by rw [e1, e2]; simp⟩
  obtain ⟨⟨τ1, sd1, h1, hsd⟩, hnr, _⟩ := h.pre _ _ _ e0
  obtain ⟨p, q, e1⟩ := mem_split h1
  have elog : st.log = p ++ ((τ1, Ev.snapshot w sd1) :: q ++ (τ0, Ev.ended w sd) :: q0) := by rw [e0, e1]; simp
  obtain ⟨hw, _, hend, _, hsh⟩ := h.pre p (τ1, Ev.snapshot w sd1) (q ++ (τ0, Ev.ended w sd) :: q0) (by rw [elog]; simp)
  have hpw := h.times
  rw [elog, List.pairwise_append] at hpw
  have hmem : ∀ {x}, x ∈ p → x ∈ st.log := fun hx => by rw [elog]; exact List.mem_append_left _ hx
  have hend0 : sd.endTime = τ0 := by rw [hsd]; simp only [finalData, monotonicEndTime]; omega
  have hfix := hsh.fixed
  have hstart : sd.startTime = t0 := by rw [hsd, ← hd.time]; exact hfix.2.1
  have hser := h.serial elog
  have hτ1 : τ1 ≤ τ0 := (List.pairwise_cons.mp hpw.2.1).1 (τ0, Ev.ended w sd) (by simp)
  obtain ⟨τw, hwc⟩ := hw
  refine ⟨tookOf p, w, hser, ⟨τw, hmem hwc⟩, ?_, ?_, ?_, ?_, ?_, by rw [hend0]; exact hτ0, ?_, ?_⟩
  · rw [hsd]
    have hex : (∀ id, ¬ Called st.log id .report) → Unread p := by
      intro hno τ' id sd' hm
      obtain ⟨u1, u2, e2⟩ := mem_split hm
      obtain ⟨⟨τ2, h2⟩, _⟩ := h.pre u1 (τ', Ev.copied id sd') (u2 ++ ((τ1, Ev.snapshot w sd1) :: q ++ (τ0, Ev.ended w sd) :: q0)) (by rw [elog, e2]; simp)
      exact hno id ⟨τ2, hmem (by rw [e2]; simp [h2])⟩
    obtain ⟨a1, a2, a3, a4, a5, a6, a7, a8, a9, a10, a11, a12, a13, a14, a15⟩ := hsh
    exact ⟨a1, a2, a3, a4, a5, a6, a7, a8, a9, fun hno => a10 (hex hno), fun hno => a11 (hex hno), a12, a13, a14, a15⟩
  · intro a m ha hab
    exact h.takes elog ⟨τw, hwc⟩ ha hab
  · intro x hx b hb hbx
    refine h.not_takes elog hx (fun hrb => ?_) hbx
    obtain ⟨τb, hrb'⟩ := hrb
    obtain ⟨u1, u2, e2⟩ := mem_split hrb'
    obtain ⟨⟨c, ⟨τc, hc⟩, _⟩, _⟩ := h.pre u1 (τb, Ev.returned b) (u2 ++ ((τ1, Ev.snapshot w sd1) :: q ++ (τ0, Ev.ended w sd) :: q0)) (by rw [elog, e2]; simp)
    have hcp : (τc, Ev.called b c) ∈ p := by rw [e2]; simp [hc]
    obtain ⟨τe, he⟩ := hb
    obtain ⟨_, rfl⟩ := h.called_at (hmem hcp) he
    exact hend b ⟨τb, hrb'⟩ ⟨τc, hcp⟩
  · intro x hx ht
    rw [hstart, hend0]
    obtain ⟨τa, ha⟩ := mem_tookOf.mp hx
    refine ⟨(hser.stamps x hx ht).1, ?_⟩
    obtain ⟨u1, u2, e2⟩ := mem_split ha
    obtain ⟨⟨_, _, hs⟩, _⟩ := h.pre u1 (τa, Ev.applied x.1 x.2.1 x.2.2) (u2 ++ ((τ1, Ev.snapshot w sd1) :: q ++ (τ0, Ev.ended w sd) :: q0)) (by rw [elog, e2]; simp)
    exact Int.le_trans (hs ht).2 (Int.le_trans (hpw.2.2 _ ha (τ1, Ev.snapshot w sd1) (by simp)) hτ1)
  · rw [hstart, hend0]; exact h.start (τ0, Ev.ended w sd) (by rw [e0]; simp)
  · intro τ' c hm
    rw [hend0, (h.called_at hm (hmem hwc)).1]
    exact Int.le_trans (hpw.2.2 _ hwc (τ1, Ev.snapshot w sd1) (by simp)) hτ1
  · intro τ' hm
    rw [hend0]
    have hpw0 := h.times
    rw [e0, List.pairwise_append] at hpw0
    rw [e0, List.mem_append, List.mem_cons] at hm
    rcases hm with hm | hm | hm
    · exact absurd ⟨τ', hm⟩ hnr
    · cases hm
    · exact (List.pairwise_cons.mp hpw0.2.1).1 _ hm

/-- Everything that is exported or stored for a span is the same data. -/
theorem exported_same (hd : Started d0 lim t0) {sampled hasStore : Bool} {exps : List Exporter}
    {programs : Nat → List Call} {ms : List Move} {st : St}
    (hr : SpanConc.run sampled hasStore (init d0 lim t0 exps programs) ms = some st) {τ τ' : Int} {sd sd' : SpanData}
    (hx : Delivered st.log τ sd) (hx' : Delivered st.log τ' sd') : sd = sd' := by
  have h := (inv_run hd.blank ms _ _ (inv_init hd exps programs) hr).legal
  have key : ∀ τ sd, Delivered st.log τ sd → ∃ τ0 w, (τ0, Ev.ended w sd) ∈ st.log ∧ ∃ τ1 sd1, (τ1, Ev.snapshot w sd1) ∈ st.log := by
    intro τ sd hx
    have : ∃ p ev q, st.log = p ++ (τ, ev) :: q ∧ ∃ w, Final p τ w sd := by
      rcases hx with hx | ⟨e, hx⟩
      · obtain ⟨p, q, e1⟩ := mem_split hx
        exact ⟨p, _, q, e1, h.pre _ _ _ e1⟩
      · obtain ⟨p, q, e1⟩ := mem_split hx
        exact ⟨p, _, q, e1, h.pre _ _ _ e1⟩
    obtain ⟨p, ev, q, e1, w, τ0, h1, h2, _⟩ := this
    have h1' : (τ0, Ev.ended w sd) ∈ st.log := by rw [e1]; simp [h1]
    obtain ⟨p0, q0, e2⟩ := mem_split h1'
    obtain ⟨⟨τ1, sd1, h3, _⟩, _⟩ := h.pre _ _ _ e2
    exact ⟨τ0, w, h1', τ1, sd1, by rw [e2]; simp [h3]⟩
  have two : ∀ (P : (Int × Ev) → Prop) (hP : ∀ p x q, st.log = p ++ x :: q → P x → ∀ y ∈ p, ¬ P y) (x y : Int × Ev),
      x ∈ st.log → y ∈ st.log → P x → P y → x = y := by
    intro P hP x y h1 h2 px py
    obtain ⟨p, q, e⟩ := mem_split h1
    obtain ⟨p', q', e'⟩ := mem_split h2
    have k := hP _ _ _ e px
    have k' := hP _ _ _ e' py
    rw [e] at e'
    rcases List.append_eq_append_iff.mp e' with ⟨as, h3, h4⟩ | ⟨as, h3, h4⟩
    · cases as with
      | nil => simp only [List.nil_append, List.cons.injEq] at h4; exact h4.1
      | cons a as =>
        simp only [List.cons_append, List.cons.injEq] at h4
        exact absurd px (k' x (by rw [h3, ← h4.1]; simp))
    · cases as with
      | nil => simp only [List.nil_append, List.cons.injEq] at h4; exact h4.1.symm
      | cons a as =>
        simp only [List.cons_append, List.cons.injEq] at h4
        exact absurd py (k y (by rw [h3, ← h4.1]; simp))
  obtain ⟨τ0, w, h1, τ1, sd1, h2⟩ := key _ _ hx
  obtain ⟨τ0', w', h1', τ1', sd1', h2'⟩ := key _ _ hx'
  have hs := two (fun x => ∃ w sd, x.2 = Ev.snapshot w sd) (by
    rintro p ⟨τx, ev⟩ q e ⟨w, sd, rfl⟩ ⟨τy, evy⟩ hy ⟨w2, sd2, rfl⟩
    exact (h.pre _ _ _ e).2.2.2.1 _ _ _ hy) _ _ h2 h2' ⟨_, _, rfl⟩ ⟨_, _, rfl⟩
  simp only [Prod.mk.injEq, Ev.snapshot.injEq] at hs
  obtain ⟨_, rfl, _⟩ := hs
  have he := two (fun x => ∃ sd, x.2 = Ev.ended w sd) (by
    rintro p ⟨τx, ev⟩ q e ⟨sd, rfl⟩ ⟨τy, evy⟩ hy ⟨sd2, rfl⟩
    exact (h.pre _ _ _ e).2.2 ⟨_, _, hy⟩) _ _ h1 h1' ⟨_, rfl⟩ ⟨_, rfl⟩
  simp only [Prod.mk.injEq, Ev.ended.injEq] at he
  exact he.2.2

/-- What `ReportActiveSpans` shows of the span is, too, what it shows after some of the calls in an order that
agrees with real time: all that had returned when the report was asked for, none made after it returned. -/
theorem reported_linearizable (hd : Started d0 lim t0) {sampled hasStore : Bool} {exps : List Exporter}
    {programs : Nat → List Call} {ms : List Move} {st : St}
    (hr : SpanConc.run sampled hasStore (init d0 lim t0 exps programs) ms = some st) {τ : Int} {id : Id} {sd : SpanData}
    (hx : (τ, Ev.reported id sd) ∈ st.log) :
    ∃ l : List Took, Serial t0 st.log l ∧ Called st.log id .report ∧ Shows d0 lim l False sd ∧
      (∀ a m, Called st.log a (.mutate m) → Earlier st.log a id → ∃ now, (a, m, now) ∈ l) ∧
      ∀ x ∈ l, ¬ Earlier st.log id x.1 := by
  have h := (inv_run hd.blank ms _ _ (inv_init hd exps programs) hr).legal
  obtain ⟨p0, q0, e0⟩ := mem_split hx
  obtain ⟨τ1, h1⟩ := h.pre _ _ _ e0
  obtain ⟨p, q, e1⟩ := mem_split h1
  have elog : st.log = p ++ ((τ1, Ev.copied id sd) :: q ++ (τ, Ev.reported id sd) :: q0) := by rw [e0, e1]; simp
  obtain ⟨hc, hnr, hsh⟩ := h.pre p (τ1, Ev.copied id sd) (q ++ (τ, Ev.reported id sd) :: q0) (by rw [elog]; simp)
  obtain ⟨a1, a2, a3, a4, a5, a6, a7, a8, a9, a10, a11, a12, a13, a14, a15⟩ := hsh
  exact ⟨tookOf p, h.serial elog, by obtain ⟨τc, hc⟩ := hc; exact ⟨τc, by rw [elog]; simp [hc]⟩,
    ⟨a1, a2, a3, a4, a5, a6, a7, a8, a9, fun hf => hf.elim, fun hf => hf.elim, a12, a13, a14, a15⟩,
    fun a m ha hab => h.takes elog hc ha hab, fun x hx' => h.not_takes elog hx' hnr⟩

/-- No call panics. -/
theorem never_crashes (hd : Started d0 lim t0) {sampled hasStore : Bool} {exps : List Exporter}
    {programs : Nat → List Call} {ms : List Move} {st : St}
    (hr : SpanConc.run sampled hasStore (init d0 lim t0 exps programs) ms = some st) : st.crashed = false :=
  (inv_run hd.blank ms _ _ (inv_init hd exps programs) hr).crashed

/-- The holder of the span's mutex can go on. -/
theorem Inv.mu_step {st : St} (h : Inv d0 lim t0 st) {t : Nat} (ht : st.mu = some t) (sampled hasStore : Bool) :
    ∃ order st', SpanConc.step sampled hasStore st t 0 order = some st' := by
  have hm := (h.mu t).mpr ht
  have hc : ¬ st.crashed = true := by rw [h.crashed]; simp
  have hsnap : ∃ r sd, st.data.makeSpanData (GoMap.keys st.data.attrs.cacheKeys) = .ok (r, sd) := by
    unfold Rec.makeSpanData
    rw [if_neg (by simp [List.isPerm_iff])]
    exact ⟨_, _, rfl⟩
  obtain ⟨r, sd, hs⟩ := hsnap
  refine ⟨GoMap.keys st.data.attrs.cacheKeys, ?_⟩
  unfold SpanConc.step
  rw [if_neg hc]
  cases hp : st.pc t <;> rw [hp] at hm <;> simp only [inMu, Bool.false_eq_true] at hm
  · rename_i m now
    obtain ⟨r', h1, _⟩ := apply_ok h.data (st.cur t, m, now)
    simp only at h1
    simp only [h1]
    exact ⟨_, rfl⟩
  all_goals first
    | exact ⟨_, rfl⟩
    | (simp only [hs]; exact ⟨_, rfl⟩)

/-- The calls do not block each other for ever: as long as a call is under way or still to be made, some
goroutine can go on. -/
theorem no_deadlock (hd : Started d0 lim t0) {sampled hasStore : Bool} {exps : List Exporter}
    {programs : Nat → List Call} {ms : List Move} {st : St}
    (hr : SpanConc.run sampled hasStore (init d0 lim t0 exps programs) ms = some st) {t : Nat}
    (ht : st.pc t ≠ .idle ∨ st.todo t ≠ []) : ∃ u order st', SpanConc.step sampled hasStore st u 0 order = some st' := by
  have h := inv_run hd.blank ms _ _ (inv_init hd exps programs) hr
  have hc : ¬ st.crashed = true := by rw [h.crashed]; simp
  cases hmu : st.mu with
  | some u => obtain ⟨order, st', hs⟩ := h.mu_step hmu sampled hasStore; exact ⟨u, order, st', hs⟩
  | none =>
    have hno : ∀ u, inMu (st.pc u) = false := fun u => by
      cases hi : inMu (st.pc u) with
      | false => rfl
      | true => rw [(h.mu u).mp hi] at hmu; cases hmu
    -- a goroutine not waiting for the lock of Once can go on
    have go : ∀ u, (st.pc u ≠ .idle ∨ st.todo u ≠ []) → (st.pc u = .onceLock → st.once = none) →
        ∃ st', SpanConc.step sampled hasStore st u 0 [] = some st' := by
      intro u hu ho
      have hi := hno u
      unfold SpanConc.step
      rw [if_neg hc]
      cases hp : st.pc u <;> rw [hp] at hi ho hu <;> simp only [inMu, Bool.true_eq_false] at hi
      case idle =>
        cases htd : st.todo u with
        | nil => simp [htd] at hu
        | cons call rest => cases call <;> exact ⟨_, rfl⟩
      case onceLock => simp only [ho rfl, if_true]; exact ⟨_, rfl⟩
      case fast => simp only; split <;> exact ⟨_, rfl⟩
      case exporting rem sd => cases rem <;> exact ⟨_, rfl⟩
      all_goals first
        | exact ⟨_, rfl⟩
        | (simp only [hmu, if_true]; exact ⟨_, rfl⟩)
    cases hon : st.once with
    | none => obtain ⟨st', hs⟩ := go t ht (fun _ => hon); exact ⟨t, [], st', hs⟩
    | some u =>
      have hi := (h.once u).mpr hon
      obtain ⟨st', hs⟩ := go u (.inl (fun hp => by rw [hp] at hi; cases hi)) (fun hp => by rw [hp] at hi; cases hi)
      exact ⟨u, [], st', hs⟩

theorem mem_addsOf_anns {l : List Took} {a : Annotation} (h : a ∈ (addsOf l).anns) :
    ∃ x ∈ l, x.2.1.timed = true ∧ x.2.2 = a.time := by
  induction l with
  | nil => simp [addsOf, Adds.none] at h
  | cons x l ih =>
    obtain ⟨id, m, now⟩ := x
    rw [addsOf, (Adds.append_fields _ _).1, List.mem_append] at h
    rcases h with h | h
    · refine ⟨_, List.mem_cons_self, ?_⟩
      cases m <;> simp [mutAdds, Adds.none] at h
      subst h; exact ⟨rfl, rfl⟩
    · obtain ⟨y, hy, h1⟩ := ih h
      exact ⟨y, List.mem_cons_of_mem _ hy, h1⟩

/-- The exported annotations are in the order of their times, provided no two of the calls that carry a time
overlap. -/
theorem annotations_sorted (hd : Started d0 lim t0) {sampled hasStore : Bool} {exps : List Exporter}
    {programs : Nat → List Call} {ms : List Move} {st : St}
    (hr : SpanConc.run sampled hasStore (init d0 lim t0 exps programs) ms = some st) {τ : Int} {sd : SpanData}
    (hx : Delivered st.log τ sd)
    (hno : ∀ a b m m', Called st.log a (.mutate m) → Called st.log b (.mutate m') → m.timed = true → m'.timed = true → a ≠ b →
      Earlier st.log a b ∨ Earlier st.log b a) : sd.annotations.Pairwise (fun a b => a.time ≤ b.time) := by
  have h := (inv_run hd.blank ms _ _ (inv_init hd exps programs) hr).legal
  obtain ⟨l, w, hser, _, hsh, _⟩ := exported_linearizable hd hr hx
  rw [hsh.anns]
  apply List.Pairwise.drop
  suffices ∀ l1 l2, l = l1 ++ l2 → (addsOf l2).anns.Pairwise (fun a b => a.time ≤ b.time) from this [] l rfl
  intro l1 l2
  induction l2 generalizing l1 with
  | nil => intro _; simp [addsOf, Adds.none]
  | cons x l2 ih =>
    intro e
    rw [addsOf, (Adds.append_fields _ _).1, List.pairwise_append]
    refine ⟨?_, ih (l1 ++ [x]) (by rw [e]; simp), ?_⟩
    · obtain ⟨id, m, now⟩ := x
      cases m <;> simp [mutAdds, Adds.none]
    · intro a ha b hb
      obtain ⟨y, hy, hyt, hyb⟩ := mem_addsOf_anns hb
      have hxt : x.2.1.timed = true ∧ a.time = x.2.2 := by
        obtain ⟨id, m, now⟩ := x
        cases m <;> simp [mutAdds, Adds.none] at ha
        subst ha; exact ⟨rfl, rfl⟩
      have hxl : x ∈ l := by rw [e]; simp
      have hyl : y ∈ l := by rw [e]; simp [hy]
      have hne : x.1 ≠ y.1 := by
        have hn := hser.once
        rw [e, List.map_append, List.nodup_append, List.map_cons, List.nodup_cons] at hn
        exact fun hc => hn.2.1.1 (by rw [hc]; exact List.mem_map_of_mem hy)
      have hxy : Earlier st.log x.1 y.1 :=
        (hno _ _ _ _ (hser.calls x hxl) (hser.calls y hyl) hxt.1 hyt hne).resolve_right (hser.order l1 x l2 y e hy)
      rw [hxt.2, ← hyb]
      obtain ⟨p', q', τ1, τ2, c, e1, h1⟩ := hxy
      have h2 := (hser.stamps x hxl hxt.1).2.2 τ2 (by rw [e1]; simp [h1])
      have h3 := (hser.stamps y hyl hyt).2.1 τ1 c (by rw [e1]; simp)
      have hpw := h.times
      rw [e1, List.pairwise_append] at hpw
      exact Int.le_trans h2 (Int.le_trans (hpw.2.2 _ h1 (τ1, Ev.called y.1 c) (by simp)) h3)

end

/-! ### The calls of one goroutine -/

/-- What a step does to the calls. -/
inductive Shape (st st' : St) (t : Nat) : Prop where
  | call (c : Call) (p : PC) (hp : p ≠ .idle) (hi : st.pc t = .idle)
      (hl : st'.log = st.log ++ [(st.now, .called (t, st.made t) c)]) (hm : st'.made = upd st.made t (st.made t + 1))
      (hpc : st'.pc = upd st.pc t p)
  | inside (p : PC) (hp : p ≠ .idle) (hi : st.pc t ≠ .idle) (evs : List (Int × Ev))
      (hl : st'.log = st.log ++ evs) (he : ∀ x ∈ evs, ∀ id c, x.2 ≠ .called id c) (hm : st'.made = st.made)
      (hpc : st'.pc = upd st.pc t p)
  | ret (hi : st.pc t ≠ .idle) (evs : List (Int × Ev)) (hl : st'.log = st.log ++ evs)
      (hr : (st.now, Ev.returned (st.cur t)) ∈ evs) (he : ∀ x ∈ evs, ∀ id c, x.2 ≠ .called id c) (hm : st'.made = st.made)
      (hpc : st'.pc = upd st.pc t .idle)

theorem upd_self {α : Type} (f : Nat → α) (t : Nat) : f = upd f t (f t) := by
  funext u; unfold upd; split
  · rename_i h; rw [h]
  · rfl

theorem step_shape {st st' : St} {sampled hasStore : Bool} {t c : Nat} {order : List Bytes}
    (hs : SpanConc.step sampled hasStore st t c order = some st') : Shape st st' t := by
  unfold SpanConc.step at hs
  split at hs
  · cases hs
  have stay : st.pc t ≠ .idle → Shape st { st with crashed := true } t := fun hi =>
    .inside (st.pc t) hi hi [] (by simp) (by simp) rfl (upd_self _ _)
  cases hp : st.pc t with
  | idle =>
    rw [hp] at hs
    cases htd : st.todo t with
    | nil => rw [htd] at hs; cases hs
    | cons call rest =>
      rw [htd] at hs
      cases call with
      | mutate m => cases hs; exact .call (.mutate m) (if m.timed then .clock m else .lock m 0) (by split <;> simp) hp rfl rfl rfl
      | endSpan => cases hs; exact .call .endSpan .fast (by simp) hp rfl rfl rfl
      | report => cases hs; exact .call .report .repLock (by simp) hp rfl rfl rfl
  | clock m => rw [hp] at hs; cases hs; exact .inside (.lock m st.now) (by simp) (by simp [hp]) [] (by simp [St.goto]) (by simp) rfl rfl
  | lock m now =>
    rw [hp] at hs; simp only at hs; split at hs <;> cases hs
    exact .inside (.body m now) (by simp) (by simp [hp]) [] (by simp [St.goto]) (by simp) rfl rfl
  | body m now =>
    rw [hp] at hs; simp only at hs
    cases ha : m.apply now st.data with
    | ok r => rw [ha] at hs; cases hs; exact .inside (.write m now r) (by simp) (by simp [hp]) [] (by simp [St.goto]) (by simp) rfl rfl
    | err => rw [ha] at hs; cases hs; exact stay (by simp [hp])
    | panic => rw [ha] at hs; cases hs; exact stay (by simp [hp])
  | write m now r => rw [hp] at hs; cases hs; exact .inside .unlock (by simp) (by simp [hp]) [_] rfl (by simp) rfl rfl
  | unlock => rw [hp] at hs; cases hs; exact .ret (by simp [hp]) [_] rfl (by simp [St.cur]) (by simp) rfl rfl
  | fast =>
    rw [hp] at hs; simp only at hs; split at hs <;> cases hs
    · exact .ret (by simp [hp]) [_] rfl (by simp) (by simp) rfl rfl
    · exact .inside .onceLock (by simp) (by simp [hp]) [] (by simp [St.goto]) (by simp) rfl rfl
  | onceLock =>
    rw [hp] at hs; simp only at hs; split at hs <;> cases hs
    exact .inside .check (by simp) (by simp [hp]) [] (by simp [St.goto]) (by simp) rfl rfl
  | check =>
    rw [hp] at hs; cases hs
    exact .inside (if st.done then .onceUnlock else .load) (by split <;> simp) (by simp [hp]) [] (by simp [St.goto]) (by simp) rfl rfl
  | load =>
    rw [hp] at hs; cases hs
    refine .inside _ ?_ (by simp [hp]) [] (by simp [St.goto]) (by simp) rfl rfl
    split <;> simp
  | snapLock exp must =>
    rw [hp] at hs; simp only at hs; split at hs <;> cases hs
    exact .inside (.snap exp must) (by simp) (by simp [hp]) [] (by simp [St.goto]) (by simp) rfl rfl
  | snap exp must =>
    rw [hp] at hs; simp only at hs
    cases ha : st.data.makeSpanData order with
    | ok r => rw [ha] at hs; cases hs; exact .inside (.snapWrite exp must r.1 r.2) (by simp) (by simp [hp]) [] (by simp [St.goto]) (by simp) rfl rfl
    | err => rw [ha] at hs; cases hs
    | panic => rw [ha] at hs; cases hs; exact stay (by simp [hp])
  | snapWrite exp must r sd =>
    rw [hp] at hs; cases hs; exact .inside (.snapUnlock exp must sd) (by simp) (by simp [hp]) [_] rfl (by simp) rfl rfl
  | snapUnlock exp must sd =>
    rw [hp] at hs; cases hs; exact .inside (.endTime exp must sd) (by simp) (by simp [hp]) [] (by simp [St.goto]) (by simp) rfl rfl
  | endTime exp must sd =>
    rw [hp] at hs; cases hs; exact .inside (.finish exp must _) (by simp) (by simp [hp]) [_] rfl (by simp) rfl rfl
  | finish exp must sd =>
    rw [hp] at hs; simp only at hs
    cases hasStore with
    | true => cases hs; exact .inside (.exporting _ sd) (by simp) (by simp [hp]) [_] rfl (by simp) rfl rfl
    | false => cases hs; exact .inside (.exporting _ sd) (by simp) (by simp [hp]) [] (by simp [St.goto]) (by simp) rfl rfl
  | exporting rem sd =>
    rw [hp] at hs; simp only at hs
    cases rem with
    | nil => cases hs; exact .inside .setDone (by simp) (by simp [hp]) [] (by simp [St.goto]) (by simp) rfl rfl
    | cons e rem =>
      simp only at hs
      cases hc : (e :: rem)[c]? with
      | none => rw [hc] at hs; cases hs
      | some e' => rw [hc] at hs; cases hs; exact .inside (.exporting _ sd) (by simp) (by simp [hp]) [_] rfl (by simp) rfl rfl
  | setDone => rw [hp] at hs; cases hs; exact .inside .onceUnlock (by simp) (by simp [hp]) [] (by simp [St.goto]) (by simp) rfl rfl
  | onceUnlock => rw [hp] at hs; cases hs; exact .ret (by simp [hp]) [_] rfl (by simp [St.cur]) (by simp) rfl rfl
  | repLock =>
    rw [hp] at hs; simp only at hs; split at hs <;> cases hs
    exact .inside .repBody (by simp) (by simp [hp]) [] (by simp [St.goto]) (by simp) rfl rfl
  | repBody =>
    rw [hp] at hs; simp only at hs
    cases ha : st.data.makeSpanData order with
    | ok r => rw [ha] at hs; cases hs; exact .inside (.repWrite r.1 r.2) (by simp) (by simp [hp]) [] (by simp [St.goto]) (by simp) rfl rfl
    | err => rw [ha] at hs; cases hs
    | panic => rw [ha] at hs; cases hs; exact stay (by simp [hp])
  | repWrite r sd =>
    rw [hp] at hs; cases hs; exact .inside (.repUnlock sd) (by simp) (by simp [hp]) [_] rfl (by simp) rfl rfl
  | repUnlock sd =>
    rw [hp] at hs; cases hs
    exact .ret (by simp [hp]) [_, _] (by simp only [St.goto, St.note, List.append_assoc]; rfl) (by simp [St.cur]) (by simp) rfl rfl

/-- Calls of a goroutine have returned when it makes the next one. -/
structure Seq (st : St) : Prop where
  back : ∀ t k, k < st.made t → (st.pc t ≠ .idle → k + 1 < st.made t) → Returned st.log (t, k)
  next : ∀ p q τ t j c, st.log = p ++ (τ, Ev.called (t, j) c) :: q → ∀ k, k < j → Returned p (t, k)

theorem Returned.append {log : List (Int × Ev)} {id : Id} (h : Returned log id) (evs : List (Int × Ev)) : Returned (log ++ evs) id := by
  obtain ⟨τ, h⟩ := h; exact ⟨τ, by simp [h]⟩

theorem next_append {log evs : List (Int × Ev)} (h : ∀ p q τ t j c, log = p ++ (τ, Ev.called (t, j) c) :: q → ∀ k, k < j → Returned p (t, k))
    (he : ∀ x ∈ evs, ∀ id c, x.2 ≠ .called id c) (p q : List (Int × Ev)) (τ : Int) (t j : Nat) (c : Call)
    (e : log ++ evs = p ++ (τ, Ev.called (t, j) c) :: q) (k : Nat) (hk : k < j) : Returned p (t, k) := by
  rcases List.append_eq_append_iff.mp e with ⟨as, h3, h4⟩ | ⟨as, h3, h4⟩
  · exact absurd rfl (he (τ, Ev.called (t, j) c) (by rw [h4]; simp) (t, j) c)
  · cases as with
    | nil =>
      rw [List.nil_append] at h4
      exact absurd rfl (he (τ, Ev.called (t, j) c) (by rw [← h4]; simp) (t, j) c)
    | cons a as =>
      simp only [List.cons_append, List.cons.injEq] at h4
      exact h p as τ t j c (by rw [h3, h4.1]) k hk

theorem Seq.step {st st' : St} {t : Nat} (h : Seq st) (hs : Shape st st' t) : Seq st' := by
  cases hs with
  | call c p hp hi hl hm hpc =>
    refine ⟨?_, ?_⟩
    · intro u k h1 h2
      rw [hl]
      apply Returned.append
      by_cases hu : u = t
      · subst hu
        refine h.back u k ?_ (fun hn => absurd hi hn)
        have := h2 (by rw [hpc]; simpa [upd] using hp)
        rw [hm] at this; simp [upd] at this; omega
      · rw [hm] at h1 h2; rw [hpc] at h2
        exact h.back u k (by simpa [upd, hu] using h1) (by simpa [upd, hu] using h2)
    · intro pp q τ u j c' e k hk
      rw [hl] at e
      rcases split_snoc e with ⟨rfl, e2, _⟩ | ⟨q', _, e2⟩
      · cases e2
        exact h.back t k hk (fun hn => absurd hi hn)
      · exact h.next pp q' τ u j c' e2 k hk
  | inside p hp hi evs hl he hm hpc =>
    refine ⟨?_, by rw [hl]; exact next_append h.next he⟩
    intro u k h1 h2
    rw [hl]
    apply Returned.append
    rw [hm] at h1 h2
    by_cases hu : u = t
    · subst hu
      exact h.back u k h1 (fun _ => h2 (by rw [hpc]; simpa [upd] using hp))
    · exact h.back u k h1 (by rw [hpc] at h2; simpa [upd, hu] using h2)
  | ret hi evs hl hr he hm hpc =>
    refine ⟨?_, by rw [hl]; exact next_append h.next he⟩
    intro u k h1 h2
    rw [hl]
    rw [hm] at h1 h2
    by_cases hu : u = t
    · subst hu
      by_cases hk : k + 1 < st.made u
      · exact (h.back u k h1 (fun _ => hk)).append _
      · refine ⟨st.now, List.mem_append_right _ ?_⟩
        have : (u, k) = st.cur u := by unfold St.cur; rw [show k = st.made u - 1 by omega]
        rw [this]; exact hr
    · exact (h.back u k h1 (by rw [hpc] at h2; simpa [upd, hu] using h2)).append _

theorem seq_run {sampled hasStore : Bool} : ∀ (ms : List Move) (st st' : St), Seq st → SpanConc.run sampled hasStore st ms = some st' → Seq st'
  | [], st, st', h, hr => by cases hr; exact h
  | m :: ms, st, st', h, hr => by
    simp only [SpanConc.run] at hr
    cases hm : move sampled hasStore st m with
    | none => rw [hm] at hr; cases hr
    | some st1 =>
      rw [hm] at hr
      refine seq_run ms st1 st' ?_ hr
      cases m with
      | step t c order => exact h.step (step_shape hm)
      | tick d => cases hm; exact ⟨h.back, h.next⟩
      | exporters l => cases hm; exact ⟨h.back, h.next⟩

/-- A goroutine makes its calls one after the other: in the order in which calls take effect its own are in the
order of the program. -/
theorem own_calls_in_order {d0 : SpanData} {lim : Config} {t0 : Int} {sampled hasStore : Bool} {exps : List Exporter}
    {programs : Nat → List Call} {ms : List Move} {st : St}
    (hr : SpanConc.run sampled hasStore (init d0 lim t0 exps programs) ms = some st) {t i j : Nat} {c : Call}
    (hj : Called st.log (t, j) c) (hij : i < j) : Earlier st.log (t, i) (t, j) := by
  have h := seq_run ms _ _ (show Seq (init d0 lim t0 exps programs) from ⟨by simp [init], by simp [init]⟩) hr
  obtain ⟨τ, hj⟩ := hj
  obtain ⟨p, q, e⟩ := mem_split hj
  obtain ⟨τ', h1⟩ := h.next p q τ t j c e i hij
  exact ⟨p, q, τ, τ', c, e, h1⟩

/-- So a span annotated by one goroutine, and used in any other way by others, has its annotations in the order of
their times. -/
theorem annotations_sorted_one {d0 : SpanData} {lim : Config} {t0 : Int} (hd : Started d0 lim t0) {sampled hasStore : Bool}
    {exps : List Exporter} {programs : Nat → List Call} {ms : List Move} {st : St}
    (hr : SpanConc.run sampled hasStore (init d0 lim t0 exps programs) ms = some st) {τ : Int} {sd : SpanData}
    (hx : Delivered st.log τ sd) (t : Nat)
    (hone : ∀ id m, Called st.log id (.mutate m) → m.timed = true → id.1 = t) :
    sd.annotations.Pairwise (fun a b => a.time ≤ b.time) := by
  refine annotations_sorted hd hr hx ?_
  rintro ⟨ta, i⟩ ⟨tb, j⟩ m m' ha hb hm hm' hne
  have e1 := hone _ _ ha hm
  have e2 := hone _ _ hb hm'
  simp only at e1 e2
  subst e1; subst e2
  rcases Nat.lt_trichotomy i j with hij | hij | hij
  · exact .inl (own_calls_in_order hr hb hij)
  · exact absurd (by rw [hij]) hne
  · exact .inr (own_calls_in_order hr ha hij)

/-! ### `End` delivers -/

/-- Stored, and exported to each of `exps`, as the span calls for. -/
def AllDelivered (sampled hasStore : Bool) (exps : List Exporter) (log : List (Int × Ev)) : Prop :=
  (hasStore = true → ∃ τ sd, (τ, Ev.stored sd) ∈ log) ∧ (sampled = true → ∀ e ∈ exps, ∃ τ sd, (τ, Ev.exported e sd) ∈ log)

theorem AllDelivered.append {sampled hasStore : Bool} {exps : List Exporter} {log : List (Int × Ev)}
    (h : AllDelivered sampled hasStore exps log) (evs : List (Int × Ev)) : AllDelivered sampled hasStore exps (log ++ evs) := by
  refine ⟨fun hs => ?_, fun hs e he => ?_⟩
  · obtain ⟨τ, sd, h1⟩ := h.1 hs; exact ⟨τ, sd, by simp [h1]⟩
  · obtain ⟨τ, sd, h1⟩ := h.2 hs e he; exact ⟨τ, sd, by simp [h1]⟩

/-- What is delivered when a goroutine is there. -/
def DPC (sampled hasStore : Bool) (exps : List Exporter) (log : List (Int × Ev)) : PC → Prop
  | .snapLock exp must => exp = exps ∧ (sampled = true → exps ≠ [] → must = true)
  | .snap exp must => exp = exps ∧ (sampled = true → exps ≠ [] → must = true)
  | .snapWrite exp must _ _ => exp = exps ∧ (sampled = true → exps ≠ [] → must = true)
  | .snapUnlock exp must _ => exp = exps ∧ (sampled = true → exps ≠ [] → must = true)
  | .endTime exp must _ => exp = exps ∧ (sampled = true → exps ≠ [] → must = true)
  | .finish exp must _ => exp = exps ∧ (sampled = true → exps ≠ [] → must = true)
  | .exporting rem _ => (hasStore = true → ∃ τ sd, (τ, Ev.stored sd) ∈ log) ∧
      (sampled = true → ∀ e ∈ exps, e ∈ rem ∨ ∃ τ sd, (τ, Ev.exported e sd) ∈ log)
  | .setDone => AllDelivered sampled hasStore exps log
  | .onceUnlock => AllDelivered sampled hasStore exps log
  | _ => True

theorem DPC.append {sampled hasStore : Bool} {exps : List Exporter} {log : List (Int × Ev)} {p : PC}
    (h : DPC sampled hasStore exps log p) (evs : List (Int × Ev)) : DPC sampled hasStore exps (log ++ evs) p := by
  cases p <;> try exact h
  · refine ⟨fun hs => ?_, fun hs e he => ?_⟩
    · obtain ⟨τ, sd, h1⟩ := h.1 hs; exact ⟨τ, sd, by simp [h1]⟩
    · rcases h.2 hs e he with h1 | ⟨τ, sd, h1⟩
      · exact .inl h1
      · exact .inr ⟨τ, sd, by simp [h1]⟩
  · exact AllDelivered.append h evs
  · exact AllDelivered.append h evs

structure Deliv (sampled hasStore : Bool) (exps : List Exporter) (st : St) : Prop where
  exporters : st.exporters = exps
  done : st.done = true → AllDelivered sampled hasStore exps st.log
  pcs : ∀ t, DPC sampled hasStore exps st.log (st.pc t)

theorem Deliv.next {sampled hasStore : Bool} {exps : List Exporter} {st st' : St} (h : Deliv sampled hasStore exps st) (t : Nat) (p : PC)
    (evs : List (Int × Ev)) (hl : st'.log = st.log ++ evs) (he : st'.exporters = st.exporters) (hpc : st'.pc = upd st.pc t p)
    (hd : st'.done = true → st.done = true ∨ AllDelivered sampled hasStore exps st'.log)
    (hp : DPC sampled hasStore exps st'.log p) : Deliv sampled hasStore exps st' := by
  refine ⟨he.trans h.exporters, ?_, ?_⟩
  · intro h1
    rcases hd h1 with h2 | h2
    · rw [hl]; exact (h.done h2).append _
    · exact h2
  · intro u
    rw [hpc]
    unfold upd
    split
    · exact hp
    · rw [hl]; exact (h.pcs u).append _

theorem mem_eraseIdx {α : Type} [DecidableEq α] {l : List α} {c : Nat} {e x : α} (h : l[c]? = some e) (hx : x ∈ l) :
    x = e ∨ x ∈ l.eraseIdx c := by
  induction l generalizing c with
  | nil => cases hx
  | cons a l ih =>
    cases c with
    | zero =>
      simp only [List.getElem?_cons_zero, Option.some.injEq] at h
      rcases List.mem_cons.mp hx with rfl | hx
      · exact .inl h
      · exact .inr hx
    | succ c =>
      simp only [List.getElem?_cons_succ] at h
      rcases List.mem_cons.mp hx with rfl | hx
      · exact .inr (by simp)
      · rcases ih h hx with h1 | h1
        · exact .inl h1
        · exact .inr (by simp [h1])

theorem Deliv.step {sampled hasStore : Bool} {exps : List Exporter} {st st' : St} (h : Deliv sampled hasStore exps st) {t c : Nat}
    {order : List Bytes} (hs : SpanConc.step sampled hasStore st t c order = some st') : Deliv sampled hasStore exps st' := by
  unfold SpanConc.step at hs
  split at hs
  · cases hs
  have hpcs := h.pcs t
  have stay : Deliv sampled hasStore exps { st with crashed := true } := ⟨h.exporters, h.done, h.pcs⟩
  cases hp : st.pc t with
  | idle =>
    rw [hp] at hs
    cases htd : st.todo t with
    | nil => rw [htd] at hs; cases hs
    | cons call rest =>
      rw [htd] at hs
      cases call with
      | mutate m =>
        cases hs
        refine h.next t (if m.timed then .clock m else .lock m 0) [_] rfl rfl rfl (.inl ·) ?_
        split <;> trivial
      | endSpan => cases hs; exact h.next t .fast [_] rfl rfl rfl (.inl ·) trivial
      | report => cases hs; exact h.next t .repLock [_] rfl rfl rfl (.inl ·) trivial
  | clock m => rw [hp] at hs; cases hs; exact h.next t (.lock m st.now) [] (by simp [St.goto]) rfl rfl (.inl ·) trivial
  | lock m now =>
    rw [hp] at hs; simp only at hs; split at hs <;> cases hs
    exact h.next t (.body m now) [] (by simp [St.goto]) rfl rfl (.inl ·) trivial
  | body m now =>
    rw [hp] at hs; simp only at hs
    cases ha : m.apply now st.data with
    | ok r => rw [ha] at hs; cases hs; exact h.next t (.write m now r) [] (by simp [St.goto]) rfl rfl (.inl ·) trivial
    | err => rw [ha] at hs; cases hs; exact stay
    | panic => rw [ha] at hs; cases hs; exact stay
  | write m now r => rw [hp] at hs; cases hs; exact h.next t .unlock [_] rfl rfl rfl (.inl ·) trivial
  | unlock => rw [hp] at hs; cases hs; exact h.next t .idle [_] rfl rfl rfl (.inl ·) trivial
  | fast =>
    rw [hp] at hs; simp only at hs; split at hs <;> cases hs
    · exact h.next t .idle [_] rfl rfl rfl (.inl ·) trivial
    · exact h.next t .onceLock [] (by simp [St.goto]) rfl rfl (.inl ·) trivial
  | onceLock =>
    rw [hp] at hs; simp only at hs; split at hs <;> cases hs
    exact h.next t .check [] (by simp [St.goto]) rfl rfl (.inl ·) trivial
  | check =>
    rw [hp] at hs; cases hs
    refine h.next t (if st.done then .onceUnlock else .load) [] (by simp [St.goto]) rfl rfl (.inl ·) ?_
    split
    · next hd => exact h.done hd
    · trivial
  | load =>
    rw [hp] at hs; cases hs
    refine h.next t _ [] (by simp [St.goto]) rfl rfl (.inl ·) ?_
    rw [h.exporters]
    split
    · refine ⟨rfl, fun h1 h2 => ?_⟩
      cases hn : exps with
      | nil => exact absurd hn h2
      | cons a l => simp [h1]
    · next hno =>
      simp only [Bool.or_eq_true, Bool.and_eq_true, decide_eq_true_eq, not_or, not_and] at hno
      refine ⟨fun h1 => absurd h1 hno.1, fun h1 e he => absurd (List.length_pos_of_mem he) (hno.2 h1)⟩
  | snapLock exp must =>
    rw [hp] at hs hpcs; simp only at hs; split at hs <;> cases hs
    exact h.next t (.snap exp must) [] (by simp [St.goto]) rfl rfl (.inl ·) hpcs
  | snap exp must =>
    rw [hp] at hs hpcs; simp only at hs
    cases ha : st.data.makeSpanData order with
    | ok r => rw [ha] at hs; cases hs; exact h.next t (.snapWrite exp must r.1 r.2) [] (by simp [St.goto]) rfl rfl (.inl ·) hpcs
    | err => rw [ha] at hs; cases hs
    | panic => rw [ha] at hs; cases hs; exact stay
  | snapWrite exp must r sd =>
    rw [hp] at hs hpcs; cases hs; exact h.next t (.snapUnlock exp must sd) [_] rfl rfl rfl (.inl ·) hpcs
  | snapUnlock exp must sd =>
    rw [hp] at hs hpcs; cases hs; exact h.next t (.endTime exp must sd) [] (by simp [St.goto]) rfl rfl (.inl ·) hpcs
  | endTime exp must sd =>
    rw [hp] at hs hpcs; cases hs; exact h.next t (.finish exp must _) [_] rfl rfl rfl (.inl ·) hpcs
  | finish exp must sd =>
    rw [hp] at hs hpcs; simp only at hs
    have hrem : sampled = true → ∀ e ∈ exps, e ∈ (if must then exp else []) := by
      intro h1 e he
      rw [hpcs.2 h1 (List.ne_nil_of_mem he), hpcs.1]; exact he
    cases hasStore with
    | true =>
      cases hs
      exact h.next t (.exporting _ sd) [_] rfl rfl rfl (.inl ·) ⟨fun _ => ⟨_, sd, List.mem_append_right _ (List.mem_singleton.mpr rfl)⟩,
        fun h1 e he => .inl (hrem h1 e he)⟩
    | false =>
      cases hs
      exact h.next t (.exporting _ sd) [] (by simp [St.goto]) rfl rfl (.inl ·) ⟨by simp, fun h1 e he => .inl (hrem h1 e he)⟩
  | exporting rem sd =>
    rw [hp] at hs hpcs; simp only at hs
    cases rem with
    | nil =>
      cases hs
      exact h.next t .setDone [] (by simp [St.goto]) rfl rfl (.inl ·)
        ⟨hpcs.1, fun h1 e he => (hpcs.2 h1 e he).resolve_left (by simp)⟩
    | cons e rem =>
      simp only at hs
      cases hc : (e :: rem)[c]? with
      | none => rw [hc] at hs; cases hs
      | some e' =>
        rw [hc] at hs; cases hs
        refine h.next t (.exporting _ sd) [_] rfl rfl rfl (.inl ·) ⟨fun h1 => ?_, fun h1 x hx => ?_⟩
        · obtain ⟨τ, sd', h2⟩ := hpcs.1 h1; exact ⟨τ, sd', List.mem_append_left _ h2⟩
        · rcases hpcs.2 h1 x hx with h2 | ⟨τ, sd', h2⟩
          · rcases mem_eraseIdx hc h2 with rfl | h3
            · exact .inr ⟨st.now, sd, List.mem_append_right _ (List.mem_singleton.mpr rfl)⟩
            · exact .inl h3
          · exact .inr ⟨τ, sd', List.mem_append_left _ h2⟩
  | setDone =>
    rw [hp] at hs hpcs; cases hs
    exact h.next t .onceUnlock [] (by simp [St.goto]) rfl rfl (fun _ => .inr hpcs) hpcs
  | onceUnlock => rw [hp] at hs; cases hs; exact h.next t .idle [_] rfl rfl rfl (.inl ·) trivial
  | repLock =>
    rw [hp] at hs; simp only at hs; split at hs <;> cases hs
    exact h.next t .repBody [] (by simp [St.goto]) rfl rfl (.inl ·) trivial
  | repBody =>
    rw [hp] at hs; simp only at hs
    cases ha : st.data.makeSpanData order with
    | ok r => rw [ha] at hs; cases hs; exact h.next t (.repWrite r.1 r.2) [] (by simp [St.goto]) rfl rfl (.inl ·) trivial
    | err => rw [ha] at hs; cases hs
    | panic => rw [ha] at hs; cases hs; exact stay
  | repWrite r sd => rw [hp] at hs; cases hs; exact h.next t (.repUnlock sd) [_] rfl rfl rfl (.inl ·) trivial
  | repUnlock sd =>
    rw [hp] at hs; cases hs
    exact h.next t .idle [_, _] (by simp only [St.goto, St.note, List.append_assoc]; rfl) rfl rfl (.inl ·) trivial

theorem deliv_run {sampled hasStore : Bool} {exps : List Exporter} : ∀ (ms : List Move) (st st' : St), Deliv sampled hasStore exps st →
    (∀ l, Move.exporters l ∉ ms) → SpanConc.run sampled hasStore st ms = some st' → Deliv sampled hasStore exps st'
  | [], st, st', h, _, hr => by cases hr; exact h
  | m :: ms, st, st', h, hno, hr => by
    simp only [SpanConc.run] at hr
    cases hm : move sampled hasStore st m with
    | none => rw [hm] at hr; cases hr
    | some st1 =>
      rw [hm] at hr
      refine deliv_run ms st1 st' ?_ (fun l hl => hno l (List.mem_cons_of_mem _ hl)) hr
      cases m with
      | step t c order => exact h.step hm
      | tick d => cases hm; exact ⟨h.exporters, h.done, h.pcs⟩
      | exporters l => exact absurd List.mem_cons_self (hno l)

/-- When a call of `End` has returned, be it the one that ends the span or another, a span of a store has been
stored, and a sampled one handed to every exporter, if the exporters stay the same. -/
theorem end_delivers {d0 : SpanData} {lim : Config} {t0 : Int} (hd : Started d0 lim t0) {sampled hasStore : Bool}
    {exps : List Exporter} {programs : Nat → List Call} {ms : List Move} {st : St}
    (hr : SpanConc.run sampled hasStore (init d0 lim t0 exps programs) ms = some st)
    (hno : ∀ l, Move.exporters l ∉ ms) {id : Id} (hc : Called st.log id .endSpan) (hret : Returned st.log id) :
    AllDelivered sampled hasStore exps st.log :=
  (deliv_run ms _ _ (show Deliv sampled hasStore exps (init d0 lim t0 exps programs) from ⟨rfl, by simp [init], fun _ => trivial⟩) hno hr).done
    ((inv_run hd.blank ms _ _ (inv_init hd exps programs) hr).ended id hret hc)

/-! ### A concrete run -/

def ctx0 : SpanContext := ⟨List.replicate 16 1, List.replicate 8 1, 1, none⟩
def span0 : SpanData := newSpanData ctx0 3 0 (str "GET") false false ⟨[], [], 0, none⟩
/-- Two goroutines annotate the span and set its status, a third one ends it. -/
def programs0 : Nat → List Call
  | 0 => [.mutate (.annotate [] (str "a")), .mutate (.setStatus ⟨1, str "x"⟩)]
  | 1 => [.mutate (.setStatus ⟨2, str "y"⟩), .mutate (.annotate [⟨str "k", [1]⟩] (str "b"))]
  | 2 => [.endSpan]
  | _ => []
def steps (t n : Nat) : List Move := List.replicate n (.step t 0 [])
/-- Goroutine 0 reads the clock and is overtaken by 1. -/
def schedule0 : List Move :=
  steps 0 2 ++ [.tick 5] ++ steps 1 11 ++ steps 0 4 ++ [.tick 4] ++ steps 2 5 ++ [.exporters []] ++ steps 2 3 ++ steps 0 1 ++
    steps 2 3 ++ [.tick 3] ++ steps 2 4 ++ steps 0 4

theorem started0 : Started span0 Config.initial 3 :=
  ⟨⟨rfl, rfl, rfl, rfl, rfl, rfl, rfl, rfl⟩, rfl, rfl, by decide, by decide, by decide, by decide⟩

def ran0 : Option St := SpanConc.run true false (init span0 Config.initial 3 [7] programs0) schedule0

/-- Some annotations are exported in the wrong order: `Annotate` reads the clock before it takes the span's lock,
so a call can be overtaken by another one. -/
theorem annotations_out_of_order : ∃ st sd, ran0 = some st ∧ (15, Ev.exported 7 sd) ∈ st.log ∧
    sd.annotations.map (fun a => (a.time, a.message)) = [(8, str "b"), (3, str "a")] ∧
    sd.status = ⟨2, str "y"⟩ ∧ sd.endTime = 12 := by
  have h : (match ran0 with
      | some st => st.log.any fun x => match x with
        | (τ, .exported e sd) => decide (τ = 15 ∧ e = 7) &&
          decide (sd.annotations.map (fun a => (a.time, a.message)) = [(8, str "b"), (3, str "a")]) &&
          decide (sd.status = ⟨2, str "y"⟩ ∧ sd.endTime = 12)
        | _ => false
      | none => false) = true := by decide +kernel
  cases hr : ran0 with
  | none => rw [hr] at h; cases h
  | some st =>
    rw [hr] at h
    obtain ⟨⟨τ, ev⟩, h1, h2⟩ := List.any_eq_true.mp h
    cases ev with
    | exported e sd =>
      simp only [Bool.and_eq_true, decide_eq_true_eq] at h2
      obtain ⟨⟨⟨rfl, rfl⟩, h3⟩, h4, h5⟩ := h2
      exact ⟨st, sd, rfl, h1, h3, h4, h5⟩
    | _ => cases h2

example : ∃ st sd, SpanConc.run true false (init span0 Config.initial 3 [7] programs0) schedule0 = some st ∧
    Delivered st.log 15 sd := by
  obtain ⟨st, sd, h1, h2, _⟩ := annotations_out_of_order
  exact ⟨st, sd, h1, .inr ⟨7, h2⟩⟩

/-- Goroutine 0 annotates twice while 1 sets the status. -/
def programs1 : Nat → List Call
  | 0 => [.mutate (.annotate [] (str "a")), .mutate (.annotate [] (str "b"))]
  | 1 => [.mutate (.setStatus ⟨2, str "y"⟩), .endSpan]
  | _ => []
def schedule1 : List Move := steps 0 3 ++ steps 1 1 ++ [.tick 5] ++ steps 0 5 ++ steps 1 4 ++ [.tick 4] ++ steps 0 4 ++ steps 1 15

example : ∃ st sd, SpanConc.run true false (init span0 Config.initial 3 [7] programs1) schedule1 = some st ∧
    Delivered st.log 12 sd ∧ sd.annotations.map (fun a => a.time) = [3, 8] ∧
    ∀ id m, Called st.log id (.mutate m) → m.timed = true → id.1 = 0 := by
  have h : (match SpanConc.run true false (init span0 Config.initial 3 [7] programs1) schedule1 with
      | some st => (st.log.any fun x => match x with
        | (τ, .exported _ sd) => decide (τ = 12) && decide (sd.annotations.map (fun a => a.time) = [3, 8])
        | _ => false) && st.log.all fun x => match x with
        | (_, .called id (.mutate m)) => !m.timed || decide (id.1 = 0)
        | _ => true
      | none => false) = true := by decide +kernel
  cases hr : SpanConc.run true false (init span0 Config.initial 3 [7] programs1) schedule1 with
  | none => rw [hr] at h; cases h
  | some st =>
    rw [hr] at h
    simp only [Bool.and_eq_true] at h
    obtain ⟨⟨τ, ev⟩, h1, h2⟩ := List.any_eq_true.mp h.1
    have hall := List.all_eq_true.mp h.2
    cases ev with
    | exported e sd =>
      simp only [Bool.and_eq_true, decide_eq_true_eq] at h2
      obtain ⟨rfl, h3⟩ := h2
      refine ⟨st, sd, rfl, .inr ⟨e, h1⟩, h3, ?_⟩
      rintro id m ⟨τ', hm⟩ ht
      simpa [ht] using hall _ hm
    | _ => cases h2

example : (∀ l, Move.exporters l ∉ schedule1) ∧
    ∃ st, SpanConc.run true false (init span0 Config.initial 3 [7] programs1) schedule1 = some st ∧
    Called st.log (1, 1) .endSpan ∧ Returned st.log (1, 1) := by
  refine ⟨by simp [schedule1, steps], ?_⟩
  have h : (match SpanConc.run true false (init span0 Config.initial 3 [7] programs1) schedule1 with
      | some st => (st.log.any fun x => match x with
        | (_, .called id .endSpan) => decide (id = (1, 1))
        | _ => false) && st.log.any fun x => match x with
        | (_, .returned id) => decide (id = (1, 1))
        | _ => false
      | none => false) = true := by decide +kernel
  cases hr : SpanConc.run true false (init span0 Config.initial 3 [7] programs1) schedule1 with
  | none => rw [hr] at h; cases h
  | some st =>
    rw [hr] at h
    simp only [Bool.and_eq_true] at h
    obtain ⟨⟨τ, ev⟩, h1, h2⟩ := List.any_eq_true.mp h.1
    obtain ⟨⟨τ', ev'⟩, h1', h2'⟩ := List.any_eq_true.mp h.2
    refine ⟨st, rfl, ?_, ?_⟩
    · cases ev with
      | called id c =>
        cases c with
        | endSpan => simp only [decide_eq_true_eq] at h2; subst h2; exact ⟨τ, h1⟩
        | _ => cases h2
      | _ => cases h2
    · cases ev' with
      | returned id => simp only [decide_eq_true_eq] at h2'; subst h2'; exact ⟨τ', h1'⟩
      | _ => cases h2'

end Verif.Props.SpanConc
