import Verif.Http.Trace
import Verif.Props.Spans

/-!
# C73: the events of an HTTP connection as annotations of the client's span
-/

namespace Verif.Props.HttpTrace
open Verif Verif.Trace Verif.Http

/-! ## Specification -/

/-- A step of a program: an operation of the trace library, or `net/http` calling a hook. -/
inductive Step where
  | op (o : Op)
  | hook (h : Hook)

/-- The program, with a `ClientTrace` annotating span `i`. -/
def prog (i : Nat) (l : List Step) : List Op := l.map fun s => match s with
  | .op o => o
  | .hook h => h.op i

/-- The events, each with the time at which it happened; `now` is the time at the start. -/
def events : Int → List Step → List (Int × Hook)
  | _, [] => []
  | now, .hook h :: l => (now, h) :: events now l
  | now, .op (.tick d) :: l => events (now + d) l
  | now, .op _ :: l => events now l

/-- The name under which an event is known. -/
def eventName : Hook → Bytes
  | .getConn _ => str "GetConn"
  | .gotConn _ _ _ => str "GotConn"
  | .putIdleConn _ => str "PutIdleConn"
  | .gotFirstResponseByte => str "GotFirstResponseByte"
  | .got100Continue => str "Got100Continue"
  | .dnsStart _ => str "DNSStart"
  | .dnsDone _ _ => str "DNSDone"
  | .connectStart _ _ => str "ConnectStart"
  | .connectDone _ _ _ => str "ConnectDone"
  | .tlsHandshakeStart => str "TLSHandshakeStart"
  | .tlsHandshakeDone _ => str "TLSHandshakeDone"
  | .wroteHeaders => str "WroteHeaders"
  | .wait100Continue => str "Wait100Continue"
  | .wroteRequest _ => str "WroteRequest"

/-- The prefix of the attributes of an event. -/
def eventPrefix : Hook → Bytes
  | .getConn _ => str "httptrace.get_connection."
  | .gotConn _ _ _ => str "httptrace.got_connection."
  | .putIdleConn _ => str "httptrace.put_idle_connection."
  | .dnsStart _ => str "httptrace.dns_start."
  | .dnsDone _ _ => str "httptrace.dns_done."
  | .connectStart _ _ => str "httptrace.connect_start."
  | .connectDone _ _ _ => str "httptrace.connect_done."
  | .tlsHandshakeDone _ => str "httptrace.tls_handshake_done."
  | .wroteRequest _ => str "httptrace.wrote_request."
  | _ => []

def flag (b : Bool) : Bytes := if b then [1] else [0]

/-- The value of the field of an event with the given name. -/
def field : Hook → Bytes → Option Bytes
  | .getConn hp, n => if n = str "host_port" then some hp else none
  | .gotConn reused wasIdle idle, n =>
    if n = str "reused" then some (flag reused) else if n = str "was_idle" then some (flag wasIdle)
    else if n = str "idle_time" ∧ wasIdle = true then some idle else none
  | .putIdleConn err, n => if n = str "error" then err else none
  | .dnsStart host, n => if n = str "host" then some host else none
  | .dnsDone addrs err, n =>
    if n = str "addrs" then some ((addrs.intersperse (str " , ")).flatten) else if n = str "error" then err else none
  | .connectStart network addr, n =>
    if n = str "network" then some network else if n = str "addr" then some addr else none
  | .connectDone network addr err, n =>
    if n = str "network" then some network else if n = str "addr" then some addr else if n = str "error" then err else none
  | .tlsHandshakeDone err, n => if n = str "error" then err else none
  | .wroteRequest err, n => if n = str "error" then err else none
  | _, _ => none

/-- The attribute `k` of an annotation. -/
def attr (a : Annotation) (k : Bytes) : Option Bytes := a.attributes.bind fun m => GoMap.get m k

/-- The annotation tells of the event: its time, its name, its fields, nothing else. -/
structure Tells (ev : Int × Hook) (a : Annotation) : Prop where
  time : a.time = ev.1
  message : a.message = eventName ev.2
  field : ∀ n, attr a (eventPrefix ev.2 ++ n) = field ev.2 n
  only : ∀ k, (∀ n, k ≠ eventPrefix ev.2 ++ n) → attr a k = none

/-- Nobody else annotates the span. -/
def Alone (i : Nat) (l : List Step) : Prop := ∀ s ats msg, Step.op (.annotate s ats msg) ∈ l → s ≠ some i

/-! ## Proof -/

theorem join_eq (sep : Bytes) (l : List Bytes) : join sep l = (l.intersperse sep).flatten := by
  induction l with
  | nil => rfl
  | cons x l ih =>
    cases l with
    | nil => simp [join]
    | cons y l => rw [join, ih]; simp

theorem foldl_set_get (l : List Attribute) (m : GoMap Bytes AttrVal) (k : Bytes) (hnd : (l.map Attribute.key).Nodup) :
    GoMap.get (l.foldl (fun m a => GoMap.set m a.key a.value) m) k =
      ((l.find? fun a => decide (a.key = k)).map Attribute.value).or (GoMap.get m k) := by
  induction l generalizing m with
  | nil => simp
  | cons a l ih =>
    simp only [List.map_cons, List.nodup_cons] at hnd
    rw [List.foldl_cons, ih _ hnd.2, List.find?_cons, GoMap.get_set]
    by_cases h : a.key = k
    · have : l.find? (fun b => decide (b.key = k)) = none := by
        rw [List.find?_eq_none]
        intro b hb hk
        exact hnd.1 (List.mem_map.2 ⟨b, hb, by rw [h]; simpa using hk⟩)
      simp [h, this]
    · have h' : k ≠ a.key := fun e => h e.symm
      simp [h, h']

theorem attr_eq (now : Int) (l : List Attribute) (msg k : Bytes) (hnd : (l.map Attribute.key).Nodup) :
    attr ⟨now, msg, attrMap l⟩ k = (l.find? fun a => decide (a.key = k)).map Attribute.value := by
  unfold attr attrMap
  cases l with
  | nil => rfl
  | cons a l =>
    simp only [List.length_cons, ne_eq, Nat.add_eq_zero_iff, Nat.one_ne_zero, and_false, not_false_eq_true, if_true, Option.bind_some]
    rw [foldl_set_get _ _ _ hnd]
    simp

/-- The fields of an event. -/
def fields : Hook → List (Bytes × Bytes)
  | .getConn hp => [(str "host_port", hp)]
  | .gotConn reused wasIdle idle => [(str "reused", flag reused), (str "was_idle", flag wasIdle)] ++
      (if wasIdle then [(str "idle_time", idle)] else [])
  | .putIdleConn err => err.toList.map fun e => (str "error", e)
  | .dnsStart host => [(str "host", host)]
  | .dnsDone addrs err => (str "addrs", join (str " , ") addrs) :: err.toList.map fun e => (str "error", e)
  | .connectStart network addr => [(str "network", network), (str "addr", addr)]
  | .connectDone network addr err => [(str "network", network), (str "addr", addr)] ++ err.toList.map fun e => (str "error", e)
  | .tlsHandshakeDone err => err.toList.map fun e => (str "error", e)
  | .wroteRequest err => err.toList.map fun e => (str "error", e)
  | _ => []

theorem annotation_fields (h : Hook) : h.annotation.1 = (fields h).map fun p => ⟨eventPrefix h ++ p.1, p.2⟩ := by
  cases h with
  | gotConn r w d => cases w <;> rfl
  | putIdleConn err => cases err <;> rfl
  | dnsDone a err => cases err <;> rfl
  | connectDone n a err => cases err <;> rfl
  | tlsHandshakeDone err => cases err <;> rfl
  | wroteRequest err => cases err <;> rfl
  | _ => rfl

theorem fields_nodup (h : Hook) : ((fields h).map Prod.fst).Nodup := by
  have e1 : str "reused" ≠ str "was_idle" := by decide
  have e2 : str "reused" ≠ str "idle_time" := by decide
  have e3 : str "was_idle" ≠ str "idle_time" := by decide
  have e4 : str "addrs" ≠ str "error" := by decide
  have e5 : str "network" ≠ str "addr" := by decide
  have e6 : str "network" ≠ str "error" := by decide
  have e7 : str "addr" ≠ str "error" := by decide
  cases h with
  | gotConn r w d => cases w <;> simp [fields, e1, e2, e3]
  | putIdleConn err => cases err <;> simp [fields]
  | dnsDone a err => cases err <;> simp [fields, e4]
  | connectStart n a => simp [fields, e5]
  | connectDone n a err => cases err <;> simp [fields, e5, e6, e7]
  | tlsHandshakeDone err => cases err <;> simp [fields]
  | wroteRequest err => cases err <;> simp [fields]
  | _ => simp [fields]

theorem fields_find (h : Hook) (n : Bytes) : ((fields h).find? fun p => decide (p.1 = n)).map Prod.snd = field h n := by
  have find1 : ∀ (k v : Bytes) (l : List (Bytes × Bytes)), (((k, v) :: l).find? fun p => decide (p.1 = n)).map Prod.snd =
      if n = k then some v else (l.find? fun p => decide (p.1 = n)).map Prod.snd := by
    intro k v l
    rw [List.find?_cons]
    by_cases hk : n = k
    · simp [hk]
    · have : ¬ k = n := fun e => hk e.symm
      simp [hk, this]
  have finde : ∀ (err : Option Bytes), ((err.toList.map fun e => (str "error", e)).find? fun p => decide (p.1 = n)).map Prod.snd =
      if n = str "error" then err else none := by
    intro err
    cases err with
    | none => simp
    | some e => simp only [Option.toList, List.map_cons, List.map_nil, find1]; simp
  cases h with
  | gotConn r w d =>
    cases w with
    | false => simp only [fields, Bool.false_eq_true, if_false, List.append_nil, find1, field, and_false]; simp
    | true => simp only [fields, if_true, List.cons_append, List.nil_append, find1, field, and_true]; simp
  | dnsDone a err => simp only [fields, find1, finde, field, join_eq]
  | connectDone n' a err => simp only [fields, List.cons_append, List.nil_append, find1, finde, field]
  | putIdleConn err => simp only [fields, finde, field]
  | tlsHandshakeDone err => simp only [fields, finde, field]
  | wroteRequest err => simp only [fields, finde, field]
  | getConn hp => simp only [fields, find1, field]; simp
  | dnsStart hp => simp only [fields, find1, field]; simp
  | connectStart a b => simp only [fields, find1, field]; simp
  | _ => simp [fields, field]

theorem tells (now : Int) (h : Hook) : Tells (now, h) ⟨now, h.annotation.2, attrMap h.annotation.1⟩ := by
  have hnd : (h.annotation.1.map Attribute.key).Nodup := by
    rw [annotation_fields, List.map_map]
    have := (fields_nodup h).map (f := fun n => eventPrefix h ++ n) (fun _ _ e => List.append_cancel_left e)
    rwa [List.map_map] at this
  refine ⟨rfl, ?_, ?_, ?_⟩
  · cases h <;> rfl
  · intro n
    rw [attr_eq _ _ _ _ hnd, annotation_fields, List.find?_map, Option.map_map, ← fields_find]
    congr 1
    congr 1
    funext p
    simp
  · intro k hk
    rw [attr_eq _ _ _ _ hnd, annotation_fields, List.find?_map]
    rw [List.find?_eq_none.2]
    · rfl
    · intro p _
      simpa using fun e => hk p.1 e.symm

theorem anns_events (i : Nat) (l : List Step) : ∀ now, Alone i l →
    List.Forall₂ Tells (events now l) (adds i now (prog i l)).anns := by
  induction l with
  | nil => intro now _; exact List.Forall₂.nil
  | cons s l ih =>
    intro now ha
    have ha' : Alone i l := fun s ats msg h => ha s ats msg (List.mem_cons_of_mem _ h)
    cases s with
    | hook h =>
      simp only [events, prog, List.map_cons, adds, Adds.append, Hook.op, opAdds, if_true, clock]
      exact List.Forall₂.cons (tells now h) (ih now ha')
    | op o =>
      have hn : (opAdds now i o).anns = [] := by
        cases o with
        | annotate s ats msg =>
          have : s ≠ some i := ha s ats msg (by simp)
          simp [opAdds, this, Adds.none]
        | _ => simp only [opAdds]; (try split) <;> rfl
      have he : events now (.op o :: l) = events (clock now o) l := by cases o <;> rfl
      simp only [he, prog, List.map_cons, adds, Adds.append, hn, List.nil_append]
      exact ih _ ha'

/-- C73: for every program in which only the client trace annotates the span, the annotations of the exported span
tell of the events up to the span's first `End`, each with its time, name and fields, in order: the newest
`n` of them, `n` being the limit when the span was started. The others are counted as dropped. -/
theorem exported_events {t : Int} {i : Nat} {l : List Step} {st : State} (h : run (State.init t) (prog i l) = .ok st)
    (ha : Alone i l) {e : Exporter} {sd : SpanData} (hx : (e, i, sd) ∈ st.exported) :
    ∃ c s d o b, l = c ++ s :: d ++ .op (.endSpan (some i) o) :: b ∧
      (Start.startedBy (prog i c)).length = i ∧ (Start.startedBy (prog i (c ++ [s]))).length = i + 1 ∧
      (∀ o, Step.op (.endSpan (some i) o) ∉ c ++ s :: d) ∧
      ∃ L, List.Forall₂ Tells (events t (c ++ s :: d)) L ∧
        sd.annotations = Spans.newest (Spans.limit Config.maxAnnotations 32 (prog i c)) L ∧
        sd.droppedAnnotations + sd.annotations.length = (events t (c ++ s :: d)).length := by
  obtain ⟨c', op, d', order, b', x, g1, g2, g3, g4, A, hA, q1, q2, _⟩ := Spans.exported_events h hx
  unfold prog at g1
  obtain ⟨l1, l2, rfl, e1, e2⟩ := List.map_eq_append_iff.1 g1
  obtain ⟨c, l3, rfl, e3, e4⟩ := List.map_eq_append_iff.1 e1
  obtain ⟨s, d, rfl, e5, e6⟩ := List.map_eq_cons_iff.1 e4
  obtain ⟨z, b, rfl, e7, e8⟩ := List.map_eq_cons_iff.1 e2
  have hz : z = .op (.endSpan (some i) order) := by
    cases z with
    | op o => simp only at e7; rw [e7]
    | hook h => cases e7
  subst hz
  have hc : prog i c = c' := e3
  have hcd : prog i (c ++ s :: d) = c' ++ op :: d' := e1
  have hanns := anns_events i (c ++ s :: d) t (fun s ats msg h => ha s ats msg (List.mem_append_left _ h))
  rw [hcd, ← hA] at hanns
  refine ⟨c, s, d, order, b, rfl, by rw [hc]; exact g3, ?_, ?_, A.anns, hanns, by rw [hc]; exact q1, ?_⟩
  · have : prog i (c ++ [s]) = c' ++ [op] := by
      simp only [prog, List.map_append, List.map_cons, List.map_nil, e3, e5]
    rw [this, ← g3]
    simp only [Start.startedBy, List.flatMap_append, List.flatMap_cons, List.flatMap_nil, g2, List.length_append]
    simp
  · intro o hm
    refine g4 o ?_
    rw [← hcd]
    exact List.mem_map.2 ⟨_, hm, rfl⟩
  · rw [q2, ← hanns.length_eq]

/-! ## A program that meets the hypotheses

A request over a new connection, whose handshake fails at first; the connection is given back after the span ended. -/

def demo : List Step :=
  [.op (.registerExporter 1), .op (.applyConfig ⟨none, none, 4, 0, 0, 0⟩),
   .op (.start none [1] [.sampler (some alwaysSample)] (List.replicate 16 1) (List.replicate 8 1)), .op (.tick 5),
   .hook (.getConn (str "h:443")), .hook (.dnsStart (str "h")), .op (.tick 5), .hook (.dnsDone [[1], [2]] none),
   .hook (.tlsHandshakeDone (some (str "eof"))), .op (.tick 7), .hook (.gotConn false true (str "3s")),
   .hook (.wroteRequest none), .op (.endSpan (some 0) []), .hook (.putIdleConn none)]

def demoSpan : Option SpanData := match run (State.init 100) (prog 0 demo) with
  | .ok st => st.exported.head?.map fun x => x.2.2
  | _ => none

example : Alone 0 demo := by
  intro s ats msg h
  simp [demo] at h

example : demoSpan.map (fun sd => (sd.annotations.map fun a => (a.time, a.message), sd.droppedAnnotations)) =
    some ([(110, str "DNSDone"), (110, str "TLSHandshakeDone"), (117, str "GotConn"), (117, str "WroteRequest")], 2) := by
  decide +kernel

example : demoSpan.map (fun sd => sd.annotations.map fun a => attr a (str "httptrace.got_connection.idle_time")) =
    some [none, none, some (str "3s"), none] := by decide +kernel

/-- An event that comes after the span's `End` is not in the exported span: `net/http` gives the connection back
when the response body has been read, which is when the span is ended too. -/
theorem late_event_lost : (110 + 7, Hook.putIdleConn none) ∈ events 100 demo ∧
    demoSpan.map (fun sd => sd.annotations.all fun a => decide (a.message ≠ str "PutIdleConn")) = some true :=
  ⟨by simp [events, demo], by decide +kernel⟩

end Verif.Props.HttpTrace
