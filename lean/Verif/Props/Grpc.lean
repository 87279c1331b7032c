import Verif.Grpc.Lemmas
import Verif.Http.Lemmas
import Mathlib.Tactic.ByContra

/-!
# C48: what the gRPC plugin records

The events of an RPC are handled by goroutines that run in any interleaving. The theorems are about
every list of events and every schedule.
-/

namespace Verif.Props.Grpc
open Verif Verif.Grpc Verif.Trace

/-! ## Specification -/

/-- What an event adds to a count. -/
def amount (f : Field) : Event → Int
  | .outPayload n _ => match f with
    | .sentBytes => n
    | .sentCount => 1
    | _ => 0
  | .inPayload n _ => match f with
    | .recvBytes => n
    | .recvCount => 1
    | _ => 0
  | _ => 0

/-- The handler of event `i` has returned. -/
def Returned (s : Grpc.State) (i : Nat) : Prop := s.todo i = []

/-- The handler of event `i` has not been called. -/
def NotCalled (c : Ctx) (order : List Bytes) (evs : List Event) (s : Grpc.State) (i : Nat) : Prop :=
  ∀ e, evs[i]? = some e → s.todo i = handleRPC c order e

/-- `v` is the sum over a set of events that has all those whose handler had returned at `s1`, and only
those whose handler had been called at `s2`. -/
def SumBetween (c : Ctx) (order : List Bytes) (evs : List Event) (s1 s2 : Grpc.State) (f : Field) (v : Int) : Prop :=
  ∃ P : Finset (Fin evs.length), v = wrap64 (∑ i ∈ P, amount f evs[i]) ∧
    (∀ i : Fin evs.length, evs[i] ≠ .header → Returned s1 i → i ∈ P) ∧
    (∀ i ∈ P, ¬ NotCalled c order evs s2 i)

/-- The canonical names of the codes (google.rpc.Code). -/
def names : List String :=
  ["OK", "CANCELLED", "UNKNOWN", "INVALID_ARGUMENT", "DEADLINE_EXCEEDED", "NOT_FOUND", "ALREADY_EXISTS",
   "PERMISSION_DENIED", "RESOURCE_EXHAUSTED", "FAILED_PRECONDITION", "ABORTED", "OUT_OF_RANGE",
   "UNIMPLEMENTED", "INTERNAL", "UNAVAILABLE", "DATA_LOSS", "UNAUTHENTICATED"]

/-- The number a decimal numeral denotes. -/
def numeral (d : Bytes) : Nat := d.foldl (fun a c => 10 * a + (c.toNat - 48)) 0

/-- A tag map the plugin can use: what `tag.New` accepts. -/
def GoodTags (m : Option Tag.TMap) : Prop := ∀ l, m = some l → GoMap.WF l ∧ ∀ e ∈ l, Tag.EntryOK e

/-- The value of a key in a context's tags. -/
def valueIn (m : Option Tag.TMap) (k : Tag.Key) : Option Tag.Content := m.bind fun l => GoMap.get l k

/-- `m` is `m0` with the given values. -/
def TagsAre (m0 : Option Tag.TMap) (kvs : List (Tag.Key × Bytes)) (m : Tag.TMap) : Prop :=
  (∀ kv ∈ kvs, (GoMap.get m kv.1).map (·.value) = some kv.2) ∧
  (∀ k, k ∉ kvs.map (·.1) → GoMap.get m k = valueIn m0 k)

/-! ## Helper lemmas -/

theorem adds_handle (c : Ctx) (order : List Bytes) (e : Event) (hm : c.method.isSome) (f : Field) :
    adds f (handleRPC c order e) = amount f e := by
  have hn : c.method.isNone = false := by cases h : c.method <;> simp_all
  unfold handleRPC traceHandleRPC statsHandleRPC
  rw [hn]
  cases e with
  | «end» cl err => cases err <;> simp [adds, amount]
  | outPayload n w => cases f <;> simp [adds, amount]
  | inPayload n w => cases f <;> simp [adds, amount]
  | _ => simp [adds, amount]

theorem adds_zero {f : Field} {l : List Micro} (h : l.countP (isAdd f) = 0) : adds f l = 0 := by
  induction l with
  | nil => rfl
  | cons m l ih =>
    rw [List.countP_cons] at h
    have := ih (by omega)
    cases m with
    | add g n =>
      have : g ≠ f := by rintro rfl; simp [isAdd] at h
      simp [adds, *]
    | _ => simp [adds, this]

theorem countP_handle (c : Ctx) (order : List Bytes) (e : Event) (f : Field) :
    (handleRPC c order e).countP (isAdd f) ≤ 1 := by
  unfold handleRPC traceHandleRPC statsHandleRPC
  cases e with
  | «end» cl err => cases err <;> cases c.method.isNone <;> simp [isAdd]
  | outPayload n w => cases c.method.isNone <;> cases f <;> simp [isAdd]
  | inPayload n w => cases c.method.isNone <;> cases f <;> simp [isAdd]
  | begin cl ff => cases c.method.isNone <;> simp [isAdd]
  | header => simp

/-- The rest of a handler adds either all of its amount or nothing. -/
theorem adds_suffix {c : Ctx} {order : List Bytes} {e : Event} (hm : c.method.isSome) (f : Field)
    {pre rest : List Micro} (h : handleRPC c order e = pre ++ rest) : adds f rest = 0 ∨ adds f rest = amount f e := by
  have h1 := countP_handle c order e f
  rw [h, List.countP_append] at h1
  by_cases hz : rest.countP (isAdd f) = 0
  · exact .inl (adds_zero hz)
  · right
    rw [← adds_handle c order e hm f, h, adds_append, adds_zero (l := pre) (by omega), Int.zero_add]

/-- What a load sees. -/
theorem count_between {c : Ctx} {order : List Bytes} {evs : List Event} (hm : c.method.isSome) {s1 s : Grpc.State}
    (hI : Inv c order evs s) (hret : ∀ i, Returned s1 i → Returned s i) (f : Field) :
    SumBetween c order evs s1 s f (s.count f) := by
  classical
  refine ⟨Finset.univ.filter fun i : Fin evs.length => adds f (s.todo i) = 0 ∧ s.todo i ≠ handleRPC c order evs[i], ?_, ?_, ?_⟩
  · rw [hI.count f]
    congr 1
    rw [Finset.sum_filter]
    apply Finset.sum_congr rfl
    intro i _
    obtain ⟨pre, ha⟩ := hI.pos i i.2
    have hd := adds_suffix hm f ha.split
    have he := adds_handle c order evs[i] hm f
    by_cases h1 : adds f (s.todo i) = 0 ∧ s.todo i ≠ handleRPC c order evs[i]
    · rw [if_pos h1, h1.1, he]; omega
    · rw [if_neg h1, he]
      by_cases h2 : s.todo i = handleRPC c order evs[i]
      · rw [h2, he]; omega
      · have h3 : adds f (s.todo i) ≠ 0 := fun h3 => h1 ⟨h3, h2⟩
        have := hd.resolve_left h3
        rw [this]; exact Int.sub_self _
  · intro i hne hr
    have := hret i hr
    simp only [Finset.mem_filter, Finset.mem_univ, true_and]
    unfold Returned at this
    rw [this]
    refine ⟨rfl, fun h => ?_⟩
    have : handleRPC c order evs[i] ≠ [] := by
      unfold handleRPC traceHandleRPC
      cases h : evs[i] with
      | header => exact absurd h hne
      | _ => simp
    exact this h.symm
  · intro i hi hn
    simp only [Finset.mem_filter] at hi
    exact hi.2.2 (hn _ (List.getElem?_eq_getElem i.2))

theorem SumBetween.later {c : Ctx} {order : List Bytes} {evs : List Event} {s1 s s' : Grpc.State} {f : Field} {v : Int}
    (h : SumBetween c order evs s1 s f v) (hI : Inv c order evs s) {sched : List Nat} (hr : s.run sched = some s') :
    SumBetween c order evs s1 s' f v := by
  obtain ⟨P, h1, h2, h3⟩ := h
  refine ⟨P, h1, h2, fun i hi hn => h3 i hi ?_⟩
  intro e he
  obtain ⟨pre, ha⟩ := hI.pos i i.2
  have hee : evs[(i : Nat)] = e := by
    have := List.getElem?_eq_getElem i.2
    rw [this] at he; exact Option.some.inj he
  have hlen := todo_length_run hr (i : Nat)
  rw [hn e he, ← hee, ha.split, List.length_append] at hlen
  have : pre = [] := List.eq_nil_of_length_eq_zero (by omega)
  have hs := ha.split
  rw [this, List.nil_append, hee] at hs
  exact hs.symm

/-- The values a thread loads after `s1`. -/
def Loaded (c : Ctx) (order : List Bytes) (evs : List Event) (s1 s : Grpc.State) (t : Nat) : Prop :=
  ∀ e pre, evs[t]? = some e → handleRPC c order e = pre ++ s.todo t →
    List.Forall₂ (SumBetween c order evs s1 s) (loads pre) (s.loaded t)

theorem loaded_run {c : Ctx} {order : List Bytes} {evs : List Event} (hm : c.method.isSome) {s1 s s2 : Grpc.State}
    {sched : List Nat} {t : Nat} (hI : Inv c order evs s) (hret : ∀ i, Returned s1 i → Returned s i)
    (hL : Loaded c order evs s1 s t) (h : s.run sched = some s2) : Loaded c order evs s1 s2 t := by
  induction sched generalizing s with
  | nil => simp only [State.run, Option.some.injEq] at h; subst h; exact hL
  | cons u ts ih =>
    simp only [State.run] at h
    cases hs : s.step u with
    | none => rw [hs] at h; cases h
    | some s' =>
      rw [hs] at h
      have hrun : s.run [u] = some s' := by simp [State.run, hs]
      refine ih (inv_step hI hs) (fun i hi => todo_nil_run hrun (hret i hi)) ?_ h
      intro e pre he hsp
      obtain ⟨m, rest, _, htd, _, _, h1, h2⟩ := step_eq hs
      by_cases hmp : m = .panic
      · rw [h2 hmp] at hsp
        have := hL e pre he hsp
        have hl : s'.loaded t = s.loaded t := by rw [h2 hmp]; rfl
        rw [hl]
        exact this.imp fun _ _ hx => hx.later hI hrun
      obtain ⟨_, _, htd', hoth, hld, _, _⟩ := h1 hmp
      by_cases htu : t = u
      · subst htu
        have hlt : t < evs.length := (List.getElem?_eq_some_iff.1 he).1
        have hee : evs[t] = e := (List.getElem?_eq_some_iff.1 he).2
        obtain ⟨pre0, ha⟩ := hI.pos t hlt
        have hsp0 := ha.split
        rw [hee, htd] at hsp0
        rw [htd', hsp0] at hsp
        have : pre = pre0 ++ [m] := by
          have : (pre0 ++ [m]) ++ rest = pre ++ rest := by rw [← hsp]; simp
          exact (List.append_cancel_right this).symm
        rw [this, loads_append, hld]
        refine List.rel_append ?_ ?_
        · refine (hL e pre0 he (by rw [htd]; exact hsp0)).imp fun _ _ hx => hx.later hI hrun
        · cases m with
          | load f =>
            exact .cons ((count_between hm hI hret f).later hI hrun) .nil
          | _ => exact .nil
      · rw [(hoth t htu).2]
        rw [(hoth t htu).1] at hsp
        exact (hL e pre he hsp).imp fun _ _ hx => hx.later hI hrun

/-! ## tags -/

theorem mutate_upserts (m : Tag.TMap) (kvs : List (Tag.Key × Bytes)) (hv : ∀ kv ∈ kvs, Tag.checkValue kv.2 = true) :
    Tag.mutateAllP m (kvs.map fun kv => .upsert kv.1 kv.2 []) =
      (kvs.foldl (fun m kv => Tag.upsert m kv.1 kv.2 (Tag.createMetadatas [])) m, none) := by
  induction kvs generalizing m with
  | nil => rfl
  | cons kv kvs ih =>
    have h0 := hv kv (by simp)
    simp only [List.map_cons, Tag.mutateAllP, Tag.mutateP, h0, Bool.not_true, Bool.false_eq_true, if_false, List.foldl_cons]
    exact ih _ fun kv hkv => hv kv (by simp [hkv])

theorem get_foldl_other (kvs : List (Tag.Key × Bytes)) (m : Tag.TMap) (k : Tag.Key) (hk : k ∉ kvs.map (·.1)) :
    GoMap.get (kvs.foldl (fun m kv => Tag.upsert m kv.1 kv.2 (Tag.createMetadatas [])) m) k = GoMap.get m k := by
  induction kvs generalizing m with
  | nil => rfl
  | cons kv kvs ih =>
    simp only [List.map_cons, List.mem_cons, not_or] at hk
    rw [List.foldl_cons, ih _ hk.2]
    exact GoMap.get_set_other _ _ hk.1

theorem get_foldl_mem (kvs : List (Tag.Key × Bytes)) (m : Tag.TMap) (hn : (kvs.map (·.1)).Nodup) {kv : Tag.Key × Bytes}
    (hk : kv ∈ kvs) :
    (GoMap.get (kvs.foldl (fun m kv => Tag.upsert m kv.1 kv.2 (Tag.createMetadatas [])) m) kv.1).map (·.value) = some kv.2 := by
  induction kvs generalizing m with
  | nil => cases hk
  | cons a kvs ih =>
    simp only [List.map_cons, List.nodup_cons] at hn
    rw [List.foldl_cons]
    rcases List.mem_cons.1 hk with rfl | hk
    · rw [get_foldl_other _ _ _ hn.1]
      simp [Tag.upsert, GoMap.get_set_same]
    · exact ih _ hn.2 hk

theorem tagNew_spec {m : Option Tag.TMap} (hg : GoodTags m) {kvs : List (Tag.Key × Bytes)}
    (hv : ∀ kv ∈ kvs, Tag.checkValue kv.2 = true) (hn : (kvs.map (·.1)).Nodup) :
    ∃ m', Grpc.tagNew m kvs = some m' ∧ TagsAre m kvs m' := by
  have hgd : GoMap.WF (m.getD []) ∧ ∀ e ∈ m.getD [], Tag.EntryOK e := by
    cases m with
    | none => exact ⟨by simp [GoMap.WF, GoMap.keys], fun e he => by cases he⟩
    | some l => exact hg l rfl
  have hok : (Tag.copyAllP [] (m.getD [])).2 = none := by
    have := (Tag.copyAllP_err_iff [] (m.getD [])).not
    rw [← Option.not_isSome_iff_eq_none]
    rw [this]
    push Not
    exact hgd.2
  have hget := Tag.copyAllP_get [] (m.getD []) hgd.1 (by simp [GoMap.keys]) hgd.2
  rcases hc : Tag.copyAllP [] (m.getD []) with ⟨m1, o⟩
  rw [hc] at hok hget
  simp only at hok
  subst hok
  refine ⟨_, by unfold Grpc.tagNew; rw [hc]; simp only; rw [mutate_upserts _ _ hv], ?_, ?_⟩
  · intro kv hkv; exact get_foldl_mem kvs m1 hn hkv
  · intro k hk
    rw [get_foldl_other kvs m1 k hk, hget k]
    cases m <;> simp [valueIn, GoMap.get]

/-! ## status names -/

theorem foldl_numeral (d : Bytes) (c : UInt8) : numeral (d ++ [c]) = 10 * numeral d + (c.toNat - 48) := by
  simp [numeral]

theorem digit_toNat {n : Nat} (h : n < 10) : (UInt8.ofNat (48 + n)).toNat - 48 = n := by
  have : (UInt8.ofNat (48 + n)).toNat = 48 + n := by
    rw [UInt8.toNat_ofNat']; omega
  omega

theorem numeral_digits (fuel n : Nat) (h : n < 10 ^ (fuel + 1)) : numeral (Http.digits fuel n) = n := by
  induction fuel generalizing n with
  | zero =>
    have : n < 10 := by simpa using h
    have h2 : n % 10 = n := Nat.mod_eq_of_lt this
    simp only [Http.digits, numeral, List.foldl_cons, List.foldl_nil, h2]
    rw [digit_toNat this]; omega
  | succ fuel ih =>
    unfold Http.digits
    by_cases h1 : n < 10
    · rw [if_pos h1]
      simp only [numeral, List.foldl_cons, List.foldl_nil]
      rw [digit_toNat h1]; omega
    · rw [if_neg h1, foldl_numeral, ih, digit_toNat (Nat.mod_lt _ (by omega))]
      · omega
      · rw [Nat.pow_succ] at h; omega

/-- A decimal digit. -/
def isDigit (c : UInt8) : Bool := decide (48 ≤ c.toNat ∧ c.toNat ≤ 57)

theorem digits_digits (fuel n : Nat) : ∀ c ∈ Http.digits fuel n, isDigit c = true := by
  have h10 : ∀ m, m < 10 → isDigit (UInt8.ofNat (48 + m)) = true := by
    intro m hm
    have : (UInt8.ofNat (48 + m)).toNat = 48 + m := by rw [UInt8.toNat_ofNat']; omega
    simp only [isDigit, this, decide_eq_true_eq]; omega
  induction fuel generalizing n with
  | zero => intro c hc; simp only [Http.digits, List.mem_singleton] at hc; subst hc; exact h10 _ (Nat.mod_lt _ (by omega))
  | succ fuel ih =>
    intro c hc
    unfold Http.digits at hc
    split at hc
    · rename_i h; simp only [List.mem_singleton] at hc; subst hc; exact h10 _ h
    · rcases List.mem_append.1 hc with hc | hc
      · exact ih _ c hc
      · simp only [List.mem_singleton] at hc; subst hc; exact h10 _ (Nat.mod_lt _ (by omega))

/-- **C48.** The status tag: the canonical name of the code, `CODE_` and the number for a code that has
no name. -/
theorem status_tag (code : Nat) (hc : code < 2 ^ 32) (msg : Bytes) :
    statusTag .nil = str "OK" ∧
    (∀ h : code < names.length, statusTag (.status code msg) = str names[code]) ∧
    (names.length ≤ code → ∃ d, statusTag (.status code msg) = str "CODE_" ++ d ∧ (∀ c ∈ d, isDigit c = true) ∧
      numeral d = code) := by
  refine ⟨rfl, ?_, ?_⟩
  · intro h
    have h17 : code < 17 := h
    rcases code with _|_|_|_|_|_|_|_|_|_|_|_|_|_|_|_|_|code
    all_goals first
      | rfl
      | omega
  · intro h
    have h17 : 17 ≤ code := h
    refine ⟨Http.itoa code, ?_, ?_, ?_⟩
    · show statusCodeToString code = _
      unfold statusCodeToString
      repeat rw [if_neg (by omega)]
    · unfold Http.itoa
      rw [if_neg (by omega)]
      exact digits_digits _ _
    · unfold Http.itoa
      rw [if_neg (by omega)]
      simp only [Int.natAbs_natCast]
      exact numeral_digits 19 code (by omega)

theorem statusTag_valid (err : GErr) : Tag.checkValue (statusTag err) = true := by
  cases err with
  | nil => decide
  | other m => rfl
  | status code m =>
    by_cases h17 : code < 17
    · rcases code with _|_|_|_|_|_|_|_|_|_|_|_|_|_|_|_|_|code
      all_goals first
        | rfl
        | omega
    · show Tag.checkValue (statusCodeToString code) = true
      unfold statusCodeToString
      repeat rw [if_neg (by omega)]
      have hl : (Http.itoa code).length ≤ 21 := by
        unfold Http.itoa
        split
        · omega
        · have := Http.digits_length 19 (code : Int).natAbs; omega
      unfold Tag.checkValue
      rw [if_neg (by rw [List.length_append]; unfold Tag.maxKeyLength; have : (str "CODE_").length = 5 := by decide
                     omega)]
      have := Http.checkValue_itoa code
      unfold Tag.checkValue at this
      rw [if_neg (by unfold Tag.maxKeyLength; omega)] at this
      unfold Tag.isASCII at this ⊢
      rw [List.all_append, this]
      decide

/-! ## What is recorded -/

/-- The records among what came out of a thread. -/
def records : List Out → List (Tag.TMap × List Meas)
  | [] => []
  | .record m ms :: l => (m, ms) :: records l
  | _ :: l => records l

/-- The operations on spans among what came out of a thread. -/
def traceOps : List Out → List Op
  | [] => []
  | .trace op :: l => op :: traceOps l
  | _ :: l => traceOps l

/-- The measurements of the end of an RPC. -/
def endMeasurements (client : Bool) (sentBytes sentMessages receivedBytes receivedMessages : Int) : List Meas :=
  if client then
    [⟨.clientSentBytes, some sentBytes⟩, ⟨.clientSentMessages, some sentMessages⟩,
     ⟨.clientReceivedMessages, some receivedMessages⟩, ⟨.clientReceivedBytes, some receivedBytes⟩,
     ⟨.clientRoundtripLatency, none⟩]
  else
    [⟨.serverSentBytes, some sentBytes⟩, ⟨.serverSentMessages, some sentMessages⟩,
     ⟨.serverReceivedMessages, some receivedMessages⟩, ⟨.serverReceivedBytes, some receivedBytes⟩,
     ⟨.serverLatency, none⟩]

/-- The tags of the end of an RPC. -/
def endTags (client : Bool) (full : Bytes) (st : Bytes) : List (Tag.Key × Bytes) :=
  if client then [(keyClientMethod, methodName full), (keyClientStatus, st)] else [(keyServerStatus, st)]

/-- The span operations of an event. -/
def spanOps (c : Ctx) (order : List Bytes) : Event → List Op
  | .begin client failFast =>
    [.addAttributes c.span [⟨str "Client", if client then [1] else [0]⟩, ⟨str "FailFast", if failFast then [1] else [0]⟩]]
  | .outPayload n w => [.addMessageEvent c.span .sent 0 n w]
  | .inPayload n w => [.addMessageEvent c.span .recv 0 n w]
  | .end _ .nil => [.endSpan c.span order]
  | .end _ (.status code msg) => [.setStatus c.span ⟨int32 code, msg⟩, .endSpan c.span order]
  | .end _ (.other msg) => [.setStatus c.span ⟨13, msg⟩, .endSpan c.span order]
  | .header => []

theorem records_append (a b : List Out) : records (a ++ b) = records a ++ records b := by
  induction a with
  | nil => rfl
  | cons o a ih => cases o <;> simp [records, ih]

theorem traceOps_append (a b : List Out) : traceOps (a ++ b) = traceOps a ++ traceOps b := by
  induction a with
  | nil => rfl
  | cons o a ih => cases o <;> simp [traceOps, ih]

theorem traceOps_record (m : Option Tag.TMap) (kvs : List (Tag.Key × Bytes)) (ms : List Meas) :
    traceOps (Grpc.record m kvs ms) = [] := by
  unfold Grpc.record
  split <;> rfl

theorem traceOps_startedRecord (c : Ctx) (cl : Bool) : traceOps (startedRecord c cl) = [] := traceOps_record _ _ _

theorem traceOps_endRecord (c : Ctx) (cl : Bool) (st : Bytes) (vs : List Int) : traceOps (endRecord c cl st vs) = [] := by
  unfold endRecord
  split <;> exact traceOps_record _ _ _

theorem method_isNone {c : Ctx} {full : Bytes} (hm : c.method = some full) : c.method.isNone = false := by rw [hm]; rfl

/-- What came out of a thread that has returned. -/
theorem outs_returned {c : Ctx} {order : List Bytes} {evs : List Event} {s : Grpc.State} (hI : Inv c order evs s)
    {t : Nat} {e : Event} (ht : evs[t]? = some e) (h1 : Returned s t) :
    s.outs t = outsOf c (s.loaded t) (handleRPC c order e) := by
  have hlt : t < evs.length := (List.getElem?_eq_some_iff.1 ht).1
  have hee : evs[t] = e := (List.getElem?_eq_some_iff.1 ht).2
  obtain ⟨pre, ha⟩ := hI.pos t hlt
  have hsp := ha.split
  rw [hee, show s.todo t = [] from h1, List.append_nil] at hsp
  rw [hsp]; exact ha.out

/-- What was not called has done nothing. -/
theorem notCalled {c : Ctx} {order : List Bytes} {evs : List Event} {s : Grpc.State} (hI : Inv c order evs s)
    {t : Nat} (h0 : NotCalled c order evs s t) (s1 : Grpc.State) : Loaded c order evs s1 s t := by
  intro e pre he hsp
  rw [h0 e he] at hsp
  have hp : pre = [] := by
    have := congrArg List.length hsp
    rw [List.length_append] at this
    exact List.eq_nil_of_length_eq_zero (by omega)
  have hlt : t < evs.length := (List.getElem?_eq_some_iff.1 he).1
  have hee : evs[t] = e := (List.getElem?_eq_some_iff.1 he).2
  obtain ⟨pre', ha⟩ := hI.pos t hlt
  have hsp' := ha.split
  rw [hee, h0 e he] at hsp'
  have hp' : pre' = [] := by
    have := congrArg List.length hsp'
    rw [List.length_append] at this
    exact List.eq_nil_of_length_eq_zero (by omega)
  have hl := ha.nload
  rw [hp'] at hl
  have : s.loaded t = [] := List.eq_nil_of_length_eq_zero hl
  rw [this, hp]; exact .nil

/-- **C48, for tags and a method name that `tag.New` accepts.** The goroutine that handles the end of an
RPC records once. Each of the four counts is the sum over a set of payload events that has all those
whose handler had returned when the handler of `End` was called, and only those whose handler was called
before it returned. The tags are those of the context, with the method and the status. -/
theorem end_record_partial {c : Ctx} {order : List Bytes} {evs : List Event} {full : Bytes} (hm : c.method = some full)
    (hg : GoodTags c.tags) (hv : Tag.checkValue (methodName full) = true) {sched1 sched2 : List Nat} {s1 s2 : Grpc.State}
    (r1 : (State.init c order evs).run sched1 = some s1) (r2 : s1.run sched2 = some s2)
    {t : Nat} {client : Bool} {err : GErr} (ht : evs[t]? = some (.end client err))
    (h0 : NotCalled c order evs s1 t) (h1 : Returned s2 t) :
    ∃ m sb sm rb rm, records (s2.outs t) = [(m, endMeasurements client sb sm rb rm)] ∧
      SumBetween c order evs s1 s2 .sentBytes sb ∧ SumBetween c order evs s1 s2 .sentCount sm ∧
      SumBetween c order evs s1 s2 .recvBytes rb ∧ SumBetween c order evs s1 s2 .recvCount rm ∧
      TagsAre c.tags (endTags client full (statusTag err)) m := by
  have hms : c.method.isSome := by rw [hm]; rfl
  have hI1 := inv_run (inv_init c order evs) r1
  have hI2 := inv_run hI1 r2
  have hL := loaded_run hms hI1 (fun _ h => h) (notCalled hI1 h0 s1) r2
  have hL := hL _ (handleRPC c order (.end client err)) ht (by rw [show s2.todo t = [] from h1, List.append_nil])
  have ho := outs_returned hI2 ht h1
  have hld : loads (handleRPC c order (.end client err)) = [.sentBytes, .sentCount, .recvCount, .recvBytes] := by
    unfold handleRPC traceHandleRPC statsHandleRPC
    rw [method_isNone hm]
    cases err <;> rfl
  rw [hld] at hL
  have hout : ∀ vs, records (outsOf c vs (handleRPC c order (.end client err))) = records (endRecord c client (statusTag err) vs) := by
    intro vs
    unfold handleRPC traceHandleRPC statsHandleRPC
    rw [method_isNone hm]
    cases err <;> simp [outsOf, records]
  rw [ho, hout]
  generalize s2.loaded t = vs at hL
  rcases hL with _ | ⟨ha, hL⟩
  rcases hL with _ | ⟨hb, hL⟩
  rcases hL with _ | ⟨hc, hL⟩
  rcases hL with _ | ⟨hd, hL⟩
  cases hL
  rename_i sb sm rm rb
  have hvalid : ∀ kv ∈ endTags client full (statusTag err), Tag.checkValue kv.2 = true := by
    intro kv hkv
    unfold endTags at hkv
    cases client
    · simp only [Bool.false_eq_true, if_false, List.mem_singleton] at hkv
      subst hkv; exact statusTag_valid err
    · simp only [if_true, List.mem_cons, List.not_mem_nil, or_false] at hkv
      rcases hkv with rfl | rfl
      · exact hv
      · exact statusTag_valid err
  have hnd : ((endTags client full (statusTag err)).map (·.1)).Nodup := by
    unfold endTags; cases client
    · simp
    · simp [keyClientMethod, keyClientStatus]; decide
  obtain ⟨m, hm1, hm2⟩ := tagNew_spec hg hvalid hnd
  refine ⟨m, sb, sm, rb, rm, ?_, ha, hb, hd, hc, hm2⟩
  unfold endRecord endMeasurements
  cases client
  · unfold endTags at hm1
    simp only [Bool.false_eq_true, if_false] at hm1 ⊢
    unfold Grpc.record; rw [hm1]; rfl
  · unfold endTags at hm1
    simp only [if_true] at hm1 ⊢
    unfold Grpc.record; rw [hm]; simp only [Option.getD_some]; rw [hm1]; rfl

/-- All payload handlers have returned before the end is handled: the counts are the sums over all
events. -/
theorem sum_all {c : Ctx} {order : List Bytes} {evs : List Event} {s1 s2 : Grpc.State} {f : Field} {v : Int}
    (h : SumBetween c order evs s1 s2 f v)
    (hall : ∀ i e, evs[i]? = some e → amount f e ≠ 0 → Returned s1 i) : v = wrap64 (evs.map (amount f)).sum := by
  obtain ⟨P, hP, h1, _⟩ := h
  rw [hP]
  congr 1
  have : ∑ i ∈ P, amount f evs[i] = ∑ i : Fin evs.length, amount f evs[i] := by
    apply Finset.sum_subset (Finset.subset_univ P)
    intro i _ hi
    by_contra hne
    refine hi (h1 i ?_ (hall i _ (List.getElem?_eq_getElem i.2) hne))
    intro hh
    exact hne (by rw [hh]; rfl)
  rw [this]
  have h2 := Fin.sum_univ_fun_getElem evs (amount f)
  exact h2

/-- **C48, for tags and a method name that `tag.New` accepts.** When gRPC has had the payload events
handled before it hands over the end, the counts are the sums over all of them (as `int64`), whatever
the interleaving of the payload handlers. -/
theorem exact_sums_partial {c : Ctx} {order : List Bytes} {evs : List Event} {full : Bytes} (hm : c.method = some full)
    (hg : GoodTags c.tags) (hv : Tag.checkValue (methodName full) = true) {sched1 sched2 : List Nat} {s1 s2 : Grpc.State}
    (r1 : (State.init c order evs).run sched1 = some s1) (r2 : s1.run sched2 = some s2)
    {t : Nat} {client : Bool} {err : GErr} (ht : evs[t]? = some (.end client err))
    (h0 : NotCalled c order evs s1 t) (h1 : Returned s2 t)
    (hall : ∀ i e, evs[i]? = some e → (∃ f, amount f e ≠ 0) → Returned s1 i) :
    ∃ m, records (s2.outs t) = [(m, endMeasurements client (wrap64 (evs.map (amount .sentBytes)).sum)
        (wrap64 (evs.map (amount .sentCount)).sum) (wrap64 (evs.map (amount .recvBytes)).sum)
        (wrap64 (evs.map (amount .recvCount)).sum))] ∧
      TagsAre c.tags (endTags client full (statusTag err)) m := by
  obtain ⟨m, sb, sm, rb, rm, hrec, h2, h3, h4, h5, htags⟩ := end_record_partial hm hg hv r1 r2 ht h0 h1
  refine ⟨m, ?_, htags⟩
  rw [hrec, sum_all h2 fun i e he hne => hall i e he ⟨_, hne⟩, sum_all h3 fun i e he hne => hall i e he ⟨_, hne⟩,
    sum_all h4 fun i e he hne => hall i e he ⟨_, hne⟩, sum_all h5 fun i e he hne => hall i e he ⟨_, hne⟩]

/-- **C48.** The span operations of an event are the ones of `spanOps`, in any schedule. -/
theorem span_operations {c : Ctx} {order : List Bytes} {evs : List Event} {sched : List Nat} {s : Grpc.State}
    (r : (State.init c order evs).run sched = some s) {t : Nat} {e : Event} (ht : evs[t]? = some e) (h : Returned s t) :
    traceOps (s.outs t) = spanOps c order e := by
  rw [outs_returned (inv_run (inv_init c order evs) r) ht h]
  unfold handleRPC traceHandleRPC statsHandleRPC
  cases e with
  | «end» cl err =>
    cases err <;> cases c.method.isNone <;> simp [outsOf, traceOps, spanOps, traceOps_endRecord]
  | begin cl ff =>
    cases c.method.isNone <;> simp [outsOf, traceOps, spanOps, boolAttr, traceOps_startedRecord]
  | outPayload n w => cases c.method.isNone <;> simp [outsOf, traceOps, spanOps]
  | inPayload n w => cases c.method.isNone <;> simp [outsOf, traceOps, spanOps]
  | header => simp [outsOf, traceOps, spanOps]

/-- **C48, for tags and a method name that `tag.New` accepts.** The start of an RPC is recorded once, by
the handler of `Begin`, with the method; payload handlers record nothing. -/
theorem started_record_partial {c : Ctx} {order : List Bytes} {evs : List Event} {full : Bytes} (hm : c.method = some full)
    (hg : GoodTags c.tags) (hv : Tag.checkValue (methodName full) = true) {sched : List Nat} {s : Grpc.State}
    (r : (State.init c order evs).run sched = some s) {t : Nat} {e : Event} (ht : evs[t]? = some e) (h : Returned s t) :
    match e with
    | .begin client _ => ∃ m, TagsAre c.tags [(keyClientMethod, methodName full)] m ∧
        records (s.outs t) = [(m, [⟨if client then .clientStarted else .serverStarted, some 1⟩])]
    | .end _ _ => True
    | _ => records (s.outs t) = [] := by
  rw [outs_returned (inv_run (inv_init c order evs) r) ht h]
  cases e with
  | «end» cl err => trivial
  | begin cl ff =>
    obtain ⟨m, hm1, hm2⟩ := tagNew_spec (kvs := [(keyClientMethod, methodName full)]) hg
      (by intro kv hkv; simp only [List.mem_singleton] at hkv; subst hkv; exact hv) (by simp)
    refine ⟨m, hm2, ?_⟩
    unfold handleRPC traceHandleRPC statsHandleRPC
    rw [method_isNone hm]
    simp only [Bool.false_eq_true, if_false, List.cons_append, List.nil_append, outsOf, records, List.append_nil]
    unfold startedRecord Grpc.record
    rw [hm]; simp only [Option.getD_some]; rw [hm1]; rfl
  | outPayload n w => unfold handleRPC traceHandleRPC statsHandleRPC; rw [method_isNone hm]; rfl
  | inPayload n w => unfold handleRPC traceHandleRPC statsHandleRPC; rw [method_isNone hm]; rfl
  | header => rfl

/-- The record of a start. -/
def isStarted : Out → Bool
  | .record _ [⟨.clientStarted, _⟩] => true
  | .record _ [⟨.serverStarted, _⟩] => true
  | _ => false

def isBegin : Event → Bool
  | .begin _ _ => true
  | _ => false

theorem countP_split (p : Out → Bool) (l : List (Nat × Out)) (n : Nat) (h : ∀ o ∈ l, o.1 < n) :
    l.countP (fun o => p o.2) = ((List.range n).map fun i => ((l.filter fun o => o.1 = i).map (·.2)).countP p).sum := by
  induction l with
  | nil => simp
  | cons o l ih =>
    replace ih := ih fun o ho => h o (by simp [ho])
    have hlt := h o (by simp)
    rw [List.countP_cons, ih]
    have : ∀ i, (((o :: l).filter fun o => o.1 = i).map (·.2)).countP p =
        ((l.filter fun o => o.1 = i).map (·.2)).countP p + if i = o.1 then (if p o.2 then 1 else 0) else 0 := by
      intro i
      by_cases hi : o.1 = i
      · rw [List.filter_cons_of_pos (by simpa using hi), List.map_cons, List.countP_cons, if_pos hi.symm]
      · rw [List.filter_cons_of_neg (by simpa using hi), if_neg (Ne.symm hi)]; rfl
    simp only [this]
    rw [List.sum_map_add]
    congr 1
    clear this ih h
    induction n with
    | zero => omega
    | succ n ihn =>
      rw [List.range_succ, List.map_append, List.sum_append]
      by_cases hn : o.1 = n
      · subst hn
        have : ((List.range o.1).map fun i => if i = o.1 then (if p o.2 then 1 else 0) else 0).sum = 0 := by
          rw [List.sum_eq_zero]
          intro x hx
          obtain ⟨i, hi, rfl⟩ := List.mem_map.1 hx
          rw [if_neg (by have := List.mem_range.1 hi; omega)]
        rw [this]; simp
      · rw [← ihn (by omega)]; simp [Ne.symm hn]

/-- **C48, for tags and a method name that `tag.New` accepts.** When all handlers have returned, there are
as many records of a start as there were `Begin` events (gRPC sends one per RPC). -/
theorem started_total_partial {c : Ctx} {order : List Bytes} {evs : List Event} {full : Bytes} (hm : c.method = some full)
    (hg : GoodTags c.tags) (hv : Tag.checkValue (methodName full) = true) {sched : List Nat} {s : Grpc.State}
    (r : (State.init c order evs).run sched = some s) (h : ∀ t, Returned s t) :
    s.out.countP (fun o => isStarted o.2) = evs.countP isBegin := by
  have hI := inv_run (inv_init c order evs) r
  rw [countP_split isStarted s.out evs.length hI.ids]
  have key : ∀ i (hi : i < evs.length), (s.outs i).countP isStarted = if isBegin evs[i] then 1 else 0 := by
    intro i hi
    rw [outs_returned hI (List.getElem?_eq_getElem hi) (h i)]
    cases he : evs[i] with
    | begin cl ff =>
      obtain ⟨m, hm1, hm2⟩ := tagNew_spec (kvs := [(keyClientMethod, methodName full)]) hg
        (by intro kv hkv; simp only [List.mem_singleton] at hkv; subst hkv; exact hv) (by simp)
      unfold handleRPC traceHandleRPC statsHandleRPC
      rw [method_isNone hm]
      simp only [Bool.false_eq_true, if_false, List.cons_append, List.nil_append, outsOf, List.append_nil]
      unfold startedRecord Grpc.record
      rw [hm]; simp only [Option.getD_some]; rw [hm1]
      cases cl <;> rfl
    | «end» cl err =>
      unfold handleRPC traceHandleRPC statsHandleRPC
      rw [method_isNone hm]
      have : ∀ st vs, (endRecord c cl st vs).countP isStarted = 0 := by
        intro st vs
        unfold endRecord Grpc.record
        cases cl
        · simp only [Bool.false_eq_true, if_false]; split <;> rfl
        · simp only [if_true]; split <;> rfl
      cases err <;> simp [outsOf, this, isBegin, isStarted]
    | outPayload n w => unfold handleRPC traceHandleRPC statsHandleRPC; rw [method_isNone hm]; rfl
    | inPayload n w => unfold handleRPC traceHandleRPC statsHandleRPC; rw [method_isNone hm]; rfl
    | header => rfl
  have : ((List.range evs.length).map fun i => ((s.out.filter fun o => o.1 = i).map (·.2)).countP isStarted) =
      evs.map fun e => if isBegin e then 1 else 0 := by
    apply List.ext_getElem (by simp)
    intro i h1 h2
    simp only [List.getElem_map, List.getElem_range]
    exact key i (by simpa using h1)
  rw [this]
  clear key this hI r h
  induction evs with
  | nil => rfl
  | cons e evs ih => rw [List.map_cons, List.sum_cons, List.countP_cons, ih]; omega

/-- With `rpcData` in the context no handler panics. -/
theorem never_panics {c : Ctx} {order : List Bytes} {evs : List Event} (hm : c.method.isSome) {sched : List Nat}
    {s : Grpc.State} (r : (State.init c order evs).run sched = some s) : s.panicked = false := by
  have hn : c.method.isNone = false := by cases h : c.method <;> simp_all
  have key : ∀ (ts : List Nat) (s s' : Grpc.State), Inv c order evs s → s.panicked = false → s.run ts = some s' → s'.panicked = false := by
    intro ts
    induction ts with
    | nil => intro s s' _ hp h; simp only [State.run, Option.some.injEq] at h; subst h; exact hp
    | cons t ts ih =>
      intro s s' hI hp h
      simp only [State.run] at h
      cases hs : s.step t with
      | none => rw [hs] at h; cases h
      | some s1 =>
        rw [hs] at h
        refine ih s1 s' (inv_step hI hs) ?_ h
        obtain ⟨m, rest, _, htd, hlt, _, h1, _⟩ := step_eq hs
        refine (h1 ?_).1
        rintro rfl
        have hlt' : t < evs.length := hI.len ▸ hlt
        obtain ⟨pre, ha⟩ := hI.pos t hlt'
        have : Micro.panic ∈ handleRPC c order evs[t] := by rw [ha.split, htd]; simp
        unfold handleRPC traceHandleRPC statsHandleRPC at this
        rw [hn] at this
        cases he : evs[t] with
        | «end» cl err => rw [he] at this; cases err <;> simp at this
        | _ => rw [he] at this; simp at this
  exact key sched _ _ (inv_init c order evs) rfl r

/-! ## What does not hold -/

/-- Without `rpcData` the handler of `Begin` panics, though the others cope. -/
theorem begin_without_data_panics : ∃ s, (State.init ⟨none, none, none⟩ [] [.begin true false]).run [0, 0] = some s ∧
    s.panicked = true := ⟨_, rfl, rfl⟩

/-- A method name that is no tag value: nothing is recorded, neither the start nor the end, and nobody is
told. The plugin does not check the names it gets from the network. -/
theorem bad_method_drops_records : ∃ s, (State.init ⟨none, none, some [47, 195, 169]⟩ []
      [.begin true false, .outPayload 5 5, .end true .nil]).run [0, 0, 1, 1, 1, 2, 2, 2, 2, 2, 2] = some s ∧
    (∀ t, t < 3 → Returned s t) ∧ ∀ t, t < 3 → records (s.outs t) = [] := by
  refine ⟨_, rfl, ?_, ?_⟩
  · intro t ht; rcases t with _ | _ | _ | t <;> rfl
  · intro t ht; rcases t with _ | _ | _ | t <;> rfl

/-- An error that carries no status has an empty status tag, while the span gets the status INTERNAL. -/
theorem plain_error_no_status (msg : Bytes) (c : Ctx) (order : List Bytes) (client : Bool) :
    statusTag (.other msg) = [] ∧ spanOps c order (.end client (.other msg)) =
      [.setStatus c.span ⟨13, msg⟩, .endSpan c.span order] := ⟨rfl, rfl⟩

/-- A payload handler that is still running when the end is handled: its bytes are counted and its message
is not. (The theorem above allows this: the two counts may be about different sets.) -/
theorem torn_counts : ∃ s, (State.init ⟨none, none, some (str "/a/b")⟩ [] [.outPayload 5 5, .end true .nil]).run
      [0, 0, 1, 1, 1, 1, 1, 1, 0] = some s ∧ Returned s 0 ∧ Returned s 1 ∧
    (records (s.outs 1)).map (·.2) = [endMeasurements true 5 0 0 0] := ⟨_, rfl, rfl, rfl, rfl⟩

/-! ## The hypotheses can be met -/

def demoTags : Tag.TMap := [(⟨str "k"⟩, ⟨str "v", ⟨0⟩⟩)]
def demoCtx : Ctx := ⟨some demoTags, some 0, some (str "/pkg.Service/Method")⟩
def demoEvents : List Event :=
  [.begin true false, .outPayload 10 12, .outPayload 20 22, .inPayload 7 9, .header, .end true (.status 5 (str "nope"))]

/-- Payload handlers interleaved, then the end. -/
example : ∃ s1 s2, (State.init demoCtx [] demoEvents).run [0, 1, 2, 0, 3, 2, 1, 3, 1, 2, 3] = some s1 ∧
    s1.run [5, 5, 5, 5, 5, 5, 5] = some s2 ∧ NotCalled demoCtx [] demoEvents s1 5 ∧ Returned s2 5 ∧
    Returned s1 1 ∧ Returned s1 2 ∧ Returned s1 3 ∧
    (records (s2.outs 5)).map (·.2) = [endMeasurements true 30 2 7 1] ∧
    (records (s2.outs 5)).map (fun r => (GoMap.get r.1 keyClientStatus).map (·.value)) = [some (str "NOT_FOUND")] := by
  refine ⟨_, _, rfl, rfl, ?_, rfl, rfl, rfl, rfl, rfl, ?_⟩
  · intro e he; cases he; rfl
  · decide +kernel

example : GoodTags demoCtx.tags ∧ Tag.checkValue (methodName (str "/pkg.Service/Method")) = true := by
  refine ⟨?_, by decide⟩
  intro l hl; cases hl
  refine ⟨by simp [GoMap.WF, GoMap.keys, demoTags], ?_⟩
  intro e he
  simp only [demoTags, List.mem_singleton] at he
  subst he
  exact ⟨by decide, by decide⟩

end Verif.Props.Grpc
