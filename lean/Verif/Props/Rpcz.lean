import Verif.Props.Truncate
import Verif.Zpages.Rpcz
import Mathlib.Data.List.Induction
import Mathlib.Tactic.ByContra

/-!
# C59: what the RPC page shows
-/

namespace Verif.Props.Rpcz
open Verif Verif.View Verif.Grpc Verif.Zpages.Rpcz

/-! ## Specification -/

/-- The views of a direction (`true`: received) the page is made from. -/
def completed : Bool → RView
  | false => .clientCompletedRPCs
  | true => .serverCompletedRPCs
def messages : Bool → RView
  | false => .clientSentMessages
  | true => .serverReceivedMessages
def latency : Bool → RView
  | false => .clientRoundtripLatency
  | true => .serverLatency
def sentBytes : Bool → RView
  | false => .clientSentBytes
  | true => .serverSentBytes
def receivedBytes : Bool → RView
  | false => .clientReceivedBytes
  | true => .serverReceivedBytes
def statusKey : Bool → Tag.Key
  | false => keyClientStatus
  | true => keyServerStatus

/-- The rows of a method. -/
def rowsOf (m : Bytes) (e : Export) : List Row := e.rows.filter fun r => decide (methodOf r = m)

/-- The last row of the method that was exported for the view, with its export. -/
def lastRow (m : Bytes) (v : RView) (es : List Export) : Option (Export × Row) :=
  ((es.filter fun e => decide (e.view = v)).flatMap fun e => (rowsOf m e).map fun r => (e, r)).getLast?

/-- The last export for the view that has rows of the method. -/
def lastExport (m : Bytes) (v : RView) (es : List Export) : Option Export :=
  (es.filter fun e => decide (e.view = v) && !(rowsOf m e).isEmpty).getLast?

/-- Whether the export has something for the method and direction. -/
def concerns (k : Bytes × Bool) (e : Export) : Bool := decide (viewType e.view = some k.2) && !(rowsOf k.1 e).isEmpty

/-- The row counts failed RPCs: it has a status that is not OK. -/
def failed (key : Tag.Key) (r : Row) : Bool := r.tags.any fun t => decide (t.1 = key) && decide (t.2 ≠ str "OK")

/-- What the rows of the views of completed RPCs are: a count, below 2^53, by a status. -/
def Counted (key : Tag.Key) (r : Row) : Prop :=
  (∃ start n, r.data = .count start n ∧ 0 ≤ n ∧ n ≤ 2 ^ 53) ∧ (r.tags.filter fun t => decide (t.1 = key)).length ≤ 1

/-- The count of a row of a view that counts. -/
def number (r : Row) : Nat :=
  match r.data with
  | .count _ n => n.toNat
  | _ => 0

/-- The snapshots after exports. -/
def snapsAfter (c : Conv) (es : List Export) : Snaps := es.foldl (exportView c) []

/-! ## Proofs -/

/-- The updates of one snapshot. -/
def foldRows (c : Conv) (v : RView) (age : F64) (reset : Bool) : List Row → Snap → Snap
  | [], s => s
  | r :: l, s => foldRows c v age true l (update c v age reset r s)

theorem rowLoop_get (c : Conv) (v : RView) (rc : Bool) (age : F64) (rows : List Row) (snaps : Snaps) (resets : List Bytes)
    (m : Bytes) (rc' : Bool) :
    GoMap.get (rowLoop c v rc age snaps resets rows) (m, rc') =
      if rc' = rc ∧ (rows.filter fun r => decide (methodOf r = m)) ≠ [] then
        some (foldRows c v age (resets.contains m) (rows.filter fun r => decide (methodOf r = m))
          ((GoMap.get snaps (m, rc)).getD (Snap.new m rc)))
      else GoMap.get snaps (m, rc') := by
  induction rows generalizing snaps resets with
  | nil => simp [rowLoop]
  | cons r rows ih =>
    simp only [rowLoop]
    rw [ih]
    by_cases hrc : rc' = rc
    · subst hrc
      by_cases hm : methodOf r = m
      · subst hm
        simp only [List.filter_cons, decide_true, if_true, true_and]
        rw [GoMap.get_set_same]
        simp only [foldRows, List.contains_cons, beq_self_eq_true, Bool.true_or, Option.getD_some]
        by_cases h : (rows.filter fun x => decide (methodOf x = methodOf r)) = []
        · rw [if_neg (fun x => x h), if_pos (List.cons_ne_nil _ _), h]; rfl
        · rw [if_pos h, if_pos (List.cons_ne_nil _ _)]
      · simp only [List.filter_cons, decide_eq_true_eq, if_neg hm, true_and]
        have hk : (m, rc') ≠ (methodOf r, rc') := fun h => hm (congrArg Prod.fst h).symm
        rw [GoMap.get_set_other _ _ hk]
        have hcont : (methodOf r :: resets).contains m = resets.contains m := by
          rw [List.contains_cons]
          have : (m == methodOf r) = false := by simp [Ne.symm hm]
          rw [this, Bool.false_or]
        rw [hcont]
    · rw [if_neg (fun h => hrc h.1), if_neg (fun h => hrc h.1)]
      exact GoMap.get_set_other _ _ fun h => hrc (congrArg Prod.snd h)

theorem exportView_get (c : Conv) (snaps : Snaps) (e : Export) (k : Bytes × Bool) :
    GoMap.get (exportView c snaps e) k =
      if concerns k e = true then
        some (foldRows c e.view e.ageSec false (rowsOf k.1 e) ((GoMap.get snaps k).getD (Snap.new k.1 k.2)))
      else GoMap.get snaps k := by
  obtain ⟨m, rc'⟩ := k
  unfold exportView concerns
  cases hv : viewType e.view with
  | none => simp
  | some rc =>
    simp only
    by_cases hl : e.rows.length = 0
    · have : rowsOf m e = [] := by rw [rowsOf, List.eq_nil_of_length_eq_zero hl]; rfl
      rw [if_pos hl, if_neg (by simp [this])]
    · rw [if_neg hl, rowLoop_get]
      by_cases h : rc' = rc
      · subst h
        by_cases hr : rowsOf m e = []
        · rw [if_neg (by simpa [rowsOf] using hr), if_neg (by simp [hr])]
        · rw [if_pos ⟨rfl, hr⟩, if_pos (by simp [hr])]; rfl
      · rw [if_neg (fun x => h x.1), if_neg (by simp [Ne.symm h])]

theorem fold_last {c : Conv} {v : RView} {age : F64} {w : Row → Snap → Snap}
    (h : ∀ reset r s, update c v age reset r s = w r s) (hw : ∀ r r' s, w r (w r' s) = w r s) (l : List Row) (r : Row)
    (hl : l.getLast? = some r) (reset : Bool) (s : Snap) : foldRows c v age reset l s = w r s := by
  induction l generalizing reset s with
  | nil => cases hl
  | cons a l ih =>
    simp only [foldRows, h]
    cases l with
    | nil => simp at hl; subst hl; rfl
    | cons b l =>
      rw [List.getLast?_cons_cons] at hl
      rw [ih hl, hw]

theorem fold_same {c : Conv} {v : RView} {age : F64} (h : ∀ reset r s, update c v age reset r s = s) (l : List Row)
    (reset : Bool) (s : Snap) : foldRows c v age reset l s = s := by
  induction l generalizing reset s with
  | nil => rfl
  | cons a l ih => simp only [foldRows, h, ih]

theorem fold_errors {c : Conv} {v : RView} {age : F64} {key : Tag.Key}
    (h : ∀ reset r s, update c v age reset r s =
      { s with errorsTotal := addErrors c key r (if reset = true then s.errorsTotal else 0) })
    (l : List Row) (hl : l ≠ []) (reset : Bool) (s : Snap) :
    foldRows c v age reset l s =
      { s with errorsTotal := l.foldl (fun e r => addErrors c key r e) (if reset = true then s.errorsTotal else 0) } := by
  induction l generalizing reset s with
  | nil => exact absurd rfl hl
  | cons a l ih =>
    simp only [foldRows, h]
    cases l with
    | nil => simp [foldRows]
    | cons b l => rw [ih (by simp)]; simp

/-- The number of RPCs the row of the view of messages stands for. -/
def shownCount (c : Conv) : Option (Export × Row) → BitVec 64
  | some (_, r) => toU64 c (countOf r)
  | none => 0

/-- The mean latency of the row of the view of latencies. -/
def shownLatency (c : Conv) : Option (Export × Row) → Int
  | some (_, r) => convertTime c (F64.div (sumOf r) (countOf r))
  | none => 0

/-- The count of the row by the age of the program at its export. -/
def countRate : Option (Export × Row) → F64
  | some (e, r) => F64.div (countOf r) e.ageSec
  | none => .fin 0

/-- The sum of the row by the age of the program at its export. -/
def sumRate : Option (Export × Row) → F64
  | some (e, r) => F64.div (sumOf r) e.ageSec
  | none => .fin 0

/-- The errors of an export of a view of completed RPCs. -/
def shownErrors (c : Conv) (k : Bytes × Bool) : Option Export → BitVec 64
  | some e => (rowsOf k.1 e).foldl (fun a r => addErrors c (statusKey k.2) r a) 0
  | none => 0

/-- What the page shows for a method and direction that some export is about. -/
def shown (c : Conv) (es : List Export) (k : Bytes × Bool) : Snap where
  method := k.1
  received := k.2
  countTotal := shownCount c (lastRow k.1 (messages k.2) es)
  rpcRateTotal := countRate (lastRow k.1 (messages k.2) es)
  avgLatencyTotal := shownLatency c (lastRow k.1 (latency k.2) es)
  inputRateTotal := sumRate (if k.2 then none else lastRow k.1 (receivedBytes k.2) es)
  outputRateTotal := sumRate (lastRow k.1 (sentBytes k.2) es)
  errorsTotal := shownErrors c k (lastExport k.1 (completed k.2) es)

/-- What the page shows for a method and direction. -/
def expected (c : Conv) (es : List Export) (k : Bytes × Bool) : Option Snap :=
  if es.any (concerns k) then some (shown c es k) else none

theorem lastRow_snoc (m : Bytes) (v : RView) (es : List Export) (e : Export) :
    lastRow m v (es ++ [e]) = if e.view = v then ((rowsOf m e).getLast?.map fun r => (e, r)).or (lastRow m v es)
      else lastRow m v es := by
  unfold lastRow
  rw [List.filter_append, List.flatMap_append, List.getLast?_append]
  by_cases h : e.view = v
  · simp [h, List.getLast?_map]
  · simp [h]

theorem lastExport_snoc (m : Bytes) (v : RView) (es : List Export) (e : Export) :
    lastExport m v (es ++ [e]) = if e.view = v ∧ rowsOf m e ≠ [] then some e else lastExport m v es := by
  unfold lastExport
  rw [List.filter_append, List.getLast?_append]
  by_cases h : e.view = v ∧ rowsOf m e ≠ []
  · rw [if_pos h]
    simp [h.1, h.2]
  · rw [if_neg h]
    have : ([e].filter fun e => decide (e.view = v) && !(rowsOf m e).isEmpty) = [] := by
      simp only [List.filter_cons, List.filter_nil]
      rw [if_neg]
      simpa using h
    rw [this]; simp

theorem lastRow_none {m : Bytes} {v : RView} {es : List Export} (h : es.any (concerns (m, rc)) = false)
    (hv : viewType v = some rc) : lastRow m v es = none := by
  unfold lastRow
  rw [List.getLast?_eq_none_iff, List.flatMap_eq_nil_iff]
  intro e he
  obtain ⟨he, hev⟩ := List.mem_filter.1 he
  have := List.any_eq_false.1 h e he
  have hev : e.view = v := by simpa using hev
  have hr : rowsOf m e = [] := by
    by_contra hr
    exact this (by simp [concerns, hev, hv, hr])
  simp [hr]

theorem lastExport_none {m : Bytes} {v : RView} {es : List Export} (h : es.any (concerns (m, rc)) = false)
    (hv : viewType v = some rc) : lastExport m v es = none := by
  unfold lastExport
  rw [List.getLast?_eq_none_iff, List.filter_eq_nil_iff]
  intro e he
  have := List.any_eq_false.1 h e he
  simp only [concerns, Bool.and_eq_true, decide_eq_true_eq, not_and] at this ⊢
  intro hev
  exact this (by rw [hev]; exact hv)

theorem viewType_messages (b : Bool) : viewType (messages b) = some b := by cases b <;> rfl
theorem viewType_latency (b : Bool) : viewType (latency b) = some b := by cases b <;> rfl
theorem viewType_sentBytes (b : Bool) : viewType (sentBytes b) = some b := by cases b <;> rfl
theorem viewType_receivedBytes (b : Bool) : viewType (receivedBytes b) = some b := by cases b <;> rfl
theorem viewType_completed (b : Bool) : viewType (completed b) = some b := by cases b <;> rfl

/-- What the snapshot is when the method was seen, and when it was not. -/
theorem snap_shown (c : Conv) (es : List Export) (k : Bytes × Bool) : GoMap.get (snapsAfter c es) k = expected c es k := by
  induction es using List.reverseRecOn with
  | nil => rfl
  | append_singleton es e ih =>
    have hs : snapsAfter c (es ++ [e]) = exportView c (snapsAfter c es) e := by simp [snapsAfter]
    rw [hs, exportView_get, ih]
    obtain ⟨m, rc⟩ := k
    by_cases hc : concerns (m, rc) e = true
    · rw [if_pos hc]
      have hv : viewType e.view = some rc := by
        simp only [concerns, Bool.and_eq_true, decide_eq_true_eq] at hc
        exact hc.1
      have hr : rowsOf m e ≠ [] := by
        simp only [concerns, Bool.and_eq_true] at hc
        simpa using hc.2
      obtain ⟨r, hlast⟩ : ∃ r, (rowsOf m e).getLast? = some r := by
        cases h : (rowsOf m e).getLast? with
        | none => exact absurd (List.getLast?_eq_none_iff.1 h) hr
        | some r => exact ⟨r, rfl⟩
      have hold : (expected c es (m, rc)).getD (Snap.new m rc) = shown c es (m, rc) := by
        unfold expected
        cases ha : es.any (concerns (m, rc)) with
        | true => rfl
        | false =>
          unfold shown
          simp only
          rw [lastRow_none ha (viewType_messages rc), lastRow_none ha (viewType_latency rc),
            lastRow_none ha (viewType_sentBytes rc), lastRow_none ha (viewType_receivedBytes rc),
            lastExport_none ha (viewType_completed rc)]
          cases rc <;> rfl
      have hnew : expected c (es ++ [e]) (m, rc) = some (shown c (es ++ [e]) (m, rc)) := by
        unfold expected
        rw [if_pos (by simp [hc])]
      rw [hold, hnew]
      congr 1
      unfold shown
      simp only [lastRow_snoc, lastExport_snoc, hlast, Option.map_some, Option.some_or]
      cases hview : e.view
      all_goals rw [hview] at hv
      case other => cases hv
      all_goals
        have hv := Option.some.inj hv
        subst hv
      case clientCompletedRPCs =>
        rw [fold_errors (key := keyClientStatus) (fun _ _ _ => rfl) _ hr]
        simp [messages, latency, sentBytes, receivedBytes, completed, statusKey, hr, shownErrors]
      case serverCompletedRPCs =>
        rw [fold_errors (key := keyServerStatus) (fun _ _ _ => rfl) _ hr]
        simp [messages, latency, sentBytes, receivedBytes, completed, statusKey, hr, shownErrors]
      case clientReceivedMessages =>
        rw [fold_same (fun _ _ _ => rfl)]
        simp [messages, latency, sentBytes, receivedBytes, completed]
      case serverSentMessages =>
        rw [fold_same (fun _ _ _ => rfl)]
        simp [messages, latency, sentBytes, receivedBytes, completed]
      case serverReceivedBytes =>
        rw [fold_same (fun _ _ _ => rfl)]
        simp [messages, latency, sentBytes, receivedBytes, completed]
      case clientRoundtripLatency =>
        rw [fold_last (w := fun r s => { s with avgLatencyTotal := convertTime c (F64.div (sumOf r) (countOf r)) })
          (fun _ _ _ => rfl) (fun _ _ _ => rfl) _ r hlast]
        simp [messages, latency, sentBytes, receivedBytes, completed, shownLatency]
      case serverLatency =>
        rw [fold_last (w := fun r s => { s with avgLatencyTotal := convertTime c (F64.div (sumOf r) (countOf r)) })
          (fun _ _ _ => rfl) (fun _ _ _ => rfl) _ r hlast]
        simp [messages, latency, sentBytes, receivedBytes, completed, shownLatency]
      case clientSentBytes =>
        rw [fold_last (w := fun r s => { s with outputRateTotal := computeRate e.ageSec (sumOf r) })
          (fun _ _ _ => rfl) (fun _ _ _ => rfl) _ r hlast]
        simp [messages, latency, sentBytes, receivedBytes, completed, sumRate, computeRate]
      case serverSentBytes =>
        rw [fold_last (w := fun r s => { s with outputRateTotal := computeRate e.ageSec (sumOf r) })
          (fun _ _ _ => rfl) (fun _ _ _ => rfl) _ r hlast]
        simp [messages, latency, sentBytes, receivedBytes, completed, sumRate, computeRate]
      case clientReceivedBytes =>
        rw [fold_last (w := fun r s => { s with inputRateTotal := computeRate e.ageSec (sumOf r) })
          (fun _ _ _ => rfl) (fun _ _ _ => rfl) _ r hlast]
        simp [messages, latency, sentBytes, receivedBytes, completed, sumRate, computeRate]
      case clientSentMessages =>
        rw [fold_last (w := fun r s => { s with
            countTotal := toU64 c (countOf r), rpcRateTotal := computeRate e.ageSec (countOf r) })
          (fun _ _ _ => rfl) (fun _ _ _ => rfl) _ r hlast]
        simp [messages, latency, sentBytes, receivedBytes, completed, shownCount, countRate, computeRate]
      case serverReceivedMessages =>
        rw [fold_last (w := fun r s => { s with
            countTotal := toU64 c (countOf r), rpcRateTotal := computeRate e.ageSec (countOf r) })
          (fun _ _ _ => rfl) (fun _ _ _ => rfl) _ r hlast]
        simp [messages, latency, sentBytes, receivedBytes, completed, shownCount, countRate, computeRate]
    · rw [if_neg hc]
      -- nothing for this method
      have hno : ∀ v, viewType v = some rc → ¬ (e.view = v ∧ rowsOf m e ≠ []) := by
        rintro v hv ⟨he, hr⟩
        exact hc (by simp [concerns, he, hv, hr])
      have hrow : ∀ v, viewType v = some rc → lastRow m v (es ++ [e]) = lastRow m v es := by
        intro v hv
        rw [lastRow_snoc]
        split
        · next h =>
          have : rowsOf m e = [] := by
            by_contra hr
            exact hno v hv ⟨h, hr⟩
          simp [this]
        · rfl
      have hexp : lastExport m (completed rc) (es ++ [e]) = lastExport m (completed rc) es := by
        rw [lastExport_snoc, if_neg (hno _ (viewType_completed rc))]
      unfold expected shown
      simp only [hrow _ (viewType_messages rc), hrow _ (viewType_latency rc), hrow _ (viewType_sentBytes rc),
        hrow _ (viewType_receivedBytes rc), hexp]
      simp [hc]

theorem toU64_count {c : Conv} {key : Tag.Key} {r : Row} (h : Counted key r) : toU64 c (countOf r) = BitVec.ofNat 64 (number r) := by
  obtain ⟨⟨start, n, hd, h0, h1⟩, _⟩ := h
  have hr : (Arith.ofInt n : F64) = .fin n := F64.rnd_int n (by omega)
  simp only [countOf, number, hd, hr, toU64]
  have h0' : (0 : Rat) ≤ (n : Rat) := by exact_mod_cast h0
  have h1' : (n : Rat) < 2 ^ 64 := by
    have : n < 2 ^ 64 := by omega
    exact_mod_cast this
  rw [if_pos ⟨h0', h1'⟩, Rat.floor_intCast]
  apply BitVec.eq_of_toNat_eq
  simp
  omega

theorem addErrors_count {c : Conv} {key : Tag.Key} {r : Row} (h : Counted key r) (e : BitVec 64) :
    addErrors c key r e = e + BitVec.ofNat 64 (if failed key r then number r else 0) := by
  unfold addErrors failed
  rw [toU64_count h]
  have h1 := h.2
  generalize number r = n
  generalize r.tags = ts at h1 ⊢
  clear h
  -- tags without the key add nothing
  have none : ∀ (ts : List (Tag.Key × Bytes)) (e : BitVec 64), (∀ t ∈ ts, t.1 ≠ key) →
      ts.foldl (fun e t => if t.1 = key ∧ t.2 ≠ str "OK" then e + BitVec.ofNat 64 n else e) e = e := by
    intro ts
    induction ts with
    | nil => intros; rfl
    | cons t ts ih =>
      intro e ht
      rw [List.foldl_cons, if_neg (fun x => ht t (by simp) x.1)]
      exact ih e fun t ht' => ht t (by simp [ht'])
  induction ts generalizing e with
  | nil => simp
  | cons t ts ih =>
    rw [List.foldl_cons, List.any_cons]
    by_cases hk : t.1 = key
    · have hts : ∀ t ∈ ts, t.1 ≠ key := by
        intro t' ht' hk'
        rw [List.filter_cons, if_pos (by simp [hk])] at h1
        have : t' ∈ ts.filter fun t => decide (t.1 = key) := List.mem_filter.2 ⟨ht', by simp [hk']⟩
        have := List.length_pos_of_mem this
        simp only [List.length_cons] at h1
        omega
      have hany : (ts.any fun t => decide (t.1 = key) && decide (t.2 ≠ str "OK")) = false := by
        rw [List.any_eq_false]
        intro t' ht'
        simp [hts t' ht']
      rw [none ts _ hts, hany]
      by_cases ho : t.2 = str "OK"
      · rw [if_neg (fun x => x.2 ho)]; simp [ho]
      · rw [if_pos ⟨hk, ho⟩]; simp [ho, hk]
    · rw [if_neg (fun x => hk x.1), ih]
      · rw [decide_eq_false hk, Bool.false_and, Bool.false_or]
      · rw [List.filter_cons, if_neg (by simp [hk])] at h1
        exact h1

theorem errors_count {c : Conv} {k : Bytes × Bool} {e : Export} (h : ∀ r ∈ rowsOf k.1 e, Counted (statusKey k.2) r) :
    shownErrors c k (some e) =
      BitVec.ofNat 64 (((rowsOf k.1 e).filter (failed (statusKey k.2))).map number).sum := by
  unfold shownErrors
  simp only
  have : ∀ (l : List Row) (a : BitVec 64), (∀ r ∈ l, Counted (statusKey k.2) r) →
      l.foldl (fun a r => addErrors c (statusKey k.2) r a) a =
        a + BitVec.ofNat 64 ((l.filter (failed (statusKey k.2))).map number).sum := by
    intro l
    induction l with
    | nil => intros; simp
    | cons r l ih =>
      intro a hl
      rw [List.foldl_cons, ih _ fun r hr => hl r (by simp [hr]), addErrors_count (hl r (by simp)), List.filter_cons]
      cases failed (statusKey k.2) r
      · simp
      · simp [BitVec.ofNat_add, BitVec.add_assoc]
  rw [this _ _ h]
  simp

theorem snaps_wf (c : Conv) (es : List Export) : GoMap.WF (snapsAfter c es) := by
  have loop : ∀ v rc age (rows : List Row) (snaps : Snaps) resets, GoMap.WF snaps →
      GoMap.WF (rowLoop c v rc age snaps resets rows) := by
    intro v rc age rows
    induction rows with
    | nil => intro _ _ h; exact h
    | cons r rows ih => intro snaps resets h; exact ih _ _ (GoMap.WF_set h _ _)
  have : ∀ (es : List Export) (snaps : Snaps), GoMap.WF snaps → GoMap.WF (es.foldl (exportView c) snaps) := by
    intro es
    induction es with
    | nil => intro _ h; exact h
    | cons e es ih =>
      intro snaps h
      refine ih _ ?_
      unfold exportView
      cases viewType e.view with
      | none => exact h
      | some rc =>
        simp only
        split
        · exact h
        · exact loop _ _ _ _ _ _ h
  exact this es [] GoMap.WF_nil

/-- The rows of a direction. -/
def direction (rc : Bool) (page : List Snap × List Snap) : List Snap := if rc then page.2 else page.1

theorem direction_eq (rc : Bool) (order : Snaps) :
    direction rc (getStatsPage order) = (group rc order).mergeSort snapLe := by
  cases rc <;> rfl

/-- After any exports, whatever the order in which the map of snapshots is read: each direction of the page has
one row for every method some export had rows for, sorted by method, and each row shows what the last exports
for the method say. -/
theorem page_shown_partial (c : Conv) (es : List Export) {order : Snaps} (ho : order.Perm (snapsAfter c es)) (rc : Bool) :
    (direction rc (getStatsPage order)).Pairwise (fun a b => a.method < b.method) ∧
    (∀ s, s ∈ direction rc (getStatsPage order) ↔
      (es.any (concerns (s.method, rc)) = true ∧ s = shown c es (s.method, rc))) := by
  rw [direction_eq]
  have hw := snaps_wf c es
  have hwo : GoMap.WF order := GoMap.WF_perm ho.symm hw
  have hperm := List.mergeSort_perm (group rc order) snapLe
  have hmem : ∀ p ∈ order, es.any (concerns p.1) = true ∧ p.2 = shown c es p.1 := by
    rintro ⟨k, s⟩ hp
    have hg : GoMap.get (snapsAfter c es) k = some s := by
      rw [← GoMap.get_perm ho hwo]; exact GoMap.get_of_mem hwo hp
    rw [snap_shown, expected] at hg
    split at hg
    · next h => exact ⟨h, (Option.some.inj hg).symm⟩
    · cases hg
  refine ⟨?_, ?_⟩
  · have hs := List.pairwise_mergeSort (le := snapLe)
      (fun a b c h1 h2 => by simp only [snapLe, decide_eq_true_eq] at *; exact List.le_trans h1 h2)
      (fun a b => by simp only [snapLe, Bool.or_eq_true, decide_eq_true_eq]; exact List.le_total _ _) (group rc order)
    have hn : ((group rc order).mergeSort snapLe).Pairwise (fun a b => a.method ≠ b.method) := by
      have : (((group rc order).mergeSort snapLe).map Snap.method).Nodup := by
        refine (hperm.map Snap.method).nodup_iff.mpr ?_
        unfold group
        rw [List.map_map, List.nodup_iff_pairwise_ne, List.pairwise_map]
        have hp : (order.filter fun p => p.1.2 == rc).Pairwise (fun a b => a.1 ≠ b.1) :=
          List.Pairwise.filter _ (List.pairwise_map.mp hwo)
        refine hp.imp_of_mem ?_
        intro a b ha hb hne he
        obtain ⟨ha, ha'⟩ := List.mem_filter.1 ha
        obtain ⟨hb, hb'⟩ := List.mem_filter.1 hb
        simp only [Function.comp, (hmem a ha).2, (hmem b hb).2, shown] at he
        exact hne (Prod.ext he (by rw [eq_of_beq ha', eq_of_beq hb']))
      exact List.pairwise_map.mp this
    refine (hs.and hn).imp ?_
    rintro a b ⟨h1, h2⟩
    simp only [snapLe, decide_eq_true_eq] at h1
    by_contra hc
    exact h2 (List.le_antisymm h1 (List.not_lt.mp hc))
  · intro s
    rw [hperm.mem_iff]
    unfold group
    rw [List.mem_map]
    constructor
    · rintro ⟨p, hp, rfl⟩
      obtain ⟨hp, hrc⟩ := List.mem_filter.1 hp
      obtain ⟨h1, h2⟩ := hmem p hp
      have hk : (p.2.method, rc) = p.1 := by
        rw [h2]; exact Prod.ext rfl (eq_of_beq hrc).symm
      rw [hk]
      exact ⟨h1, h2⟩
    · rintro ⟨h1, h2⟩
      refine ⟨((s.method, rc), s), List.mem_filter.2 ⟨?_, by simp⟩, rfl⟩
      refine ho.mem_iff.2 (GoMap.mem_of_get ?_)
      rw [snap_shown, expected, if_pos h1, ← h2]

/-- If the rows of completed RPCs are counts by method and status, the errors on the page are the RPCs with a
status other than OK in the last export for the method. -/
theorem errors_shown (c : Conv) (es : List Export) (k : Bytes × Bool) {e : Export}
    (he : lastExport k.1 (completed k.2) es = some e) (h : ∀ r ∈ rowsOf k.1 e, Counted (statusKey k.2) r) :
    (shown c es k).errorsTotal =
      BitVec.ofNat 64 (((rowsOf k.1 e).filter (failed (statusKey k.2))).map number).sum := by
  rw [← errors_count h, ← he]
  rfl

/-- The bytes received are not shown for a method that is served, whatever is exported. -/
theorem server_input_zero (c : Conv) (es : List Export) {order : Snaps} (ho : order.Perm (snapsAfter c es)) :
    ∀ s ∈ direction true (getStatsPage order), s.inputRateTotal = .fin 0 := by
  intro s hs
  rw [((page_shown_partial c es ho true).2 s).1 hs |>.2]
  rfl

/-- The mean latency is shown in nanoseconds without the fraction, when it is a number that fits. -/
theorem latency_duration (c : Conv) (e : Export) (r : Row) {ms ns : Rat} (hms : F64.div (sumOf r) (countOf r) = .fin ms)
    (hns : F64.mul (.fin 1000000) (.fin ms) = .fin ns) (h1 : -2 ^ 63 ≤ ns) (h2 : ns < 2 ^ 63) :
    TowardsZero ns (shownLatency c (some (e, r))) := by
  unfold shownLatency convertTime
  simp only [hms, hns, toI64, h1, h2, and_self, if_true]
  exact towardsZero_of ns

/-- The mean latency of no RPC is shown as zero, whatever the machine converts infinities and NaN to. -/
theorem latency_of_nothing (c : Conv) (e : Export) (r : Row) (h : countOf r = .fin 0) :
    shownLatency c (some (e, r)) = 0 := by
  show convertTime c (F64.div (sumOf r) (countOf r)) = 0
  rw [h]
  cases sumOf r with
  | fin q =>
    unfold convertTime F64.div F64.infSign
    by_cases h1 : 0 < q
    · simp [h1]
    · by_cases h2 : q < 0 <;> simp [h1, h2]
  | _ => simp [convertTime, F64.div]

example : shownLatency ⟨fun _ => 7, fun _ => 7⟩ (some (⟨.serverLatency, [], .fin 1⟩, ⟨[], .dist ⟨0, .fin 0, .fin 0, .fin 0, .fin 0, [], [], [], 0⟩⟩)) = 0 :=
  latency_of_nothing _ _ _ (by decide +kernel)

/-- The column of the text page above a cell: the last heading at its place or to the left of it. -/
def above (i : Nat) : Option Col := ((heading.take (i + 1)).filterMap id).getLast?

/-- The text page has the figures of the first columns under their headings. -/
theorem text_aligned_partial : ∀ i < 7, textRow[i]?.map (fun c => (some c.1, some c.2)) = some (above i, subheading[i]?) := by
  decide +kernel

/-- From then on no figure of the text page is under its heading: there is a heading for the greatest latency
and no such figure. -/
theorem text_misaligned : ∀ i, 7 ≤ i → i < textRow.length → textRow[i]?.map (fun c => some c.1) ≠ some (above i) := by
  intro i h1 h2
  have : ∀ i, i < 19 → 7 ≤ i → textRow[i]?.map (fun c => some c.1) ≠ some (above i) := by decide +kernel
  exact this i h2 h1

/-! ## Concrete cases -/

/-- The machine's conversions of values that do not fit, on a machine that gives zero. -/
def conv0 : Conv := ⟨fun _ => 0, fun _ => 0⟩

def m1 : Bytes := str "pkg.Service/Get"

/-- A server that handled five RPCs, two of which failed, and received 100 bytes. -/
def demo : List Export :=
  [⟨.serverCompletedRPCs, [⟨[(keyServerMethod, m1), (keyServerStatus, str "OK")], .count 0 1⟩], .fin 1⟩,
   ⟨.other, [⟨[], .count 0 7⟩], .fin 1⟩,
   ⟨.serverReceivedBytes, [⟨[(keyServerMethod, m1)], .sum 0 (.fin 100)⟩], .fin 2⟩,
   ⟨.serverCompletedRPCs, [⟨[(keyServerMethod, m1), (keyServerStatus, str "OK")], .count 0 3⟩,
      ⟨[(keyServerMethod, m1), (keyServerStatus, str "NOT_FOUND")], .count 0 2⟩], .fin 2⟩]

example : demo.any (concerns (m1, true)) = true ∧ demo.any (concerns (m1, false)) = false ∧
    demo.any (concerns ([], true)) = false := by decide +kernel

example : ∃ e, lastExport m1 (completed true) demo = some e ∧ (∀ r ∈ rowsOf m1 e, Counted (statusKey true) r) ∧
    (((rowsOf m1 e).filter (failed (statusKey true))).map number).sum = 2 := by
  let e : Export := ⟨.serverCompletedRPCs, [⟨[(keyServerMethod, m1), (keyServerStatus, str "OK")], .count 0 3⟩,
      ⟨[(keyServerMethod, m1), (keyServerStatus, str "NOT_FOUND")], .count 0 2⟩], .fin 2⟩
  have h : rowsOf m1 ⟨.serverCompletedRPCs, [⟨[(keyServerMethod, m1), (keyServerStatus, str "OK")], .count 0 3⟩,
      ⟨[(keyServerMethod, m1), (keyServerStatus, str "NOT_FOUND")], .count 0 2⟩], .fin 2⟩ =
      [⟨[(keyServerMethod, m1), (keyServerStatus, str "OK")], .count 0 3⟩,
      ⟨[(keyServerMethod, m1), (keyServerStatus, str "NOT_FOUND")], .count 0 2⟩] := by rfl
  refine ⟨e, rfl, ?_, ?_⟩
  · intro r hr
    rw [show rowsOf m1 e = _ from h] at hr
    simp only [List.mem_cons, List.not_mem_nil, or_false] at hr
    rcases hr with rfl | rfl
    · exact ⟨⟨_, _, rfl, by decide, by decide⟩, by decide +kernel⟩
    · exact ⟨⟨_, _, rfl, by decide, by decide⟩, by decide +kernel⟩
  · rw [show rowsOf m1 e = _ from h]; decide +kernel

/-- The bytes the server received are lost. -/
example : (lastRow m1 (receivedBytes true) demo).isSome = true ∧ (shown conv0 demo (m1, true)).inputRateTotal = .fin 0 :=
  ⟨by rfl, rfl⟩

end Verif.Props.Rpcz
