import Verif.Props.TracezSummary

/-!
# C88: what the span store holds is determined by the calls
-/

namespace Verif.Props.StoreHistory
open Verif Verif.Trace Verif.Props.Start Verif.Props.Spans Verif.Props.Store
open Verif.Zpages (getSummaryPageData Row)
open Verif.Props.Tracez (stored_columns summary_page RowOK)
open Verif.Props.Bucket (BOp Spec Sim contents sim_step contents_of_rep)

/-! ## Specification -/

def isEnable : Op → Bool
  | .enableStore => true
  | _ => false

/-- For every span, in the order of their starts: its name and the time of its start, if the span store was on then. -/
def starts (now : Int) (on : Bool) : List Op → List (Option (Bytes × Int))
  | [] => []
  | op :: ops => ((started op).map fun x => if on then some (x.name, now) else none) ++ starts (clock now op) (on || isEnable op) ops

/-- `End` was called on span `i`. -/
def ended (i : Nat) (ops : List Op) : Bool :=
  ops.any fun op => match op with
    | .endSpan s _ => decide (s = some i)
    | _ => false

/-- What concerns the span store: a span that was started under a name ends, with a status code; the sizes for a name are set. -/
inductive Ev where
  | finished (name : Bytes) (i : Nat) (start stop code : Int)
  | sized (name : Bytes) (succeeded errors : Int)

/-- What a call, made after the calls `pre`, is for the span store: only the first `End` of a span counts. The span keeps the name it
was started with; the status is the last one it was given. -/
def event (t : Int) (pre : List Op) : Op → List Ev
  | .endSpan (some i) _ =>
    if ended i pre then []
    else match (starts t false pre)[i]? with
      | some (some (name, start)) => [.finished name i start (clockAfter t pre) ((statuses i pre).getLastD ⟨0, []⟩).code]
      | _ => []
  | .configure bcs => bcs.map fun bc => .sized bc.name bc.succeeded bc.errors
  | _ => []

def logFrom (t : Int) (pre : List Op) : List Op → List Ev
  | [] => []
  | op :: ops => event t pre op ++ logFrom t (pre ++ [op]) ops

/-- The history of the span store. -/
def log (t : Int) (ops : List Op) : List Ev := logFrom t [] ops

/-- A column of the summary page: of successful spans by latency, or of an error code. -/
inductive Column where
  | ok (k : Nat)
  | err (code : Int)
  deriving DecidableEq

/-- The column of a finished span: from 0, 10 µs, 100 µs, 1 ms, 10 ms, 100 ms, 1 s, 10 s or 60 s, or its code. -/
def columnOf (start stop code : Int) : Column :=
  if code = 0 then .ok ([10000, 100000, 1000000, 10000000, 100000000, 1000000000, 10000000000, 60000000000].countP
    fun b : Int => decide (b ≤ stop - start)) else .err code

/-- The one for successful spans, or the one for errors. -/
def Column.pick {α : Type} (succeeded errors : α) : Column → α
  | .ok _ => succeeded
  | .err _ => errors

/-- A finished span. -/
structure Done where
  id : Nat
  start : Int
  stop : Int
  code : Int

/-- What happens to the bucket of a name and column: spans are added, the size is set, within 0 and 100000. -/
def bucketOps (name : Bytes) (col : Column) : Ev → List (BOp Done)
  | .finished n i a b c => if n = name ∧ columnOf a b c = col then [.add ⟨i, a, b, c⟩] else []
  | .sized n s e => if n = name then [.resize (min (max (col.pick s e) 0) 100000).toNat] else []

/-- The spans kept under a name in a column, oldest first: see C32 for how a bucket, which has the size 10 at first, picks them. -/
def samples (t : Int) (ops : List Op) (name : Bytes) (col : Column) : List Done :=
  (Spec.run Done.stop ⟨10, none, []⟩ ((log t ops).flatMap (bucketOps name col))).samples

/-- The size set last for a name and column. -/
def sizeOf (name : Bytes) (col : Column) (log : List Ev) : Int :=
  log.foldl (fun n e => match e with
    | .sized m s e => if m = name then col.pick s e else n
    | .finished .. => n) 10

/-- The data is that of the finished span. -/
def Shows (spans : List Span) (sd : SpanData) (d : Done) : Prop :=
  (∃ s, spans[d.id]? = some s ∧ sd.ctx = s.ctx) ∧ sd.startTime = d.start ∧ sd.endTime = d.stop ∧ sd.status.code = d.code

/-! ## Helper lemmas: histories -/

theorem logFrom_append (t : Int) (pre a b : List Op) : logFrom t pre (a ++ b) = logFrom t pre a ++ logFrom t (pre ++ a) b := by
  induction a generalizing pre with
  | nil => simp [logFrom]
  | cons op a ih => simp [logFrom, ih]

theorem log_snoc (t : Int) (ops : List Op) (op : Op) : log t (ops ++ [op]) = log t ops ++ event t ops op := by
  unfold log
  rw [logFrom_append]
  simp [logFrom]

theorem starts_append (t : Int) (on : Bool) (a b : List Op) :
    starts t on (a ++ b) = starts t on a ++ starts (clockAfter t a) (on || a.any isEnable) b := by
  induction a generalizing t on with
  | nil => simp [starts, clockAfter]
  | cons op a ih => simp [starts, clockAfter, ih, Bool.or_assoc]

theorem starts_length (t : Int) (on : Bool) (a : List Op) : (starts t on a).length = (startedBy a).length := by
  induction a generalizing t on with
  | nil => rfl
  | cons op a ih => simp [starts, startedBy, ih]

theorem ended_iff (i : Nat) (ops : List Op) : ended i ops = true ↔ ∃ o, Op.endSpan (some i) o ∈ ops := by
  unfold ended
  rw [List.any_eq_true]
  constructor
  · rintro ⟨op, h1, h2⟩
    cases op with
    | endSpan s o => rw [of_decide_eq_true h2] at h1; exact ⟨o, h1⟩
    | _ => cases h2
  · rintro ⟨o, h⟩
    exact ⟨_, h, by simp⟩

theorem any_enable (ops : List Op) : ops.any isEnable = true ↔ Op.enableStore ∈ ops := by
  rw [List.any_eq_true]
  constructor
  · rintro ⟨op, h1, h2⟩
    cases op <;> first | exact h1 | cases h2
  · intro h; exact ⟨_, h, rfl⟩

/-- What the state has about the start of a span. -/
theorem started_info {t : Int} {ops : List Op} {st : State} (h : run (State.init t) ops = .ok st) {i : Nat} {s : Span}
    (hs : st.spans[i]? = some s) : ∃ v, (starts t false ops)[i]? = some v ∧ s.store = v.map Prod.fst ∧
      (s.store.isSome = true → s.data.isSome = true) ∧ ∀ r y, s.data = some r → v = some y → r.data.startTime = y.2 := by
  have hlen := started_length h
  have hlt : i < (startedBy ops).length := by have := getElem?_lt hs; omega
  obtain ⟨s', mid, k1, k2, ⟨a, op, b, k3, k4, k5, k6⟩, _⟩ := run_init h (List.getElem?_eq_getElem hlt)
  rw [hs] at k1; cases k1
  have hl := localStore_run k5
  have hi : (startedBy a).length = i := by rw [← k6]; exact started_length k5
  have hg : (starts t false ops)[i]? = some (if mid.localStore then some ((startedBy ops)[i].name, mid.now) else none) := by
    have e1 : starts t false ops = starts t false a ++ starts (clockAfter t a) (a.any isEnable) (op :: b) := by
      rw [k3, starts_append]; simp
    rw [e1, List.getElem?_append_right (by rw [starts_length, hi]), starts_length, hi, Nat.sub_self]
    simp only [starts, k4, List.map_cons, List.map_nil, List.cons_append, List.nil_append, List.getElem?_cons_zero]
    have e2 : a.any isEnable = mid.localStore := by
      rw [Bool.eq_iff_iff, any_enable, hl]
    rw [e2, (hinv_run k5).now]
  refine ⟨_, hg, ?_, ?_, ?_⟩
  · rw [k2.store]
    simp only
    cases mid.localStore <;> rfl
  · intro hx
    have h1 := k2.store
    have h2 := k2.recording
    simp only at h1 h2
    rw [h2]
    cases hm : mid.localStore with
    | true => rfl
    | false => rw [hm] at h1; simp [h1] at hx
  · intro r y hr hy
    have := (k2.fixed r hr).1
    simp only at this
    split at hy
    · cases hy; exact this
    · cases hy

theorem latencyBucket_eq (x : Int) : latencyBucket x =
    [10000, 100000, 1000000, 10000000, 100000000, 1000000000, 10000000000, 60000000000].countP fun b : Int => decide (b ≤ x) := by
  have key : ∀ l : List Int, l.Pairwise (· < ·) → latencyBucketLoop x l = l.countP fun b => decide (b ≤ x) := by
    intro l hl
    induction l with
    | nil => rfl
    | cons b l ih =>
      obtain ⟨h1, h2⟩ := List.pairwise_cons.mp hl
      rw [latencyBucketLoop, List.countP_cons, ih h2]
      by_cases hb : b ≤ x
      · simp [hb]
      · have : l.countP (fun b => decide (b ≤ x)) = 0 := by
          rw [List.countP_eq_zero]
          intro c hc
          have := h1 c hc
          simp; omega
        simp [hb, this]
  exact key _ (by decide)

theorem clamp_eq (n : Int) : clampSize n = (min (max n 0) 100000).toNat := by
  unfold clampSize
  simp only
  congr 1
  split <;> split <;> omega

/-! ## Helper lemmas: the stores -/

/-- The bucket of a name and column holds `a`; one that is not there yet will be made empty. -/
def Is (stores : GoMap Bytes Store) (name : Bytes) (col : Column) (a : Spec SpanData) : Prop :=
  match GoMap.get stores name with
  | none => a = ⟨10, none, []⟩
  | some s => match col with
    | .ok k => match s.latency[k]? with
      | none => 9 ≤ k ∧ a.samples = []
      | some b => Sim SpanData.endTime b a
    | .err c => match GoMap.get s.errors c with
      | none => a = ⟨s.maxErr, none, []⟩
      | some b => Sim SpanData.endTime b a

theorem sim_make (n : Nat) : Sim SpanData.endTime (makeBucket n) ⟨n, none, []⟩ := ⟨rep_make n, by simp [makeBucket], rfl⟩

theorem is_new {n e : Nat} {col : Column} {a : Spec SpanData} (ha : a = ⟨col.pick n e, none, []⟩)
    {stores : GoMap Bytes Store} {name : Bytes} {act : List Nat}
    (hg : GoMap.get stores name = some { Store.new n e with active := act }) : Is stores name col a := by
  unfold Is
  rw [hg]
  subst ha
  cases col with
  | ok k =>
    simp only [Store.new]
    by_cases hk : k < 9
    · rw [List.getElem?_replicate, if_pos (by simpa [defaultLatencies] using hk)]
      exact sim_make n
    · rw [List.getElem?_eq_none (by simp [defaultLatencies]; omega)]
      exact ⟨by omega, trivial⟩
  | err c => simp [Store.new, Column.pick]

/-- A span is started: the contents do not change. -/
theorem is_start {stores : GoMap Bytes Store} {name : Bytes} {col : Column} {a : Spec SpanData} (h : Is stores name col a)
    (n : Bytes) (act : List Nat) : Is (GoMap.set stores n { storeFor stores n with active := act }) name col a := by
  by_cases hn : name = n
  · subst hn
    unfold storeFor
    cases hg : GoMap.get stores name with
    | none =>
      unfold Is at h
      rw [hg] at h
      refine is_new (n := 10) (e := 10) (by rw [h]; cases col <;> rfl) (act := act) ?_
      rw [GoMap.get_set, if_pos rfl]
    | some s =>
      unfold Is at h ⊢
      rw [GoMap.get_set, if_pos rfl]
      rw [hg] at h
      exact h
  · unfold Is at h ⊢
    rw [GoMap.get_set, if_neg hn]
    exact h

/-- A span is finished: it goes to its bucket. -/
theorem is_finished {stores : GoMap Bytes Store} {name : Bytes} {col : Column} {a : Spec SpanData} (h : Is stores name col a)
    {n : Bytes} {s s' : Store} (hs : GoMap.get stores n = some s) {i : Nat} {sd : SpanData} (hf : s.finished i sd = .ok s')
    (hl : sd.startTime ≤ sd.endTime) (hz : zeroTime ≤ sd.endTime) :
    Is (GoMap.set stores n s') name col
      (if n = name ∧ columnOf sd.startTime sd.endTime sd.status.code = col then a.step SpanData.endTime (.add sd) else a) := by
  by_cases hn : n = name
  swap
  · rw [if_neg (fun h => hn h.1)]
    unfold Is at h ⊢
    rw [GoMap.get_set, if_neg (fun h => hn h.symm)]
    exact h
  subst hn
  simp only [true_and]
  unfold Is at h ⊢
  rw [GoMap.get_set, if_pos rfl]
  rw [hs] at h
  simp only at h ⊢
  unfold Store.finished at hf
  have hl' : (if sd.endTime - sd.startTime < 0 then 0 else sd.endTime - sd.startTime) = sd.endTime - sd.startTime := by
    rw [if_neg (by omega)]
  simp only [hl', latencyBucket_eq] at hf
  unfold columnOf
  by_cases hc : sd.status.code = 0
  · rw [if_pos hc] at hf ⊢
    generalize hk : ([10000, 100000, 1000000, 10000000, 100000000, 1000000000, 10000000000, 60000000000].countP
      fun b : Int => decide (b ≤ sd.endTime - sd.startTime)) = k at hf ⊢
    cases hb : s.latency[k]? with
    | none => rw [hb] at hf; simp at hf
    | some b =>
      rw [hb] at hf
      simp only at hf
      obtain ⟨b', ha, hf⟩ := Res_bind_ok hf
      cases hf
      cases col with
      | err c => simp only [reduceCtorEq, if_false]; exact h
      | ok k' =>
        simp only [Column.ok.injEq]
        by_cases hkk : k = k'
        · subst hkk
          simp only [hb] at h
          obtain ⟨b2, e1, e2⟩ := sim_step h (.add sd) (by intro x hx; cases hx; exact hz)
          rw [show Bucket.bstep SpanData.endTime b (.add sd) = .ok b' from ha] at e1
          cases e1
          simp only [if_true, List.getElem?_set_self (getElem?_lt hb)]
          exact e2
        · simp only [if_neg hkk, List.getElem?_set_ne hkk]
          exact h
  · rw [if_neg hc] at hf ⊢
    obtain ⟨b', ha, hf⟩ := Res_bind_ok hf
    cases hf
    cases col with
    | ok k => simp only [reduceCtorEq, if_false]; exact h
    | err c =>
      simp only [Column.err.injEq]
      by_cases hcc : sd.status.code = c
      · rw [if_pos hcc, GoMap.get_set, if_pos hcc.symm]
        simp only
        have hsim : Sim SpanData.endTime (s.errorBucket sd.status.code) a := by
          unfold Store.errorBucket
          rw [hcc]
          simp only at h
          cases hg : GoMap.get s.errors c with
          | none => rw [hg] at h; simp only at h ⊢; rw [h]; exact sim_make _
          | some b => rw [hg] at h; exact h
        obtain ⟨b2, e1, e2⟩ := sim_step hsim (.add sd) (by intro x hx; cases hx; exact hz)
        rw [show Bucket.bstep SpanData.endTime (s.errorBucket sd.status.code) (.add sd) = .ok b' from ha] at e1
        cases e1
        exact e2
      · rw [if_neg hcc, GoMap.get_set, if_neg (fun h => hcc h.symm)]
        exact h

theorem mapRes_get {α β : Type} {f : α → Res β} {l : List α} {bs : List β} (h : mapRes f l = .ok bs) (k : Nat) :
    match l[k]? with
    | none => bs[k]? = none
    | some a => ∃ b, f a = .ok b ∧ bs[k]? = some b := by
  induction l generalizing bs k with
  | nil => cases h; rfl
  | cons a l ih =>
    obtain ⟨b, h1, h⟩ := Res_bind_ok h
    obtain ⟨bs', h2, h⟩ := Res_bind_ok h
    cases h
    cases k with
    | zero => exact ⟨b, h1, rfl⟩
    | succ k => exact ih h2 k

theorem mapRes_map {e : Nat} {l bs : GoMap Int (Bucket SpanData)}
    (h : mapRes (fun x : Int × Bucket SpanData => (x.2.resize e).bind fun b => .ok (x.1, b)) l = .ok bs) (c : Int) :
    match GoMap.get l c with
    | none => GoMap.get bs c = none
    | some b => ∃ b', b.resize e = .ok b' ∧ GoMap.get bs c = some b' := by
  induction l generalizing bs with
  | nil => cases h; rfl
  | cons a l ih =>
    obtain ⟨b, h1, h⟩ := Res_bind_ok h
    obtain ⟨bs', h2, h⟩ := Res_bind_ok h
    cases h
    obtain ⟨b', h3, h1⟩ := Res_bind_ok h1
    cases h1
    obtain ⟨x, b0⟩ := a
    have := ih h2
    by_cases hx : x = c
    · subst hx
      simp only [GoMap.get, if_true]
      exact ⟨b', h3, rfl⟩
    · simp only [GoMap.get, if_neg hx]
      exact this

/-- The sizes of a name are set. -/
theorem is_setSize {stores stores' : GoMap Bytes Store} {name : Bytes} {col : Column} {a : Spec SpanData} (h : Is stores name col a)
    {n : Bytes} {l e : Nat} (hs : setSize stores n l e = .ok stores') :
    Is stores' name col (if n = name then a.step SpanData.endTime (.resize (col.pick l e)) else a) := by
  by_cases hn : n = name
  swap
  · rw [if_neg hn]
    unfold setSize at hs
    unfold Is at h ⊢
    split at hs
    · obtain ⟨s', _, hs⟩ := Res_bind_ok hs; cases hs
      rw [GoMap.get_set, if_neg (fun h => hn h.symm)]; exact h
    · cases hs
      rw [GoMap.get_set, if_neg (fun h => hn h.symm)]; exact h
  subst hn
  rw [if_pos rfl]
  unfold setSize at hs
  cases hg : GoMap.get stores n with
  | none =>
    rw [hg] at hs
    cases hs
    unfold Is at h
    rw [hg] at h
    refine is_new (n := l) (e := e) (act := []) (by rw [h]; simp [Spec.step]) ?_
    rw [GoMap.get_set, if_pos rfl]; rfl
  | some s =>
    rw [hg] at hs
    simp only at hs
    obtain ⟨s', hr, hs⟩ := Res_bind_ok hs
    cases hs
    unfold Store.resize at hr
    obtain ⟨lat, h1, hr⟩ := Res_bind_ok hr
    obtain ⟨errs, h2, hr⟩ := Res_bind_ok hr
    cases hr
    unfold Is at h ⊢
    rw [GoMap.get_set, if_pos rfl]
    rw [hg] at h
    simp only at h ⊢
    cases col with
    | ok k =>
      simp only at h ⊢
      have := mapRes_get h1 k
      cases hb : s.latency[k]? with
      | none =>
        rw [hb] at this h
        simp only at this h
        rw [this]
        refine ⟨h.1, ?_⟩
        simp [Spec.step, h.2]
      | some b =>
        rw [hb] at this h
        obtain ⟨b', e1, e2⟩ := this
        rw [e2]
        obtain ⟨b2, e3, e4⟩ := sim_step h (.resize l) (by intro x hx; cases hx)
        rw [show Bucket.bstep SpanData.endTime b (.resize l) = .ok b' from e1] at e3
        cases e3
        exact e4
    | err c =>
      simp only at h ⊢
      have := mapRes_map h2 c
      cases hb : GoMap.get s.errors c with
      | none =>
        rw [hb] at this h
        simp only at this h
        rw [this, h]
        simp [Spec.step, Column.pick]
      | some b =>
        rw [hb] at this h
        obtain ⟨b', e1, e2⟩ := this
        rw [e2]
        obtain ⟨b2, e3, e4⟩ := sim_step h (.resize e) (by intro x hx; cases hx)
        rw [show Bucket.bstep SpanData.endTime b (.resize e) = .ok b' from e1] at e3
        cases e3
        exact e4

/-! ## Helper lemmas: programs -/

/-- The same thing happens to a bucket of data as to one of finished spans. -/
inductive Same (spans : List Span) : BOp SpanData → BOp Done → Prop where
  | add {sd : SpanData} {d : Done} (h : Shows spans sd d) : Same spans (.add sd) (.add d)
  | resize (n : Nat) : Same spans (.resize n) (.resize n)

theorem Shows.keep {l l' : List Span} (hk : Keeps l l') {sd : SpanData} {d : Done} (h : Shows l sd d) : Shows l' sd d := by
  obtain ⟨⟨s, h1, h2⟩, h3⟩ := h
  obtain ⟨s', h4, h5⟩ := hk _ _ h1
  exact ⟨⟨s', h4, by rw [h2, h5.1]⟩, h3⟩

theorem Same.keep {l l' : List Span} (hk : Keeps l l') {a : BOp SpanData} {b : BOp Done} (h : Same l a b) : Same l' a b := by
  cases h with
  | add h => exact .add (h.keep hk)
  | resize n => exact .resize n

/-- The specification does not look at more than the end of a span. -/
theorem spec_same {spans : List Span} {l : List (BOp SpanData)} {m : List (BOp Done)} (h : List.Forall₂ (Same spans) l m)
    {a : Spec SpanData} {b : Spec Done} (h1 : a.size = b.size) (h2 : List.Forall₂ (Shows spans) a.last.toList b.last.toList)
    (h3 : List.Forall₂ (Shows spans) a.samples b.samples) :
    List.Forall₂ (Shows spans) (Spec.run SpanData.endTime a l).samples (Spec.run Done.stop b m).samples := by
  induction h generalizing a b with
  | nil => exact h3
  | @cons x y l m hx _ ih =>
    cases hx with
    | resize n => exact ih (by rfl) h2 (by simp only [Spec.step]; rw [h3.length_eq]; exact List.forall₂_drop _ h3)
    | @add sd d hsd =>
      have hacc : a.accepts SpanData.endTime sd ↔ b.accepts Done.stop d := by
        unfold Spec.accepts
        rw [h1]
        refine and_congr_right fun _ => ?_
        rw [hsd.2.2.1]
        cases ha : a.last <;> cases hb : b.last <;> rw [ha, hb] at h2
        · simp
        · cases h2
        · cases h2
        · cases h2 with
          | cons h _ => simp [h.2.2.1]
      show List.Forall₂ _ (Spec.run _ (a.step _ _) l).samples (Spec.run _ (b.step _ _) m).samples
      simp only [Spec.step]
      by_cases hc : a.accepts SpanData.endTime sd
      · rw [if_pos hc, if_pos (hacc.mp hc)]
        have h4 : List.Forall₂ (Shows spans) (a.samples ++ [sd]) (b.samples ++ [d]) := List.rel_append h3 (.cons hsd .nil)
        refine ih h1 (.cons hsd .nil) ?_
        simp only
        rw [h4.length_eq, h1]
        exact List.forall₂_drop _ h4
      · rw [if_neg hc, if_neg (fun h => hc (hacc.mpr h))]
        exact ih h1 h2 h3

/-- The invariant. -/
def Inv (t : Int) (ops : List Op) (st : State) : Prop :=
  ∀ name col, ∃ l, List.Forall₂ (Same st.spans) l ((log t ops).flatMap (bucketOps name col)) ∧
    Is st.stores name col (Spec.run SpanData.endTime ⟨10, none, []⟩ l)

theorem spec_run_append {S : Type} (et : S → Int) (a : Spec S) (l m : List (BOp S)) :
    Spec.run et a (l ++ m) = Spec.run et (Spec.run et a l) m := by
  unfold Spec.run; rw [List.foldl_append]

/-- Nothing happens to the stores but that one may be made. -/
theorem Inv.quiet {t : Int} {ops : List Op} {st st' : State} (h : Inv t ops st) {op : Op} (he : event t ops op = [])
    (hk : Keeps st.spans st'.spans) (hs : st'.stores = st.stores ∨
      ∃ n act, st'.stores = GoMap.set st.stores n { storeFor st.stores n with active := act }) : Inv t (ops ++ [op]) st' := by
  intro name col
  obtain ⟨l, h1, h2⟩ := h name col
  refine ⟨l, ?_, ?_⟩
  · rw [log_snoc, he, List.append_nil]
    exact h1.imp fun _ _ h => h.keep hk
  · rcases hs with hs | ⟨n, act, hs⟩
    · rw [hs]; exact h2
    · rw [hs]; exact is_start h2 n act

theorem inv_configure {stores stores' : GoMap Bytes Store} {bcs : List BucketConfiguration}
    (h : configureBucketSizes stores bcs = .ok stores') (spans : List Span) {name : Bytes} {col : Column} {a : Spec SpanData}
    (ha : Is stores name col a) : ∃ l, List.Forall₂ (Same spans) l
      ((bcs.map fun bc => Ev.sized bc.name bc.succeeded bc.errors).flatMap (bucketOps name col)) ∧
      Is stores' name col (Spec.run SpanData.endTime a l) := by
  induction bcs generalizing stores a with
  | nil => cases h; exact ⟨[], .nil, ha⟩
  | cons bc bcs ih =>
    obtain ⟨s1, h1, h⟩ := Res_bind_ok h
    have h2 := is_setSize ha h1
    obtain ⟨l, h3, h4⟩ := ih h h2
    by_cases hn : bc.name = name
    · rw [if_pos hn] at h4
      refine ⟨.resize (col.pick (clampSize bc.succeeded) (clampSize bc.errors)) :: l, ?_, h4⟩
      rw [List.map_cons, List.flatMap_cons]
      simp only [bucketOps, if_pos hn, List.singleton_append]
      refine .cons ?_ h3
      cases col <;> simp only [clamp_eq, Column.pick] <;> exact .resize _
    · rw [if_neg hn] at h4
      refine ⟨l, ?_, h4⟩
      rw [List.map_cons, List.flatMap_cons]
      simp only [bucketOps, if_neg hn, List.nil_append]
      exact h3

theorem inv_end {t : Int} {ops : List Op} {st st' : State} (hz : zeroTime ≤ t) (hr : run (State.init t) ops = .ok st)
    (h : Inv t ops st) {i : Nat} {order : List Bytes} (hs : endSpan st i order = .ok st') :
    Inv t (ops ++ [.endSpan (some i) order]) st' := by
  obtain ⟨s, hi, hc⟩ := endSpan_cases hs
  have hkeep : Keeps st.spans st'.spans := (step_other (op := .endSpan (some i) order) hs rfl).1
  obtain ⟨v, v1, v2, v3, v4⟩ := started_info hr hi
  have hx := xinv_run hr
  -- a span outside the stores
  have hnone : s.store = none → event t ops (.endSpan (some i) order) = [] := by
    intro hn
    rw [hn] at v2
    have : v = none := by
      cases v with
      | none => rfl
      | some y => cases v2
    simp only [event, v1, this]
    split <;> rfl
  rcases hc with ⟨rfl, hc⟩ | ⟨r, hd, he, hE⟩
  · refine h.quiet ?_ hkeep (.inl rfl)
    rcases hc with hc | hc
    · apply hnone
      cases hst : s.store with
      | none => rfl
      | some n => rw [hst, hc] at v3; simp at v3
    · obtain ⟨_, o, ho⟩ := (hx.ended i s.view (view_get hi)).mp hc
      simp only [event, (ended_iff i ops).mpr ⟨o, ho⟩, if_true]
  · have hne : ended i ops = false := by
      rw [← Bool.not_eq_true, ended_iff]
      rintro ⟨o, ho⟩
      have : s.view.ended = true := (hx.ended i s.view (view_get hi)).mpr ⟨by simp [Span.view, hd], o, ho⟩
      rw [show s.view.ended = s.ended from rfl, he] at this
      cases this
    cases hE with
    | quiet h1 _ => exact h.quiet (hnone h1) hkeep (.inl rfl)
    | full r' sd0 hm stores hst =>
      rcases hst with ⟨hst0, rfl⟩ | ⟨name', store, store', n1, n2, n3, rfl⟩
      · exact h.quiet (hnone hst0) hkeep (.inl rfl)
      · obtain ⟨ef1, ef2⟩ := (good_run hr).endFacts hi hd hm
        obtain ⟨f1, f2, f3, _⟩ := makeSpanData_fields hm
        obtain ⟨x, _, hcore⟩ := (core_run hr).1 i s r hi hd
        rw [fold_core] at hcore
        have hstat : sd0.status = (statuses i ops).getLastD ⟨0, []⟩ := by
          rw [f3]; exact congrArg Core.status hcore
        have hnow := (hinv_run hr).now
        obtain ⟨⟨n, start⟩, rfl⟩ : ∃ y, v = some y := by
          rw [n1] at v2
          cases v with
          | none => cases v2
          | some y => exact ⟨y, rfl⟩
        have hn : name' = n := by rw [n1] at v2; simpa using v2
        subst hn
        have hstart : sd0.startTime = start := by rw [f2]; exact v4 r _ hd rfl
        have hend : (finalData sd0 st.now).endTime = clockAfter t ops := by
          simp only [finalData, monotonicEndTime]; omega
        have hfin : store.finished i (finalData sd0 st.now) = .ok store' := n3
        have hstart' : (finalData sd0 st.now).startTime = start := hstart
        have hcode : (finalData sd0 st.now).status.code = ((statuses i ops).getLastD ⟨0, []⟩).code := by
          rw [← hstat]; rfl
        generalize finalData sd0 st.now = sd at hfin ef1 ef2 hend hstart' hcode
        have hevent : event t ops (.endSpan (some i) order) =
            [.finished name' i start (clockAfter t ops) ((statuses i ops).getLastD ⟨0, []⟩).code] := by
          simp only [event, hne, v1, Bool.false_eq_true, if_false]
        intro name col
        obtain ⟨l, h1, h2⟩ := h name col
        have h3 := is_finished h2 n2 hfin ef1 (by
          rw [hend]
          have : ∀ (l : List Op) (t : Int), t ≤ clockAfter t l := by
            intro l
            induction l with
            | nil => intro t; exact Int.le_refl _
            | cons op l ih =>
              intro t
              refine Int.le_trans ?_ (ih (clock t op))
              cases op <;> simp only [clock] <;> omega
          exact Int.le_trans hz (this ops t))
        have h1' := h1.imp fun _ _ h => Same.keep hkeep h
        rw [hstart', hend, hcode] at h3
        by_cases hq : name' = name ∧ columnOf start (clockAfter t ops) ((statuses i ops).getLastD ⟨0, []⟩).code = col
        · rw [if_pos hq] at h3
          refine ⟨l ++ [.add sd], ?_, ?_⟩
          · rw [log_snoc, hevent, List.flatMap_append]
            simp only [List.flatMap_cons, List.flatMap_nil, bucketOps, if_pos hq, List.append_nil]
            refine List.rel_append h1' (.cons (.add ⟨?_, hstart', hend, hcode⟩) .nil)
            obtain ⟨s', k1, k2⟩ := hkeep _ _ hi
            exact ⟨s', k1, by rw [ef2, k2.1]⟩
          · rw [spec_run_append]; exact h3
        · rw [if_neg hq] at h3
          refine ⟨l, ?_, h3⟩
          rw [log_snoc, hevent, List.flatMap_append]
          simp only [List.flatMap_cons, List.flatMap_nil, bucketOps, if_neg hq, List.append_nil]
          exact h1'

theorem start_stores {st st' : State} {op : Op} {x : Started} (ho : started op = [x]) (h : step st op = .ok st') :
    st'.stores = st.stores ∨ ∃ n act, st'.stores = GoMap.set st.stores n { storeFor st.stores n with active := act } := by
  have int : ∀ (st0 : State) (name : Bytes) (hp : Bool) (parent : SpanContext) (remote : Bool) (o : StartOptions) (tid sid : Bytes),
      startSpanInternal st0 name hp parent remote o tid sid = .ok st' → st'.stores = st0.stores ∨
        ∃ n act, st'.stores = GoMap.set st0.stores n { storeFor st0.stores n with active := act } := by
    intro st0 name hp parent remote o tid sid hs
    unfold startSpanInternal at hs
    split at hs
    · simp at hs
    · split at hs
      · simp at hs
      · simp only at hs
        split at hs
        · cases hs; exact .inl rfl
        · split at hs
          · cases hs; exact .inr ⟨name, _, rfl⟩
          · cases hs; exact .inl rfl
  cases op with
  | start p name opts tid sid =>
    cases p with
    | none => exact int _ _ _ _ _ _ _ _ h
    | some p =>
      simp only [step, startSpan] at h
      cases hp : st.spans[p]? with
      | none => rw [hp] at h; simp at h
      | some ps =>
        rw [hp] at h
        simp only at h
        obtain ⟨st1, hm, h⟩ := Res_bind_ok h
        have := int _ _ _ _ _ _ _ _ h
        rw [(modifyRec_ok keeps_addChild hm).2.2] at this
        exact this
  | startRemote sc name opts tid sid => exact int _ _ _ _ _ _ _ _ h
  | _ => cases ho

theorem inv_step {t : Int} {ops : List Op} {st st' : State} (hz : zeroTime ≤ t) (hr : run (State.init t) ops = .ok st)
    (h : Inv t ops st) {op : Op} (hs : step st op = .ok st') : Inv t (ops ++ [op]) st' := by
  have mod : ∀ (s : Option Nat) (f : Rec → Res Rec), KeepsData f →
      (onSpan st s fun i => modifyRec st i f) = .ok st' → st'.stores = st.stores := by
    intro s f hf hm
    cases s with
    | none => cases hm; rfl
    | some i => rw [(modifyRec_ok hf hm).2.2]
  cases op with
  | start p name opts tid sid => cases p <;> exact h.quiet rfl (step_start hs rfl).1 (start_stores rfl hs)
  | startRemote sc name opts tid sid => exact h.quiet rfl (step_start hs rfl).1 (start_stores rfl hs)
  | setName s name => exact h.quiet rfl (step_other hs rfl).1 (.inl (mod s _ (keeps_setName _) hs))
  | setStatus s x => exact h.quiet rfl (step_other hs rfl).1 (.inl (mod s _ (keeps_setStatus _) hs))
  | addAttributes s l => exact h.quiet rfl (step_other hs rfl).1 (.inl (mod s _ (keeps_addAttributes _) hs))
  | annotate s l m => exact h.quiet rfl (step_other hs rfl).1 (.inl (mod s _ (keeps_annotate _ _ _) hs))
  | addMessageEvent s t a b c => exact h.quiet rfl (step_other hs rfl).1 (.inl (mod s _ (keeps_addMessageEvent _ _ _ _ _) hs))
  | addLink s l => exact h.quiet rfl (step_other hs rfl).1 (.inl (mod s _ (keeps_addLink _) hs))
  | endSpan s order =>
    cases s with
    | none => exact h.quiet rfl (step_other hs rfl).1 (.inl (by cases hs; rfl))
    | some i => exact inv_end hz hr h hs
  | registerExporter e => exact h.quiet rfl (step_other hs rfl).1 (.inl (by cases hs; rfl))
  | unregisterExporter e => exact h.quiet rfl (step_other hs rfl).1 (.inl (by cases hs; rfl))
  | applyConfig c => exact h.quiet rfl (step_other hs rfl).1 (.inl (by cases hs; rfl))
  | configure bcs =>
    have hk := (step_other hs rfl).1
    obtain ⟨stores, h1, hs⟩ := Res_bind_ok hs
    cases hs
    intro name col
    obtain ⟨l, k1, k2⟩ := h name col
    obtain ⟨m, k3, k4⟩ := inv_configure h1 st.spans k2
    refine ⟨l ++ m, ?_, by rw [spec_run_append]; exact k4⟩
    rw [log_snoc, List.flatMap_append]
    exact List.rel_append k1 k3
  | reportActive name orders =>
    refine h.quiet rfl (step_other hs rfl).1 (.inl ?_)
    obtain ⟨⟨st1, out⟩, h1, hs⟩ := Res_bind_ok hs
    cases hs
    unfold reportActive at h1
    split at h1
    · cases h1; rfl
    · rw [(reportActiveLoop_spans h1).2.2]
  | enableStore => exact h.quiet rfl (step_other hs rfl).1 (.inl (by cases hs; rfl))
  | tick d => exact h.quiet rfl (step_other hs rfl).1 (.inl (by cases hs; rfl))

theorem inv_run {t : Int} (hz : zeroTime ≤ t) {ops : List Op} {st : State} (h : run (State.init t) ops = .ok st) : Inv t ops st := by
  induction ops using List.reverseRecOn generalizing st with
  | nil => cases h; exact fun name col => ⟨[], .nil, rfl⟩
  | append_singleton ops op ih =>
    obtain ⟨mid, h1, h2⟩ := run_snoc_ok h
    exact inv_step hz h1 (ih h1) h2

/-! ## Property theorems -/

/-- **C88.** After any program, the successful spans stored under a name in a latency column, oldest first, are those the history says. -/
theorem latency_history {t : Int} (hz : zeroTime ≤ t) {ops : List Op} {st : State} (h : run (State.init t) ops = .ok st)
    (name : Bytes) (k : Nat) : List.Forall₂ (Shows st.spans) (latencyOf st name k) (samples t ops name (.ok k)) := by
  obtain ⟨l, h1, h2⟩ := inv_run hz h name (.ok k)
  have h3 := spec_same h1 (a := ⟨10, none, []⟩) (b := ⟨10, none, []⟩) rfl .nil .nil
  unfold samples
  convert h3 using 1
  unfold Is at h2
  unfold latencyOf
  cases hg : GoMap.get st.stores name with
  | none => rw [hg] at h2; simp only at h2 ⊢; rw [h2]
  | some s =>
    rw [hg] at h2
    simp only at h2 ⊢
    cases hb : s.latency[k]? with
    | none => rw [hb] at h2; exact h2.2.symm
    | some b => rw [hb] at h2; exact contents_of_rep h2.rep

/-- **C88.** The same of the spans stored under an error code. -/
theorem error_history {t : Int} (hz : zeroTime ≤ t) {ops : List Op} {st : State} (h : run (State.init t) ops = .ok st)
    (name : Bytes) (c : Int) : List.Forall₂ (Shows st.spans) (errorsOf st name c) (samples t ops name (.err c)) := by
  obtain ⟨l, h1, h2⟩ := inv_run hz h name (.err c)
  have h3 := spec_same h1 (a := ⟨10, none, []⟩) (b := ⟨10, none, []⟩) rfl .nil .nil
  unfold samples
  convert h3 using 1
  unfold Is at h2
  unfold errorsOf
  cases hg : GoMap.get st.stores name with
  | none => rw [hg] at h2; simp only at h2 ⊢; rw [h2]
  | some s =>
    rw [hg] at h2
    simp only at h2 ⊢
    cases hb : GoMap.get s.errors c with
    | none => rw [hb] at h2; simp only at h2 ⊢; rw [h2]
    | some b => rw [hb] at h2; exact contents_of_rep h2.rep

theorem filter_shows {spans : List Span} {l : List SpanData} {m : List Done} (h : List.Forall₂ (Shows spans) l m) (a b : Int) :
    List.Forall₂ (Shows spans) (l.filter fun sd => decide (Wanted a b sd))
      (m.filter fun d => decide (a ≤ d.stop - d.start ∧ (b ≠ 0 → d.stop - d.start ≤ b))) := by
  induction h with
  | nil => exact .nil
  | @cons x y l m hx _ ih =>
    have : Wanted a b x ↔ (a ≤ y.stop - y.start ∧ (b ≠ 0 → y.stop - y.start ≤ b)) := by
      unfold Wanted; rw [hx.2.1, hx.2.2.1]
    by_cases hw : Wanted a b x
    · rw [List.filter_cons_of_pos (by simpa using hw), List.filter_cons_of_pos (by rw [decide_eq_true_eq]; exact this.mp hw)]
      exact .cons hx ih
    · rw [List.filter_cons_of_neg (by simpa using hw), List.filter_cons_of_neg (by rw [decide_eq_true_eq]; exact fun h => hw (this.mpr h))]
      exact ih

/-- **C88.** A report by latency gives exactly the spans that the history says are kept, of the latencies asked for. -/
theorem latency_report {t : Int} (hz : zeroTime ≤ t) {ops : List Op} {st : State} (h : run (State.init t) ops = .ok st)
    (name : Bytes) (a b : Int) : ∃ out out', reportByLatency st name a b = .ok out ∧ out.Perm out' ∧
      List.Forall₂ (Shows st.spans) out' (((List.range 9).flatMap fun k => samples t ops name (.ok k)).filter
        fun d => decide (a ≤ d.stop - d.start ∧ (b ≠ 0 → d.stop - d.start ≤ b))) := by
  obtain ⟨out, h1, _, h2⟩ := latency_report_exact h name a b
  refine ⟨out, _, h1, h2, filter_shows ?_ a b⟩
  rw [stored_columns h]
  have : ∀ l : List Nat, List.Forall₂ (Shows st.spans) (l.flatMap (latencyOf st name)) (l.flatMap fun k => samples t ops name (.ok k)) := by
    intro l
    induction l with
    | nil => exact .nil
    | cons k l ih => exact List.rel_append (latency_history hz h name k) ih
  exact this _

/-- **C88.** A report of the spans with an error code gives exactly those that the history says are kept. -/
theorem error_report {t : Int} (hz : zeroTime ≤ t) {ops : List Op} {st : State} (h : run (State.init t) ops = .ok st)
    (name : Bytes) {c : Int} (hc : c ≠ 0) : ∃ out', (reportByError st name c).Perm out' ∧
      List.Forall₂ (Shows st.spans) out' (samples t ops name (.err c)) := by
  refine ⟨_, ?_, error_history hz h name c⟩
  unfold reportByError errorsOf
  cases hs : GoMap.get st.stores name with
  | none => exact .refl _
  | some s =>
    simp only [if_pos hc]
    cases hg : GoMap.get s.errors c with
    | none => exact .refl _
    | some b =>
      obtain ⟨_, xs, hr, _⟩ := (SInv.ok (good_run h) name s hs).errors _ (GoMap.mem_of_get hg)
      simp only
      rw [contents_of_rep hr]; exact hr.scan

/-- **C88.** A report of the spans with any error gives those kept under any code. -/
theorem error_report_any {t : Int} {ops : List Op} {st : State} (h : run (State.init t) ops = .ok st)
    (name : Bytes) (sd : SpanData) : sd ∈ reportByError st name 0 ↔ ∃ c, c ≠ 0 ∧ sd ∈ reportByError st name c := by
  unfold reportByError
  cases hs : GoMap.get st.stores name with
  | none => simp
  | some s =>
    have hok := SInv.ok (good_run h) name s hs
    simp only [ne_eq, not_true_eq_false, if_false, List.mem_flatMap]
    constructor
    · rintro ⟨e, he, hsd⟩
      obtain ⟨h0, _⟩ := hok.errors e he
      refine ⟨e.1, h0, ?_⟩
      rw [if_pos h0, GoMap.get_of_mem hok.errWF he]
      exact hsd
    · rintro ⟨c, hc, hsd⟩
      rw [if_pos hc] at hsd
      cases hg : GoMap.get s.errors c with
      | none => rw [hg] at hsd; simp at hsd
      | some b => rw [hg] at hsd; exact ⟨_, GoMap.mem_of_get hg, hsd⟩

/-- **C88.** The counts of the summary page are those of the history. -/
theorem summary_counts {t : Int} (hz : zeroTime ≤ t) {ops : List Op} {st : State} (h : run (State.init t) ops = .ok st)
    {l : GoMap Bytes Trace.Store} (hl : l.Perm st.stores) {hdr : List Int} {rows : List Row}
    (hp : getSummaryPageData l = .ok (hdr, rows)) {r : Row} (hr : r ∈ rows) :
    r.latency = (List.range 9).map fun k => (samples t ops r.name (.ok k)).length := by
  obtain ⟨hdr', rows', h1, _, _, h2, _⟩ := summary_page h hl
  rw [hp] at h1; cases h1
  rw [(h2 r hr).latency]
  exact List.map_congr_left fun k _ => (latency_history hz h r.name k).length_eq

/-! ## A span that ends is there at once -/

theorem run_last {S : Type} (et : S → Int) (a : Spec S) (l : List (BOp S)) :
    ∀ x ∈ (Spec.run et a l).last, x ∈ a.last ∨ BOp.add x ∈ l := by
  induction l generalizing a with
  | nil => intro x hx; exact .inl hx
  | cons op l ih =>
    intro x hx
    rcases ih _ x hx with h | h
    · cases op with
      | resize n => exact .inl h
      | add s =>
        simp only [Spec.step] at h
        split at h
        · simp only [Option.mem_def, Option.some.injEq] at h
          subst h; exact .inr (by simp)
        · exact .inl h
    · exact .inr (List.mem_cons_of_mem _ h)

theorem run_size (name : Bytes) (col : Column) (log : List Ev) (a : Spec Done) (n : Int) (h : a.size = (min (max n 0) 100000).toNat) :
    (Spec.run Done.stop a (log.flatMap (bucketOps name col))).size = (min (max (log.foldl (fun n e => match e with
      | .sized m s e => if m = name then col.pick s e else n
      | .finished .. => n) n) 0) 100000).toNat := by
  induction log generalizing a n with
  | nil => exact h
  | cons e log ih =>
    rw [List.flatMap_cons, spec_run_append, List.foldl_cons]
    refine ih _ _ ?_
    cases e with
    | finished m i x y c =>
      simp only [bucketOps]
      split
      · simp only [Spec.run, List.foldl_cons, List.foldl_nil, Spec.step]
        split <;> exact h
      · exact h
    | sized m s e =>
      simp only [bucketOps]
      split
      · rfl
      · exact h

/-- **C88.** A span, started under a name with the store on, ends for the first time. If the size for its column is not zero and no span of
that name and column ended within the last second, it is there, as the newest one. -/
theorem shown_at_once {t : Int} (hz : zeroTime ≤ t) {ops : List Op} {st : State} {i : Nat} {order : List Bytes}
    (h : run (State.init t) (ops ++ [.endSpan (some i) order]) = .ok st) (hn : ∀ o, Op.endSpan (some i) o ∉ ops) {name : Bytes} {start : Int}
    (hs : (starts t false ops)[i]? = some (some (name, start))) {code : Int} (hcode : code = ((statuses i ops).getLastD ⟨0, []⟩).code)
    (hsize : 0 < sizeOf name (columnOf start (clockAfter t ops) code) (log t ops))
    (hq : ∀ i' a b c, Ev.finished name i' a b c ∈ log t ops → columnOf a b c = columnOf start (clockAfter t ops) code →
      b + 1000000000 ≤ clockAfter t ops) :
    ∃ sd, Shows st.spans sd ⟨i, start, clockAfter t ops, code⟩ ∧
      (code = 0 → ∃ out, reportByLatency st name (clockAfter t ops - start) 0 = .ok out ∧ sd ∈ out) ∧
      (code ≠ 0 → sd ∈ reportByError st name code ∧ sd ∈ reportByError st name 0) := by
  generalize hcol : columnOf start (clockAfter t ops) code = col at hsize hq
  have hev : event t ops (.endSpan (some i) order) = [.finished name i start (clockAfter t ops) code] := by
    have : ended i ops = false := by
      rw [← Bool.not_eq_true, ended_iff]
      rintro ⟨o, ho⟩; exact hn o ho
    simp only [event, this, hs, Bool.false_eq_true, if_false, ← hcode]
  have hin : (⟨i, start, clockAfter t ops, code⟩ : Done) ∈ samples t (ops ++ [.endSpan (some i) order]) name col := by
    unfold samples
    rw [log_snoc, hev, List.flatMap_append, spec_run_append]
    simp only [List.flatMap_cons, List.flatMap_nil, bucketOps, hcol, and_self, if_true, List.append_nil]
    have hsz := run_size name col (log t ops) ⟨10, none, []⟩ 10 rfl
    have hlast := run_last Done.stop ⟨10, none, []⟩ ((log t ops).flatMap (bucketOps name col))
    generalize hA : Spec.run Done.stop ⟨10, none, []⟩ ((log t ops).flatMap (bucketOps name col)) = A at hsz hlast
    have hpos : A.size ≠ 0 := by
      rw [hsz]
      unfold sizeOf at hsize
      omega
    have hacc : A.accepts Done.stop ⟨i, start, clockAfter t ops, code⟩ := by
      refine ⟨hpos, fun x hx => ?_⟩
      rcases hlast x hx with h | h
      · cases h
      · obtain ⟨e, he, hb⟩ := List.mem_flatMap.mp h
        cases e with
        | sized m s e' =>
          simp only [bucketOps] at hb
          split at hb <;> simp at hb
        | finished m j a b c =>
          simp only [bucketOps] at hb
          split at hb
          · next hc =>
            simp only [List.mem_singleton, BOp.add.injEq] at hb
            subst hb
            obtain ⟨rfl, hc⟩ := hc
            exact hq j a b c he hc
          · simp at hb
    simp only [Spec.run, List.foldl_cons, List.foldl_nil, Spec.step, if_pos hacc]
    rw [List.drop_append_of_le_length (by simp; omega)]
    simp
  by_cases hc : code = 0
  · subst hc
    have hk : ∃ k, k < 9 ∧ col = .ok k := by
      rw [← hcol]
      refine ⟨_, ?_, if_pos rfl⟩
      exact Nat.lt_succ_of_le (List.countP_le_length)
    obtain ⟨k, hk, rfl⟩ := hk
    obtain ⟨out, out', h1, h2, h3⟩ := latency_report hz h name (clockAfter t ops - start) 0
    have hm : (⟨i, start, clockAfter t ops, 0⟩ : Done) ∈ ((List.range 9).flatMap fun k => samples t (ops ++ [.endSpan (some i) order]) name (.ok k)).filter
        fun d => decide (clockAfter t ops - start ≤ d.stop - d.start ∧ ((0 : Int) ≠ 0 → d.stop - d.start ≤ 0)) := by
      rw [List.mem_filter, List.mem_flatMap]
      exact ⟨⟨k, List.mem_range.mpr hk, hin⟩, by simp⟩
    obtain ⟨n, hn', hget⟩ := List.getElem_of_mem hm
    have hlen := h3.length_eq
    refine ⟨out'[n], ?_, fun _ => ⟨out, h1, h2.mem_iff.mpr (List.getElem_mem _)⟩, fun h => absurd rfl h⟩
    have := List.forall₂_iff_get.mp h3
    have := this.2 n (by omega) hn'
    simp only [List.get_eq_getElem] at this
    rw [hget] at this
    exact this
  · have hcol' : col = .err code := by rw [← hcol]; exact if_neg hc
    subst hcol'
    obtain ⟨out', h2, h3⟩ := error_report hz h name hc
    obtain ⟨n, hn', hget⟩ := List.getElem_of_mem hin
    have hlen := h3.length_eq
    have hmem : out'[n] ∈ reportByError st name code := h2.mem_iff.mpr (List.getElem_mem _)
    refine ⟨out'[n], ?_, fun h => absurd h hc, fun _ => ⟨hmem, (error_report_any h name _).mpr ⟨code, hc, hmem⟩⟩⟩
    have := (List.forall₂_iff_get.mp h3).2 n (by omega) hn'
    simp only [List.get_eq_getElem] at this
    rw [hget] at this
    exact this

/-! ## Examples -/

/-- Three spans of one name: the second, of the same latency, ends less than a second after the first; the third fails. The sizes are set to one. -/
def historyDemo : List Op :=
  [.start none [1] [] (List.replicate 16 9) (List.replicate 8 9), .enableStore,
   .start none [1] [] (List.replicate 16 1) (List.replicate 8 1), .start none [1] [] (List.replicate 16 2) (List.replicate 8 2),
   .start none [1] [] (List.replicate 16 3) (List.replicate 8 3), .setStatus (some 3) ⟨5, []⟩,
   .tick 200000, .endSpan (some 0) [], .endSpan (some 1) [], .tick 1000, .endSpan (some 2) [], .endSpan (some 3) [],
   .configure [⟨[1], 1, -3⟩]]

example : (match run (State.init 100) historyDemo with
    | .ok _ => true
    | _ => false) = true := by decide +kernel
example : (samples 100 historyDemo [1] (.ok 2)).map Done.id = [1] := by decide +kernel
example : (samples 100 historyDemo [1] (.err 5)).map Done.id = [] := by decide +kernel
example : (samples 100 (historyDemo.take 12) [1] (.err 5)).map (fun d => (d.id, d.start, d.stop)) = [(3, 100, 201100)] := by decide +kernel

/-- The third span, when it ends, meets the conditions of `shown_at_once`; the second one does not. -/
example : (starts 100 false (historyDemo.take 11))[3]? = some (some ([1], 100)) ∧
    0 < sizeOf [1] (columnOf 100 (clockAfter 100 (historyDemo.take 11)) 5) (log 100 (historyDemo.take 11)) ∧
    columnOf 100 (clockAfter 100 (historyDemo.take 11)) 5 = .err 5 := by decide +kernel
example : ∀ i' a b c, Ev.finished [1] i' a b c ∈ log 100 (historyDemo.take 11) → columnOf a b c = .err 5 → False := by
  have : log 100 (historyDemo.take 11) = [.finished [1] 1 100 200100 0, .finished [1] 2 100 201100 0] := by rfl
  intro i' a b c h
  rw [this] at h
  simp only [List.mem_cons, Ev.finished.injEq, List.not_mem_nil, or_false] at h
  rcases h with ⟨_, _, rfl, rfl, rfl⟩ | ⟨_, _, rfl, rfl, rfl⟩ <;> decide

end Verif.Props.StoreHistory
