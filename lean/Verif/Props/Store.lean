import Verif.Props.Spans
import Verif.Props.Bucket

/-!
# C33, C34: latency reports and active spans of the local span store
-/

namespace Verif.Props.Store
open Verif Verif.Trace Verif.Props.Start Verif.Props.Spans Verif.Props.Bucket

/-! ## C33 -/

/-- What a latency report asks for. -/
def Wanted (minLatency maxLatency : Int) (sd : SpanData) : Prop :=
  minLatency ≤ sd.endTime - sd.startTime ∧ (maxLatency ≠ 0 → sd.endTime - sd.startTime ≤ maxLatency)

instance (a b : Int) (sd : SpanData) : Decidable (Wanted a b sd) := by unfold Wanted; infer_instance

theorem latencyMatches_iff {a b : Int} {sd : SpanData} (h : 0 ≤ sd.latency) :
    latencyMatches a b sd = true ↔ Wanted a b sd := by
  unfold latencyMatches Wanted
  unfold SpanData.latency at h
  by_cases h1 : a ≠ 0 ∨ b ≠ 0
  · rw [if_pos h1]
    simp only
    by_cases h2 : sd.endTime - sd.startTime < a
    · simp [h2]
    · by_cases h3 : b ≠ 0 ∧ sd.endTime - sd.startTime > b
      · simp only [h2, if_false, h3, ne_eq, not_false_eq_true, and_self, if_true, Bool.false_eq_true, false_iff]
        intro hc; have := hc.2 trivial; omega
      · simp only [h2, if_false, if_neg h3, true_iff]
        exact ⟨by omega, fun hb => by by_contra hc; exact h3 ⟨hb, by omega⟩⟩
  · rw [if_neg h1]
    simp only [true_iff]
    constructor <;> omega

theorem reportLoop {a b : Int} {n : Nat} : ∀ (bs : List (Bucket SpanData)) (i : Nat), i + bs.length = n → n = 9 →
    (∀ (k : Nat) (bk : Bucket SpanData), bs[k]? = some bk → ∀ sd ∈ scan bk.buffer, 0 ≤ sd.latency ∧ latencyBucket sd.latency = i + k) →
    reportLatencyLoop a b n i bs = .ok (bs.flatMap fun bk => (scan bk.buffer).filter fun sd => decide (Wanted a b sd)) := by
  intro bs
  induction bs with
  | nil => intro i _ _ _; rfl
  | cons bk bs ih =>
    intro i hi hn h
    have hrest := ih (i + 1) (by simp at hi; omega) hn (by
      intro k bk' hk sd hsd
      have := h (k + 1) bk' (by simpa using hk) sd hsd
      exact ⟨this.1, by rw [this.2]; omega⟩)
    have h0 := h 0 bk (by simp)
    have hlt : i < 9 := by simp at hi; omega
    have hb : ∃ lo hi, latencyBucketBounds i = .ok (lo, hi) := by
      have : ∀ k, k < 9 → ∃ lo hi, latencyBucketBounds k = .ok (lo, hi) := by
        intro k hk
        match k, hk with
        | 0, _ => exact ⟨_, _, rfl⟩
        | 1, _ => exact ⟨_, _, rfl⟩
        | 2, _ => exact ⟨_, _, rfl⟩
        | 3, _ => exact ⟨_, _, rfl⟩
        | 4, _ => exact ⟨_, _, rfl⟩
        | 5, _ => exact ⟨_, _, rfl⟩
        | 6, _ => exact ⟨_, _, rfl⟩
        | 7, _ => exact ⟨_, _, rfl⟩
        | 8, _ => exact ⟨_, _, rfl⟩
      exact this i hlt
    obtain ⟨lo, hi', hbd⟩ := hb
    have hfil : (scan bk.buffer).filter (latencyMatches a b) = (scan bk.buffer).filter fun sd => decide (Wanted a b sd) := by
      apply List.filter_congr
      intro sd hsd
      rw [Bool.eq_iff_iff, latencyMatches_iff (h0 sd hsd).1]; simp
    have hin : ∀ sd ∈ scan bk.buffer, lo ≤ sd.latency ∧ (sd.latency < hi' ∨ i = 8) := by
      intro sd hsd
      obtain ⟨lo', hi'', e1, e2, e3⟩ := (latency_partition sd.latency (h0 sd hsd).1 i).mp (by rw [(h0 sd hsd).2]; rfl)
      rw [hbd] at e1; cases e1
      exact ⟨e2, e3⟩
    simp only [reportLatencyLoop, hbd, Res.bind, hrest, List.flatMap_cons]
    by_cases c1 : i + 1 ≠ n ∧ hi' ≤ a
    · rw [if_pos c1]
      have : (scan bk.buffer).filter (fun sd => decide (Wanted a b sd)) = [] := by
        apply List.filter_eq_nil_iff.mpr
        intro sd hsd
        simp only [decide_eq_true_eq]
        intro hw
        have hl := (hin sd hsd).2
        have := hw.1
        unfold SpanData.latency at hl
        omega
      rw [this]; rfl
    · rw [if_neg c1]
      by_cases c2 : b ≠ 0 ∧ b < lo
      · rw [if_pos c2]
        have : (scan bk.buffer).filter (fun sd => decide (Wanted a b sd)) = [] := by
          apply List.filter_eq_nil_iff.mpr
          intro sd hsd
          simp only [decide_eq_true_eq]
          intro hw
          have hl := (hin sd hsd).1
          have := hw.2 c2.1
          unfold SpanData.latency at hl
          omega
        rw [this]; rfl
      · rw [if_neg c2, hfil]

/-- The successful spans stored under a name, bucket after bucket, each bucket oldest first. -/
def stored (st : State) (name : Bytes) : List SpanData :=
  match GoMap.get st.stores name with
  | none => []
  | some s => s.latency.flatMap contents

/-- After any program, for every name and all bounds: the report does not panic; it is the
concatenation over the latency buckets of the spans that match; altogether exactly the stored spans
that match. -/
theorem latency_report_exact {t : Int} {ops : List Op} {st : State} (h : run (State.init t) ops = .ok st)
    (name : Bytes) (minLatency maxLatency : Int) :
    ∃ out, reportByLatency st name minLatency maxLatency = .ok out ∧
      (∀ s, GoMap.get st.stores name = some s →
        out = s.latency.flatMap fun b => (scan b.buffer).filter fun sd => decide (Wanted minLatency maxLatency sd)) ∧
      out.Perm ((stored st name).filter fun sd => decide (Wanted minLatency maxLatency sd)) := by
  have hg := good_run h
  unfold reportByLatency stored
  cases hs : GoMap.get st.stores name with
  | none => exact ⟨[], rfl, by simp, by simp⟩
  | some s =>
    have hok := SInv.ok hg name s hs
    simp only
    have hloop := reportLoop (a := minLatency) (b := maxLatency) s.latency 0 (Nat.zero_add _) hok.nbuckets (by
      intro k bk hk sd hsd
      obtain ⟨xs, hr, hx⟩ := hok.latency k bk hk
      have := hx sd (hr.scan.mem_iff.mp hsd)
      exact ⟨this.2.1, by rw [this.2.2.1]; omega⟩)
    refine ⟨_, hloop, fun s' hs' => by cases hs'; rfl, ?_⟩
    rw [List.filter_flatMap]
    have : ∀ l : List (Bucket SpanData), (∀ b ∈ l, ∃ xs, Rep b xs) →
        (l.flatMap fun bk => (scan bk.buffer).filter fun sd => decide (Wanted minLatency maxLatency sd)).Perm
          (l.flatMap fun bk => (contents bk).filter fun sd => decide (Wanted minLatency maxLatency sd)) := by
      intro l hl
      induction l with
      | nil => simp
      | cons b l ih =>
        rw [List.flatMap_cons, List.flatMap_cons]
        obtain ⟨xs, hr⟩ := hl b (by simp)
        refine List.Perm.append ?_ (ih fun b' hb' => hl b' (by simp [hb']))
        rw [contents_of_rep hr]
        exact hr.scan.filter _
    apply this
    intro b hb
    obtain ⟨k, hk⟩ := List.mem_iff_getElem?.mp hb
    obtain ⟨xs, hr, _⟩ := hok.latency k b hk
    exact ⟨xs, hr⟩

/-- Every stored span is successful, has ended after it was started, and is a span whose store has this
name. -/
theorem stored_sound {t : Int} {ops : List Op} {st : State} (h : run (State.init t) ops = .ok st)
    {name : Bytes} {sd : SpanData} (hx : sd ∈ stored st name) :
    sd.status.code = 0 ∧ sd.startTime ≤ sd.endTime ∧
      ∃ (i : Nat) (s : Span), st.spans[i]? = some s ∧ s.store = some name ∧ s.ended = true ∧ sd.ctx = s.ctx := by
  unfold stored at hx
  cases hs : GoMap.get st.stores name with
  | none => rw [hs] at hx; simp at hx
  | some s =>
    rw [hs] at hx
    simp only [List.mem_flatMap] at hx
    obtain ⟨b, hb, hx⟩ := hx
    have hok := SInv.ok (good_run h) name s hs
    obtain ⟨k, hk⟩ := List.mem_iff_getElem?.mp hb
    obtain ⟨xs, hr, hall⟩ := hok.latency k b hk
    rw [contents_of_rep hr] at hx
    obtain ⟨h1, h2, h3, i, v, h4, h5, h6, h7⟩ := hall sd hx
    obtain ⟨sp, hsp, rfl⟩ := views_some h4
    unfold SpanData.latency at h2
    exact ⟨h1, by omega, i, sp, hsp, h5, h6, h7⟩

/-! ## C34 -/

theorem step_localStore {st st' : State} {op : Op} (h : step st op = .ok st') : st'.localStore =
    match op with
    | .enableStore => true
    | _ => st.localStore := by
  have mod : ∀ (s : Option Nat) (f : Rec → Res Rec), KeepsData f →
      (onSpan st s fun i => modifyRec st i f) = .ok st' → st'.localStore = st.localStore := by
    intro s f hf hm
    cases s with
    | none => cases hm; rfl
    | some i => rw [(modifyRec_ok hf hm).2.2]
  have int : ∀ (st0 : State) (name : Bytes) (hp : Bool) (parent : SpanContext) (remote : Bool) (o : StartOptions) (tid sid : Bytes),
      startSpanInternal st0 name hp parent remote o tid sid = .ok st' → st'.localStore = st0.localStore := by
    intro st0 name hp parent remote o tid sid hs
    unfold startSpanInternal at hs
    split at hs
    · simp at hs
    · split at hs
      · simp at hs
      · simp only at hs
        split at hs
        · cases hs; rfl
        · split at hs <;> (cases hs; rfl)
  cases op with
  | start p name opts tid sid =>
    cases p with
    | none => exact int _ _ _ _ _ _ _ _ h
    | some p =>
      simp only [step, startSpan] at h
      cases hp : st.spans[p]? with
      | none => rw [hp] at h; simp at h
      | some ps =>
        rw [hp] at h
        simp only at h
        obtain ⟨st1, hm, h⟩ := Res_bind_ok h
        simp only
        rw [int _ _ _ _ _ _ _ _ h, (modifyRec_ok keeps_addChild hm).2.2]
  | startRemote sc name opts tid sid => exact int _ _ _ _ _ _ _ _ h
  | setName s name => exact mod s _ (keeps_setName _) h
  | setStatus s x => exact mod s _ (keeps_setStatus _) h
  | addAttributes s l => exact mod s _ (keeps_addAttributes _) h
  | annotate s l m => exact mod s _ (keeps_annotate _ _ _) h
  | addMessageEvent s t a b c => exact mod s _ (keeps_addMessageEvent _ _ _ _ _) h
  | addLink s l => exact mod s _ (keeps_addLink _) h
  | endSpan s order =>
    cases s with
    | none => cases h; rfl
    | some i =>
      obtain ⟨s, hi, ⟨rfl, _⟩ | ⟨r, hd, he, hE⟩⟩ := endSpan_cases h
      · rfl
      · cases hE <;> rfl
  | registerExporter e => cases h; rfl
  | unregisterExporter e => cases h; rfl
  | applyConfig c => cases h; rfl
  | configure bcs => obtain ⟨stores, _, h⟩ := Res_bind_ok h; cases h; rfl
  | reportActive name orders =>
    obtain ⟨⟨st1, out⟩, h1, h⟩ := Res_bind_ok h
    cases h
    unfold reportActive at h1
    split at h1
    · cases h1; rfl
    · simp only; rw [(reportActiveLoop_spans h1).2.2]
  | enableStore => cases h; rfl
  | tick d => cases h; rfl

theorem localStore_run {t : Int} {ops : List Op} {st : State} (h : run (State.init t) ops = .ok st) :
    st.localStore = true ↔ Op.enableStore ∈ ops := by
  induction ops using List.reverseRecOn generalizing st with
  | nil => cases h; simp [State.init]
  | append_singleton ops op ih =>
    obtain ⟨mid, h1, h2⟩ := run_snoc_ok h
    rw [step_localStore h2]
    cases op <;> simp [ih h1]

/-- Span `i` was started with this name when the span store was enabled, and `End` was not called on it. -/
def Active (ops : List Op) (name : Bytes) (i : Nat) : Prop :=
  (∃ c op d x, ops = c ++ op :: d ∧ started op = [x] ∧ (startedBy c).length = i ∧ x.name = name ∧ Op.enableStore ∈ c) ∧
    ∀ order, Op.endSpan (some i) order ∉ ops

theorem active_mem {t : Int} {ops : List Op} {st : State} (h : run (State.init t) ops = .ok st) (name : Bytes) (i : Nat) :
    (∃ v : View, (views st)[i]? = some v ∧ v.store = some name ∧ v.ended = false) ↔ Active ops name i := by
  have hx := xinv_run h
  have hlen := started_length h
  have hgood := good_run h
  constructor
  · rintro ⟨v, hv, h1, h2⟩
    obtain ⟨s, hs, rfl⟩ := views_some hv
    have hlt : i < (startedBy ops).length := by have := getElem?_lt hs; omega
    obtain ⟨s', mid, k1, k2, ⟨c, op, d, k3, k4, k5, k6⟩, _⟩ := run_init h (List.getElem?_eq_getElem hlt)
    rw [hs] at k1; cases k1
    have hst := k2.store
    have h1' : s.store = some name := h1
    rw [h1'] at hst
    simp only at hst
    split at hst
    · next hl =>
      cases hst
      refine ⟨⟨c, op, d, _, k3, k4, by rw [started_length k5, k6], rfl, (localStore_run k5).mp hl⟩, ?_⟩
      intro o ho
      have hrec := (SInv.has hgood i s.view _ hv h1).2
      have := (hx.ended i _ hv).mpr ⟨hrec, o, ho⟩
      rw [h2] at this; cases this
    · cases hst
  · rintro ⟨⟨c, op, d, x, rfl, e2, e3, e4, e5⟩, e6⟩
    obtain ⟨m1, m2, r1, r2, r3⟩ := run_split h
    obtain ⟨q1, q2, s0, q3, q4⟩ := step_start r2 e2
    obtain ⟨k1, k2⟩ := run_keeps r3
    obtain ⟨s, hs, hsame⟩ := k1 _ _ q3
    have hi : m1.spans.length = i := by rw [← started_length r1, e3]
    rw [hi] at hs
    refine ⟨s.view, view_get hs, ?_, ?_⟩
    · show s.store = some name
      rw [hsame.2.2.1, q4.store, (localStore_run r1).mpr e5, if_pos rfl, e4]
    · cases hend : s.view.ended with
      | false => rfl
      | true =>
        obtain ⟨_, o, ho⟩ := (hx.ended i _ (view_get hs)).mp hend
        exact absurd ho (e6 o)

theorem reportActiveLoop_out {st st' : State} {is : List Nat} {orders : List (List Bytes)} {out : List SpanData}
    (hg : Good st) (h : reportActiveLoop st is orders = .ok (st', out)) :
    out.map (fun sd => some sd.ctx) = is.map (fun i => (st.spans[i]?).map Span.ctx) := by
  induction is generalizing st orders out with
  | nil => cases h; rfl
  | cons i is ih =>
    cases orders with
    | nil => simp [reportActiveLoop] at h
    | cons order orders =>
      simp only [reportActiveLoop] at h
      cases hs : st.spans[i]? with
      | none => rw [hs] at h; simp at h
      | some s =>
        rw [hs] at h
        simp only at h
        cases hd : s.data with
        | none => rw [hd] at h; simp at h
        | some r =>
          rw [hd] at h
          simp only at h
          obtain ⟨⟨r', sd⟩, hm, h⟩ := Res_bind_ok h
          simp only at h
          obtain ⟨⟨st1, out1⟩, h1, h⟩ := Res_bind_ok h
          cases h
          have hv : views { st with spans := st.spans.set i { s with data := some r' } } = views st :=
            views_set hs (by simp [Span.view, hd, (makeSpanData_ok hm).1])
          have hg' : Good { st with spans := st.spans.set i { s with data := some r' } } := by
            unfold Good; rw [hv]; exact hg
          have := ih hg' h1
          rw [List.map_cons, List.map_cons, this, hs]
          have hc := SInv.ctx hg i s.view r.data.ctx (view_get hs) (by simp [Span.view, hd])
          congr 1
          · simp [(makeSpanData_fields hm).1, hc, Span.view]
          · apply List.map_congr_left
            intro j _
            by_cases hij : i = j
            · subst hij; simp [List.getElem?_set_self (getElem?_lt hs), hs]
            · simp [List.getElem?_set_ne hij]

/-- A report of active spans lists exactly the spans of that name from their start to their first `End`,
each once. -/
theorem active_report {t : Int} {ops : List Op} {st : State} (h : run (State.init t) ops = .ok st)
    {name : Bytes} {orders : List (List Bytes)} {st' : State} {out : List SpanData}
    (hr : reportActive st name orders = .ok (st', out)) :
    ∃ ids : List Nat, ids.Nodup ∧ (∀ i, i ∈ ids ↔ Active ops name i) ∧
      out.map (fun sd => some sd.ctx) = ids.map (fun i => (st.spans[i]?).map Span.ctx) := by
  have hg := good_run h
  unfold reportActive at hr
  cases hs : GoMap.get st.stores name with
  | none =>
    rw [hs] at hr; cases hr
    refine ⟨[], List.nodup_nil, ?_, rfl⟩
    intro i
    rw [← active_mem h]
    simp only [List.not_mem_nil, false_iff]
    rintro ⟨v, hv, h1, _⟩
    have := (SInv.has hg i v name hv h1).1
    rw [hs] at this; cases this
  | some s =>
    rw [hs] at hr
    have hok := SInv.ok hg name s hs
    exact ⟨s.active, hok.nodup, fun i => (hok.active i).trans (active_mem h name i), reportActiveLoop_out hg hr⟩

/-- The spans with error status stored under a name and code, oldest first. -/
def errorsOf (st : State) (name : Bytes) (code : Int) : List SpanData :=
  match GoMap.get st.stores name with
  | none => []
  | some s => match GoMap.get s.errors code with
    | none => []
    | some b => contents b

/-- The successful spans stored under a name in a latency bucket, oldest first. -/
def latencyOf (st : State) (name : Bytes) (k : Nat) : List SpanData :=
  match GoMap.get st.stores name with
  | none => []
  | some s => match s.latency[k]? with
    | none => []
    | some b => contents b

theorem contents_add {b b' : Bucket SpanData} {xs : List SpanData} (h : Rep b xs) {sd : SpanData}
    (ha : b.add SpanData.endTime sd = .ok b') :
    contents b' = contents b ∨ ∃ n, contents b' = lastN n (contents b ++ [sd]) ∧ 0 < n := by
  obtain ⟨b1, h1, h2, h3⟩ := h.add SpanData.endTime sd
  rw [ha] at h1; cases h1
  split at h3
  · left; rw [h3]
  · next hc =>
    right
    refine ⟨b.buffer.length, ?_, by omega⟩
    rw [contents_of_rep h3.2, contents_of_rep h]

theorem contents_make (n : Nat) : contents (makeBucket n : Bucket SpanData) = [] := contents_of_rep (rep_make n)

/-- What the first `End` of a span does to the stores: only the store of the name the span was started
with changes, and in it only one bucket: the latency bucket of its latency if its status is OK, the
bucket of its status code otherwise. That bucket either ignores the span (sample period or size zero)
or has it as its newest element. -/
theorem finish_effect {t : Int} {ops : List Op} {st st' : State} (h : run (State.init t) ops = .ok st) {i : Nat}
    {order : List Bytes} (hs : step st (.endSpan (some i) order) = .ok st')
    (hne : ∀ o, Op.endSpan (some i) o ∉ ops) {s : Span} (hi : st.spans[i]? = some s) {name : Bytes}
    (hst : s.store = some name) :
    (∃ x, (startedBy ops)[i]? = some x ∧ x.name = name) ∧
    (∀ other, other ≠ name → GoMap.get st'.stores other = GoMap.get st.stores other) ∧
    ∃ sd : SpanData, sd.ctx = s.ctx ∧ (∀ r, s.data = some r → sd.startTime = r.data.startTime ∧ sd.status = r.data.status) ∧
      sd.endTime = st.now ∧
      (∀ k, latencyOf st' name k ≠ latencyOf st name k → sd.status.code = 0 ∧ k = latencyBucket (sd.endTime - sd.startTime)) ∧
      (∀ c, errorsOf st' name c ≠ errorsOf st name c → sd.status.code ≠ 0 ∧ c = sd.status.code) ∧
      (sd.status.code = 0 → latencyOf st' name (latencyBucket (sd.endTime - sd.startTime)) =
          latencyOf st name (latencyBucket (sd.endTime - sd.startTime)) ∨
        ∃ n, 0 < n ∧ latencyOf st' name (latencyBucket (sd.endTime - sd.startTime)) =
          lastN n (latencyOf st name (latencyBucket (sd.endTime - sd.startTime)) ++ [sd])) ∧
      (sd.status.code ≠ 0 → errorsOf st' name sd.status.code = errorsOf st name sd.status.code ∨
        ∃ n, 0 < n ∧ errorsOf st' name sd.status.code = lastN n (errorsOf st name sd.status.code ++ [sd])) := by
  have hg := good_run h
  have hx := xinv_run h
  have hlen := started_length h
  have hlt : i < (startedBy ops).length := by have := getElem?_lt hi; omega
  obtain ⟨s', mid, k1, k2, _, _⟩ := run_init h (List.getElem?_eq_getElem hlt)
  rw [hi] at k1; cases k1
  have hxname : ∃ x, (startedBy ops)[i]? = some x ∧ x.name = name := by
    refine ⟨_, List.getElem?_eq_getElem hlt, ?_⟩
    have := k2.store
    rw [hst] at this
    simp only at this
    split at this
    · cases this; rfl
    · cases this
  have hrec := (SInv.has hg i s.view name (view_get hi) hst).2
  have hnend : s.ended = false := by
    cases he : s.ended with
    | false => rfl
    | true =>
      obtain ⟨_, o, ho⟩ := (hx.ended i s.view (view_get hi)).mp he
      exact absurd ho (hne o)
  obtain ⟨s1, hi1, hc | ⟨r, hd, he, hE⟩⟩ := endSpan_cases (show endSpan st i order = .ok st' from hs)
  · rw [hi] at hi1; cases hi1
    rcases hc.2 with hd | he
    · simp [Span.view, hd] at hrec
    · rw [hnend] at he; cases he
  · rw [hi] at hi1; cases hi1
    cases hE with
    | quiet h1 h2 => rw [hst] at h1; cases h1
    | full r' sd0 hm stores hst' =>
      rcases hst' with ⟨hst0, _⟩ | ⟨name', store, store', n1, n2, n3, rfl⟩
      · rw [hst] at hst0; cases hst0
      · rw [hst] at n1; cases n1
        obtain ⟨ef1, ef2⟩ := hg.endFacts hi hd hm
        have hf := makeSpanData_fields hm
        have hok := SInv.ok hg name store n2
        refine ⟨hxname, ?_, finalData sd0 st.now, ef2, ?_, ?_, ?_⟩
        · intro other ho; simp only; rw [GoMap.get_set, if_neg ho]
        · intro r0 hr0
          rw [hd] at hr0; cases hr0
          exact ⟨hf.2.1, hf.2.2.1⟩
        · simp only [finalData, monotonicEndTime]; omega
        have hfin : store.finished i (finalData sd0 st.now) = .ok store' := n3
        have hget : GoMap.get (GoMap.set st.stores name store') name = some store' := by
          rw [GoMap.get_set, if_pos rfl]
        simp only [latencyOf, errorsOf, hget, n2]
        generalize finalData sd0 st.now = sd at hfin ef1 ef2
        unfold Store.finished at hfin
        have hl : (if sd.endTime - sd.startTime < 0 then 0 else sd.endTime - sd.startTime) = sd.endTime - sd.startTime := by
          rw [if_neg (by omega)]
        simp only [hl] at hfin
        by_cases hcode : sd.status.code = 0
        · rw [if_pos hcode] at hfin
          cases hb : store.latency[latencyBucket (sd.endTime - sd.startTime)]? with
          | none => rw [hb] at hfin; simp at hfin
          | some b =>
            rw [hb] at hfin
            simp only at hfin
            obtain ⟨b', ha, hfin⟩ := Res_bind_ok hfin
            cases hfin
            obtain ⟨xs, hrep, _⟩ := hok.latency _ _ hb
            refine ⟨?_, fun c hc => absurd rfl hc, ?_, fun hc => absurd hcode hc⟩
            · intro k hk
              refine ⟨hcode, ?_⟩
              by_contra hkk
              apply hk
              simp only
              rw [List.getElem?_set_ne (Ne.symm hkk)]
            · intro _
              simp only [List.getElem?_set_self (getElem?_lt hb)]
              rcases contents_add hrep ha with hc | ⟨n, hc, hn⟩
              · exact .inl hc
              · exact .inr ⟨n, hn, hc⟩
        · rw [if_neg hcode] at hfin
          obtain ⟨b', ha, hfin⟩ := Res_bind_ok hfin
          cases hfin
          have ha' : (store.errorBucket sd.status.code).add SpanData.endTime sd = .ok b' := ha
          refine ⟨fun k hk => absurd rfl hk, ?_, fun hc => absurd hc hcode, ?_⟩
          · intro c hc
            refine ⟨hcode, ?_⟩
            by_contra hcc
            apply hc
            simp only
            rw [GoMap.get_set, if_neg hcc]
          · intro _
            simp only
            rw [GoMap.get_set, if_pos rfl]
            simp only
            unfold Store.errorBucket at ha'
            cases hge : GoMap.get store.errors sd.status.code with
            | none =>
              rw [hge] at ha'
              simp only at ha' ⊢
              rcases contents_add (rep_make _) ha' with hc | ⟨n, hc, hn⟩
              · left; rw [hc, contents_make]
              · right; exact ⟨n, hn, by rw [hc, contents_make]⟩
            | some b =>
              rw [hge] at ha'
              simp only at ha' ⊢
              obtain ⟨_, xs, hrep, _⟩ := hok.errors _ (GoMap.mem_of_get hge)
              rcases contents_add hrep ha' with hc | ⟨n, hc, hn⟩
              · exact .inl hc
              · exact .inr ⟨n, hn, hc⟩

/-- A span renamed while active, one with an error status, one still active: the report of active spans
under the first name lists only the third, the finished ones are in the stores of the first name. -/
def storeDemo : List Op :=
  [.enableStore,
   .start none [1] [] (List.replicate 16 1) (List.replicate 8 1), .start none [1] [] (List.replicate 16 2) (List.replicate 8 2),
   .start none [1] [] (List.replicate 16 3) (List.replicate 8 3),
   .setName (some 0) [9], .setStatus (some 1) ⟨5, []⟩, .tick 200000, .endSpan (some 0) [], .endSpan (some 1) []]

def neverConfig : Op := .applyConfig ⟨some neverSample, none, 0, 0, 0, 0⟩

example : (match run (State.init 100) (neverConfig :: storeDemo) with
    | .ok st => decide ((stored st [1]).map SpanData.name = [[9]]) && decide ((stored st [9]) = []) &&
        decide ((errorsOf st [1] 5).map (fun sd => sd.ctx.traceID) = [List.replicate 16 2]) &&
        decide ((latencyOf st [1] 2).length = 1) &&
        (match reportActive st [1] [[]] with
          | .ok (_, out) => decide (out.map (fun sd => sd.ctx.traceID) = [List.replicate 16 3])
          | _ => false) &&
        (match reportByLatency st [1] 200000 200000 with
          | .ok out => decide (out.length = 1)
          | _ => false) &&
        (match reportByLatency st [1] 200001 0 with
          | .ok out => decide (out.length = 0)
          | _ => false)
    | _ => false) = true := by decide +kernel

end Verif.Props.Store
