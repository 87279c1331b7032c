import Verif.Http.Server
import Verif.Props.HttpClientConc

/-!
# C45, C46, C47, C54: the HTTP server handler
-/

namespace Verif.Props.HttpServer
open Verif Verif.Http Verif.Trace
open Verif.Props.HttpClient (valueOf wrap64_add onIt)

/-! ## C47: status codes -/

/-- The codes with a canonical equivalent, and its name. -/
def table : List (Int × Int × String) :=
  [(400, 3, "INVALID_ARGUMENT"), (401, 16, "UNAUTHENTICATED"), (403, 7, "PERMISSION_DENIED"), (404, 5, "NOT_FOUND"),
   (409, 6, "ALREADY_EXISTS"), (422, 3, "INVALID_ARGUMENT"), (429, 8, "RESOURCE_EXHAUSTED"), (499, 1, "CANCELLED"),
   (501, 12, "UNIMPLEMENTED"), (503, 14, "UNAVAILABLE"), (504, 4, "DEADLINE_EXCEEDED")]

/-- `TraceStatus` on every integer: the listed codes have their canonical code and name, 200..399 are OK,
everything else is UNKNOWN. -/
theorem status_table (c : Int) :
    (∀ code name, (c, code, name) ∈ table → traceStatus c = ⟨code, str name⟩) ∧
    ((∀ code name, (c, code, name) ∉ table) → traceStatus c =
      if 200 ≤ c ∧ c < 400 then ⟨0, str "OK"⟩ else ⟨2, str "UNKNOWN"⟩) := by
  constructor
  · intro code name h
    simp only [table, List.mem_cons, Prod.mk.injEq, List.not_mem_nil, or_false] at h
    rcases h with h | h | h | h | h | h | h | h | h | h | h <;> obtain ⟨rfl, rfl, rfl⟩ := h <;> decide
  · intro h
    have hn : ∀ x ∈ table, c ≠ x.1 := by
      rintro ⟨k, code, name⟩ hx rfl
      exact h code name hx
    have hc : traceCode c = if 200 ≤ c ∧ c < 400 then 0 else 2 := by
      have h1 := hn _ (show (400, 3, "INVALID_ARGUMENT") ∈ table by decide)
      have h2 := hn _ (show (401, 16, "UNAUTHENTICATED") ∈ table by decide)
      have h3 := hn _ (show (403, 7, "PERMISSION_DENIED") ∈ table by decide)
      have h4 := hn _ (show (404, 5, "NOT_FOUND") ∈ table by decide)
      have h5 := hn _ (show (409, 6, "ALREADY_EXISTS") ∈ table by decide)
      have h6 := hn _ (show (422, 3, "INVALID_ARGUMENT") ∈ table by decide)
      have h7 := hn _ (show (429, 8, "RESOURCE_EXHAUSTED") ∈ table by decide)
      have h8 := hn _ (show (499, 1, "CANCELLED") ∈ table by decide)
      have h9 := hn _ (show (501, 12, "UNIMPLEMENTED") ∈ table by decide)
      have h10 := hn _ (show (503, 14, "UNAVAILABLE") ∈ table by decide)
      have h11 := hn _ (show (504, 4, "DEADLINE_EXCEEDED") ∈ table by decide)
      simp only at h1 h2 h3 h4 h5 h6 h7 h8 h9 h10 h11
      unfold traceCode
      simp only [h1, h2, h3, h4, h5, h6, h7, h8, h9, h10, h11, if_false]
      split <;> split <;> first | rfl | omega
    unfold traceStatus
    rw [hc]
    split <;> rfl

/-- A status is an error exactly when it is outside 200..399. -/
theorem status_error (c : Int) : (traceStatus c).code = 0 ↔ 200 ≤ c ∧ c < 400 := by
  obtain ⟨h1, h2⟩ := status_table c
  by_cases h : ∃ code name, (c, code, name) ∈ table
  · obtain ⟨code, name, h⟩ := h
    rw [h1 code name h]
    simp only [table, List.mem_cons, Prod.mk.injEq, List.not_mem_nil, or_false] at h
    rcases h with h | h | h | h | h | h | h | h | h | h | h <;> obtain ⟨rfl, rfl, rfl⟩ := h <;> decide
  · rw [h2 (fun code name hm => h ⟨code, name, hm⟩)]
    split
    · next hc => simp [hc]
    · next hc => simp only [show ((2 : Int) = 0) ↔ False by decide, false_iff]; exact hc

/-- The message is never empty. -/
theorem status_message (c : Int) : (traceStatus c).message ≠ [] := by
  obtain ⟨h1, h2⟩ := status_table c
  by_cases h : ∃ code name, (c, code, name) ∈ table
  · obtain ⟨code, name, h⟩ := h
    rw [h1 code name h]
    simp only [table, List.mem_cons, Prod.mk.injEq, List.not_mem_nil, or_false] at h
    rcases h with h | h | h | h | h | h | h | h | h | h | h <;> obtain ⟨rfl, rfl, rfl⟩ := h <;> decide
  · rw [h2 (fun code name hm => h ⟨code, name, hm⟩)]
    split <;> decide

example : traceStatus 418 = ⟨2, str "UNKNOWN"⟩ ∧ traceStatus 304 = ⟨0, str "OK"⟩ ∧ traceStatus (-1) = ⟨2, str "UNKNOWN"⟩ := by
  decide

/-! ## C46: capabilities -/

/-- The optional interfaces and whether the original writer implements them. -/
def has (i0 i1 i2 i3 i4 : Bool) : Iface → Bool
  | .responseWriter => true
  | .hijacker => i0
  | .closeNotifier => i1
  | .pusher => i2
  | .flusher => i3
  | .readerFrom => i4

/-- The writer given to the handler implements an interface exactly when the original does; each
optional one is the original's own, the response-writer methods are the tracker's, and nothing is
embedded twice (which would make the methods ambiguous). -/
theorem capabilities (i0 i1 i2 i3 i4 : Bool) :
    (∀ f, (∃ p, (f, p) ∈ wrappedResponseWriter i0 i1 i2 i3 i4) ↔ has i0 i1 i2 i3 i4 f = true) ∧
    (∀ f p, (f, p) ∈ wrappedResponseWriter i0 i1 i2 i3 i4 → p.iface = f) ∧
    ((wrappedResponseWriter i0 i1 i2 i3 i4).map Prod.fst).Nodup := by
  have hex : ∀ f, (∃ p, (f, p) ∈ wrappedResponseWriter i0 i1 i2 i3 i4) ↔
      f ∈ (wrappedResponseWriter i0 i1 i2 i3 i4).map Prod.fst := by
    intro f; simp
  refine ⟨?_, ?_, ?_⟩
  · intro f
    rw [hex]
    cases i0 <;> cases i1 <;> cases i2 <;> cases i3 <;> cases i4 <;> cases f <;> decide
  · intro f p h
    have : ∀ x ∈ wrappedResponseWriter i0 i1 i2 i3 i4, x.2.iface = x.1 := by
      cases i0 <;> cases i1 <;> cases i2 <;> cases i3 <;> cases i4 <;> decide
    exact this _ h
  · cases i0 <;> cases i1 <;> cases i2 <;> cases i3 <;> cases i4 <;> decide

example : wrappedResponseWriter true false false true true =
    [(.responseWriter, .t), (.hijacker, .hj), (.flusher, .fl), (.readerFrom, .rf)] := rfl

/-! ## C45: specification -/

/-- The bytes the writer below accepted from `Write` calls. -/
def written (ops : List HOp) : Int :=
  (ops.map fun op => match op with | .write n _ => n | _ => 0).sum

/-- The bytes the writer below accepted in all. -/
def accepted (ops : List HOp) : Int :=
  (ops.map fun op => match op with | .write n _ => n | .readFrom n _ => n | _ => 0).sum

/-- The status codes given to `WriteHeader`. -/
def codes (ops : List HOp) : List Int :=
  ops.filterMap fun op => match op with | .writeHeader c => some c | _ => none

def routes (ops : List HOp) : List Bytes :=
  ops.filterMap fun op => match op with | .setRoute r => some r | _ => none

/-- The status recorded: the last one given, 200 if there is none. -/
def finalStatus (ops : List HOp) : Int :=
  match (codes ops).getLast? with
  | none => 200
  | some 0 => 200
  | some c => c

/-- What the writer below sees of a call. -/
def forwarded : HOp → List Ev
  | .write n _ => [.write n]
  | .writeHeader c => [.writeHeader c]
  | .readFrom n _ => [.readFrom n]
  | .setRoute _ => []

/-- What the handler gets back. -/
def answer : HOp → HRet
  | .write n e => .io n e
  | .readFrom n e => .io n e
  | _ => .none

/-- Whether a request is a health check. -/
def isHealth (cfg : HandlerConfig) (req : Request) : Prop :=
  (∃ f, cfg.isHealth = some f ∧ f req = true) ∨ req.path = str "/healthz" ∨ req.path = str "/_ah/health"

def requestTags (env : Env) (req : Request) (t : Tags) : Prop :=
  if Tag.checkValue req.host ∧ Tag.checkValue req.path ∧ Tag.checkValue req.method then
    GoMap.get t (str "http.host") = some req.host ∧ GoMap.get t (str "http.path") = some req.path ∧
    GoMap.get t (str "http.method") = some req.method
  else ∀ k, k ≠ str "http.status" → k ≠ str "http_server_route" → GoMap.get t k = GoMap.get env.tags k

/-- What a finished request records: `n` response bytes, the status, the last route. -/
structure EndRecord (env : Env) (req : Request) (ops : List HOp) (x : Tags × List Meas) : Prop where
  tags : requestTags env req x.1
  status : GoMap.get x.1 (str "http.status") = some (itoa (finalStatus ops))
  route : ∀ r, (routes ops).getLast? = some r → GoMap.get x.1 (str "http_server_route") = some r
  latency : valueOf x.2 .serverLatency = some none
  response : valueOf x.2 .serverResponseBytes = some (some (wrap64 (written ops)))
  request : valueOf x.2 .serverRequestBytes =
    if HttpClient.requestSize req ≥ 0 then some (some (HttpClient.requestSize req)) else none
  count : valueOf x.2 .serverRequestCount = none

/-- What a call does to the span of the request's context. -/
def spanOps (s : Option Nat) : HOp → List Op
  | .write n _ => [.addMessageEvent s .sent 0 n (-1)]
  | _ => []

/-! ## Helper lemmas -/

theorem steps_spec (w : Writer) (hw : wrap64 w.respSize = w.respSize) (ops : List HOp) :
    ∃ l, (w.steps ops) = ({ w with
      log := w.log ++ l
      respSize := wrap64 (w.respSize + written ops)
      statusCode := (codes ops).getLastD w.statusCode
      added := w.added ++ (routes ops).map fun r => (str "http_server_route", r) }, ops.map answer) ∧
      records l = [] ∧ traceOps l = ops.flatMap (spanOps w.span) ∧ below l = ops.flatMap forwarded := by
  induction ops generalizing w with
  | nil => exact ⟨[], by simp [Writer.steps, written, codes, routes, hw], rfl, rfl, rfl⟩
  | cons op ops ih =>
    have hw' : wrap64 (w.step op).1.respSize = (w.step op).1.respSize := by
      cases op with
      | write n e => simp only [Writer.step]; unfold wrap64; omega
      | _ => exact hw
    obtain ⟨l, h1, h2, h3, h4⟩ := ih (w.step op).1 hw'
    have hs : w.steps (op :: ops) = (((w.step op).1.steps ops).1, (w.step op).2 :: ((w.step op).1.steps ops).2) := rfl
    rw [hs, h1]
    cases op with
    | write n e =>
      refine ⟨[.write n, .trace (.addMessageEvent w.span .sent 0 n (-1))] ++ l, ?_, ?_, ?_, ?_⟩
      · simp [Writer.step, Writer.emit, written, codes, routes, answer, wrap64_add, Int.add_assoc]
      · rw [records_append, h2]; rfl
      · rw [traceOps_append, h3]; rfl
      · rw [below_append, h4]; rfl
    | writeHeader c =>
      refine ⟨[.writeHeader c] ++ l, ?_, ?_, ?_, ?_⟩
      · simp [Writer.step, Writer.emit, written, codes, routes, answer, List.getLastD_eq_getLast?, List.getLast?_cons]
      · rw [records_append, h2]; rfl
      · rw [traceOps_append, h3]; rfl
      · rw [below_append, h4]; rfl
    | readFrom n e =>
      refine ⟨[.readFrom n] ++ l, ?_, ?_, ?_, ?_⟩
      · simp [Writer.step, Writer.emit, written, codes, routes, answer]
      · rw [records_append, h2]; rfl
      · rw [traceOps_append, h3]; rfl
      · rw [below_append, h4]; rfl
    | setRoute r =>
      refine ⟨l, ?_, h2, h3, h4⟩
      simp [Writer.step, written, codes, routes, answer]

theorem get_foldl_route (m : Tags) (rs : List Bytes) (k : Bytes) :
    GoMap.get ((rs.map fun r => (str "http_server_route", r)).foldl (fun m kv => GoMap.set m kv.1 kv.2) m) k =
      if k = str "http_server_route" then
        match rs.getLast? with
        | some r => some r
        | none => GoMap.get m k
      else GoMap.get m k := by
  induction rs generalizing m with
  | nil => simp
  | cons r rs ih =>
    simp only [List.map_cons, List.foldl_cons]
    rw [ih]
    by_cases hk : k = str "http_server_route"
    · subst hk
      simp only [if_true, List.getLast?_cons]
      cases rs.getLast? with
      | some r' => rfl
      | none => simp [GoMap.get_set_same]
    · simp only [if_neg hk]
      rw [GoMap.get_set_other _ _ hk]

/-- The tags of the context the measurements are recorded with. -/
def startTags (env : Env) (req : Request) : Tags :=
  (tagNew env.tags [(str "http.host", req.host), (str "http.path", req.path), (str "http.method", req.method)]).getD
    env.tags

theorem requestTags_of {env : Env} {req : Request} {t : Tags}
    (h : ∀ k, k ≠ str "http.status" → k ≠ str "http_server_route" → GoMap.get t k = GoMap.get (startTags env req) k) :
    requestTags env req t := by
  unfold requestTags
  by_cases hv : Tag.checkValue req.host = true ∧ Tag.checkValue req.path = true ∧ Tag.checkValue req.method = true
  · rw [if_pos hv]
    have hs : startTags env req = [(str "http.host", req.host), (str "http.path", req.path),
        (str "http.method", req.method)].foldl (fun m kv => GoMap.set m kv.1 kv.2) env.tags := by
      unfold startTags
      rw [tagNew_some, if_pos (by simp [hv])]
      rfl
    rw [hs] at h
    simp only [List.foldl_cons, List.foldl_nil] at h
    refine ⟨?_, ?_, ?_⟩
    all_goals
      rw [h _ (by decide) (by decide)]
      repeat first
        | rw [GoMap.get_set_same]
        | rw [GoMap.get_set_other _ _ (by decide)]
  · rw [if_neg hv]
    have hs : startTags env req = env.tags := by
      unfold startTags
      rw [tagNew_some, if_neg]
      · rfl
      · intro hall
        simp only [List.all_cons, List.all_nil, Bool.and_true, Bool.and_eq_true] at hall
        exact hv ⟨hall.1, hall.2.1, hall.2.2⟩
    rw [hs] at h
    exact h

/-- The status recorded when the tracker holds `c`. -/
def orOK (c : Int) : Int := if c = 0 then 200 else c

theorem finish_spec {w : Writer} (h : w.ended = false) : ∃ l, w.finish.log = w.log ++ l ∧
    traceOps l = [.setStatus w.span (traceStatus (orOK w.statusCode)),
      .addAttributes w.span [⟨str "http.status_code", itoa (orOK w.statusCode)⟩]] ∧ below l = [] ∧
    records l = if w.added.all (fun kv => Tag.checkValue kv.2) then
      [(w.added.foldl (fun m kv => GoMap.set m kv.1 kv.2)
        (GoMap.set w.tags (str "http.status") (itoa (orOK w.statusCode))), w.measurements)] else [] := by
  have hw : ∀ c, recordWithTags w.tags ((str "http.status", itoa c) :: w.added) w.measurements =
      if w.added.all (fun kv => Tag.checkValue kv.2) then
      [.record (w.added.foldl (fun m kv => GoMap.set m kv.1 kv.2)
        (GoMap.set w.tags (str "http.status") (itoa c))) w.measurements] else [] := by
    intro c
    rw [recordWithTags, tagNew_some, List.all_cons, checkValue_itoa, Bool.true_and]
    cases w.added.all (fun kv => Tag.checkValue kv.2) <;> rfl
  have hlog : w.finish.log = w.log ++ [.trace (.setStatus w.span (traceStatus (orOK w.statusCode))),
      .trace (.addAttributes w.span (statusAttr (orOK w.statusCode)))] ++
      recordWithTags w.tags ((str "http.status", itoa (orOK w.statusCode)) :: w.added) w.measurements := by
    unfold Writer.finish orOK
    rw [if_neg (by simp [h])]
    by_cases hc : w.statusCode = 0
    · simp only [if_pos hc]; rfl
    · simp only [if_neg hc]; rfl
  rw [hw, List.append_assoc] at hlog
  refine ⟨_, hlog, ?_, ?_, ?_⟩
  all_goals cases w.added.all (fun kv => Tag.checkValue kv.2) <;> rfl

theorem finalStatus_eq (ops : List HOp) : orOK ((codes ops).getLastD 0) = finalStatus ops := by
  unfold finalStatus orOK
  rw [List.getLastD_eq_getLast?]
  cases h : (codes ops).getLast? with
  | none => rfl
  | some c =>
    simp only [Option.getD_some]
    by_cases hc : c = 0
    · subst hc; rfl
    · rw [if_neg hc]
      split
      · next h => cases h
      · next h => cases h; exact absurd rfl hc
      · next h => cases h; rfl

/-- The span in the request's context, server.go:139. -/
def ctxSpan (cfg : HandlerConfig) (env : Env) (req : Request) (ex : Option SpanContext) : Option Nat :=
  if (startTrace cfg env req ex).2.isSome then (startTrace cfg env req ex).2 else env.ctxSpan

/-- What `ServeHTTP` does, in one equation. -/
theorem serve_spec (cfg : HandlerConfig) (env : Env) (req : Request) (ex : Option SpanContext) (ops : List HOp)
    (panics : Bool) :
    ∃ w, serveHTTP cfg env req ex ops panics = (w, ops.map answer, panics) ∧
      below w.log = ops.flatMap forwarded ∧
      traceOps w.log = (startTrace cfg env req ex).1 ++ ops.flatMap (spanOps (ctxSpan cfg env req ex)) ++
        [.setStatus (ctxSpan cfg env req ex) (traceStatus (finalStatus ops)),
         .addAttributes (ctxSpan cfg env req ex) [⟨str "http.status_code", itoa (finalStatus ops)⟩]] ++
        (match (startTrace cfg env req ex).2 with
          | some i => [.endSpan (some i) env.order]
          | none => []) ∧
      records w.log = (startTags env req, [⟨.serverRequestCount, some 1⟩]) ::
        if (routes ops).all Tag.checkValue then
          [(((routes ops).map fun r => (str "http_server_route", r)).foldl (fun m kv => GoMap.set m kv.1 kv.2)
            (GoMap.set (startTags env req) (str "http.status") (itoa (finalStatus ops))),
            [⟨.serverLatency, none⟩, ⟨.serverResponseBytes, some (wrap64 (written ops))⟩] ++
              if HttpClient.requestSize req ≥ 0 then [⟨.serverRequestBytes, some (HttpClient.requestSize req)⟩] else [])]
        else [] := by
  obtain ⟨l, h1, h2, h3, h4⟩ := steps_spec (startStats env req (ctxSpan cfg env req ex)
    ((startTrace cfg env req ex).1.map .trace)) rfl ops
  have hstart : (startStats env req (ctxSpan cfg env req ex) ((startTrace cfg env req ex).1.map .trace)).log =
    (startTrace cfg env req ex).1.map Ev.trace ++ [.record (startTags env req) [⟨.serverRequestCount, some 1⟩]] := rfl
  obtain ⟨l', g1, g2, g3, g4⟩ := finish_spec (w := ((startStats env req (ctxSpan cfg env req ex)
    ((startTrace cfg env req ex).1.map .trace)).steps ops).1) (by rw [h1]; rfl)
  have hm : ∀ ops : List Op, traceOps (ops.map Ev.trace) = ops ∧ below (ops.map Ev.trace) = [] ∧
      records (ops.map Ev.trace) = [] := by
    intro ops
    induction ops with
    | nil => exact ⟨rfl, rfl, rfl⟩
    | cons o os ih =>
      refine ⟨?_, ?_, ?_⟩
      · exact congrArg (o :: ·) ih.1
      · exact ih.2.1
      · exact ih.2.2
  obtain ⟨m1, m2, m3⟩ := hm (startTrace cfg env req ex).1
  have e1 : orOK ((startStats env req (ctxSpan cfg env req ex) ((startTrace cfg env req ex).1.map .trace)).steps ops).1.statusCode
      = finalStatus ops := by
    rw [h1]; exact finalStatus_eq ops
  rw [e1] at g2 g4
  rw [h1] at g2 g4
  simp only at g2 g4
  have hspan : (startStats env req (ctxSpan cfg env req ex) ((startTrace cfg env req ex).1.map .trace)).span =
    ctxSpan cfg env req ex := rfl
  have hadd : (startStats env req (ctxSpan cfg env req ex) ((startTrace cfg env req ex).1.map .trace)).added = [] := rfl
  rw [hspan] at g2 h3
  have hr0 : (startStats env req (ctxSpan cfg env req ex) ((startTrace cfg env req ex).1.map .trace)).respSize = 0 := rfl
  rw [hadd, List.nil_append, hr0, Int.zero_add] at g4
  have hall : ((routes ops).map fun r => (str "http_server_route", r)).all (fun kv => Tag.checkValue kv.2) =
      (routes ops).all Tag.checkValue := by rw [List.all_map]; rfl
  rw [hall] at g4
  have hlog1 : ((startStats env req (ctxSpan cfg env req ex) ((startTrace cfg env req ex).1.map .trace)).steps ops).1.log =
      ((startTrace cfg env req ex).1.map Ev.trace ++ [.record (startTags env req) [⟨.serverRequestCount, some 1⟩]]) ++ l := by
    rw [h1, ← hstart]
  rw [hlog1] at g1
  have hrets : ((startStats env req (ctxSpan cfg env req ex) ((startTrace cfg env req ex).1.map .trace)).steps ops).2 =
    ops.map answer := by rw [h1]
  have key : ∀ tail : List Ev, below tail = [] → records tail = [] →
      below (((startTrace cfg env req ex).1.map Ev.trace ++ [.record (startTags env req) [⟨.serverRequestCount, some 1⟩]]) ++ l ++ l' ++ tail) = ops.flatMap forwarded ∧
      traceOps (((startTrace cfg env req ex).1.map Ev.trace ++ [.record (startTags env req) [⟨.serverRequestCount, some 1⟩]]) ++ l ++ l' ++ tail) =
        (startTrace cfg env req ex).1 ++ ops.flatMap (spanOps (ctxSpan cfg env req ex)) ++
        [.setStatus (ctxSpan cfg env req ex) (traceStatus (finalStatus ops)),
         .addAttributes (ctxSpan cfg env req ex) [⟨str "http.status_code", itoa (finalStatus ops)⟩]] ++ traceOps tail ∧
      records (((startTrace cfg env req ex).1.map Ev.trace ++ [.record (startTags env req) [⟨.serverRequestCount, some 1⟩]]) ++ l ++ l' ++ tail) =
        (startTags env req, [⟨.serverRequestCount, some 1⟩]) :: records l' := by
    intro tail t1 t2
    refine ⟨?_, ?_, ?_⟩
    · simp only [below_append, m2, h4, g3, t1]
      simp [below]
    · simp only [traceOps_append, m1, h3, g2]
      simp [traceOps]
    · simp only [records_append, m3, h2, t2]
      simp [records]
  have hser : serveHTTP cfg env req ex ops panics =
      (match (startTrace cfg env req ex).2 with
        | some i => (((startStats env req (ctxSpan cfg env req ex)
            ((startTrace cfg env req ex).1.map .trace)).steps ops).1.finish).emit [.trace (.endSpan (some i) env.order)]
        | none => ((startStats env req (ctxSpan cfg env req ex)
            ((startTrace cfg env req ex).1.map .trace)).steps ops).1.finish, ops.map answer, panics) := by
    rw [← hrets]; rfl
  cases hsp : (startTrace cfg env req ex).2 with
  | none =>
    rw [hsp] at hser
    refine ⟨_, hser, ?_⟩
    obtain ⟨k1, k2, k3⟩ := key [] rfl rfl
    rw [List.append_nil] at k1 k2 k3
    refine ⟨by rw [g1]; exact k1, by rw [g1, k2]; rfl, by rw [g1, k3, g4]; rfl⟩
  | some i =>
    rw [hsp] at hser
    refine ⟨_, hser, ?_⟩
    obtain ⟨k1, k2, k3⟩ := key [.trace (.endSpan (some i) env.order)] rfl rfl
    simp only [Writer.emit]
    refine ⟨by rw [g1]; exact k1, by rw [g1, k2]; rfl, by rw [g1, k3, g4]; rfl⟩

/-! ## C45 -/

/-- Whatever the handler does with the writer, and whether it returns or panics: the start is counted
once, one set of measurements is recorded at the end with the bytes the `Write` calls accepted, the last
status (200 if none), the request's size and the last route, provided the routes are valid tag values;
and a panic goes on to the caller. -/
theorem server_stats_once (cfg : HandlerConfig) (env : Env) (req : Request) (ex : Option SpanContext)
    (ops : List HOp) (panics : Bool) :
    ∃ w x0, serveHTTP cfg env req ex ops panics = (w, ops.map answer, panics) ∧
      x0.2 = [⟨.serverRequestCount, some 1⟩] ∧
      ((∀ r ∈ routes ops, Tag.checkValue r = true) → ∃ x, records w.log = [x0, x] ∧ EndRecord env req ops x) ∧
      ((∃ r ∈ routes ops, Tag.checkValue r = false) → records w.log = [x0]) := by
  obtain ⟨w, h1, _, _, h4⟩ := serve_spec cfg env req ex ops panics
  refine ⟨w, (startTags env req, [⟨.serverRequestCount, some 1⟩]), h1, rfl, ?_, ?_⟩
  swap
  · rintro ⟨r, hr, hv⟩
    rw [h4, if_neg]
    intro hall
    rw [List.all_eq_true.mp hall r hr] at hv
    exact absurd hv (by decide)
  intro hr
  rw [if_pos (List.all_eq_true.mpr hr)] at h4
  refine ⟨_, h4, ?_⟩
  refine ⟨requestTags_of ?_, ?_, ?_, ?_, ?_, ?_, ?_⟩
  · intro k h2 h3
    rw [get_foldl_route, if_neg h3, GoMap.get_set_other _ _ h2]
  · rw [get_foldl_route, if_neg (by decide), GoMap.get_set_same]
  · intro r hl
    rw [get_foldl_route, if_pos rfl, hl]
  · rfl
  · rfl
  · by_cases hq : HttpClient.requestSize req ≥ 0
    · simp only [if_pos hq]; rfl
    · simp only [if_neg hq]; rfl
  · by_cases hq : HttpClient.requestSize req ≥ 0
    · simp only [if_pos hq]; rfl
    · simp only [if_neg hq]; rfl

/-- Every call reaches the writer below, once and in order, and returns what it returns. -/
theorem server_passed_through (cfg : HandlerConfig) (env : Env) (req : Request) (ex : Option SpanContext)
    (ops : List HOp) (panics : Bool) :
    ∃ w, serveHTTP cfg env req ex ops panics = (w, ops.map answer, panics) ∧ below w.log = ops.flatMap forwarded := by
  obtain ⟨w, h1, h2, _⟩ := serve_spec cfg env req ex ops panics
  exact ⟨w, h1, h2⟩

/-- The recorded response size is the number of bytes the writer below accepted when the handler uses
`Write` only.

Missing for the claim as stated: `readFrom_not_counted`, `route_drops_stats` and `last_status_recorded`
below. -/
theorem response_bytes_partial (cfg : HandlerConfig) (env : Env) (req : Request) (ex : Option SpanContext)
    (ops : List HOp) (panics : Bool) (hr : ∀ r ∈ routes ops, Tag.checkValue r = true)
    (hrf : ∀ n e, HOp.readFrom n e ∉ ops) (hn : ∀ n e, HOp.write n e ∈ ops → 0 ≤ n) (hmax : accepted ops < 2 ^ 63) :
    ∃ w rets x0 x, serveHTTP cfg env req ex ops panics = (w, rets, panics) ∧ records w.log = [x0, x] ∧
      valueOf x.2 .serverResponseBytes = some (some (accepted ops)) := by
  obtain ⟨w, x0, h1, _, h3, h6⟩ := server_stats_once cfg env req ex ops panics
  obtain ⟨x, h4, h5⟩ := h3 hr
  refine ⟨w, _, x0, x, h1, h4, ?_⟩
  rw [h5.response]
  have he : written ops = accepted ops ∧ 0 ≤ accepted ops := by
    clear h1 h3 h4 h5 h6 hmax hr
    induction ops with
    | nil => exact ⟨rfl, Int.le_refl _⟩
    | cons op ops ih =>
      obtain ⟨i1, i2⟩ := ih (fun n e hm => hrf n e (by simp [hm])) (fun n e hm => hn n e (by simp [hm]))
      cases op with
      | write n e =>
        have := hn n e (by simp)
        simp only [written, accepted, List.map_cons, List.sum_cons] at i1 i2 ⊢
        omega
      | readFrom n e => exact absurd (by simp) (hrf n e)
      | _ =>
        simp only [written, accepted, List.map_cons, List.sum_cons] at i1 i2 ⊢
        omega
  rw [he.1]
  have : wrap64 (accepted ops) = accepted ops := by unfold wrap64; omega
  rw [this]

/-! ### Disagreements -/

def cfg0 : HandlerConfig := ⟨false, none⟩

/-- What a handler makes the server record for a measure at the end. -/
def recorded (ops : List HOp) (m : Measure) : Option (Option Int) :=
  match records (serveHTTP cfg0 HttpClient.env0 HttpClient.req0 none ops false).1.log with
  | [_, x] => valueOf x.2 m
  | _ => none

/-- The status recorded at the end. -/
def recordedStatus (ops : List HOp) : Option Bytes :=
  match records (serveHTTP cfg0 HttpClient.env0 HttpClient.req0 none ops false).1.log with
  | [_, x] => GoMap.get x.1 (str "http.status")
  | _ => none

/-- `io.Copy(w, src)` uses `ReadFrom` when the writer has it: the bytes are not counted. -/
theorem readFrom_not_counted : accepted [.readFrom 1000 .nil] = 1000 ∧
    recorded [.readFrom 1000 .nil] .serverResponseBytes = some (some 0) := by decide

/-- A route that is not a valid tag value (non-ASCII) loses all the measurements of the request. -/
theorem route_drops_stats : recorded [.setRoute [195, 169], .write 3 .nil] .serverResponseBytes = none := by decide

/-- The status recorded is the one of the last `WriteHeader`; the one the client sees is the first
(net/http ignores the others), or 200 if something was written before. -/
theorem last_status_recorded : recordedStatus [.writeHeader 404, .write 3 .nil, .writeHeader 500] = some (str "500") ∧
    recordedStatus [.write 3 .nil, .writeHeader 500] = some (str "500") := by decide

example : recordedStatus [] = some (str "200") ∧
    recorded [.writeHeader 404, .write 3 .nil, .setRoute (str "/r"), .write 4 (.other [])] .serverResponseBytes =
      some (some 7) := by decide

/-! ## C54 -/

theorem startTrace_health {cfg : HandlerConfig} {req : Request} (h : isHealth cfg req) (env : Env)
    (ex : Option SpanContext) : startTrace cfg env req ex = ([], none) := by
  unfold startTrace
  rw [if_pos]
  rcases h with ⟨f, h1, h2⟩ | h
  · rw [h1]; simp [h2]
  · simp [isHealthEndpoint, h]

theorem startTrace_other {cfg : HandlerConfig} {req : Request} (h : ¬ isHealth cfg req) (env : Env)
    (ex : Option SpanContext) : startTrace cfg env req ex =
      ((match ex, cfg.isPublic with
        | some sc, false => [Op.startRemote sc env.name [.sampler env.sampler, .kind 1] env.tid env.sid]
        | some sc, true => [.start env.ctxSpan env.name [.sampler env.sampler, .kind 1] env.tid env.sid,
            .addLink (some env.span) ⟨sc.traceID, sc.spanID, 2, none⟩]
        | none, _ => [.start env.ctxSpan env.name [.sampler env.sampler, .kind 1] env.tid env.sid]) ++
      [.addAttributes (some env.span) (requestAttrs req)] ++
      (if req.bodyNil then []
      else if req.contentLength > 0 then [.addMessageEvent (some env.span) .recv 0 req.contentLength (-1)]
      else []), some env.span) := by
  unfold startTrace
  rw [if_neg]
  · rfl
  intro hc
  rw [Bool.or_eq_true] at hc
  apply h
  rcases hc with hc | hc
  · cases hf : cfg.isHealth with
    | none => rw [hf] at hc; cases hc
    | some f => rw [hf] at hc; exact Or.inl ⟨f, hf, hc⟩
  · unfold isHealthEndpoint at hc
    split at hc
    · next hp => exact Or.inr hp
    · exact absurd hc (by decide)

/-- A health check starts no span and ends none, and when the request's context has no span the trace
state is left exactly as it was. -/
theorem health_no_span (cfg : HandlerConfig) (env : Env) (req : Request) (ex : Option SpanContext) (ops : List HOp)
    (panics : Bool) (hh : isHealth cfg req) (hctx : env.ctxSpan = none) (st : State) :
    ∃ w rets, serveHTTP cfg env req ex ops panics = (w, rets, panics) ∧
      Start.startedBy (traceOps w.log) = [] ∧ run st (traceOps w.log) = .ok st := by
  obtain ⟨w, h1, _, h3, _⟩ := serve_spec cfg env req ex ops panics
  have hc : ctxSpan cfg env req ex = none := by
    unfold ctxSpan; rw [startTrace_health hh]; simpa using hctx
  rw [startTrace_health hh, hc] at h3
  simp only [List.nil_append, List.append_nil] at h3
  refine ⟨w, _, h1, ?_, ?_⟩
  · rw [h3]
    unfold Start.startedBy
    rw [List.flatMap_eq_nil_iff]
    intro op hop
    simp only [List.mem_append, List.mem_flatMap, List.mem_cons, List.not_mem_nil, or_false] at hop
    rcases hop with ⟨o, _, ho⟩ | rfl | rfl
    · cases o <;> simp [spanOps] at ho
      subst ho; rfl
    · rfl
    · rfl
  · have hnil : ∀ l : List Op, (∀ op ∈ l, Spans.target op = some none) → run st l = .ok st := by
      intro l
      induction l with
      | nil => intro _; rfl
      | cons op l ih =>
        intro hl
        show (step st op).bind _ = _
        rw [Spans.nil_noop st (hl op (by simp))]
        exact ih fun o ho => hl o (by simp [ho])
    apply hnil
    rw [h3]
    intro op hop
    simp only [List.mem_append, List.mem_flatMap, List.mem_cons, List.not_mem_nil, or_false] at hop
    rcases hop with ⟨o, _, ho⟩ | rfl | rfl
    · cases o <;> simp [spanOps] at ho
      subst ho; rfl
    · rfl
    · rfl

/-- The span the handler starts, as the trace model sees it. -/
def serverStart (cfg : HandlerConfig) (env : Env) (ex : Option SpanContext) : Start.Started where
  origin := match ex, cfg.isPublic with
    | some sc, false => .remote sc
    | _, _ => match env.ctxSpan with
      | none => .root
      | some p => .child p
  opts := [.sampler env.sampler, .kind 1]
  name := env.name
  tid := env.tid
  sid := env.sid

/-- A request that is not a health check starts exactly one span, first thing. -/
theorem starts_one (cfg : HandlerConfig) (env : Env) (req : Request) (ex : Option SpanContext) (ops : List HOp)
    (panics : Bool) (hh : ¬ isHealth cfg req) :
    ∃ w rets op l, serveHTTP cfg env req ex ops panics = (w, rets, panics) ∧ traceOps w.log = op :: l ∧
      Start.started op = [serverStart cfg env ex] ∧ Start.startedBy l = [] := by
  obtain ⟨w, h1, _, h3, _⟩ := serve_spec cfg env req ex ops panics
  rw [startTrace_other hh] at h3
  have hsp : Start.startedBy (ops.flatMap (spanOps (ctxSpan cfg env req ex))) = [] := by
    unfold Start.startedBy
    rw [List.flatMap_eq_nil_iff]
    intro op hop
    obtain ⟨o, _, ho⟩ := List.mem_flatMap.mp hop
    cases o <;> simp [spanOps] at ho
    subst ho; rfl
  have hmsg : Start.startedBy (if req.bodyNil then []
      else if req.contentLength > 0 then [Op.addMessageEvent (some env.span) .recv 0 req.contentLength (-1)]
      else []) = [] := by
    split
    · rfl
    · split <;> rfl
  have happ : ∀ a b, Start.startedBy (a ++ b) = Start.startedBy a ++ Start.startedBy b := by
    intro a b; simp [Start.startedBy]
  have hcons : ∀ o l, Start.startedBy (o :: l) = Start.started o ++ Start.startedBy l := by
    intro o l; simp [Start.startedBy]
  cases ex with
  | none =>
    simp only [List.cons_append, List.nil_append] at h3
    refine ⟨w, _, _, _, h1, h3, ?_, ?_⟩
    · unfold serverStart; cases env.ctxSpan <;> rfl
    · simp only [happ, hcons, hsp, hmsg]; rfl
  | some sc =>
    cases hp : cfg.isPublic with
    | false =>
      rw [hp] at h3
      simp only [List.cons_append, List.nil_append] at h3
      refine ⟨w, _, _, _, h1, h3, ?_, ?_⟩
      · unfold serverStart; rw [hp]; rfl
      · simp only [happ, hcons, hsp, hmsg]; rfl
    | true =>
      rw [hp] at h3
      simp only [List.cons_append, List.nil_append] at h3
      refine ⟨w, _, _, _, h1, h3, ?_, ?_⟩
      · unfold serverStart; rw [hp]; cases env.ctxSpan <;> rfl
      · simp only [happ, hcons, hsp, hmsg]; rfl

/-- With a valid incoming context and a handler that is not public, the server span continues the
incoming trace and has the incoming span as its remote parent, whatever else the program does. -/
theorem incoming_is_parent (cfg : HandlerConfig) (env : Env) (sc : SpanContext) (hpub : cfg.isPublic = false)
    (hz : sc ≠ .zero) {t : Int} {H : List Op} {st : State} (hrun : run (State.init t) H = .ok st)
    (hx : (Start.startedBy H)[env.span]? = some (serverStart cfg env (some sc))) :
    ∃ s, st.spans[env.span]? = some s ∧ s.ctx.traceID = sc.traceID ∧ s.ctx.spanID = env.sid ∧
      ∀ r, s.data = some r → r.data.parentSpanID = sc.spanID := by
  obtain ⟨s, h1, h2, h3⟩ := Start.trace_continuity hrun hx
  have ho : (serverStart cfg env (some sc)).origin = .remote sc := by simp [serverStart, hpub]
  rw [ho] at h3
  simp only [Start.parentCtx, if_neg hz] at h3
  exact ⟨s, h1, h3.1, h2, h3.2⟩

/-- With a public handler, or without an incoming context, and without a span in the request's context,
the server span is the root of a new trace with the generated IDs. -/
theorem public_is_root (cfg : HandlerConfig) (env : Env) (ex : Option SpanContext)
    (hpub : cfg.isPublic = true ∨ ex = none) (hctx : env.ctxSpan = none)
    {t : Int} {H : List Op} {st : State} (hrun : run (State.init t) H = .ok st)
    (hx : (Start.startedBy H)[env.span]? = some (serverStart cfg env ex)) :
    ∃ s, st.spans[env.span]? = some s ∧ s.ctx.traceID = env.tid ∧ s.ctx.spanID = env.sid ∧
      ∀ r, s.data = some r → r.data.parentSpanID = List.replicate 8 0 := by
  obtain ⟨s, h1, h2, h3⟩ := Start.trace_continuity hrun hx
  have ho : (serverStart cfg env ex).origin = .root := by
    unfold serverStart
    rw [hctx]
    rcases hpub with h | h
    · rw [h]; cases ex <;> rfl
    · rw [h]
  rw [ho] at h3
  exact ⟨s, h1, h3.1, h2, h3.2⟩

theorem limit_pos (f : Trace.Config → Int) (d : Int) (hd : 0 < d) (ops : List Op) : 0 < Spans.limit f d ops := by
  unfold Spans.limit
  rw [List.getLastD_eq_getLast?]
  cases h : (((Spans.applied ops).map f).filter (fun x => decide (0 < x))).getLast? with
  | none => exact hd
  | some x =>
    have := List.mem_of_getLast? h
    simpa using (List.mem_filter.mp this).2

theorem adds_links_filter (i : Nat) (now now' : Int) (l : List Op) :
    (adds i now (l.filter (onIt i))).links = (adds i now' l).links := by
  induction l generalizing now now' with
  | nil => rfl
  | cons op l ih =>
    by_cases h : onIt i op = true
    · rw [List.filter_cons_of_pos h]
      show (opAdds now i op).links ++ (adds i _ (l.filter (onIt i))).links = (opAdds now' i op).links ++ (adds i _ l).links
      rw [ih _ (clock now' op)]
      cases op <;> simp only [opAdds] <;> (try split) <;> rfl
    · rw [List.filter_cons_of_neg h]
      show _ = (opAdds now' i op).links ++ (adds i _ l).links
      rw [ih now (clock now' op)]
      have : (opAdds now' i op).links = [] := by
        cases op with
        | addLink s x =>
          have : s ≠ some i := by rintro rfl; exact h (by simp [onIt, Spans.target])
          simp [opAdds, this, Adds.none]
        | _ => simp only [opAdds]; (try split) <;> rfl
      rw [this, List.nil_append]

/-- The links the server span should have: the incoming context as a parent link (type 2) when the
handler is public. -/
def incomingLinks (ex : Option SpanContext) (isPublic : Bool) : List Link :=
  match ex, isPublic with
  | some sc, true => [⟨sc.traceID, sc.spanID, 2, none⟩]
  | _, _ => []

/-- The server span in the trace model. Take any program in which the handler's span is started by
`ServeHTTP` and the operations on it are the ones `ServeHTTP` makes. Then it is exported exactly once to
every exporter registered when the handler has returned or panicked (if it is sampled), as a server span,
with the status that stands for the recorded HTTP status, and its links are the incoming context when the
handler is public and none otherwise. -/
theorem server_span_exported (cfg : HandlerConfig) (env : Env) (req : Request) (ex : Option SpanContext)
    (ops : List HOp) (panics : Bool) (hh : ¬ isHealth cfg req) {w : Writer} {rets : List HRet} {p : Bool}
    (hs : serveHTTP cfg env req ex ops panics = (w, rets, p))
    {t : Int} {H : List Op} {st : State} (hrun : run (State.init t) H = .ok st)
    (hx : (Start.startedBy H)[env.span]? = some (serverStart cfg env ex))
    (hown : H.filter (onIt env.span) = (traceOps w.log).tail) :
    ∃ a o b s, H = a ++ .endSpan (some env.span) o :: b ∧ (∀ o, Op.endSpan (some env.span) o ∉ a) ∧
      st.spans[env.span]? = some s ∧
      (∀ e, st.exported.countP (fun x => decide (x.1 = e ∧ x.2.1 = env.span)) =
        if s.ctx.isSampled ∧ Trace.registered e a = true then 1 else 0) ∧
      ∀ e sd, (e, env.span, sd) ∈ st.exported →
        sd.status = traceStatus (finalStatus ops) ∧ sd.kind = 1 ∧
        sd.links = incomingLinks ex cfg.isPublic := by
  obtain ⟨w', h1, _, h3, _⟩ := serve_spec cfg env req ex ops panics
  rw [hs] at h1
  cases h1
  have hctx : ctxSpan cfg env req ex = some env.span := by
    unfold ctxSpan; rw [startTrace_other hh]; rfl
  rw [hctx, startTrace_other hh] at h3
  simp only at h3
  -- the operations on the span up to the end
  have hpre : ∃ pre, (traceOps w.log).tail = pre ++ [.endSpan (some env.span) env.order] ∧
      (∀ o, Op.endSpan (some env.span) o ∉ pre) ∧
      Spans.statuses env.span pre = [traceStatus (finalStatus ops)] ∧
      (adds env.span 0 pre).links = incomingLinks ex cfg.isPublic := by
    -- the operations between the start (and the link) and the end
    have hmid : ∀ mid, mid = [Op.addAttributes (some env.span) (requestAttrs req)] ++
        (if req.bodyNil then []
        else if req.contentLength > 0 then [.addMessageEvent (some env.span) .recv 0 req.contentLength (-1)]
        else []) ++ ops.flatMap (spanOps (some env.span)) →
        (∀ o, Op.endSpan (some env.span) o ∉ mid) ∧ Spans.statuses env.span mid = [] ∧
        ∀ now l, (adds env.span now (mid ++ l)).links = (adds env.span 0 l).links := by
      intro mid hm
      have hall : ∀ op ∈ mid, (∃ l, op = .addAttributes (some env.span) l) ∨
          ∃ t n, op = .addMessageEvent (some env.span) t 0 n (-1) := by
        intro op hop
        rw [hm] at hop
        simp only [List.mem_append, List.mem_singleton, List.mem_flatMap] at hop
        rcases hop with (rfl | hop) | ⟨o, _, ho⟩
        · exact Or.inl ⟨_, rfl⟩
        · split at hop
          · simp at hop
          · split at hop
            · simp at hop; subst hop; exact Or.inr ⟨_, _, rfl⟩
            · simp at hop
        · cases o <;> simp [spanOps] at ho
          subst ho; exact Or.inr ⟨_, _, rfl⟩
      clear hm
      refine ⟨?_, ?_, ?_⟩
      · intro o hm'
        rcases hall _ hm' with ⟨l, h⟩ | ⟨t, n, h⟩ <;> cases h
      · unfold Spans.statuses
        rw [List.filterMap_eq_nil_iff]
        intro op hop
        rcases hall _ hop with ⟨l, rfl⟩ | ⟨t, n, rfl⟩ <;> rfl
      · induction mid with
        | nil =>
          intro now l
          have e1 := adds_links_filter env.span 0 now l
          have e2 := adds_links_filter env.span 0 0 l
          rw [List.nil_append, ← e1, e2]
        | cons op mid ih =>
          intro now l
          have := ih (fun o ho => hall o (by simp [ho])) (clock now op) l
          show (opAdds now env.span op).links ++ (adds env.span (clock now op) (mid ++ l)).links = _
          rw [this]
          rcases hall op (by simp) with ⟨l, rfl⟩ | ⟨t, n, rfl⟩ <;> simp [opAdds, Adds.none]
    obtain ⟨m1, m2, m3⟩ := hmid _ rfl
    have fin : ∀ pre0 : List Op, (∀ o, Op.endSpan (some env.span) o ∉ pre0) → Spans.statuses env.span pre0 = [] →
        (∀ o, Op.endSpan (some env.span) o ∉ pre0 ++ ([Op.addAttributes (some env.span) (requestAttrs req)] ++
          (if req.bodyNil then []
          else if req.contentLength > 0 then [.addMessageEvent (some env.span) .recv 0 req.contentLength (-1)]
          else []) ++ ops.flatMap (spanOps (some env.span)) ++
          [.setStatus (some env.span) (traceStatus (finalStatus ops)),
           .addAttributes (some env.span) [⟨str "http.status_code", itoa (finalStatus ops)⟩]])) ∧
        Spans.statuses env.span (pre0 ++ ([Op.addAttributes (some env.span) (requestAttrs req)] ++
          (if req.bodyNil then []
          else if req.contentLength > 0 then [.addMessageEvent (some env.span) .recv 0 req.contentLength (-1)]
          else []) ++ ops.flatMap (spanOps (some env.span)) ++
          [.setStatus (some env.span) (traceStatus (finalStatus ops)),
           .addAttributes (some env.span) [⟨str "http.status_code", itoa (finalStatus ops)⟩]])) =
          [traceStatus (finalStatus ops)] := by
      intro pre0 p1 p2
      have happ : ∀ a b, Spans.statuses env.span (a ++ b) = Spans.statuses env.span a ++ Spans.statuses env.span b := by
        intro a b; simp [Spans.statuses]
      refine ⟨?_, ?_⟩
      · intro o hm
        rcases List.mem_append.mp hm with hm | hm
        · exact p1 o hm
        · rcases List.mem_append.mp hm with hm | hm
          · exact m1 o hm
          · simp at hm
      · rw [happ, p2, happ, m2]
        simp [Spans.statuses]
    rw [h3]
    cases ex with
    | none =>
      refine ⟨[] ++ _, ?_, (fin [] (by simp) rfl).1, (fin [] (by simp) rfl).2, ?_⟩
      · simp
      · rw [List.nil_append, m3]; simp [opAdds, Adds.none, adds, Adds.append, incomingLinks]
    | some sc =>
      cases hp : cfg.isPublic with
      | false =>
        refine ⟨[] ++ _, ?_, (fin [] (by simp) rfl).1, (fin [] (by simp) rfl).2, ?_⟩
        · simp
        · rw [List.nil_append, m3]; simp [opAdds, Adds.none, adds, Adds.append, incomingLinks]
      | true =>
        have hl : (∀ o, Op.endSpan (some env.span) o ∉ [Op.addLink (some env.span) ⟨sc.traceID, sc.spanID, 2, none⟩]) := by
          simp
        refine ⟨[.addLink (some env.span) ⟨sc.traceID, sc.spanID, 2, none⟩] ++ _, ?_, (fin _ hl rfl).1, (fin _ hl rfl).2, ?_⟩
        · simp
        · show (opAdds 0 env.span (.addLink (some env.span) ⟨sc.traceID, sc.spanID, 2, none⟩)).links ++
            (adds env.span 0 _).links = _
          refine (congrArg _ (m3 _ _)).trans ?_
          simp [opAdds, Adds.none, adds, Adds.append, incomingLinks]
  obtain ⟨pre, q1, q2, q3, q4⟩ := hpre
  rw [q1] at hown
  have hmem : Op.endSpan (some env.span) env.order ∈ H := by
    have : Op.endSpan (some env.span) env.order ∈ H.filter (onIt env.span) := by rw [hown]; simp
    exact (List.mem_filter.mp this).1
  obtain ⟨a, o, b, s1, s2⟩ := HttpClient.split_first ⟨_, hmem⟩
  have hrun' := hrun
  rw [s1] at hrun'
  obtain ⟨s, e1, e2, _⟩ := Spans.exported_exactly_once hrun' s2
  refine ⟨a, o, b, s, s1, s2, e1, e2, ?_⟩
  intro e sd hxp
  have hfil : ∀ (P : List Op) (order : List Bytes) (b2 : List Op), H = P ++ .endSpan (some env.span) order :: b2 →
      (∀ o, Op.endSpan (some env.span) o ∉ P) → P.filter (onIt env.span) = pre := by
    intro P order b2 hP hno
    have h := hown
    rw [hP, List.filter_append, List.filter_cons_of_pos (by simp [onIt, Spans.target])] at h
    refine HttpClient.prefix_unique h ?_ q2
    intro o hm
    exact hno o (List.mem_filter.mp hm).1
  refine ⟨?_, ?_, ?_⟩
  · obtain ⟨c, op, d, order, b2, x, s', g1, g2, g3, g4, g5, g6, g7, g8, _⟩ := Spans.exported_data hrun hxp
    rw [g8, ← HttpClient.statuses_filter, hfil _ _ _ g1 g4, q3]; rfl
  · obtain ⟨c, op, d, order, b2, x, s', g1, g2, g3, g4, g5, g6, g7, g8, g9, _⟩ := Spans.exported_data hrun hxp
    have : (Start.startedBy H)[env.span]? = some x := by
      rw [g1]
      unfold Start.startedBy at g3 ⊢
      simp only [List.flatMap_append, List.flatMap_cons, g2]
      rw [List.append_assoc, List.getElem?_append_right (by omega), g3]
      simp
    rw [hx] at this
    cases this
    rw [g9]; rfl
  · obtain ⟨c, op, d, order, b2, x, g1, g2, g3, g4, A, hA, _, _, _, _, g5, _⟩ := Spans.exported_events hrun hxp
    rw [g5, hA, ← adds_links_filter env.span 0, hfil _ _ _ g1 g4, q4]
    have hlim := limit_pos Trace.Config.maxLinks 32 (by decide) c
    unfold Spans.newest incomingLinks
    split
    · have : 1 - (Spans.limit Trace.Config.maxLinks 32 c).toNat = 0 := by omega
      simp [this]
    · simp

/-! ### Example: a public handler that panics after an error status, with an incoming context -/

def demoCfg : HandlerConfig := ⟨true, some fun r => decide (r.method = str "OPTIONS")⟩
def demoSc : SpanContext := { SpanContext.zero with traceID := List.replicate 16 3, spanID := List.replicate 8 4 }
def demoHandler : List HOp := [.writeHeader 503, .write 3 .nil, .setRoute (str "/r")]

def demoOps : List Op :=
  [.registerExporter 7, .start none (str "other") [.sampler (some fun _ => false)] (List.replicate 16 9) (List.replicate 8 9)] ++
    traceOps (serveHTTP demoCfg HttpClient.demoEnv HttpClient.req0 (some demoSc) demoHandler true).1.log ++ [.endSpan (some 0) []]

/-- What the exporter was handed: who, which span, status code and message, links, kind and trace ID. -/
def demoOut : List (Nat × Nat × Int × Bytes × List (Bytes × Bytes × Int) × Int × Bytes) :=
  match run (State.init 0) demoOps with
  | .ok st => st.exported.map fun x => (x.1, x.2.1, x.2.2.status.code, x.2.2.status.message,
      x.2.2.links.map (fun l => (l.traceID, l.spanID, l.type)), x.2.2.kind, x.2.2.ctx.traceID)
  | _ => []

example : demoOut = [(7, 1, 14, str "UNAVAILABLE", [(List.replicate 16 3, List.replicate 8 4, 2)], 1,
    List.replicate 16 1)] := by rfl

example : (Start.startedBy demoOps).length = 2 ∧ demoOps.filter (onIt 1) =
    (traceOps (serveHTTP demoCfg HttpClient.demoEnv HttpClient.req0 (some demoSc) demoHandler true).1.log).tail :=
  ⟨rfl, rfl⟩

example : ¬ isHealth demoCfg HttpClient.req0 := by
  rintro (⟨f, h1, h2⟩ | h | h)
  · cases h1; exact absurd h2 (by decide)
  · exact absurd h (by decide)
  · exact absurd h (by decide)

example : isHealth demoCfg { HttpClient.req0 with method := str "OPTIONS" } := Or.inl ⟨_, rfl, by decide⟩

end Verif.Props.HttpServer
