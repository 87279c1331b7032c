import Verif.Http.Server

/-!
# Handlers inside handlers, and routes (plugin/ochttp/route.go, server.go)

What serves a request is a program: calls on the response writer, `SetRoute`, other handlers called with a
request that derives from the one it was given, `WithRouteTag` and `Handler` among them, panics and code
that recovers from them. A multiplexer that picked a handler is that handler. Each `Handler` that is
running has its own `trackingResponseWriter` and its own `addedTags`, both in the cell it allocates; the writer a
program was given is the list of the trackers around the server's writer, innermost first. Code that
takes the writer of one request and the context of another is not modelled, nor are goroutines of handlers.
-/

namespace Verif.Http
open Verif Verif.Trace

/-- A program that serves a request. -/
inductive Prog where
  | done
  | call (op : HOp)                            -- on the writer, or SetRoute(r.Context(), ...)
  | look                                       -- tag.FromContext(r.Context())
  | panic
  | seq (a b : Prog)
  | recovering (p : Prog)                      -- recovers from panics of p
  | withRoute (route : Bytes) (p : Prog)       -- WithRouteTag(p, route).ServeHTTP(w, r)
  | handler (cfg : HandlerConfig) (env : Env) (req : Request) (extracted : Option SpanContext) (p : Prog)
      -- (&Handler{...}).ServeHTTP(w, r); tags and span of `env` are replaced by those of the context

/-- The request's context: its tags, its span, the `addedTags` under `addedTagsKey`; and the writer. -/
structure RCtx where
  tags : Tags
  span : Option Nat
  added : Option Nat
  writer : List Nat

/-- What all handlers did. `cells` are the trackers with their added tags (their own logs stay empty), `seen` the tags
programs saw in their contexts. -/
structure Served where
  cells : List Writer
  log : List Ev
  seen : List Tags

/-- Appends to the log. -/
def Served.emit (s : Served) (l : List Ev) : Served := { s with log := s.log ++ l }

/-- What a call changes in the tracker: `Write` (server.go:213), `WriteHeader` (server.go:222),
`SetRoute` (route.go:29). -/
def Writer.note (w : Writer) : HOp → Writer
  | .write n _ => { w with respSize := wrap64 (w.respSize + n) }
  | .writeHeader c => { w with statusCode := c }
  | .readFrom _ _ => w
  | .setRoute route => { w with added := w.added ++ [(str "http_server_route", route)] }

/-- The span of a tracker's context. -/
def Served.spanOf (s : Served) (i : Nat) : Option Nat := (s.cells[i]?).bind Writer.span

/-- A call on a writer: each tracker first calls the writer below (server.go:211-224); `ReadFrom` goes past them
(`wrappedResponseWriter`, server.go:232-455). -/
def callWriter : List Nat → HOp → Served → Served
  | [], .write n _, s => s.emit [.write n]
  | [], .writeHeader c, s => s.emit [.writeHeader c]
  | [], .readFrom n _, s => s.emit [.readFrom n]
  | [], .setRoute _, s => s
  | i :: below, op, s =>
    let s := callWriter below op s
    let s := { s with cells := s.cells.modify i fun w => w.note op }
    match op with
    | .write n _ => s.emit [.trace (.addMessageEvent (s.spanOf i) .sent 0 n (-1))]
    | _ => s

/-- Appending to the `addedTags` of the context, if there are any: `SetRoute`, plugin/ochttp/route.go:27-31, and
`taggedHandlerFunc.ServeHTTP`, route.go:50-55. -/
def addRoute (c : RCtx) (route : Bytes) (s : Served) : Served :=
  match c.added with
  | some a => { s with cells := s.cells.modify a fun w => w.note (.setRoute route) }
  | none => s

/-- Programs, and whether they panic. `WithRouteTag` (route.go:35-43) appends its tag after the handler returned,
without `defer`. `Handler.ServeHTTP` (server.go:81-93) defers. -/
def Prog.exec : Prog → RCtx → Served → Served × Bool
  | .done, _, s => (s, false)
  | .call (.setRoute r), c, s => (addRoute c r s, false)
  | .call op, c, s => (callWriter c.writer op s, false)
  | .look, c, s => ({ s with seen := s.seen ++ [c.tags] }, false)
  | .panic, _, s => (s, true)
  | .seq a b, c, s =>
    let r := a.exec c s
    if r.2 then r else b.exec c r.1
  | .recovering p, c, s => ((p.exec c s).1, false)
  | .withRoute route p, c, s =>
    let r := p.exec { c with tags := (tagNew c.tags [(str "http_server_route", route)]).getD c.tags } s
    if r.2 then r else (addRoute c route r.1, false)
  | .handler cfg env req extracted p, c, s =>
    let env := { env with tags := c.tags, ctxSpan := c.span }
    let (traceOps, span) := startTrace cfg env req extracted
    let ctxSpan := if span.isSome then span else c.span
    let w := startStats env req ctxSpan (traceOps.map .trace)
    let i := s.cells.length
    let r := p.exec ⟨c.tags, ctxSpan, some i, i :: c.writer⟩
      { s with cells := s.cells ++ [{ w with log := [] }], log := s.log ++ w.log }
    let s := match r.1.cells[i]? with                            -- defer statsEnd(&tags)
      | some w => { r.1 with cells := r.1.cells.set i { w.finish with log := [] }, log := r.1.log ++ w.finish.log }
      | none => r.1
    let s := match span with                                     -- defer traceEnd()
      | some j => s.emit [.trace (.endSpan (some j) env.order)]
      | none => s
    (s, r.2)

end Verif.Http
