import Verif.Basic

/-!
# The body of a response used by several goroutines (plugin/ochttp)

`net/http` lets a program close a body while another goroutine reads from it, and some programs read from several. `Transport` wraps the body
twice: `tracker` (client_stats.go) around `bodyTracker` (trace.go). The steps are those of the wrappers: the calls of the body of the base
transport, each `sync.Once` (entered by the first, waited for by the others), and the load and the store of `respSize`, which no lock protects.

Simplified: `end` loads `respSize` once (client_stats.go:103-112 loads it up to four times); a data race has no effects other than those of
interleaved loads and stores.
-/

namespace Verif.Http.BodyConc
open Verif

/-- A `sync.Once`: not used, the function runs in a goroutine, it has returned. `tracker.endOnce` client_stats.go:95, `span.endOnce`
trace/trace.go:65. -/
inductive Once where
  | new
  | busy (g : Nat)
  | done
  deriving DecidableEq, Repr

/-- Where a goroutine is. The comments are the next step. -/
inductive Ph where
  /-- outside the body -/
  | idle
  /-- `bt.span.End()` after `n` bytes and `io.EOF`, trace.go:119 -/
  | rEnd (n : Nat)
  /-- the exporters are called, trace/trace.go:287-302 -/
  | rEnding (n : Nat)
  /-- `t.respSize += int64(n)`: load, client_stats.go:127 -/
  | rAdd (n : Nat) (eof : Bool)
  /-- … and store, with what was loaded -/
  | rStore (n : Nat) (eof : Bool) (v : Nat)
  /-- `t.end()` after `io.EOF`, client_stats.go:132 -/
  | rStats
  /-- the statistics are recorded, client_stats.go:102-122 -/
  | rRec
  /-- `Read` returns `io.EOF`, client_stats.go:134 -/
  | rRet
  /-- `t.end()`, client_stats.go:141 -/
  | cStats
  /-- the statistics are recorded, client_stats.go:102-122 -/
  | cRec
  /-- `bt.span.End()`, trace.go:135 -/
  | cEnd
  /-- the exporters are called, trace/trace.go:287-302 -/
  | cEnding
  /-- `bt.rc.Close()` and return, trace.go:136 -/
  | cClose
  deriving DecidableEq, Repr

/-- What can be seen: a `Read` of goroutine `g` took `n` bytes from the body of the base transport, with `io.EOF` or without; `g` called `Close`;
the span was exported; the statistics were
recorded by `g` with `n` response bytes; `Read` returned `io.EOF`; `Close` returned. At the lines in `Ph`. -/
inductive Ev where
  | got (g n : Nat) (eof : Bool)
  | closing (g : Nat)
  | finish
  | stats (g n : Nat)
  | eof (g : Nat)
  | closed (g : Nat)
  deriving DecidableEq, Repr

/-- `tracker` (client_stats.go:87-96) with its `bodyTracker` (trace.go:105-108), and the goroutines. -/
structure St where
  ths : List Ph
  size : Nat
  span : Once
  stats : Once
  log : List Ev
  deriving DecidableEq, Repr

/-- A response with `k` goroutines that may use its body. trace.go:97-98, client_stats.go:70-71. -/
def St.init (k : Nat) : St := ⟨List.replicate k .idle, 0, .new, .new, []⟩

/-- The goroutine goes on (the lines in `Ph`). -/
def St.at (st : St) (g : Nat) (p : Ph) : St := { st with ths := st.ths.set g p }

/-- Something is seen (the lines in `Ph`). -/
def St.say (st : St) (e : Ev) : St := { st with log := st.log ++ [e] }

/-- The next step of a goroutine that is in phase `p`; a goroutine that waits for a `sync.Once` stays where it is. client_stats.go:100-143,
trace.go:112-137. -/
def go (st : St) (g : Nat) : Ph → St
  | .idle => st
  | .rEnd n => match st.span with
    | .new => { st.at g (.rEnding n) with span := .busy g }
    | .busy _ => st
    | .done => st.at g (.rAdd n true)
  | .rEnding n => { (st.at g (.rAdd n true)).say .finish with span := .done }
  | .rAdd n eof => st.at g (.rStore n eof st.size)
  | .rStore n eof v => { st.at g (if eof then .rStats else .idle) with size := v + n }
  | .rStats => match st.stats with
    | .new => { st.at g .rRec with stats := .busy g }
    | .busy _ => st
    | .done => st.at g .rRet
  | .rRec => { (st.at g .rRet).say (.stats g st.size) with stats := .done }
  | .rRet => (st.at g .idle).say (.eof g)
  | .cStats => match st.stats with
    | .new => { st.at g .cRec with stats := .busy g }
    | .busy _ => st
    | .done => st.at g .cEnd
  | .cRec => { (st.at g .cEnd).say (.stats g st.size) with stats := .done }
  | .cEnd => match st.span with
    | .new => { st.at g .cEnding with span := .busy g }
    | .busy _ => st
    | .done => st.at g .cClose
  | .cEnding => { (st.at g .cClose).say .finish with span := .done }
  | .cClose => (st.at g .idle).say (.closed g)

/-- What happens next: a goroutine calls `Read`, for which the body of the base transport gives `n` bytes, with `io.EOF` or without (client_stats.go:126,
trace.go:113); calls `Close` (client_stats.go:137); or goes on. -/
inductive Act where
  | read (g n : Nat) (eof : Bool)
  | close (g : Nat)
  | go (g : Nat)
  deriving DecidableEq, Repr

/-- One step; a goroutine calls nothing while it is in a call. client_stats.go:125-143. -/
def step (st : St) : Act → St
  | .read g n eof => if st.ths[g]? = some .idle then (st.at g (if eof then .rEnd n else .rAdd n false)).say (.got g n eof) else st
  | .close g => if st.ths[g]? = some .idle then (st.at g .cStats).say (.closing g) else st
  | .go g => match st.ths[g]? with
    | some p => go st g p
    | none => st

/-- A schedule. -/
def run (st : St) (l : List Act) : St := l.foldl step st

end Verif.Http.BodyConc
