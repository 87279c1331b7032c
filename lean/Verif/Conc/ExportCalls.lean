/-!
# Exporters that use the API they are called from

`End` calls the exporters on the goroutine of the caller, inside `endOnce.Do` (trace/trace.go:276-303). Here exporters do whatever they
like while they are called: start and end spans, register exporters, never return, panic. Goroutines are interleaved at will.

A goroutine is a stack of the spans it is inside `End` of. `sync.Once` is taken from its documentation: the first caller runs the function,
others wait until it has returned; a panic counts as returning. `Trace/EndConc` has it access by access, for
exporters that only return. What spans record is left out here, as are the registration functions' mutex (nothing is called with it held, trace/export.go:45-73: one step) and the tasks of the execution tracer.
-/

namespace Verif.Conc.ExportCalls

/-- What a span is: not recording; recording for the span store only; sampled (trace/trace.go:245-247, 289). -/
inductive Kind where
  | plain
  | stored
  | sampled
  deriving DecidableEq

/-- `endOnce`, with the exporters still to be called, the one being called first; `none` before they are looked up. -/
inductive Once where
  | fresh
  | held (g : Nat) (todo : Option (List Nat))
  | over
  deriving DecidableEq

structure Span where
  kind : Kind
  once : Once
  deriving DecidableEq

/-- A goroutine: the spans it is inside `End` of, the innermost first, and the one whose `End` it waits for. -/
structure Gor where
  stack : List Nat
  wait : Option Nat
  deriving DecidableEq

inductive Ev where
  | registered (e : Nat)
  | unregistered (e : Nat)
  /-- `End` is called -/
  | ended (g s : Nat)
  /-- `ExportSpan` of `e` is called with the data of `s` -/
  | called (g e s : Nat)
  | returned (g e s : Nat)
  | panicked (g e s : Nat)
  /-- `End` returns -/
  | over (g s : Nat)
  deriving DecidableEq

structure St where
  spans : List Span
  exps : List Nat
  gs : Nat → Gor
  log : List Ev

def init : St := ⟨[], [], fun _ => ⟨[], none⟩, []⟩

/-- What goroutine `g` does next. -/
inductive Op where
  | start (g : Nat) (k : Kind)
  | endSpan (g s : Nat)
  | register (g e : Nat)
  | unregister (g e : Nat)
  /-- inside `End`: the exporters are looked up; they are called in this order -/
  | load (g : Nat) (order : List Nat)
  /-- `ExportSpan` returns -/
  | ret (g : Nat)
  /-- `ExportSpan` panics -/
  | panic (g : Nat)
  /-- `End` returns, that waited for another's -/
  | wake (g : Nat)
  deriving DecidableEq

def St.once (st : St) (s : Nat) (o : Once) : St := { st with spans := st.spans.modify s fun x => { x with once := o } }
def St.gor (st : St) (g : Nat) (x : Gor) : St := { st with gs := fun i => if i = g then x else st.gs i }
def St.say (st : St) (l : List Ev) : St := { st with log := st.log ++ l }

/-- The span whose exporters goroutine `g` is calling or about to call. -/
def St.top (st : St) (g : Nat) : Option (Nat × Kind × Option (List Nat)) :=
  match (st.gs g).wait, (st.gs g).stack with
  | none, s :: _ => match st.spans[s]? with
    | some ⟨k, .held _ todo⟩ => some (s, k, todo)
    | _ => none
  | _, _ => none

/-- Goroutine `g` is in code of the caller's or of an exporter's, not in `End` itself. -/
def St.user (st : St) (g : Nat) : Bool :=
  match (st.gs g).wait, (st.gs g).stack with
  | some _, _ => false
  | none, [] => true
  | none, _ :: _ => match st.top g with
    | some (_, _, some _) => true
    | _ => false

/-- The function of `endOnce` is over. -/
def St.finish (st : St) (g s : Nat) : St := (st.once s .over).gor g ⟨(st.gs g).stack.tail, none⟩

/-- `order` is an order of the keys of the map `exp`. -/
def isOrder (order exps : List Nat) : Bool := order.isPerm exps

/-- trace/trace.go:276-303 (`End`), 213-273 (`startSpanInternal`, what kind of span), trace/export.go:45-73. `none`: the goroutine cannot do
that here. -/
def step (st : St) : Op → Option St
  | .start g k => if st.user g then some { st with spans := st.spans ++ [⟨k, .fresh⟩] } else none
  | .register g e => if st.user g then some ({ st with exps := if e ∈ st.exps then st.exps else st.exps ++ [e] }.say [.registered e]) else none
  | .unregister g e => if st.user g then some ({ st with exps := st.exps.filter (· ≠ e) }.say [.unregistered e]) else none
  | .endSpan g s => if st.user g then match st.spans[s]? with
      | none => none
      | some ⟨.plain, _⟩ => some (st.say [.ended g s, .over g s])
      | some ⟨_, .fresh⟩ => some (((st.once s (.held g none)).gor g ⟨s :: (st.gs g).stack, none⟩).say [.ended g s])
      | some ⟨_, .held _ _⟩ => some ((st.gor g ⟨(st.gs g).stack, some s⟩).say [.ended g s])
      | some ⟨_, .over⟩ => some (st.say [.ended g s, .over g s])
    else none
  | .load g order => match st.top g with
    | some (s, k, none) => if isOrder order st.exps then match (if k = .sampled then order else []) with
        | [] => some ((st.finish g s).say [.over g s])
        | e :: es => some ((st.once s (.held g (some (e :: es)))).say [.called g e s])
      else none
    | _ => none
  | .ret g => match st.top g with
    | some (s, _, some (e :: e' :: es)) => some ((st.once s (.held g (some (e' :: es)))).say [.returned g e s, .called g e' s])
    | some (s, _, some [e]) => some ((st.finish g s).say [.returned g e s, .over g s])
    | _ => none
  | .panic g => match st.top g with
    | some (s, _, some (e :: _)) => some ((st.finish g s).say [.panicked g e s])
    | _ => none
  | .wake g => match (st.gs g).wait with
    | some s => match st.spans[s]? with
      | some ⟨_, .over⟩ => some ((st.gor g ⟨(st.gs g).stack, none⟩).say [.over g s])
      | _ => none
    | none => none

def run (st : St) : List Op → Option St
  | [] => some st
  | o :: os => (step st o).bind (run · os)

end Verif.Conc.ExportCalls
