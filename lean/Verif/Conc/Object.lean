import Verif.Basic

/-!
# Objects shared by goroutines

The package variables that the API reads and changes from any goroutine: the tracing configuration, the measures, the
producers, the span stores. Each has a `sync.Mutex` or `sync.RWMutex`, and some are read without it through
`sync/atomic`. This is the machine they share: any number of goroutines make calls of the methods of one such object.
A step is one access to shared memory or one operation on the lock.

A Go `RWMutex` makes new readers wait when a writer is waiting. Here they need not: there are more schedules.
-/

namespace Verif.Conc

/-- How a goroutine holds the lock. -/
inductive Mode where
  | none | read | write
  deriving DecidableEq

/-- What a goroutine does next. `S` is the shared memory, `L` the local state within a method, `R` its results. -/
inductive Act (S L R : Type) where
  | read (l : L)                      -- a look at shared memory
  | eff (s : S) (l : L) (r : R)       -- the access at which the call takes effect; `r` will be its result
  | lock (l : L)
  | unlock (l : L)
  | rlock (l : L)
  | runlock (l : L)
  | ret (r : R)
  | panic

/-- The code of the methods. The number chooses the next element of a range over a map. Arguments that are pointers
have been returned by the object before: `can` says which calls can be made. -/
structure Object (S Op L R : Type) where
  can : Op → S → Bool
  enter : Op → L
  act : Op → L → S → Nat → Option (Act S L R)

/-- A call is identified by its goroutine and its number there. -/
abbrev Id := Nat × Nat

/-- What happens: ghost state used to state properties. -/
inductive Ev (Op R : Type) where
  | called (id : Id) (op : Op)
  | took (id : Id) (op : Op) (r : R)
  | returned (id : Id) (r : R)

structure St (S Op L R : Type) where
  mem : S
  writer : Option Nat                 -- who has locked the mutex for writing
  readers : List Nat                  -- who has locked it for reading
  pc : Nat → Option (Op × L)          -- where a goroutine is; `none`: between calls
  todo : Nat → List Op                -- the calls it has still to make
  made : Nat → Nat                    -- ghost: how many it has made
  crashed : Bool
  log : List (Ev Op R)

variable {S Op L R : Type}

def upd {α : Type} (f : Nat → α) (t : Nat) (x : α) : Nat → α := fun u => if u = t then x else f u

/-- Goroutine `t` goes on within its call. -/
def St.goto (st : St S Op L R) (t : Nat) (op : Op) (l : L) : St S Op L R := { st with pc := upd st.pc t (some (op, l)) }
/-- The call goroutine `t` is in. -/
def St.cur (st : St S Op L R) (t : Nat) : Id := (t, st.made t - 1)

/-- A step of goroutine `t`; `none` if it has to wait, or has nothing to do. To unlock a mutex that is not locked is
a fatal error. -/
def step (O : Object S Op L R) (st : St S Op L R) (t c : Nat) : Option (St S Op L R) :=
  if st.crashed then none else
  match st.pc t with
  | none => match st.todo t with
    | [] => none
    | op :: rest =>
      let st' := { st with todo := upd st.todo t rest, made := upd st.made t (st.made t + 1),
                           log := st.log ++ [Ev.called (t, st.made t) op] }
      if O.can op st.mem then some (st'.goto t op (O.enter op)) else none
  | some (op, l) => match O.act op l st.mem c with
    | none => none
    | some (.read l') => some (st.goto t op l')
    | some (.eff s l' r) => some ({ st with mem := s, log := st.log ++ [Ev.took (st.cur t) op r] }.goto t op l')
    | some (.lock l') =>
      if st.writer = none ∧ st.readers = [] then some ({ st with writer := some t }.goto t op l') else none
    | some (.unlock l') =>
      if st.writer = some t then some ({ st with writer := none }.goto t op l') else some { st with crashed := true }
    | some (.rlock l') => if st.writer = none then some ({ st with readers := t :: st.readers }.goto t op l') else none
    | some (.runlock l') =>
      if t ∈ st.readers then some ({ st with readers := st.readers.erase t }.goto t op l')
      else some { st with crashed := true }
    | some (.ret r) => some { st with pc := upd st.pc t none, log := st.log ++ [Ev.returned (st.cur t) r] }
    | some .panic => some { st with crashed := true }

/-- A schedule: which goroutine is next, and its choice. -/
def run (O : Object S Op L R) (st : St S Op L R) : List (Nat × Nat) → Option (St S Op L R)
  | [] => some st
  | m :: ms => (step O st m.1 m.2).bind fun st => run O st ms

def init (s : S) (programs : Nat → List Op) : St S Op L R := ⟨s, none, [], fun _ => none, programs, fun _ => 0, false, []⟩

end Verif.Conc
