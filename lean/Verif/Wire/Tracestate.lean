import Verif.Wire.Binary

/-!
# Tracestates (trace/tracestate/tracestate.go)

Slices point into arrays of a heap, since `New` appends to the slice its caller gave it.
-/

namespace Verif.Wire
open Verif

/-- `maxKeyValuePairs`, trace/tracestate/tracestate.go:27. -/
def maxKeyValuePairs : Nat := 32

/-! ## Validation -/

/-- `[a-z]`. -/
def isLower (c : UInt8) : Bool := decide (97 ≤ c ∧ c ≤ 122)

/-- `[_0-9a-z\-\*\/]`. -/
def isKeyChar (c : UInt8) : Bool := isLower c || decide (48 ≤ c ∧ c ≤ 57) || c == 95 || c == 45 || c == 42 || c == 47

/-- `[a-z][_0-9a-z\-\*\/]{0,n}`. -/
def isKeyPart (n : Nat) (s : Bytes) : Bool := match s with
  | [] => false
  | c :: cs => isLower c && cs.all isKeyChar && decide (cs.length ≤ n)

/-- `keyValidationRegExp.MatchString`, trace/tracestate/tracestate.go:31-33, 37. The language of the
regular expression is written out in `Verif.Props.Tracestate`, with a proof that this is it. A byte
above 0x7f is part of a rune no class contains. -/
def isKey (s : Bytes) : Bool := isKeyPart 255 s || match cut 64 s with
  | some (a, b) => isKeyPart 240 a && isKeyPart 13 b
  | none => false

/-- `[\x20-\x2b\x2d-\x3c\x3e-\x7e]`: printable except comma and equals sign. -/
def isValueChar (c : UInt8) : Bool := decide (32 ≤ c ∧ c ≤ 126) && c != 44 && c != 61

/-- `valueValidationRegExp.MatchString`, trace/tracestate/tracestate.go:34, 38. -/
def isValue (s : Bytes) : Bool := match s.getLast? with
  | none => false
  | some c => s.all isValueChar && c != 32 && decide (s.length ≤ 256)

/-- `isValid`, trace/tracestate/tracestate.go:88-91. -/
def isValid (e : Entry) : Bool := isKey e.key && isValue e.value

/-- `areEntriesValid`, trace/tracestate/tracestate.go:104-111. -/
def areEntriesValid (l : List Entry) : Bool := l.all isValid

/-- The loop of `containsDuplicateKey`, trace/tracestate/tracestate.go:93-102. -/
def duplicateLoop (seen : List Bytes) : List Entry → Bool
  | [] => false
  | e :: es => if e.key ∈ seen then true else duplicateLoop (e.key :: seen) es

def containsDuplicateKey (l : List Entry) : Bool := duplicateLoop [] l

/-! ## Slices -/

/-- The arrays allocated so far. -/
abbrev Arrays := List (List Entry)

/-- A `[]Entry`: elements `off .. off+len` of an array, and room up to `off+cap`. -/
structure Slice where
  arr : Nat
  off : Nat
  len : Nat
  cap : Nat
  deriving DecidableEq, Repr

/-- The elements of a slice. -/
def Arrays.vals (h : Arrays) (s : Slice) : List Entry := ((h[s.arr]?.getD []).drop s.off).take s.len

/-- Writing consecutive elements of an array. -/
def writeAt (a : List Entry) (i : Nat) (v : List Entry) : List Entry := a.take i ++ v ++ a.drop (i + v.length)

/-- `append(s, v...)`: in place if there is room, else in a new array with `room` spare elements (how
many is up to the runtime). -/
def Arrays.append (h : Arrays) (s : Slice) (v : List Entry) (room : Nat) : Arrays × Slice :=
  if s.len + v.length ≤ s.cap then
    (h.set s.arr (writeAt (h[s.arr]?.getD []) (s.off + s.len) v), { s with len := s.len + v.length })
  else
    let l := h.vals s ++ v
    (h ++ [l ++ List.replicate room ⟨[], []⟩], ⟨h.length, 0, l.length, l.length + room⟩)

/-- `remove`, trace/tracestate/tracestate.go:66-74, of the first entry with that key:
`append(entries[:index], entries[index+1:]...)`. -/
def Arrays.remove (h : Arrays) (s : Slice) (key : Bytes) : Arrays × Slice :=
  match (h.vals s).findIdx? (fun e => decide (e.key = key)) with
  | none => (h, s)
  | some i => h.append { s with len := i } ((h.vals s).drop (i + 1)) 0

/-- The first loop of `add`, trace/tracestate/tracestate.go:77-79. -/
def Arrays.removeAll (h : Arrays) (s : Slice) : List Bytes → Arrays × Slice
  | [] => (h, s)
  | k :: ks => let (h, s) := h.remove s k; h.removeAll s ks

/-- `add`, trace/tracestate/tracestate.go:76-86. -/
def Arrays.add (h : Arrays) (s entries : Slice) (room : Nat) : Arrays × Option Slice :=
  let (h, s) := h.removeAll s ((h.vals entries).map Entry.key)
  if s.len + entries.len > maxKeyValuePairs then (h, none)
  else
    let (h, s) := h.append entries (h.vals s) room
    (h, some s)

/-- What `New` returns. -/
inductive NewResult where
  | nil
  | error
  | ok (s : Slice)
  deriving DecidableEq

/-- The copy of the parent's entries in `New`, trace/tracestate/tracestate.go:136-140:
`append([]Entry{}, parent.entries...)`. -/
def Arrays.copyParent (h : Arrays) (parent : Option Slice) (room : Nat) : Arrays × Slice :=
  match parent with
  | some p => if p.len > 0 then h.append ⟨0, 0, 0, 0⟩ (h.vals p) room else (h, ⟨0, 0, 0, 0⟩)
  | none => (h, ⟨0, 0, 0, 0⟩)

/-- `New`, trace/tracestate/tracestate.go:124-147. A `*Tracestate` is its field `entries`, which is not
assigned again once `New` has returned. -/
def Arrays.newTracestate (h : Arrays) (parent : Option Slice) (entries : Slice) (room1 room2 : Nat) :
    Arrays × NewResult :=
  if parent.isNone ∧ entries.len = 0 then (h, .nil)
  else if !areEntriesValid (h.vals entries) then (h, .error)
  else if containsDuplicateKey (h.vals entries) then (h, .error)
  else
    let (h, s) := h.copyParent parent room1
    match h.add s entries room2 with
    | (h, none) => (h, .error)
    | (h, some s) => (h, .ok s)

/-- A call with the entries written out, `New(parent, e1, e2, ...)`: the compiler makes an array for
them. -/
def Arrays.newArgs (h : Arrays) (parent : Option Slice) (args : List Entry) (room1 room2 : Nat) : Arrays × NewResult :=
  Arrays.newTracestate (h ++ [args]) parent ⟨h.length, 0, args.length, args.length⟩ room1 room2

/-- `Entries`, trace/tracestate/tracestate.go:59-64: the slice itself. -/
def entriesOf (ts : Option Slice) : Option Slice := ts

end Verif.Wire
