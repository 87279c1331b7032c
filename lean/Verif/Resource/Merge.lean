import Verif.Basic

/-!
# Merging resources (resource/resource.go:110-164)

Resources and their label maps are cells of a heap, so that what is shared can be seen.
-/

namespace Verif.Resource
open Verif

/-- `Resource`, resource/resource.go:36-39; `labels` points to a map, or is nil. -/
structure Obj where
  typ : Bytes
  labels : Option Nat
  deriving DecidableEq

/-- The resources and maps there are. -/
structure Heap where
  objs : List Obj
  maps : List (GoMap Bytes Bytes)
  deriving DecidableEq

/-- What a range over a map that may be nil goes over; `none` if the pointer is wild. -/
def Heap.range (h : Heap) : Option Nat → Option (GoMap Bytes Bytes)
  | none => some []
  | some p => h.maps[p]?

/-- `res.Labels[k] = v` for each pair of a range (lines 127-129 and 131-133). -/
def setAll (m : GoMap Bytes Bytes) (l : GoMap Bytes Bytes) : GoMap Bytes Bytes :=
  l.foldl (fun m p => GoMap.set m p.1 p.2) m

/-- `merge`, resource/resource.go:112-135. `ord` is the order in which ranges go over maps. `none` if a
pointer is wild. -/
def merge (ord : GoMap Bytes Bytes → GoMap Bytes Bytes) (h : Heap) (a b : Option Nat) : Option (Heap × Option Nat) :=
  match a, b with
  | none, b => some (h, b)
  | a, none => some (h, a)
  | some a, some b => do
    let ra ← h.objs[a]?
    let rb ← h.objs[b]?
    let la ← h.range ra.labels
    let lb ← h.range rb.labels
    let typ := if ra.typ = [] then rb.typ else ra.typ
    some (⟨h.objs ++ [⟨typ, some h.maps.length⟩], h.maps ++ [setAll (setAll [] (ord lb)) (ord la)]⟩, some h.objs.length)

/-- A `Detector`, resource/resource.go:141: what it does to the heap, and the resource or an error. -/
abbrev Detector := Heap → Heap × Res (Option Nat)

/-- `detectAll`, resource/resource.go:155-165: with the number of detectors that were called. -/
def detectLoop (ord : GoMap Bytes Bytes → GoMap Bytes Bytes) (h : Heap) (res : Option Nat) (calls : Nat) :
    List Detector → Option (Heap × Nat × Res (Option Nat))
  | [] => some (h, calls, .ok res)
  | d :: ds => match d h with
    | (h, .err) => some (h, calls + 1, .err)
    | (h, .panic) => some (h, calls + 1, .panic)
    | (h, .ok r) => match merge ord h res r with
      | none => none
      | some (h, res) => detectLoop ord h res (calls + 1) ds

def detectAll (ord : GoMap Bytes Bytes → GoMap Bytes Bytes) (h : Heap) (ds : List Detector) :
    Option (Heap × Nat × Res (Option Nat)) :=
  detectLoop ord h none 0 ds

end Verif.Resource
