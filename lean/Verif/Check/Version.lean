import Verif.Wire.Hex

/-!
# The check of the version before a release

`internal/check/version.go`: a program that compares `opencensus.Version()` with the tags of the Git repository. The output of
`git tag` is an input of the model; `git` failing (lines 36-39) is not modelled. `sort.Slice` is a parameter, with what its
documentation promises (`Sorts`). `int` has 64 bits. What is printed is left out, except the tag in the message.
-/

namespace Verif.Check
open Verif Verif.Wire

/-- `version`, internal/check/version.go:63, an array of three numbers. -/
structure Version where
  major : Int
  minor : Int
  patch : Int
  deriving DecidableEq, Repr

/-- `versionLess`, internal/check/version.go:65-72, the loop written out. The difference is that of Go's `int`. -/
def versionLess (v w : Version) : Bool :=
  if wrap64 (v.major - w.major) ≠ 0 then wrap64 (v.major - w.major) < 0
  else if wrap64 (v.minor - w.minor) ≠ 0 then wrap64 (v.minor - w.minor) < 0
  else if wrap64 (v.patch - w.patch) ≠ 0 then wrap64 (v.patch - w.patch) < 0
  else false

/-- `strconv.Atoi`: an optional sign and decimal digits; an error for anything else and for what does not fit. -/
def atoi (s : Bytes) : Option Int :=
  let digits := match s with
    | 43 :: r => r
    | 45 :: r => r
    | _ => s
  if digits = [] then none
  else match parseDigits 0 digits with
    | none => none
    | some n =>
      if s.head? = some 45 then (if n ≤ 2 ^ 63 then some (-(n : Int)) else none)
      else if n < 2 ^ 63 then some (n : Int) else none

/-- `strings.Split(vStr[1:], ".")`, internal/check/version.go:75 and 80; slicing the empty string panics. -/
def parts : Bytes → Res (List Bytes)
  | [] => .panic
  | _ :: s => .ok (split 46 s)

/-- `isPreRelease`, internal/check/version.go:74-77; `split[2]` may be out of range. -/
def isPreRelease (s : Bytes) : Res Bool :=
  (parts s).bind fun ps => match ps[2]? with
    | none => .panic
    | some p => .ok (p.contains 45)

/-- `strconv.Atoi(split[i])`, internal/check/version.go:86: `err` stands for `os.Exit(2)`. -/
def number (ps : List Bytes) (i : Nat) : Res Int := match ps[i]? with
  | none => .panic
  | some p => match atoi p with
    | none => .err
    | some n => .ok n

/-- `parseVersion`, internal/check/version.go:79-93. -/
def parseVersion (s : Bytes) : Res Version :=
  (parts s).bind fun ps => (number ps 0).bind fun a => (number ps 1).bind fun b => (number ps 2).bind fun c => .ok ⟨a, b, c⟩

/-- The loop over the lines, internal/check/version.go:41-50. -/
def collect : List Bytes → Res (List Version)
  | [] => .ok []
  | l :: ls =>
    if l = [] then collect ls
    else (isPreRelease l).bind fun pre =>
      if pre then collect ls
      else (parseVersion l).bind fun v => (collect ls).bind fun vs => .ok (v :: vs)

/-- How the program ends. -/
inductive Exit where
  /-- The version is up to date. -/
  | upToDate
  /-- It is not greater than this tag: status 1. -/
  | outOfDate (latest : Version)
  /-- A version that is not understood: status 2. -/
  | unrecognized
  | panic
  deriving DecidableEq, Repr

/-- `main`, internal/check/version.go:32-61, with the output of `git tag` and `opencensus.Version()`. -/
def main (sort : List Version → List Version) (out code : Bytes) : Exit :=
  match collect (split 10 out) with
  | .err => .unrecognized
  | .panic => .panic
  | .ok vs => match (sort vs).getLast? with
    | none => .panic
    | some latest => match parseVersion (118 :: code) with
      | .err => .unrecognized
      | .panic => .panic
      | .ok v => if versionLess latest v then .upToDate else .outOfDate latest

/-- `opencensus.Version`, opencensus.go:19-21. -/
def version : Bytes := str "0.25.0"

/-- What `sort.Slice` promises: the same elements; in order, if the comparison is a strict weak order on them. On finitely many
elements that is to say that it compares ranks. -/
structure Sorts (sort : List Version → List Version) : Prop where
  perm : ∀ l, (sort l).Perm l
  sorted : ∀ (l : List Version) (rank : Version → Nat),
    (∀ x ∈ l, ∀ y ∈ l, versionLess x y = true ↔ rank x < rank y) → (sort l).Pairwise fun x y => versionLess y x = false

end Verif.Check
