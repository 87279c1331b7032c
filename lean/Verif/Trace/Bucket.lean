import Verif.Basic

/-!
# Buckets of finished spans (trace/spanbucket.go)

Generic in the span data; `endTime` is its `EndTime`. Times are nanoseconds since the Unix epoch.
-/

namespace Verif.Trace
open Verif

/-- `samplePeriod`, trace/spanbucket.go:22. -/
def samplePeriod : Int := 1000000000

/-- The zero `time.Time`, January 1 of year 1. -/
def zeroTime : Int := -62135596800000000000

/-- `bucket`, trace/spanbucket.go:38-43. A nil `*SpanData` is `none`. -/
structure Bucket (S : Type) where
  nextTime : Int
  buffer : List (Option S)
  nextIndex : Nat
  overflow : Bool

variable {S : Type}

/-- `makeBucket`, trace/spanbucket.go:45-49. -/
def makeBucket (bufferSize : Nat) : Bucket S := ⟨zeroTime, List.replicate bufferSize none, 0, false⟩

/-- `add`, trace/spanbucket.go:52-66. `buffer[nextIndex]` out of range panics. -/
def Bucket.add (b : Bucket S) (endTime : S → Int) (s : S) : Res (Bucket S) :=
  if endTime s < b.nextTime then .ok b
  else if b.buffer.length = 0 then .ok b
  else if b.nextIndex < b.buffer.length then
    let buffer := b.buffer.set b.nextIndex (some s)
    let nextIndex := b.nextIndex + 1
    if nextIndex = b.buffer.length then .ok ⟨endTime s + samplePeriod, buffer, 0, true⟩
    else .ok ⟨endTime s + samplePeriod, buffer, nextIndex, b.overflow⟩
  else .panic

/-- `size`, trace/spanbucket.go:69-74. -/
def Bucket.size (b : Bucket S) : Nat := if b.overflow then b.buffer.length else b.nextIndex

/-- `span`, trace/spanbucket.go:77-85. -/
def Bucket.span (b : Bucket S) (i : Nat) : Res (Option S) :=
  let at_ := fun j : Nat => match b.buffer[j]? with
    | some x => Res.ok x
    | none => .panic
  if !b.overflow then at_ i
  else if (i : Int) < b.buffer.length - b.nextIndex then at_ (b.nextIndex + i)
  else if b.buffer.length ≤ b.nextIndex + i then at_ (b.nextIndex + i - b.buffer.length)
  else .panic

/-- `newBuffer[i] = b.span(i + off)` for `i` below `n`. -/
def Bucket.copy (b : Bucket S) (off : Nat) : Nat → Res (List (Option S))
  | 0 => .ok []
  | n + 1 => (b.copy off n).bind fun l => (b.span (n + off)).bind fun s => .ok (l ++ [s])

/-- `resize`, trace/spanbucket.go:88-106. -/
def Bucket.resize (b : Bucket S) (n : Nat) : Res (Bucket S) :=
  let cur := b.size
  if cur < n then
    (b.copy 0 cur).bind fun l => .ok ⟨b.nextTime, l ++ List.replicate (n - cur) none, cur, false⟩
  else (b.copy (cur - n) n).bind fun l => .ok ⟨b.nextTime, l, 0, true⟩

/-- The loop over a bucket's buffer in the reports, trace/spanstore.go:73-78, 82-87, 166-168: up to the
first nil. -/
def scan : List (Option S) → List S
  | some s :: l => s :: scan l
  | _ => []

/-- `defaultLatencies`, trace/spanbucket.go:26-35, in nanoseconds. -/
def defaultLatencies : List Int :=
  [10000, 100000, 1000000, 10000000, 100000000, 1000000000, 10000000000, 60000000000]

/-- The loop of `latencyBucket`. -/
def latencyBucketLoop (latency : Int) : List Int → Nat
  | [] => 0
  | b :: bs => if b ≤ latency then latencyBucketLoop latency bs + 1 else 0

/-- `latencyBucket`, trace/spanbucket.go:109-115. -/
def latencyBucket (latency : Int) : Nat := latencyBucketLoop latency defaultLatencies

/-- `latencyBucketBounds`, trace/spanbucket.go:122-130. An index out of range panics. -/
def latencyBucketBounds (index : Nat) : Res (Int × Int) :=
  match index with
  | 0 => match defaultLatencies[0]? with
    | some u => .ok (0, u)
    | none => .panic
  | i + 1 =>
    if i + 1 = defaultLatencies.length then
      match defaultLatencies[i]? with
      | some l => .ok (l, 2 ^ 63 - 1)
      | none => .panic
    else match defaultLatencies[i]?, defaultLatencies[i + 1]? with
      | some l, some u => .ok (l, u)
      | _, _ => .panic

end Verif.Trace
