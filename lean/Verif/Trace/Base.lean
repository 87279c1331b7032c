import Verif.Basic
import Verif.Float
import Mathlib.Algebra.Order.Floor.Ring
import Mathlib.Data.Rat.Floor

/-!
# Span contexts, samplers and the start of spans
(trace/trace.go:70-274, trace/sampling.go)
-/

namespace Verif.Trace
open Verif

/-- `SpanContext`, trace/trace.go:107-112. Trace and span IDs are arrays of 16 and 8 bytes, trace
options a `uint32`; the tracestate is a pointer (its content is modelled in `Verif.Wire.Tracestate`). -/
structure SpanContext where
  traceID : Bytes
  spanID : Bytes
  opts : BitVec 32
  tracestate : Option Nat
  deriving DecidableEq, Repr

/-- `SpanContext{}`. -/
def SpanContext.zero : SpanContext := ⟨List.replicate 16 0, List.replicate 8 0, 0, none⟩

/-- `IsSampled`, trace/trace.go:84-86, 98-100. -/
def SpanContext.isSampled (sc : SpanContext) : Bool := sc.opts &&& 1#32 == 1#32

/-- `setIsSampled`, trace/trace.go:89-95. -/
def SpanContext.setIsSampled (sc : SpanContext) (sampled : Bool) : SpanContext :=
  if sampled then { sc with opts := sc.opts ||| 1#32 } else { sc with opts := sc.opts &&& ~~~1#32 }

/-- `SamplingParameters`, trace/sampling.go:27-33. -/
structure SamplingParameters where
  parentContext : SpanContext
  traceID : Bytes
  spanID : Bytes
  name : Bytes
  hasRemoteParent : Bool
  deriving DecidableEq, Repr

/-- `Sampler`, trace/sampling.go:24, 36-38. A user's sampler may be any function. -/
abbrev Sampler := SamplingParameters → Bool

/-- `AlwaysSample`, trace/sampling.go:66-70. -/
def alwaysSample : Sampler := fun _ => true

/-- `NeverSample`, trace/sampling.go:73-77. -/
def neverSample : Sampler := fun _ => false

/-- `binary.BigEndian.Uint64`: the bytes as a number, most significant first. -/
def beNat (b : Bytes) : Nat := b.foldl (fun n x => n * 256 + x.toNat) 0

/-- `uint64(x)` for a `float64` in range: truncation. Out of range the Go result is unspecified; the
sampler only converts values in `[0, 2^63)`. -/
def truncF64 : F64 → Nat
  | .fin q => ⌊q⌋.toNat
  | _ => 0

/-- `ProbabilitySampler`, trace/sampling.go:43-58. `!(fraction >= 0)` also catches NaN. -/
def probabilitySampler (fraction : F64) : Sampler :=
  let go := fun (fraction : F64) =>
    let traceIDUpperBound := truncF64 (F64.mul fraction (F64.fin (2 ^ 63)))
    fun (p : SamplingParameters) =>
      if p.parentContext.isSampled then true
      else decide (beNat (p.traceID.take 8) / 2 < traceIDUpperBound)
  if !(!(F64.lt fraction (.fin 0)) && fraction ≠ .nan) then go (.fin 0)
  else if !(F64.lt fraction (.fin 1)) && fraction ≠ .nan then alwaysSample
  else go fraction

/-- `StartOptions`, trace/trace.go:134-149. A nil sampler is `none`. -/
structure StartOptions where
  sampler : Option Sampler
  spanKind : Int

/-- `StartOption`, trace/trace.go:152-168: `WithSpanKind` and `WithSampler`. A user may write options
of their own, which can only do what these do, `StartOptions` having no other field. -/
inductive StartOption where
  | kind (k : Int)
  | sampler (s : Option Sampler)

def StartOption.apply (o : StartOptions) : StartOption → StartOptions
  | .kind k => { o with spanKind := k }
  | .sampler s => { o with sampler := s }

/-- The loop over the options, trace/trace.go:182-184, 202-204. -/
def applyOptions (l : List StartOption) : StartOptions := l.foldl StartOption.apply ⟨none, 0⟩

/-- Which sampler was called. -/
inductive Consulted where
  | default
  | option
  deriving DecidableEq, Repr

/-- The part of `startSpanInternal` that decides the span context, trace/trace.go:213-246. `tid` and
`sid` are what the ID generator would return. Also returns the calls made to samplers. -/
def startContext (name : Bytes) (hasParent : Bool) (parent : SpanContext) (remoteParent : Bool)
    (o : StartOptions) (defaultSampler : Sampler) (tid sid : Bytes) :
    SpanContext × List (Consulted × SamplingParameters) :=
  let sc := parent
  let sc := if !hasParent then { sc with traceID := tid } else sc
  let sc := { sc with spanID := sid }
  if !hasParent || remoteParent || o.sampler.isSome then
    let p : SamplingParameters := ⟨parent, sc.traceID, sc.spanID, name, remoteParent⟩
    match o.sampler with
    | some s => (sc.setIsSampled (s p), [(.option, p)])
    | none => (sc.setIsSampled (defaultSampler p), [(.default, p)])
  else (sc, [])

end Verif.Trace
