import Verif.Conc.Object
import Verif.Trace.Span
import Verif.Stats.Measure

/-!
# Four shared objects

The tracing configuration (trace/config.go), the measures (stats/measure.go), the metric producers
(metric/metricproducer/manager.go) and the span stores by name (trace/spanstore.go).
-/

namespace Verif.Conc
open Verif

/-! ## The tracing configuration -/

namespace Conf
open Verif.Trace

inductive Op where
  | apply (cfg : Config)              -- ApplyConfig
  | load                              -- what StartSpan and StartSpanWithRemoteParent do, once each

inductive Loc where
  | start
  | locked
  | loaded (c : Config)
  | stored
  | unlocked
  | got (c : Config)

/-- `ApplyConfig`, trace/config.go:63-86: the mutex is for writers; `config` is an `atomic.Value`. `load`:
`startSpanInternal`, trace/trace.go:216, which takes the ID generator, the sampler and the limits of the new span from
what it loads there. -/
def obj : Object Config Op Loc (Option Config) where
  can _ _ := true
  enter _ := .start
  act op l s _ := match op, l with
    | .apply _, .start => some (.lock .locked)                                 -- config.go:64
    | .apply _, .locked => some (.read (.loaded s))                            -- config.go:66
    | .apply cfg, .loaded c => some (.eff (c.apply cfg) .stored none)          -- config.go:67-85
    | .apply _, .stored => some (.unlock .unlocked)                            -- config.go:65
    | .apply _, .unlocked => some (.ret none)
    | .load, .start => some (.eff s (.got s) (some s))                         -- trace.go:216
    | .load, .got c => some (.ret (some c))
    | _, _ => none

end Conf

/-! ## The measures -/

namespace Meas
open Verif.Stats

/-- `measures`, stats/measure.go:71-74, and the descriptors; a pointer to a descriptor is its place in `heap`. -/
structure Mem where
  names : GoMap Bytes Nat
  heap : List Desc

inductive Op where
  | register (name description unit : Bytes)      -- Int64, Float64
  | describe (p : Nat)                            -- Name, Description, Unit of a measure
  | subscribe (name : Bytes)                      -- a view on the measure is registered
  | subscribed (p : Nat)                          -- what Record asks

inductive Result where
  | ptr (p : Nat)
  | text (name description unit : Bytes)
  | flag (b : Bool)
  | unit
  deriving DecidableEq

inductive Loc where
  | start
  | locked
  | missing
  | found (p : Nat)
  | leave (r : Result)
  | done (r : Result)

/-- `registerMeasureHandle`, stats/measure.go:76-90; the methods of stats/measure_int64.go:44-56 and
stats/measure_float64.go:42-54; `SubscriptionReporter`, stats/record.go:27-31; `subscribed`, stats/measure.go:67-69,
called from stats/record.go:107, 145. `describe` and `subscribed` are calls on a measure that `Int64` or `Float64` has
returned; so is the registration of a view, which subscribes by name. -/
def obj : Object Mem Op Loc Result where
  can op s := match op with
    | .register _ _ _ => true
    | .describe p => decide (p < s.heap.length)
    | .subscribe n => (GoMap.get s.names n).isSome
    | .subscribed p => decide (p < s.heap.length)
  enter _ := .start
  act op l s _ := match op, l with
    | .register _ _ _, .start => some (.lock .locked)                          -- measure.go:77
    | .register n _ _, .locked => match GoMap.get s.names n with               -- measure.go:80-82
      | some p => some (.eff s (.leave (.ptr p)) (.ptr p))
      | none => some (.read .missing)
    | .register n d u, .missing =>                                             -- measure.go:83-89
      some (.eff ⟨GoMap.set s.names n s.heap.length, s.heap ++ [⟨false, n, d, u⟩]⟩ (.leave (.ptr s.heap.length))
        (.ptr s.heap.length))
    | .describe p, .start => match s.heap[p]? with
      | some d => some (.eff s (.done (.text d.name d.description d.unit)) (.text d.name d.description d.unit))
      | none => some .panic
    | .subscribe _, .start => some (.lock .locked)                             -- record.go:28
    | .subscribe n, .locked => match GoMap.get s.names n with                  -- record.go:29
      | some p => some (.read (.found p))
      | none => some .panic
    | .subscribe _, .found p => match s.heap[p]? with                          -- measure.go:64
      | some d => some (.eff { s with heap := s.heap.set p { d with subs := true } } (.leave .unit) .unit)
      | none => some .panic
    | .subscribed p, .start => match s.heap[p]? with                           -- measure.go:68
      | some d => some (.eff s (.done (.flag d.subs)) (.flag d.subs))
      | none => some .panic
    | _, .leave r => some (.unlock (.done r))                                  -- measure.go:78, record.go:30
    | _, .done r => some (.ret r)
    | _, _ => none

end Meas

/-! ## The producers -/

namespace Prod

inductive Op where
  | add (p : Option Nat)              -- AddProducer; `none` is a nil Producer
  | delete (p : Option Nat)           -- DeleteProducer
  | getAll                            -- GetAll

inductive Loc where
  | start
  | locked
  | loop (n : Nat) (out : List Nat)   -- producers is `out` and then nils, `n` elements in all
  | leave (r : List (Option Nat))
  | done (r : List (Option Nat))

/-- `Manager`, metric/metricproducer/manager.go:44-82. The memory is the keys of the map `producers`; the result of
`AddProducer` and `DeleteProducer` is left empty. The range loop of `GetAll` gives any key that it has not given, until
there is none. -/
def obj : Object (List Nat) Op Loc (List (Option Nat)) where
  can _ _ := true
  enter _ := .start
  act op l s c := match op, l with
    | .add none, .start => some (.eff s (.done []) [])                         -- manager.go:45-47
    | .add (some _), .start => some (.lock .locked)                            -- manager.go:48
    | .add (some p), .locked => some (.eff (if p ∈ s then s else s ++ [p]) (.leave []) [])   -- manager.go:50
    | .delete none, .start => some (.eff s (.done []) [])                      -- manager.go:55-57
    | .delete (some _), .start => some (.lock .locked)                         -- manager.go:58
    | .delete (some p), .locked => some (.eff (s.filter fun q => decide (q ≠ p)) (.leave []) [])  -- manager.go:60
    | .getAll, .start => some (.lock .locked)                                  -- manager.go:69
    | .getAll, .locked => some (.read (.loop s.length []))                     -- manager.go:71
    | .getAll, .loop n out =>                                                  -- manager.go:73-76
      let left := s.filter fun q => decide (q ∉ out)
      if left = [] then
        let r := out.map some ++ List.replicate (n - out.length) none
        some (.eff s (.leave r) r)
      else if n ≤ out.length then some .panic                                  -- index out of range
      else match left[c]? with
        | some p => some (.read (.loop n (out ++ [p])))
        | none => none
    | _, .leave r => some (.unlock (.done r))                                  -- manager.go:49, 59, 70
    | _, .done r => some (.ret r)
    | _, _ => none

end Prod

/-! ## The span stores -/

namespace Stores

/-- `spanStores`, trace/spanstore.go:30-31; a pointer to a store is its place in `sizes`, which has the sizes of the
latency buckets and of the error buckets. What is in the stores is in `Trace/Span`. -/
structure Mem where
  names : GoMap Bytes Nat
  sizes : List (Nat × Nat)

inductive Op where
  | find (name : Bytes)                           -- the reports of the spans of a name
  | create (name : Bytes)                         -- StartSpan
  | setSize (name : Bytes) (lat err : Nat)        -- ConfigureBucketSizes
  | sizes (p : Nat)                               -- how many spans the store keeps

inductive Result where
  | ptr (p : Option Nat)
  | sizes (lat err : Nat)
  | unit
  deriving DecidableEq

inductive Loc where
  | start
  | rlocked
  | rmissing
  | between
  | locked
  | missing
  | rfound (p : Nat)
  | free (p : Nat)
  | found (p : Nat)
  | rleave (r : Result)
  | leave (r : Result)
  | done (r : Result)

/-- `spanStoreForName`, `spanStoreForNameCreateIfNew`, `spanStoreSetSize` and `resize`, trace/spanstore.go:212-273. The
store's own mutex makes `resize` and the uses of the sizes atomic. -/
def obj : Object Mem Op Loc Result where
  can op s := match op with
    | .sizes p => decide (p < s.sizes.length)
    | _ => true
  enter _ := .start
  act op l s _ := match op, l with
    | .find _, .start => some (.rlock .rlocked)                                -- spanstore.go:214
    | .find n, .rlocked =>                                                     -- spanstore.go:215
      some (.eff s (.rleave (.ptr (GoMap.get s.names n))) (.ptr (GoMap.get s.names n)))
    | .create _, .start => some (.rlock .rlocked)                              -- spanstore.go:224
    | .create n, .rlocked => match GoMap.get s.names n with                    -- spanstore.go:225
      | some p => some (.eff s (.rleave (.ptr (some p))) (.ptr (some p)))
      | none => some (.read .rmissing)
    | .create _, .rmissing => some (.runlock .between)                         -- spanstore.go:226
    | .create _, .between => some (.lock .locked)                              -- spanstore.go:230
    | .create n, .locked => match GoMap.get s.names n with                     -- spanstore.go:232-235
      | some p => some (.eff s (.leave (.ptr (some p))) (.ptr (some p)))
      | none => some (.read .missing)
    | .create n, .missing =>                                                   -- spanstore.go:236-237
      some (.eff ⟨GoMap.set s.names n s.sizes.length, s.sizes ++ [(10, 10)]⟩ (.leave (.ptr (some s.sizes.length)))
        (.ptr (some s.sizes.length)))
    | .setSize _ _ _, .start => some (.rlock .rlocked)                         -- spanstore.go:245
    | .setSize n _ _, .rlocked => match GoMap.get s.names n with               -- spanstore.go:246
      | some p => some (.read (.rfound p))
      | none => some (.read .rmissing)
    | .setSize _ _ _, .rfound p => some (.runlock (.free p))                   -- spanstore.go:247
    | .setSize _ lat err, .free p =>                                           -- spanstore.go:248-250, 263-273
      some (.eff { s with sizes := s.sizes.set p (lat, err) } (.done .unit) .unit)
    | .setSize _ _ _, .rmissing => some (.runlock .between)                    -- spanstore.go:247
    | .setSize _ _ _, .between => some (.lock .locked)                         -- spanstore.go:252
    | .setSize n _ _, .locked => match GoMap.get s.names n with                -- spanstore.go:254-255
      | some p => some (.read (.found p))
      | none => some (.read .missing)
    | .setSize _ lat err, .found p =>                                          -- spanstore.go:256-257
      some (.eff { s with sizes := s.sizes.set p (lat, err) } (.leave .unit) .unit)
    | .setSize n lat err, .missing =>                                          -- spanstore.go:259-260
      some (.eff ⟨GoMap.set s.names n s.sizes.length, s.sizes ++ [(lat, err)]⟩ (.leave .unit) .unit)
    | .sizes p, .start => match s.sizes[p]? with
      | some x => some (.eff s (.done (.sizes x.1 x.2)) (.sizes x.1 x.2))
      | none => some .panic
    | _, .rleave r => some (.runlock (.done r))                                -- spanstore.go:216, 226
    | _, .leave r => some (.unlock (.done r))                                  -- spanstore.go:231, 253
    | _, .done r => some (.ret r)
    | _, _ => none

end Stores
end Verif.Conc
