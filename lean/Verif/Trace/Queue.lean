import Verif.Basic

/-!
# Bounded containers of a span (trace/evictedqueue.go, trace/lrumap.go)
-/

namespace Verif.Trace
open Verif

/-- `evictedQueue`, trace/evictedqueue.go:17-21. -/
structure EvictedQueue (α : Type) where
  queue : List α
  capacity : Int
  droppedCount : Int
  deriving DecidableEq, Repr

/-- `newEvictedQueue`, trace/evictedqueue.go:23-30. -/
def EvictedQueue.new {α : Type} (capacity : Int) : EvictedQueue α := ⟨[], capacity, 0⟩

/-- `add`, trace/evictedqueue.go:32-38. `queue[1:]` of an empty slice panics. -/
def EvictedQueue.add {α : Type} (q : EvictedQueue α) (v : α) : Res (EvictedQueue α) :=
  if (q.queue.length : Int) = q.capacity then
    match q.queue with
    | [] => .panic
    | _ :: rest => .ok ⟨rest ++ [v], q.capacity, q.droppedCount + 1⟩
  else .ok { q with queue := q.queue ++ [v] }

variable {V : Type}

/-- `lruMap`, trace/lrumap.go:23-27, around a `lru.Cache` of github.com/golang/groupcache: `entries` is
the cache's list, most recently used first; its index map is not modelled separately. -/
structure LruMap (V : Type) where
  cacheKeys : GoMap Bytes Bool
  maxEntries : Int
  entries : List (Bytes × V)
  droppedCount : Int

/-- `newLruMap`, trace/lrumap.go:29-40. -/
def LruMap.new (size : Int) : LruMap V := ⟨[], size, [], 0⟩

/-- `len`, trace/lrumap.go:42-44. -/
def LruMap.len (m : LruMap V) : Nat := m.entries.length

/-- `lru.Cache.Add` with the `OnEvicted` of trace/lrumap.go:35-38: move to front and overwrite, or push
to the front and remove the oldest when there are more than `MaxEntries` (0: no limit). -/
def LruMap.cacheAdd (m : LruMap V) (k : Bytes) (v : V) : LruMap V :=
  if m.entries.any (fun e => decide (e.1 = k)) then
    { m with entries := (k, v) :: m.entries.filter (fun e => decide (e.1 ≠ k)) }
  else
    let entries := (k, v) :: m.entries
    if m.maxEntries ≠ 0 ∧ (entries.length : Int) > m.maxEntries then
      match entries.getLast? with
      | some old => { m with entries := entries.dropLast,
                             cacheKeys := GoMap.del m.cacheKeys old.1,
                             droppedCount := m.droppedCount + 1 }
      | none => { m with entries := entries }
    else { m with entries := entries }

/-- `add`, trace/lrumap.go:54-57. -/
def LruMap.add (m : LruMap V) (k : Bytes) (v : V) : LruMap V :=
  ({ m with cacheKeys := GoMap.set m.cacheKeys k true }).cacheAdd k v

/-- `get`, trace/lrumap.go:59-61: `lru.Cache.Get` moves the entry to the front. -/
def LruMap.get (m : LruMap V) (k : Bytes) : LruMap V × Option V :=
  match GoMap.get m.entries k with
  | some v => ({ m with entries := (k, v) :: m.entries.filter (fun e => decide (e.1 ≠ k)) }, some v)
  | none => (m, none)

/-- The loop of `lruAttributesToAttributeMap`, trace/trace.go:385-391, over `keys()` in the iteration
order `order` of the Go map `cacheKeys`. -/
def LruMap.readLoop (m : LruMap V) (acc : GoMap Bytes V) : List Bytes → LruMap V × GoMap Bytes V
  | [] => (m, acc)
  | k :: ks => match m.get k with
    | (m, some v) => m.readLoop (GoMap.set acc k v) ks
    | (m, none) => m.readLoop acc ks

/-- `lruAttributesToAttributeMap`, trace/trace.go:383-393. -/
def LruMap.toAttributeMap (m : LruMap V) (order : List Bytes) : LruMap V × GoMap Bytes V :=
  m.readLoop [] order

end Verif.Trace
