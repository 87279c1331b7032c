import Verif.Basic

/-!
# Tag maps (package `tag`)

Model of `tag/validate.go`, `tag/key.go`, `tag/metadata.go`, `tag/map.go`, `tag/context.go`.
A `*tag.Map` is an address in a heap of maps, so that "the incoming map is not modified" is a
statement about the heap and not a consequence of immutability of Lean values.
-/

namespace Verif.Tag
open Verif

/-- `maxKeyLength`, tag/validate.go:20. -/
def maxKeyLength : Nat := 255

/-- `isASCII`, tag/validate.go:42-49. The Go loop ranges over runes; a byte above 0x7f decodes to a
rune above 126 (or to U+FFFD), so the test is the same as testing every byte. -/
def isASCII (s : Bytes) : Bool := s.all (fun c => decide (32 ≤ c.toNat) && decide (c.toNat ≤ 126))

/-- `checkKeyName`, tag/validate.go:32-40. -/
def checkKeyName (name : Bytes) : Bool :=
  if name.length = 0 then false
  else if name.length > maxKeyLength then false
  else isASCII name

/-- `checkValue`, tag/validate.go:51-56. -/
def checkValue (v : Bytes) : Bool :=
  if v.length > maxKeyLength then false else isASCII v

/-- `Key`, tag/key.go:18-20. The zero `Key{}` has the empty name. -/
structure Key where
  name : Bytes
  deriving DecidableEq, Repr

/-- `NewKey`, tag/key.go:24-29. -/
def newKey (name : Bytes) : Option Key :=
  if !checkKeyName name then none else some ⟨name⟩

/-- `valueTTLNoPropagation`, tag/metadata.go:20. -/
def ttlNoPropagation : Int := 0
/-- `valueTTLUnlimitedPropagation`, tag/metadata.go:23. -/
def ttlUnlimited : Int := -1

/-- `metadatas`, tag/metadata.go:40-42 (`TTL` is a struct with one `int`). -/
structure Metadatas where
  ttl : Int
  deriving DecidableEq, Repr

/-- A `Metadata` argument, tag/metadata.go:45-52: nil or `WithTTL(ttl)`, the only constructor the
package exports. -/
inductive Metadata where
  | nilMd
  | withTTL (ttl : Int)
  deriving DecidableEq, Repr

/-- `md(&metas)` guarded by `md != nil`, tag/map.go:162-164 and tag/metadata.go:48-52. -/
def applyMd (metas : Metadatas) : Metadata → Metadatas
  | .nilMd => metas
  | .withTTL t => { metas with ttl := t }

/-- `createMetadatas`, tag/map.go:158-171. -/
def createMetadatas (mds : List Metadata) : Metadatas :=
  let metas : Metadatas := ⟨0⟩
  if mds.length > 0 then mds.foldl applyMd metas
  else applyMd metas (.withTTL ttlUnlimited)

/-- `tagContent`, tag/map.go:31-34. -/
structure Content where
  value : Bytes
  m : Metadatas
  deriving DecidableEq, Repr

/-- The Go map inside a `Map`, tag/map.go:38-40. -/
abbrev TMap := GoMap Key Content

/-- `insert`, tag/map.go:70-75. -/
def insert (m : TMap) (k : Key) (v : Bytes) (md : Metadatas) : TMap :=
  match GoMap.get m k with
  | some _ => m
  | none => GoMap.set m k ⟨v, md⟩

/-- `update`, tag/map.go:77-81. -/
def update (m : TMap) (k : Key) (v : Bytes) (md : Metadatas) : TMap :=
  match GoMap.get m k with
  | some _ => GoMap.set m k ⟨v, md⟩
  | none => m

/-- `upsert`, tag/map.go:83-85. -/
def upsert (m : TMap) (k : Key) (v : Bytes) (md : Metadatas) : TMap :=
  GoMap.set m k ⟨v, md⟩

/-- `delete`, tag/map.go:87-89. -/
def delete (m : TMap) (k : Key) : TMap := GoMap.del m k

/-- A mutator made by `Insert`, `Update`, `Upsert` or `Delete`, tag/map.go:107-182. Mutators
implemented by the caller are not modelled. -/
inductive Mutator where
  | insert (k : Key) (v : Bytes) (mds : List Metadata)
  | update (k : Key) (v : Bytes) (mds : List Metadata)
  | upsert (k : Key) (v : Bytes) (mds : List Metadata)
  | delete (k : Key)
  deriving DecidableEq, Repr

/-! ## Heap of maps and contexts -/

/-- The maps allocated so far; a `*Map` is an index. -/
abbrev Heap := List TMap

/-- Write through a pointer. -/
def Heap.write (h : Heap) (a : Nat) (m : TMap) : Heap := List.set h a m

/-- A context: the pointer stored under `mapCtxKey` (none if never stored, or a nil `*Map`) and an
abstract rest; tag/context.go:22-41. -/
structure Ctx (α : Type) where
  rest : α
  tags : Option Nat
  deriving DecidableEq

/-- The error values `New` distinguishes, tag/map.go:193,196,205. -/
inductive Err where
  | invalidKey
  | invalidValue
  deriving DecidableEq, Repr

/-- `(*mutator).Mutate`, tag/map.go:107-182, 227-229, acting on the map at address `a`. Each
constructor first checks the value and then writes through the pointer. -/
def mutate (h : Heap) (a : Nat) (m : TMap) : Mutator → Except Err Heap
  | .insert k v mds =>
    if !checkValue v then .error .invalidValue
    else .ok (h.write a (insert m k v (createMetadatas mds)))
  | .update k v mds =>
    if !checkValue v then .error .invalidValue
    else .ok (h.write a (update m k v (createMetadatas mds)))
  | .upsert k v mds =>
    if !checkValue v then .error .invalidValue
    else .ok (h.write a (upsert m k v (createMetadatas mds)))
  | .delete k => .ok (h.write a (delete m k))

/-- The loop `for _, mod := range mutator`, tag/map.go:202-207. The heap is returned also on error,
because the writes that already happened stay. Address `a` is always allocated when the code runs;
the model returns the heap unchanged otherwise. -/
def mutateAll (h : Heap) (a : Nat) : List Mutator → Heap × Option Err
  | [] => (h, none)
  | mu :: mus =>
    match h[a]? with
    | none => (h, none)
    | some m =>
      match mutate h a m mu with
      | .error e => (h, some e)
      | .ok h' => mutateAll h' a mus

/-- The loop copying the incoming map, tag/map.go:191-199, over its entries in iteration order. -/
def copyAll (h : Heap) (a : Nat) : List (Key × Content) → Heap × Option Err
  | [] => (h, none)
  | (k, v) :: es =>
    if !checkKeyName k.name then (h, some .invalidKey)
    else if !checkValue v.value then (h, some .invalidValue)
    else
      match h[a]? with
      | none => (h, none)
      | some m => copyAll (h.write a (insert m k v.value v.m)) a es

/-- `New`, tag/map.go:187-209. `iter` is the order in which the runtime iterates the incoming map.
Returns the heap, the returned context and the error. -/
def new {α : Type} (iter : TMap → List (Key × Content)) (h : Heap) (ctx : Ctx α)
    (mus : List Mutator) : Heap × Ctx α × Option Err :=
  let a := h.length
  let h1 := h ++ [[]]                                    -- m := newMap()
  let entries := match ctx.tags with                     -- orig := FromContext(ctx)
    | none => []
    | some o => match h[o]? with
      | none => []
      | some om => iter om
  match copyAll h1 a entries with
  | (h2, some e) => (h2, ctx, some e)
  | (h2, none) =>
    match mutateAll h2 a mus with
    | (h3, some e) => (h3, ctx, some e)
    | (h3, none) => (h3, { ctx with tags := some a }, none)   -- NewContext(ctx, m)

/-- `Map.Value` on `FromContext(ctx)`, tag/map.go:43-49. -/
def value {α : Type} (h : Heap) (ctx : Ctx α) (k : Key) : Option Bytes :=
  match ctx.tags with
  | none => none
  | some a => match h[a]? with
    | none => none
    | some m => (GoMap.get m k).map Content.value

end Verif.Tag
