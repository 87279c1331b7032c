import Verif.View.Agg
import Verif.Grpc.Stats

/-!
# The RPC page (zpages/rpcz.go)

The template of the page and how numbers are printed on it are in `Verif.Zpages.RpcPage`; the page as plain text is not
modelled. The fields of a snapshot for the last minute and the last hour are left out: no code sets them.
-/

namespace Verif.Zpages.Rpcz
open Verif Verif.View Verif.Grpc

/-- The views of `viewType`, zpages/rpcz.go:42-55, and any other view. -/
inductive RView where
  | clientCompletedRPCs | clientSentBytes | clientSentMessages | clientReceivedBytes | clientReceivedMessages
  | clientRoundtripLatency
  | serverCompletedRPCs | serverReceivedBytes | serverReceivedMessages | serverSentBytes | serverSentMessages
  | serverLatency
  | other
  deriving DecidableEq, Repr

/-- `viewType`, zpages/rpcz.go:42-55. -/
def viewType : RView → Option Bool
  | .clientCompletedRPCs | .clientSentBytes | .clientSentMessages | .clientReceivedBytes | .clientReceivedMessages
  | .clientRoundtripLatency => some false
  | .serverCompletedRPCs | .serverReceivedBytes | .serverReceivedMessages | .serverSentBytes | .serverSentMessages
  | .serverLatency => some true
  | .other => none

/-- `view.Row`: the tags, and the data. -/
structure Row where
  tags : List (Tag.Key × Bytes)
  data : AggData F64

/-- `statSnapshot`, zpages/rpcz.go:166-190; a duration is in nanoseconds. -/
structure Snap where
  method : Bytes
  received : Bool
  countTotal : BitVec 64
  avgLatencyTotal : Int
  rpcRateTotal : F64
  inputRateTotal : F64
  outputRateTotal : F64
  errorsTotal : BitVec 64
  deriving DecidableEq

/-- A new snapshot, zpages/rpcz.go:242. -/
def Snap.new (method : Bytes) (received : Bool) : Snap := ⟨method, received, 0, 0, .fin 0, .fin 0, .fin 0, 0⟩

/-- `snaps`, zpages/rpcz.go:37, under `methodKey` (192-195). -/
abbrev Snaps := GoMap (Bytes × Bool) Snap

/-- What the machine makes of a conversion from a float to an integer when the value does not fit. -/
structure Conv where
  u64 : F64 → BitVec 64
  i64 : F64 → Int

/-- `uint64(x)`. -/
def toU64 (c : Conv) (x : F64) : BitVec 64 :=
  match x with
  | .fin q => if 0 ≤ q ∧ q < 2 ^ 64 then BitVec.ofInt 64 q.floor else c.u64 x
  | _ => c.u64 x

/-- `time.Duration(x)`: the fraction is dropped. -/
def toI64 (c : Conv) (x : F64) : Int :=
  match x with
  | .fin q => if -2 ^ 63 ≤ q ∧ q < 2 ^ 63 then (if 0 ≤ q then q.floor else -((-q).floor)) else c.i64 x
  | _ => c.i64 x

/-- `computeRate(0, x)`, zpages/rpcz.go:208-214, for the age `ageSec`. -/
def computeRate (ageSec x : F64) : F64 := F64.div x ageSec

/-- `convertTime`, zpages/rpcz.go:216-221. -/
def convertTime (c : Conv) (ms : F64) : Int :=
  match ms with
  | .fin _ => toI64 c (F64.mul (.fin 1000000) ms)
  | _ => 0

/-- The method of a row, zpages/rpcz.go:228-234. -/
def methodOf (row : Row) : Bytes :=
  match row.tags.find? fun t => decide (t.1 = keyClientMethod ∨ t.1 = keyServerMethod) with
  | some t => t.2
  | none => []

/-- The sum of a row, zpages/rpcz.go:244-257. -/
def sumOf (row : Row) : F64 :=
  match row.data with
  | .count _ n => Arith.ofInt n
  | .dist d => d.sum
  | .sum _ v => v
  | .last _ => .fin 0

/-- The count of a row, zpages/rpcz.go:244-257. -/
def countOf (row : Row) : F64 :=
  match row.data with
  | .count _ n => Arith.ofInt n
  | .dist d => Arith.ofInt d.count
  | .sum _ v => v
  | .last _ => .fin 0

/-- The loop over the tags of a row of a view of completed RPCs, zpages/rpcz.go:266-270, 295-299. -/
def addErrors (c : Conv) (key : Tag.Key) (row : Row) (errors : BitVec 64) : BitVec 64 :=
  row.tags.foldl (fun e t => if t.1 = key ∧ t.2 ≠ str "OK" then e + toU64 c (countOf row) else e) errors

/-- The update of the snapshot, zpages/rpcz.go:260-313. `reset` says that the errors of the method were
already reset in this call. -/
def update (c : Conv) (view : RView) (ageSec : F64) (reset : Bool) (row : Row) (s : Snap) : Snap :=
  match view with
  | .clientCompletedRPCs =>
    { s with errorsTotal := addErrors c keyClientStatus row (if reset then s.errorsTotal else 0) }
  | .clientRoundtripLatency => { s with avgLatencyTotal := convertTime c (F64.div (sumOf row) (countOf row)) }
  | .clientSentBytes => { s with outputRateTotal := computeRate ageSec (sumOf row) }
  | .clientReceivedBytes => { s with inputRateTotal := computeRate ageSec (sumOf row) }
  | .clientSentMessages =>
    { s with countTotal := toU64 c (countOf row), rpcRateTotal := computeRate ageSec (countOf row) }
  | .clientReceivedMessages => s
  | .serverCompletedRPCs =>
    { s with errorsTotal := addErrors c keyServerStatus row (if reset then s.errorsTotal else 0) }
  | .serverLatency => { s with avgLatencyTotal := convertTime c (F64.div (sumOf row) (countOf row)) }
  | .serverSentBytes => { s with outputRateTotal := computeRate ageSec (sumOf row) }
  | .serverReceivedMessages =>
    { s with countTotal := toU64 c (countOf row), rpcRateTotal := computeRate ageSec (countOf row) }
  | .serverSentMessages => s
  | .serverReceivedBytes => s
  | .other => s

/-- The loop over the rows, zpages/rpcz.go:227-314. `resets` is `haveResetErrors`; that it is only kept for
the views of completed RPCs makes no difference. -/
def rowLoop (c : Conv) (view : RView) (received : Bool) (ageSec : F64) (snaps : Snaps) (resets : List Bytes) :
    List Row → Snaps
  | [] => snaps
  | row :: rows =>
    let method := methodOf row
    let s := (GoMap.get snaps (method, received)).getD (Snap.new method received)
    rowLoop c view received ageSec
      (GoMap.set snaps (method, received) (update c view ageSec (resets.contains method) row s)) (method :: resets) rows

/-- What `ExportView` gets, with the age of the program then. -/
structure Export where
  view : RView
  rows : List Row
  ageSec : F64

/-- `ExportView`, zpages/rpcz.go:199-315. The mutex makes it one step. -/
def exportView (c : Conv) (snaps : Snaps) (e : Export) : Snaps :=
  match viewType e.view with
  | none => snaps
  | some received => if e.rows.length = 0 then snaps else rowLoop c e.view received e.ageSec snaps [] e.rows

/-- The rows of a group before they are sorted, zpages/rpcz.go:320-326, for the order in which the loop takes
the map. -/
def group (received : Bool) (order : Snaps) : List Snap :=
  (order.filter fun p => p.1.2 == received).map (·.2)

/-- `Less` as an order, zpages/rpcz.go:163-165. -/
def snapLe (a b : Snap) : Bool := decide (a.method ≤ b.method)

/-- `getStatsPage`, zpages/rpcz.go:317-334: the groups `Sent` and `Received`. `sort.Sort` is not stable and the
model's sort is; the methods of a group are distinct, so they agree. -/
def getStatsPage (order : Snaps) : List Snap × List Snap :=
  ((group false order).mergeSort snapLe, (group true order).mergeSort snapLe)

/-- What a column of the text page is about. -/
inductive Col where
  | method | count | avgLat | maxLat | rate | input | output | errors
  deriving DecidableEq, Repr

/-- The period of a column of the text page. -/
inductive Period where
  | min | hr | tot
  deriving DecidableEq, Repr

/-- The first line of the heading of `WriteTextRpczPage`, zpages/rpcz.go:110: the cells between tabs; a cell
without text is `none`. -/
def heading : List (Option Col) :=
  [some .method, some .count, none, none, some .avgLat, none, none, some .maxLat, none, none, some .rate, none, none,
   some .input, none, none, some .output, none, none, some .errors, none, none]

/-- The second line of the heading, zpages/rpcz.go:111. -/
def subheading : List (Option Period) :=
  [none, some .min, some .hr, some .tot, some .min, some .hr, some .tot, some .min, some .hr, some .tot,
   some .min, some .hr, some .tot, some .min, some .hr, some .tot, some .min, some .hr, some .tot,
   some .min, some .hr, some .tot]

/-- The cells of a row of `WriteTextRpczPage`, zpages/rpcz.go:113-133: which fields are printed.
The rates of bytes are divided by 1024 although the heading says MiB/s. -/
def textRow : List (Col × Option Period) :=
  [(.method, none), (.count, some .min), (.count, some .hr), (.count, some .tot), (.avgLat, some .min),
   (.avgLat, some .hr), (.avgLat, some .tot), (.rate, some .min), (.rate, some .hr), (.rate, some .tot),
   (.input, some .min), (.input, some .hr), (.input, some .tot), (.output, some .min), (.output, some .hr),
   (.output, some .tot), (.errors, some .min), (.errors, some .hr), (.errors, some .tot)]

end Verif.Zpages.Rpcz
