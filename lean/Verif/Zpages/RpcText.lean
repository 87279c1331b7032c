import Verif.Zpages.Text
import Verif.Zpages.RpcPage

/-!
# The RPC page as text (zpages/rpcz.go:97-138)

See `Verif.Zpages.Text` for the layout of package `text/tabwriter`. `dur` is how `%v` writes a duration of so many nanoseconds.
-/

namespace Verif.Zpages.RpcText
open Verif Verif.Zpages Verif.Zpages.Rpcz Verif.Zpages.Text

/-- `fmt.Sprintf("%.2f", q)` on a finite float. Zero is taken without sign. -/
def fixed2 (q : Rat) : Bytes :=
  let n := (F64.roundHalfEven (|q| * 100)).toNat
  (if q < 0 then [45] else []) ++ Http.digits (n / 100) (n / 100) ++ 46 :: pad 2 48 (Http.digits 19 (n % 100))

/-- `fmt.Sprintf("%.2f", x)`. -/
def sprintf2 : F64 → Bytes
  | .fin q => fixed2 q
  | .nan => str "NaN"
  | .pinf => str "+Inf"
  | .ninf => str "-Inf"

/-- `fmt.Sprintf("%d", n)` on a `uint64`. -/
def decimal (n : BitVec 64) : Bytes := Http.digits 19 n.toNat

/-- `x / bytesPerKb`, zpages/rpcz.go:32, 125-130. -/
def perKb (x : F64) : F64 := F64.div x (.fin 1024)

/-- The first line of headings, zpages/rpcz.go:110. -/
def headings1 : Bytes := str "Method\tCount\t\t\tAvgLat\t\t\tMaxLat\t\t\tRate\t\t\tIn (MiB/s)\t\t\tOut (MiB/s)\t\t\tErrors\t\t\n"

/-- The second line of headings, zpages/rpcz.go:111. -/
def headings2 : Bytes :=
  str "\tMin\tHr\tTot\tMin\tHr\tTot\tMin\tHr\tTot\tMin\tHr\tTot\tMin\tHr\tTot\tMin\tHr\tTot\tMin\tHr\tTot\n"

/-- The arguments of a line, zpages/rpcz.go:113-133, as they are written. The fields for the last minute and the last hour are the
zeros of new snapshots: no code sets them. -/
def snapCells (dur : Int → Bytes) (s : Snap) : List Bytes :=
  [s.method, decimal 0, decimal 0, decimal s.countTotal, dur 0, dur 0, dur s.avgLatencyTotal,
    sprintf2 (.fin 0), sprintf2 (.fin 0), sprintf2 s.rpcRateTotal,
    sprintf2 (perKb (.fin 0)), sprintf2 (perKb (.fin 0)), sprintf2 (perKb s.inputRateTotal),
    sprintf2 (perKb (.fin 0)), sprintf2 (perKb (.fin 0)), sprintf2 (perKb s.outputRateTotal),
    decimal 0, decimal 0, decimal s.errorsTotal]

/-- The table of a direction, zpages/rpcz.go:109-136. -/
def textGroup (dur : Int → Bytes) (snaps : List Snap) : Bytes :=
  tabulate 6 1 (headings1 ++ headings2 ++ snaps.flatMap fun s => tabbed (snapCells dur s) ++ [10])

/-- `WriteTextRpczPage`, zpages/rpcz.go:98-138. `order` is an iteration order of the snapshots. -/
def writeTextRpcz (dur : Int → Bytes) (order : Snaps) : Bytes :=
  str "Sent:\n" ++ textGroup dur (getStatsPage order).1 ++ str "\nReceived:\n" ++ textGroup dur (getStatsPage order).2

end Verif.Zpages.RpcText
