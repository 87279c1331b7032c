import Verif.Zpages.Page
import Verif.Zpages.Rpcz

/-!
# The RPC page as a document (zpages/rpcz.go, zpages/templates.go, zpages/internal/templates/rpcz.html)

See `Verif.Zpages.Page` for how templates are modelled. The fields for the last minute and the last hour are the zeros
of new snapshots: no code sets them. `fmt` is taken from its documentation: `%.3f` rounds the value of the
float to three decimals, to nearest and ties to even.
-/

namespace Verif.Zpages.Rpcz
open Verif Verif.Zpages

/-- `fmt.Sprintf("%.3f", q)` on a finite float. Zero is taken without sign. -/
def fixed3 (q : Rat) : Bytes :=
  let n := (F64.roundHalfEven (|q| * 1000)).toNat
  (if q < 0 then [45] else []) ++ Http.digits (n / 1000) (n / 1000) ++ 46 :: pad 3 48 (Http.digits 19 (n % 1000))

/-- `fmt.Sprintf("%.3f", x)`. -/
def sprintf3 : F64 → Bytes
  | .fin q => fixed3 q
  | .nan => str "NaN"
  | .pinf => str "+Inf"
  | .ninf => str "-Inf"

/-- `countFormatter`, zpages/templates.go:60-88. -/
def countFormatter (num : BitVec 64) : Bytes :=
  if num.toNat ≤ 0 then str " "
  else
    let x : F64 := F64.rnd num.toNat
    let r : F64 × Bytes :=
      if 10 ^ 18 ≤ num.toNat then (F64.div x (.fin (10 ^ 18)), str " E ")
      else if 10 ^ 15 ≤ num.toNat then (F64.div x (.fin (10 ^ 15)), str " P ")
      else if 10 ^ 12 ≤ num.toNat then (F64.div x (.fin (10 ^ 12)), str " T ")
      else if 10 ^ 9 ≤ num.toNat then (F64.div x (.fin (10 ^ 9)), str " G ")
      else if 10 ^ 6 ≤ num.toNat then (F64.div x (.fin (10 ^ 6)), str " M ")
      else (.fin 0, [])
    if r.1 ≠ .fin 0 then sprintf3 r.1 ++ r.2 else Http.digits 19 num.toNat

/-- `msFormatter`, zpages/templates.go:90-98, on a duration in nanoseconds. -/
def msFormatter (d : Int) : Bytes :=
  if d = 0 then str "0"
  else if d < 10 * 1000000 then sprintf3 (F64.mul (F64.rnd d) (F64.rnd (1 / 10 ^ 6)))
  else Http.itoa (d.tdiv 1000000)

/-- `rateFormatter`, zpages/templates.go:100-102. -/
def rateFormatter (r : F64) : Bytes := sprintf3 r

/-- `dataRateFormatter`, zpages/templates.go:104-106. -/
def dataRateFormatter (b : F64) : Bytes := sprintf3 (F64.div b (.fin (10 ^ 6)))

/-- Three figures, zpages/internal/templates/rpcz.html:31-33 and the same for the others: the last minute, the last hour, the
total, and an empty cell. -/
def figureSegs (min hr tot : Bytes) : List Seg :=
  [.lit "\n        <td align=\"right\">", .text min, .lit "</td>\n        <td align=\"right\">", .text hr,
   .lit "</td>\n        <td align=\"right\">", .text tot, .lit "</td><td></td>"]

/-- A row, zpages/internal/templates/rpcz.html:28-49. -/
def snapSegs (s : Snap) : List Seg :=
  [.lit "\n    <tr>\n        <td><b>", .text s.method, .lit "</b></td>\n        <td></td>"] ++
  figureSegs (countFormatter 0) (countFormatter 0) (countFormatter s.countTotal) ++
  figureSegs (msFormatter 0) (msFormatter 0) (msFormatter s.avgLatencyTotal) ++
  figureSegs (rateFormatter (.fin 0)) (rateFormatter (.fin 0)) (rateFormatter s.rpcRateTotal) ++
  figureSegs (dataRateFormatter (.fin 0)) (dataRateFormatter (.fin 0)) (dataRateFormatter s.inputRateTotal) ++
  figureSegs (dataRateFormatter (.fin 0)) (dataRateFormatter (.fin 0)) (dataRateFormatter s.outputRateTotal) ++
  figureSegs (countFormatter 0) (countFormatter 0) (countFormatter s.errorsTotal) ++ [.lit "\n    </tr>\n"]

/-- The template of a group up to the direction, zpages/internal/templates/rpcz.html:1-2. -/
def groupStart : String := "\n<p><table bgcolor=#eeeeff width=100%><tr align=center><td><font size=+2>"

/-- The template of a group from there to the snapshots, zpages/internal/templates/rpcz.html:2-27. -/
def groupHeadings : String := "</font></td></tr></table></p>\n<table bgcolor=\"#fff5ee\" frame=box cellspacing=0 cellpadding=2>\n\n    <tr bgcolor=\"#eee5de\">\n        <th></th><td></td>\n        <th class=\"l1\" colspan=3>Count</th><td></td>\n        <th class=\"l1\" colspan=3>Avg latency (ms)</th><td></td>\n        <th class=\"l1\" colspan=3>Rate (rpc/s)</th><td></td>\n        <th class=\"l1\" colspan=3>Input (kb/s)</th><td></td>\n        <th class=\"l1\" colspan=3>Output (kb/s)</th><td></td>\n        <th class=\"l1\" colspan=3>Errors</th>\n    </tr>\n\n    <tr bgcolor=\"#eee5de\">\n        <th align=left>Method</th><td>&nbsp;&nbsp;&nbsp;&nbsp;</td>\n        <th align=right>Min.</th><th align=right>Hr.</th><th align=right>Tot.</th><td>&nbsp;&nbsp;&nbsp;&nbsp;</td>\n        <th align=right>Min.</th><th align=right>Hr.</th><th align=right>Tot.</th><td>&nbsp;&nbsp;&nbsp;&nbsp;</td>\n        <th align=right>Min.</th><th align=right>Hr.</th><th align=right>Tot.</th><td>&nbsp;&nbsp;&nbsp;&nbsp;</td>\n        <th align=right>Min.</th><th align=right>Hr.</th><th align=right>Tot.</th><td>&nbsp;&nbsp;&nbsp;&nbsp;</td>\n        <th align=right>Min.</th><th align=right>Hr.</th><th align=right>Tot.</th><td>&nbsp;&nbsp;&nbsp;&nbsp;</td>\n        <th align=right>Min.</th><th align=right>Hr.</th><th align=right>Tot.</th>\n    </tr>\n\n    <tr><td colspan=33><font size=-2>&nbsp;</font></td></tr>\n\n"

/-- A group, zpages/internal/templates/rpcz.html:1-51. -/
def groupSegs (direction : Bytes) (snaps : List Snap) : List Seg :=
  [.lit groupStart, .text direction, .lit groupHeadings] ++
  snaps.flatMap snapSegs ++ [.lit "\n</table>\n"]

/-- `WriteHTMLRpczSummary`, zpages/rpcz.go:89-95, for an iteration order of the snapshots. -/
def rpczSummary (order : Snaps) : List Seg :=
  let page := getStatsPage order
  groupSegs (str "Sent") page.1 ++ groupSegs (str "Received") page.2 ++ [.lit "\n"]

/-- `WriteHTMLRpczPage`, zpages/rpcz.go:76-84. -/
def rpczPage (order : Snaps) : Bytes := render (headerSegs (str "RPC Stats") ++ rpczSummary order ++ footerSegs)

end Verif.Zpages.Rpcz
