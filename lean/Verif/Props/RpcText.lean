import Verif.Zpages.RpcText
import Verif.Props.TextPages
import Verif.Props.RpcPage

/-!
# C99: the RPC page as text
-/

namespace Verif.Props.RpcText
open Verif Verif.Zpages Verif.Zpages.Rpcz Verif.Zpages.Text Verif.Zpages.RpcText
open Verif.Props.TextPages hiding figure
open Verif.Props.Rpcz
open Verif.F64 (rnd Valid roundHalfEven eps eta rnd_err roundHalfEven_err)
open Verif.Props.Grpc (numeral numeral_digits isDigit digits_digits)
open Verif.Props.TraceRows (takeDigits numeral_zeros digits_len digits_head)
open Verif.Props.RpcFigures (figure unsigned unitOf take_all unit_head lt_ten_pow digits_first round_nonneg rnd_fin_of_le unsigned_digits)

/-! ## Specification -/

/-- The headings of the figures, three columns each. -/
inductive Head where
  | count | avgLat | maxLat | rate | input | output | errors
  deriving DecidableEq, Repr

def Head.text : Head → Bytes
  | .count => str "Count"
  | .avgLat => str "AvgLat"
  | .maxLat => str "MaxLat"
  | .rate => str "Rate"
  | .input => str "In (MiB/s)"
  | .output => str "Out (MiB/s)"
  | .errors => str "Errors"

/-- The columns that a reader sees, from left to right: where each heading begins, and where the headings Min, Hr and Tot below it. -/
def Head.first : Head → Nat
  | .count => 1
  | .avgLat => 4
  | .maxLat => 7
  | .rate => 10
  | .input => 13
  | .output => 16
  | .errors => 19

/-- The two lines of headings, if column `j` begins after `off j` characters: for the headings whose columns any figures are in. -/
def Headings (off : Nat → Nat) (line1 line2 : Bytes) : Prop :=
  Stands (off 0) (str "Method") line1 ∧
  ∀ h : Head, h ≠ .errors → Stands (off h.first) h.text line1 ∧ Stands (off h.first) (str "Min") line2 ∧
    Stands (off (h.first + 1)) (str "Hr") line2 ∧ Stands (off (h.first + 2)) (str "Tot") line2

/-- Under a heading there is `0` for the last minute and the last hour, and a text for the total of which `P` holds. -/
def Under (off : Nat → Nat) (h : Head) (line : Bytes) (zero : Bytes → Prop) (P : Bytes → Prop) : Prop :=
  (∃ t, Stands (off h.first) t line ∧ zero t) ∧ (∃ t, Stands (off (h.first + 1)) t line ∧ zero t) ∧
  ∃ t, Stands (off (h.first + 2)) t line ∧ P t

/-- A text is a figure for zero. -/
def Zero (t : Bytes) : Prop := figure t = some 0

/-- A text is this count. -/
def Counts (n : BitVec 64) (t : Bytes) : Prop := figure t = some (n.toNat : Rat)

/-- A text is this rate, to two decimals. -/
def Rates (x : F64) (t : Bytes) : Prop := ∀ q, x = .fin q → ∃ v, figure t = some v ∧ |v - q| ≤ 1 / 200

/-- A text is this rate of bytes in units of 1024, to two decimals and the precision of floats. -/
def ByteRates (x : F64) (t : Bytes) : Prop :=
  ∀ q, x = .fin q → Valid q → ∃ v, figure t = some v ∧ |v - q / 1024| ≤ 1 / 200 + |q| / 1024 / 2 ^ 53 + 1 / 2 ^ 1075

/-! ## Figures -/

theorem pad2 {n : Nat} (h : n < 100) :
    (pad 2 48 (Http.digits 19 n)).length = 2 ∧ (∀ c ∈ pad 2 48 (Http.digits 19 n), isDigit c = true) ∧
      numeral (pad 2 48 (Http.digits 19 n)) = n := by
  have hl := digits_len 19 n 1 (by omega)
  refine ⟨by simp only [pad, List.length_append, List.length_replicate]; omega, ?_, ?_⟩
  · intro c hc
    simp only [pad, List.mem_append] at hc
    rcases hc with hc | hc
    · rw [List.eq_of_mem_replicate hc]; decide
    · exact digits_digits _ _ c hc
  · rw [pad, numeral_zeros, numeral_digits _ _ (by omega)]

theorem unsigned_point (n : Nat) :
    unsigned (Http.digits (n / 100) (n / 100) ++ 46 :: pad 2 48 (Http.digits 19 (n % 100))) = some ((n : Rat) / 100) := by
  have hp := pad2 (n := n % 100) (by omega)
  have h1 := takeDigits (Http.digits (n / 100) (n / 100)) 46 (pad 2 48 (Http.digits 19 (n % 100))) (digits_digits _ _) (by decide)
  have h2 := take_all hp.2.1 [] (by simp)
  rw [List.append_nil] at h2
  obtain ⟨c, r, hc, -⟩ := digits_head (n / 100) (n / 100)
  unfold unsigned
  rw [h1.1, h1.2]
  simp only [List.head?_cons, List.tail_cons, h2.1, h2.2, if_true]
  rw [if_neg (by rw [hc]; simp), numeral_digits _ _ (lt_ten_pow _), hp.2.2, hp.1]
  have : (n : Rat) = ((100 * (n / 100) + n % 100 : Nat) : Rat) := by rw [Nat.div_add_mod]
  rw [this]
  simp only [unitOf, if_true, Option.map_some, Option.some.injEq]
  push_cast
  ring

/-- The decimal that is nearest, with two digits after the point. -/
def hundredths (q : Rat) : Rat := (if q < 0 then -1 else 1) * ((roundHalfEven (|q| * 100)).toNat : Rat) / 100

theorem figure_fixed2 (q : Rat) : figure (fixed2 q) = some (hundredths q) := by
  unfold fixed2 hundredths figure
  simp only
  split
  · rw [if_neg (by simp), if_pos (by simp)]
    simp only [List.cons_append, List.nil_append, List.tail_cons]
    rw [unsigned_point]
    simp only [Option.map_some, Option.some.injEq]
    ring
  · have h := digits_first ((roundHalfEven (|q| * 100)).toNat / 100) ((roundHalfEven (|q| * 100)).toNat / 100)
      (46 :: pad 2 48 (Http.digits 19 ((roundHalfEven (|q| * 100)).toNat % 100)))
    rw [List.nil_append, if_neg h.1, if_neg h.2, unsigned_point]
    simp only [one_mul]

theorem hundredths_err (q : Rat) : |hundredths q - q| ≤ 1 / 200 := by
  have h := roundHalfEven_err (|q| * 100)
  have h0 : 0 ≤ roundHalfEven (|q| * 100) := round_nonneg (by positivity)
  have e : ((roundHalfEven (|q| * 100)).toNat : Rat) = (roundHalfEven (|q| * 100) : Rat) := by
    have : (((roundHalfEven (|q| * 100)).toNat : Int) : Rat) = (roundHalfEven (|q| * 100) : Rat) := by rw [Int.toNat_of_nonneg h0]
    exact_mod_cast this
  unfold hundredths
  rw [e]
  rw [abs_le] at h ⊢
  split
  · next hq =>
    rw [abs_of_neg hq] at *
    constructor <;> linarith [h.1, h.2]
  · next hq =>
    rw [abs_of_nonneg (not_lt.1 hq)] at *
    constructor <;> linarith [h.1, h.2]

theorem rates (x : F64) : Rates x (sprintf2 x) := by
  rintro q rfl
  exact ⟨_, figure_fixed2 q, hundredths_err q⟩

theorem byteRates (x : F64) : ByteRates x (sprintf2 (perKb x)) := by
  rintro q rfl hq
  have hv : Valid |q| := by
    rcases abs_choice q with h | h <;> rw [h]
    · exact hq
    · exact hq.neg
  obtain ⟨r, hr⟩ := rnd_fin_of_le (a := q / 1024) hv (by
    rw [abs_div, abs_of_pos (by norm_num : (0 : Rat) < 1024)]
    exact div_le_self (abs_nonneg _) (by norm_num))
  refine ⟨hundredths r, ?_, ?_⟩
  · unfold perKb
    simp only [F64.div]
    rw [if_neg (by norm_num), hr]
    exact figure_fixed2 r
  · have h1 := rnd_err hr
    rw [abs_div, abs_of_pos (by norm_num : (0 : Rat) < 1024)] at h1
    have e : hundredths r - q / 1024 = (hundredths r - r) + (r - q / 1024) := by ring
    rw [e]
    refine le_trans (abs_add_le _ _) ?_
    have h2 := hundredths_err r
    unfold eps eta at h1
    have e2 : 1 / 2 ^ 53 * (|q| / 1024) = |q| / 1024 / 2 ^ 53 := by ring
    rw [e2] at h1
    linarith

theorem counts (n : BitVec 64) : Counts n (decimal n) := by
  unfold Counts decimal figure
  have h := digits_first 19 n.toNat []
  rw [List.append_nil] at h
  rw [if_neg h.1, if_neg h.2]
  exact unsigned_digits 19 _ (lt_trans n.isLt (by norm_num))

theorem zero_count : Zero (decimal 0) := counts 0

theorem zero_rate : Zero (sprintf2 (.fin 0)) := by unfold Zero; decide +kernel

theorem zero_byteRate : Zero (sprintf2 (perKb (.fin 0))) := by unfold Zero; decide +kernel

/-! ## Plain text -/

theorem plain_digits (f n : Nat) : Plain (Http.digits f n) := fun c hc => digit_plain c (digits_digits f n c hc)

theorem plain_sprintf2 (x : F64) : Plain (sprintf2 x) := by
  cases x with
  | fin q =>
    show Plain (fixed2 q)
    unfold fixed2
    refine plain_append (plain_append ?_ (plain_digits _ _)) (plain_append (a := [46]) (by decide)
      (plain_pad _ _ _ (by decide) (plain_digits _ _)))
    split <;> decide
  | nan => exact plain_str _ (by decide +kernel)
  | pinf => exact plain_str _ (by decide +kernel)
  | ninf => exact plain_str _ (by decide +kernel)

/-! ## The page -/

/-- The headings, as cells. -/
def head1 : List Bytes :=
  [str "Method", str "Count", [], [], str "AvgLat", [], [], str "MaxLat", [], [], str "Rate", [], [], str "In (MiB/s)", [], [],
    str "Out (MiB/s)", [], [], str "Errors", [], []]

def head2 : List Bytes := [] :: (List.replicate 7 [str "Min", str "Hr", str "Tot"]).flatten

/-- What a line of the page says about a method. **It is not what the headings say**: the rate of RPCs is under the heading of the
greatest latency, and all that follows is three columns too far to the left. -/
structure TextShows (dur : Int → Bytes) (off : Nat → Nat) (s : Snap) (line : Bytes) : Prop where
  method : Stands (off 0) s.method line
  count : Under off .count line Zero (Counts s.countTotal)
  latency : Under off .avgLat line (· = dur 0) (· = dur s.avgLatencyTotal)
  rate : Under off .maxLat line Zero (Rates s.rpcRateTotal)
  input : Under off .rate line Zero (ByteRates s.inputRateTotal)
  output : Under off .input line Zero (ByteRates s.outputRateTotal)
  errors : Under off .output line Zero (Counts s.errorsTotal)

/-- A table as text. -/
theorem group_text {dur : Int → Bytes} (hd : ∀ n, Plain (dur n)) (snaps : List Snap) (hs : ∀ s ∈ snaps, Plain s.method) :
    ∃ (line1 line2 : Bytes) (body : List Bytes) (off : Nat → Nat), Lines (textGroup dur snaps) (line1 :: line2 :: body) ∧
      body.length = snaps.length ∧ off 0 = 0 ∧ (∀ j < 18, off j + 6 ≤ off (j + 1)) ∧ Headings off line1 line2 ∧
      ∀ (i : Nat) s line, snaps[i]? = some s → body[i]? = some line → TextShows dur off s line := by
  let L : List (List Bytes) := head1 :: head2 :: snaps.map (snapCells dur)
  have hL : ∀ ts ∈ L, 2 ≤ ts.length ∧ 18 < ts.length ∧ ∀ t ∈ ts, Plain t := by
    intro ts hts
    rcases List.mem_cons.1 hts with rfl | hts
    · have : ∀ t ∈ head1, t.all (fun c => 32 ≤ c && c < 127) = true := by decide +kernel
      exact ⟨by decide, by decide, fun t ht => plain_str t (this t ht)⟩
    rcases List.mem_cons.1 hts with rfl | hts
    · have : ∀ t ∈ head2, t.all (fun c => 32 ≤ c && c < 127) = true := by decide +kernel
      exact ⟨by decide, by decide, fun t ht => plain_str t (this t ht)⟩
    · obtain ⟨s, hs1, rfl⟩ := List.mem_map.1 hts
      refine ⟨by simp [snapCells], by simp [snapCells], fun t ht => ?_⟩
      simp only [snapCells, List.mem_cons, List.not_mem_nil, or_false] at ht
      rcases ht with rfl | rfl | rfl | rfl | rfl | rfl | rfl | rfl | rfl | rfl | rfl | rfl | rfl | rfl | rfl | rfl | rfl | rfl | rfl <;>
        first
        | exact hs s hs1
        | exact hd _
        | exact plain_sprintf2 _
        | exact plain_digits _ _
  obtain ⟨lines, off, ⟨hdoc, hnl⟩, hlen, h0, hstep, hst⟩ := table 6 18 L hL
  have hbytes : (L.flatMap fun ts => tabbed ts ++ [10]) = headings1 ++ headings2 ++ snaps.flatMap fun s => tabbed (snapCells dur s) ++ [10] := by
    have e1 : tabbed head1 ++ [10] = headings1 := by decide +kernel
    have e2 : tabbed head2 ++ [10] = headings2 := by decide +kernel
    simp only [L, List.flatMap_cons, List.flatMap_map, e1, e2, List.append_assoc]
  match lines, hlen with
  | line1 :: line2 :: body, hlen =>
    have k1 : ∀ j ≤ 18, ∀ t, head1[j]? = some t → Stands (off j) t line1 := fun j hj t ht => hst 0 head1 line1 rfl rfl j hj t ht
    have k2 : ∀ j ≤ 18, ∀ t, head2[j]? = some t → Stands (off j) t line2 := fun j hj t ht => hst 1 head2 line2 rfl rfl j hj t ht
    refine ⟨line1, line2, body, off, ⟨?_, hnl⟩, by simpa [L] using hlen, h0, fun j hj => ?_, ⟨k1 0 (by omega) _ rfl, ?_⟩, ?_⟩
    · unfold textGroup; rw [← hbytes]; exact hdoc
    · exact_mod_cast hstep j hj
    · intro h hne
      cases h with
      | errors => exact absurd rfl hne
      | count => exact ⟨k1 1 (by omega) _ rfl, k2 1 (by omega) _ rfl, k2 2 (by omega) _ rfl, k2 3 (by omega) _ rfl⟩
      | avgLat => exact ⟨k1 4 (by omega) _ rfl, k2 4 (by omega) _ rfl, k2 5 (by omega) _ rfl, k2 6 (by omega) _ rfl⟩
      | maxLat => exact ⟨k1 7 (by omega) _ rfl, k2 7 (by omega) _ rfl, k2 8 (by omega) _ rfl, k2 9 (by omega) _ rfl⟩
      | rate => exact ⟨k1 10 (by omega) _ rfl, k2 10 (by omega) _ rfl, k2 11 (by omega) _ rfl, k2 12 (by omega) _ rfl⟩
      | input => exact ⟨k1 13 (by omega) _ rfl, k2 13 (by omega) _ rfl, k2 14 (by omega) _ rfl, k2 15 (by omega) _ rfl⟩
      | output => exact ⟨k1 16 (by omega) _ rfl, k2 16 (by omega) _ rfl, k2 17 (by omega) _ rfl, k2 18 (by omega) _ rfl⟩
    · intro i s line hi hline
      have k : ∀ j ≤ 18, ∀ t, (snapCells dur s)[j]? = some t → Stands (off j) t line :=
        fun j hj t ht => hst (i + 2) (snapCells dur s) line (by simp [L, hi]) (by simpa using hline) j hj t ht
      exact {
        method := k 0 (by omega) _ rfl
        count := ⟨⟨_, k 1 (by omega) _ rfl, zero_count⟩, ⟨_, k 2 (by omega) _ rfl, zero_count⟩, _, k 3 (by omega) _ rfl, counts _⟩
        latency := ⟨⟨_, k 4 (by omega) _ rfl, rfl⟩, ⟨_, k 5 (by omega) _ rfl, rfl⟩, _, k 6 (by omega) _ rfl, rfl⟩
        rate := ⟨⟨_, k 7 (by omega) _ rfl, zero_rate⟩, ⟨_, k 8 (by omega) _ rfl, zero_rate⟩, _, k 9 (by omega) _ rfl, rates _⟩
        input := ⟨⟨_, k 10 (by omega) _ rfl, zero_byteRate⟩, ⟨_, k 11 (by omega) _ rfl, zero_byteRate⟩, _, k 12 (by omega) _ rfl,
          byteRates _⟩
        output := ⟨⟨_, k 13 (by omega) _ rfl, zero_byteRate⟩, ⟨_, k 14 (by omega) _ rfl, zero_byteRate⟩, _, k 15 (by omega) _ rfl,
          byteRates _⟩
        errors := ⟨⟨_, k 16 (by omega) _ rfl, zero_count⟩, ⟨_, k 17 (by omega) _ rfl, zero_count⟩, _, k 18 (by omega) _ rfl, counts _⟩ }

/-- **C99.** After any exports with plain method names, whatever the order in which the map of snapshots is read: the text is two tables,
for methods called and methods served, each with two lines of headings and one line for each method that some export had rows for,
sorted by method. The method, the counts and the mean latencies are under their headings.

Missing: the rates and errors under their headings; they are under others (see `TextShows`, `rate_not_under_heading`). -/
theorem rpc_text_partial (c : Conv) (es : List Export) {order : Snaps} (ho : order.Perm (snapsAfter c es)) {dur : Int → Bytes}
    (hd : ∀ n, Plain (dur n)) (hm : ∀ m rc, es.any (concerns (m, rc)) = true → Plain m) :
    ∃ sent received, writeTextRpcz dur order = str "Sent:\n" ++ sent ++ str "\nReceived:\n" ++ received ∧
      ∀ rc : Bool, ∃ (methods : List Bytes) (line1 line2 : Bytes) (body : List Bytes) (off : Nat → Nat),
        Lines (if rc then received else sent) (line1 :: line2 :: body) ∧ body.length = methods.length ∧
        methods.Pairwise (fun a b : Bytes => a < b) ∧ (∀ m, m ∈ methods ↔ es.any (concerns (m, rc)) = true) ∧
        off 0 = 0 ∧ (∀ j < 18, off j + 6 ≤ off (j + 1)) ∧ Headings off line1 line2 ∧
        ∀ (i : Nat) m line, methods[i]? = some m → body[i]? = some line → TextShows dur off (shown c es (m, rc)) line := by
  refine ⟨_, _, rfl, fun rc => ?_⟩
  obtain ⟨h1, h2⟩ := page_shown_partial c es ho rc
  have key : (if rc = true then textGroup dur (getStatsPage order).2 else textGroup dur (getStatsPage order).1) =
      textGroup dur (direction rc (getStatsPage order)) := by
    unfold direction
    split <;> rfl
  rw [key]
  obtain ⟨line1, line2, body, off, g1, g2, g3, g4, g5, g6⟩ := group_text hd (direction rc (getStatsPage order))
    fun s hs => hm _ rc ((h2 s).1 hs).1
  refine ⟨(direction rc (getStatsPage order)).map Snap.method, line1, line2, body, off, g1, by simpa using g2, ?_, fun m => ?_, g3, g4, g5, ?_⟩
  · rw [List.pairwise_map]; exact h1
  · rw [List.mem_map]
    constructor
    · rintro ⟨s, hs, rfl⟩; exact ((h2 s).1 hs).1
    · intro h; exact ⟨shown c es (m, rc), (h2 _).2 ⟨h, rfl⟩, rfl⟩
  · intro i m line hi hline
    rw [List.getElem?_map] at hi
    obtain ⟨s, hs, rfl⟩ := Option.map_eq_some_iff.1 hi
    have := ((h2 s).1 (List.mem_of_getElem? hs)).2
    rw [← this]
    exact g6 i s line hs hline

/-- A method with 7 RPCs, 5 a second, of which 3 failed; it received 2048 bytes a second and sent 4096. -/
def busy : Snap := ⟨str "m", false, 7, 1500, .fin 5, .fin 2048, .fin 4096, 3⟩

/-- No figure from the rate on is under its heading: 5 RPCs a second are read as the greatest latency, 2 KiB received a second as the rate,
4 KiB sent a second as `In (MiB/s)`, and the failures as `Out (MiB/s)`; there is nothing under `Errors`. -/
theorem rate_not_under_heading : textGroup (fun d => Http.itoa d) [busy] =
    str "Method Count             AvgLat             MaxLat             Rate              In (MiB/s)             Out (MiB/s)             Errors       \n" ++
    str "       Min   Hr    Tot   Min    Hr    Tot   Min    Hr    Tot   Min   Hr    Tot   Min        Hr    Tot   Min         Hr    Tot   Min    Hr    Tot\n" ++
    str "m      0     0     7     0      0     1500  0.00   0.00  5.00  0.00  0.00  2.00  0.00       0.00  4.00  0           0     3\n" := by
  decide +kernel

/-- The hypotheses of `rpc_text_partial`: exports of a server that handled five RPCs. -/
example : Rpcz.demo.any (concerns (Rpcz.m1, true)) = true ∧ ∀ m rc, Rpcz.demo.any (concerns (m, rc)) = true → Plain m := by
  refine ⟨by decide +kernel, fun m rc h => ?_⟩
  obtain ⟨e, he, hc⟩ := List.any_eq_true.1 h
  have all : ∀ e ∈ Rpcz.demo, ∀ r ∈ e.rows, (methodOf r).all (fun c => 32 ≤ c && c < 127) = true := by decide +kernel
  unfold concerns at hc
  simp only [Bool.and_eq_true, Bool.not_eq_true', List.isEmpty_eq_false_iff] at hc
  obtain ⟨r, hr⟩ := List.exists_mem_of_ne_nil _ hc.2
  simp only [rowsOf, List.mem_filter, decide_eq_true_eq] at hr
  rw [← hr.2]
  exact plain_str _ (all e he r hr.1)

end Verif.Props.RpcText
