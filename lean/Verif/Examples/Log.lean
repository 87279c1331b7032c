import Verif.Basic

/-!
# The log exporter of the examples (examples/exporter/logexporter.go)

`LogExporter` logs spans and metrics to the console or to files. It is registered with `trace`, and has an interval reader
(metric/metricexport/reader.go) of its own. The model is the life of one exporter: `Start`, `Stop`, `Close`, spans that end and reports that
are due.

Simplified: each operation is one step (`Verif.Metric.ReaderTime` and `Verif.Trace.EndConc` have the steps); the two files are different; all spans
are sampled, except those of the reader, for which the sampler decides; a logger drops what cannot be written (as `log` does).
-/

namespace Verif.Examples.Log
open Verif

/-- `Options`, logexporter.go:46-58: the interval in nanoseconds, and whether there are paths of files for spans and metrics. -/
structure Cfg where
  interval : Int
  tFile : Bool
  mFile : Bool
  deriving DecidableEq, Repr

/-- A span: one of the program, or that of the reader around the export of report `n` (reader.go:191). -/
inductive Sp where
  | user (n : Nat)
  | own (n : Nat)
  deriving DecidableEq, Repr

/-- `LogExporter`, logexporter.go:34-43: there is an interval reader, it runs (`quit` is not nil, reader.go:133), the exporter is registered, the
files are open (or not used), and what has been logged. -/
structure St where
  made : Bool
  running : Bool
  registered : Bool
  tOpen : Bool
  mOpen : Bool
  tlog : List Sp
  mlog : List Nat
  deriving DecidableEq, Repr

/-- `NewLogExporter`, logexporter.go:72-85, with files that can be opened. -/
def St.init : St := ⟨false, false, false, true, true, [], []⟩

/-- The files that are open after `NewLogExporter` (logexporter.go:60-85), and whether it succeeds; `canT`, `canM`: the files can be opened. -/
def create (c : Cfg) (canT canM : Bool) : (Bool × Bool) × Bool :=
  if c.tFile && !canT then ((false, false), false)
  else if c.mFile && !canM then ((c.tFile, false), false)
  else ((c.tFile, c.mFile), true)

/-- What happens: calls of the exporter, a span of the program ends, the report `n` is due (the sampler takes the reader's span or not). -/
inductive Op where
  | start
  | stop
  | close
  | span (n : Nat)
  | report (n : Nat) (sampled : Bool)
  deriving DecidableEq, Repr

/-- `IntervalReader.Start`, reader.go:119-142; true for an error. -/
def readerStart (c : Cfg) (st : St) : St × Bool :=
  if c.interval ≠ 0 ∧ c.interval < 1000000000 then (st, true)
  else if st.running then (st, true)
  else ({ st with running := true }, false)

/-- `ExportSpan` through `End`, logexporter.go:160-224, trace/trace.go:287-302. -/
def logSpan (st : St) (s : Sp) : St := if st.registered && st.tOpen then { st with tlog := st.tlog ++ [s] } else st

/-- One step; true for an error. `Start` logexporter.go:114-121, `Stop` 124-127 with reader.go:159-173, `Close` 130-139, `ReadAndExport`
reader.go:190-200 with `ExportMetrics` logexporter.go:142-157. The reader is `&metricexport.Reader{}` (117), without a sampler of its own: its
span is sampled as any other. -/
def step (c : Cfg) (st : St) : Op → St × Bool
  | .start => readerStart c { st with registered := true, made := true }
  | .stop => ({ st with registered := false, running := false }, false)
  | .close => ({ st with tOpen := st.tOpen && !c.tFile, mOpen := st.mOpen && !c.mFile }, false)
  | .span n => (logSpan st (.user n), false)
  | .report n sampled =>
    if st.running then
      let st := if st.mOpen then { st with mlog := st.mlog ++ [n] } else st
      (if sampled then logSpan st (.own n) else st, false)
    else (st, false)

/-- A history. -/
def run (c : Cfg) (st : St) (l : List Op) : St := l.foldl (fun st o => (step c st o).1) st

/-! ## What is logged of a report -/

/-- A time series: label values and points (as they are printed). metric/metricdata/metric.go. -/
structure Series where
  values : List Bytes
  points : List Bytes
  deriving DecidableEq, Repr

/-- A metric: how its descriptor is printed, label keys, time series. -/
structure Metric where
  head : Bytes
  keys : List Bytes
  series : List Series
  deriving DecidableEq, Repr

/-- `printLabels`, logexporter.go:93-100, as key and value; it panics where there is no value. -/
def labels : List Bytes → List Bytes → Option (List (Bytes × Bytes))
  | [], _ => some []
  | _ :: _, [] => none
  | k :: ks, v :: vs => (labels ks vs).map ((k, v) :: ·)

/-- One entry of the log. -/
structure Entry where
  head : Bytes
  labels : List (Bytes × Bytes)
  point : Bytes
  deriving DecidableEq, Repr

/-- The entries of the points of one series, logexporter.go:145-153, and whether it panics. -/
def logPoints (m : Metric) (s : Series) : List Bytes → List Entry × Bool
  | [] => ([], false)
  | p :: ps => match labels m.keys s.values with
    | none => ([], true)
    | some ls => let r := logPoints m s ps; (⟨m.head, ls, p⟩ :: r.1, r.2)

/-- … of the series of one metric, logexporter.go:144. -/
def logSeries (m : Metric) : List Series → List Entry × Bool
  | [] => ([], false)
  | s :: ss => let a := logPoints m s s.points
    if a.2 then a else let r := logSeries m ss; (a.1 ++ r.1, r.2)

/-- `ExportMetrics`, logexporter.go:142-157. -/
def exportMetrics : List Metric → List Entry × Bool
  | [] => ([], false)
  | m :: ms => let a := logSeries m m.series
    if a.2 then a else let r := exportMetrics ms; (a.1 ++ r.1, r.2)

end Verif.Examples.Log
