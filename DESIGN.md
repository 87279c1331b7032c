# Formal model of opencensus-go: design and trusted base

The model lives in `lean/Verif`. One module models one area of the code; the property theorems are in
`lean/Verif/Props/*.lean`, apart from helper lemmas. Each definition cites the file and lines in `/repo`
that it models. `properties.jsonl` is the list of claims, `MANIFEST.json` says which theorems establish
which claim, `seeded/LOG.jsonl` records the wrong-program experiments.

## Modelling conventions

* A Go `string` or `[]byte` is a `List UInt8` (`Bytes`). `len` is the byte length.
* A Go `map` is an association list without duplicate keys, read through lookup. Where the code iterates
  over a map, the iteration order is an explicit parameter (any list of the entries up to permutation).
* An error return is a value (`Except`/`Option`); a run-time panic is a distinct outcome (`Res.panic`),
  so that "does not panic" is a statement and not an accident of totalisation.
* `int` is `Int`/`Nat` unless the property is about overflow, then it is `BitVec 64` or explicit
  two's-complement reduction (`wrap64`).
* `float64` is `F64`: NaN (one value), the two infinities, and the finite values as exact rationals. Every
  operation is the exact one followed by rounding to nearest, ties to even, with overflow to infinity and
  subnormals (`Verif/Rounding.lean`). There is no negative zero, and NaN payloads are not distinguished. Float
  code is written over a class `Arith`, so that the same definition is read at `F64` and at `ℚ`; a theorem about
  `ℚ` that does not hold of `F64` is called `_partial`.
* Pointers and slices are values where nothing is shared. Where sharing matters (tag maps, view data, tracestate
  entries, spans, metric entries) there is an explicit heap of cells or arrays.
* Goroutines are programs in an interleaving semantics with explicit atomic steps (mutex section, atomic
  instruction, channel send/receive); a schedule is an arbitrary list of thread choices.
* `time.Time` is an integer number of nanoseconds.

## Plan, property by property

| id | what is modelled | how it is proved |
|----|------------------|------------------|
| C01 | tag map as assoc list, mutators, `createMetadatas` | refinement to a partial function, induction on the mutator list |
| C02 | `tag.New` with contexts as immutable values and explicit errors | case analysis, induction on the mutator list |
| C03 | validity predicates of `validate.go` | invariant over histories of `New`/`Decode`; a zero `Key{}` breaks it: negation witness, `_partial` for keys from `NewKey` |
| C04 | varint, encoder, decoder on byte lists | round-trip by induction on the entry list, for every permutation |
| C05 | `Encode` filter | equality of encodings |
| C06 | `readBytesWithVarintLen` with 64-bit `int` conversion and slice-bounds panic | the full claim is false (length >= 2^63 panics): witness; exact condition for the panic and `_partial` |
| C07 | buffer/writeIdx state machine | refinement to append |
| C08 | `encodeWithKeys`/`decodeTags` | injectivity and round-trip by induction on keys |
| C09 | `encodeLabelVals`/`decodeLabelVals` incl. `len & 0xff` | round-trip below 255 bytes (`_partial`), witnesses of the panic at 255 and of the collision above |
| C10 | `RecordWithOptions` against a measure/subscription table | case analysis + induction |
| C11 | collector map of rows, aggregation data | invariant over sample sequences (fold of the filtered sequence) |
| C12 | `addToBucket` over an ordered sample type with NaN | induction on bounds and on samples |
| C13 | Min/Max initial values | false for non-positive samples: witness; `_partial` for a positive sample |
| C14 | Welford step over `ℚ` | induction, field arithmetic (`_partial`: rounding) |
| C15 | heap of row cells, clone | frame argument: fresh cells are never written |
| C16 C17 | worker state (`views`, `measures` refs), register/unregister/record commands | invariant + refinement over command histories |
| C18 | producers + bounded FIFO channel + worker | interleaving semantics, FIFO invariant |
| C19 | same, with `Stop` closing the channel | panics after Stop: witness; `_partial` for what does hold |
| C20 | `canonicalize`, `dropZeroBounds`, `checkViewName`, batch registration | sortedness; conflicts in the middle of a list register the rest: witness |
| C21 | `view_to_metric.go` | case analysis, induction on keys |
| C22 | `registerMeasureHandle` | first-wins invariant |
| C23 | `defaultIDGenerator` over `BitVec 64` | odd increment is a generator of Z/2^64; zero trace ID: witness |
| C24 C25 | `startSpanInternal` | decision logic, induction along chains |
| C26 | exact rational value of a float64, threshold | monotonicity of floor, comparison |
| C27 | `End` with `sync.Once`, copy-on-write exporter map | interleaving invariant |
| C28 | evicted queue | closed form "last n" by induction |
| C29 | LRU map | refinement to recency list |
| C30 | `ApplyConfig` | invariant over histories |
| C31 | span as `Option` data | case analysis over all operations |
| C32 | ring buffer bucket | refinement to "last n accepted" |
| C33 C34 | span store | filter equality, partition of latencies, invariant over histories |
| C35 | 29-byte format | round-trip, totality |
| C36 C37 C38 | hex, decimal, header splitting, regex as hand-written matchers | round-trip, rejection, totality |
| C39 | entry lists, plus a slice/heap model for aliasing | list laws; aliasing of the caller's slice: witness |
| C40 | CAS loop threads | interleaving invariant (sum of completed adds); int overflow witness |
| C41 | registry map | invariant over histories; replaced handle: witness |
| C42 | encoder with `strconv.Quote` for ASCII, lazy-regex decoder | `_partial` for tame labels; witness for `",` |
| C43 | merge | algebra |
| C44 C45 | tracker state machines | induction over call sequences |
| C46 | 32-row table | finite table by `decide`, lifted |
| C47 | `TraceStatus` | case analysis over `Int` |
| C48 | atomic counters | order independence of sums; non-status error witness |
| C49 | `Sanitize` over ASCII and abstract rune classes | induction |
| C50 C51 | state machines | invariants |
| C52 | `Enable`/`Read` dispatch | deprecated mode never refreshed: witness; `_partial` |
| C53 | two bounds tables | mismatch 100s vs 60s: witness; `_partial` |
| C54 | `startTrace` | decision logic |
| C55 | span operations as a machine | invariant: data = replay of the calls |
| C56 | `getSummaryPageData`, span stores | counting invariants, sortedness |
| C57 | gRPC stats events as span operations | every program and schedule around the RPC |
| C58 | both ends of the gRPC plugin, binary format, tag codec | composition of the round-trips; stale header and panic: witnesses |
| C59 | `snapExporter`, `getStatsPage` | refinement to "last exported data"; witnesses for the lost bytes and the headings |
| C60 | the worker's commands | refinement to a machine that keeps only what was registered and recorded |
| C61 | the two locks, the channel and the set of exporters as steps of goroutines (`ReportConc`) | invariant over every schedule, monitor over the trace; re-entrant exporters: witnesses |
| C62 | headers as maps in memory, both ends of the HTTP plugin, the three formats | composition of the round-trips with the span machine; stale tracestate: witness |
| C63 | `addSample` over IEEE 754 doubles (`Float`, `RoundMono`, `RoundErr`) | invariant over the samples, error bound of one step by rounding lemmas, induction |
| C64 | `requestAttrs`, `statusAttr`, client and server span operations, the span machine | filter of the program to the span, `exported_attributes`, distinct keys within the limit |
| C65 | tag keys as slices of arrays in memory, sorted in place (`View/Alias`), and the worker | simulation by the worker whose views have their own keys; overlapping slices: witness |
| C66 | the measures and views of both plugins (`Plugins/Views`), `Register` | closed facts about the 31 views, then the worker's refinement |
| C67 | the client transport, its `stats.Record` calls as commands (`Plugins/Report`), the worker | what each request records, permutation invariance of the counts over interleavings |
| C68 | the server handler, likewise | likewise |
| C69 | the gRPC handlers as interleaved goroutines, their records as commands (`Plugins/GrpcReport`), the worker | what each event's handler records (C48), one start and one end per RPC, permutation invariance |
| C70 | one span, its mutex, its `sync.Once` and the clock, used by any number of goroutines (`Trace/SpanConc`) | invariant over the steps: every event of the log is allowed by those before it; linearization at the critical sections |
| C71 | the same model as the concurrent C27 (`Trace/EndConc`), with calls and returns in the log | invariant: every event of the log is allowed by those before it; then the order of call, effect and return |
| C72 | readers beside the worker, whose commands are cut into the steps others can see (`View/ReadConc`) | invariant: what is left of the command being handled leads to the state of the sequential worker; each reader refers to the state it found with the lock |
| C73 | the hooks of a `ClientTrace` as annotations (`Http/Trace`) over the trace machine | the annotations added to the span correspond one to one to the events; then the theorem on exported events of C28 |
| C74 | goroutines, one lock, code as single accesses (`Conc/Object`), four instances (`Conc/Shared`) | one theorem for all (`Conc/Lin`): if each access preserves what every other goroutine at a compatible place relies on, the execution is as if the calls were made one after the other; then induction over that order |
| C75 | operations on `sync.Map`s and entries as a log (`Metric/RegConc`); a `Range` may see any mapping of a moment of the call | invariant of the log and of where each goroutine is; the specification is in terms of moments (prefixes of the log) |
| C76 | spans and their data as cells of a heap, `append` in place or not (`Trace/Heap`); the specification has values (`Trace/Span`) | forward simulation; each cell has an owner, a step changes cells of one owner only |
| C77 | stores, spans and the four kinds of locks as interleaved critical sections with a log (`Trace/StoreConc`); memory is what the log says | invariant: what each goroutine knows at its place, who holds which lock; measure for progress |
| C78 | `Zpages/TraceRows`: the rows of a span, with the calendar and `%q`/`%v` as parameters and the order of ties as a choice | a reader of the texts (`valueOf`, `readTimes`) as specification; induction over the events |
| C79 | the model of C63 (`View/Agg` over `F64`) | induction over the samples with the error of mean and squared deviation as invariant; each operation within half a unit in the last place |
| C80 | bounds as slices of arrays in memory, sorted in place, kept by every row (`View/BoundsAlias`) | invariant over the operations: a slice is a rearrangement of what it was, and in order once registered; counts by induction over the samples; overlapping slices and writes: witnesses |
| C81 | a program that tags, hands tags on, registers, records and reads, made of the models of `tag`, `stats` and `stats/view` (`View/Program`) | refinement: contexts show the specified tags, views hold the specified recordings; per call by the theorems of C01-C05, C10, C16, C21; points by those of C11-C13 |
| C82 | a list of processes, each the machine of `Trace/Span` with its own memory; a call is one step that starts the client's span, sends its context and starts the server's span (`Net`) | every process has run its log; a call links two spans for ever; then C24-C27, C58, C62 per edge and induction over the edges; an unsampled span tells what the sampler says of its trace |
| C83 | assignments to one map under a signature (`Metric/TestExporter`) | the map holds the last assignment; a signature is a name up to the first brace and a text of keys and values; that text has one reading when keys and values use different letters, or when there is one key |
| C84 | programs that call handlers, run over a heap of trackers (`Http/Routes`) | induction on programs: each tracker has noted exactly the calls inside it, the log grows by what is expected; one handler refines the model of C45 |
| C85 | programs with a goroutine's labels and samples; a printer over any order of the entries (`Tag/Profile`) | induction on programs; the sorted names are unique; the text is read back from the left |
| C86 | the division in binary64 (`Plugins/Latency`) | monotone rounding and its error, composed with the counting theorems of C67-C69 |
| C87 | the attachment (`Plugins/Exemplar`) with the models of RPCs, worker and spans | the last qualifying sample of the bucket, composed with the span export theorem of C57 and the counting theorems of C69 |
| C88 | the span and store models of C33/C34 | invariant over programs: every bucket refines the bucket specification of C32 run on the history; a bucket not yet made is one resized before its first span |
| C89 | View/Period: the loop, its ticker and the callers in time | invariants over runs (ticks received lie on a grid of the period; exact times in runs where nothing waits) |
| C90 | Zpages/Page, TraceRows | round trip: a reader of documents with modes (text, reference, tag, quotes) is run over each piece; escaping lemmas over all bytes |
| C91 | Zpages/Page, Tracez | composition of the page as read back (C90), query parsing as inverse of escaping, and the counts of C53; partial: the latency columns for ordinary durations, and not for the empty name (`empty_name_not_listed`) |
| C92 | Zpages/RpcPage, Rpcz | reading the document back (as C90), a reader of tables with `colspan` over it, error bounds of formatting through binary64 rounding, composed with C59; partial: data rates are shown in millions of bytes under headings that say kb (`heading_says_kb`) |
| C93 | Zpages/Enable, Rpcz, RpcPage, View/Worker, Grpc | composition of C69 (events to records), C60 (records to reports), C59 and C92 (reports to tables): what the exporter gets is split at the last tick, earlier reports are of prefixes of the records; double counting of rows by tags for the errors. Errors need a status, as gRPC documents of `stats.End` (`other_unseen`) |
| C94 | Trace/Api | contexts as chains of values; other implementations as any function of the calls they have had; invariant over runs for the tasks; refinement to the state machine of `Trace/Span`. Partial: a second `End` ends the task again |
| C95 | Metric/Pipeline | composition of the registries in many goroutines (`Metric/RegConc`) with the manager and `ReadAndExport`; invariant over runs; each registry's part of an execution is an execution of that registry, and its moments map to the whole's. Producers that are not registries and the span of `ReadAndExport` are left out |
| C96 | Metric/ReaderTime | the state machine of C50 with a clock and the times of the tickers; without the times it is that of C50 (`untimed`); invariants on the reader's ticker as in C89 |
| C97 | View/Equal | the comparison against a specification in exact arithmetic, with monotone rounding between dyadic numbers next to the root of 1e-9; witnesses where it is no equality |
| C98 | Zpages/Text | the layout of text/tabwriter as a fold over bytes; a table of plain cells lines up, by induction over its lines; the pages as tables; witnesses with names and messages that are not plain |
| C99 | Zpages/RpcText | the table theorem of C98 on the lines of the page, figures read back as decimals, composed with the snapshots after any exports (C59) |
| C100 | Zpages/Mux | `path.Clean` as a walk that is the identity on paths made of names; a pattern once registered stays; patterns without a slash at the end match one path; `_partial`: the stylesheet is not found |
| C101 | View/Export | composition of the meters in many goroutines (`View/ReadConc`) with the manager, `Start`/`Stop` and `ReadAndExport`; invariant over runs; each meter's part of an execution is an execution of C72. `_partial`: `Stop` before the meter's goroutine has begun leaves a producer behind |
| C102 | Runmetrics/Conc | loads, stores, `Delete` and `Store` of every statement as interleaved steps, with a log; invariant: where each loaded or stored value is from. `_partial`: a point is not before the call of the oldest reading then running (a gauge can be older than the call, `gauge_goes_back`), the figures can be of two moments (`torn`) and a cumulative can be missing (`cumulative_missing`) when readings overlap |
| C103 | View/Worker, View/Metric | from the refinement of C16 and C21: which recordings each series is made of; invariant: a registered view has collected a suffix of the history. `_partial`: recordings carry the time of the call, not of handling; with several goroutines a series can contain a recording from before its start (`recording_before_start`), a restart can have an earlier start (`restart_goes_back`), and with a coarse clock the same (`restart_unnoticed`) |
| C104 | Http/Cancel | refinement of the callers' view, without copies, by pointers to requests and their copies; invariant: copies are fresh and shared by no two calls. `_partial`: `CancelRequest` with the caller's request is lost (`cancel_request_lost`, `not_given_up`); with the response's request it gets through (`cancel_response`) |
| C105 | Conc/ExportCalls | goroutines as stacks of spans they are inside `End` of; invariants over the log of calls for every state of `endOnce`; progress by the order of spans and a measure of what is left. `_partial`: a panic of one exporter keeps the span from the others (`panic_loses`); an exporter that ends the span it is given, or two that end each other's, wait for ever (`self_end_stuck`, `each_other_stuck`, `wait_for_ever`), and one that ends sampled spans is called from inside itself without end (`traces_itself`); with unsampled ones never (`not_nested`) |
| C106 | View/Meters | each meter's part of the state is a state of C81's program, in which calls of other meters only set subscription flags; invariant of C81 for every meter at once. The flags are shared, so the error of a recording tells of the others (`error_shared`) |
| C107 | View/Resource | the machine of C72 with the field `r` of the worker; per reader the moments of its loads of `r`, as prefixes of the log. `_partial`: when a resource is set while `Read` runs, one reading has the data of one meter under two resources (`two_resources`); always each metric's resource was current since `Read` was called, in order (`resource_is`) |
| C108 | Check/Version | the program as a function of the output of `git tag`; `sort.Slice` by its promise. `_partial`: a tag with a negative number overflows the comparison and the check passes wrongly (`passes_wrongly`); a tag that is no version, or no release at all, ends it with a panic (`other_tag_panics`, `no_release_panics`) |
| C109 | View/Crash | `Register` on pointers; exact condition for the end of the process (`ends_iff`). `_partial`: it goes on if no pointer is nil and measures and aggregations are those of the packages; otherwise a nil view, an aggregation without type, a foreign measure end it at `Register` (`nil_view_ends`, `untyped_ends`, `foreign_ends`, `unknown_ends`) and an aggregation literal at the first record (`literal_registers`) |
| C110 | Props/Bounded over Trace/Span | invariant over all histories: sizes of all buckets, contents of all spans and buckets within the limits (`slots_bounded`, `data_bounded`), running lists (`ended_let_go`), names stay for ever (`names_kept`) |
| C111 | Props/BoundedMeter over View/Crash | invariant over all histories: rows by tags of records, references by measures, start times by registered views (`rows_bounded`, `refs_bounded`), nothing left after unregistering (`unregistered_let_go`) but empty references (`recorded_kept`) |
| C112 | Metric/ReaderCalls | goroutines as stacks of frames (program, `ExportMetrics`), the mutex and the two channels; invariant on where the holder of the mutex is; exact condition for being stuck (`stuck_iff`, `stuck_silent`), calls during a tick (`tick_calls`). `_partial`: not stuck if exporters make no calls, or only `Start` and `Flush` while nobody calls `Flush` or `Stop` (`not_stuck_partial`); otherwise `flush_in_flush`, `stop_in_tick`, `flush_while_stop` |
| C113 | Tag/Own | heap of maps (with nil pointers and `tag.Map{}`), contexts and queued recordings as pointers, implemented mutators as the calls they made and what they returned; frame (`frame`), effect and panics of `Mutate` (`mutate_changes`, `mutate_panics_iff`). `_partial`: clean programs (`new_clean_partial`, `tags_stay_partial`, `recorded_partial`); otherwise `mutate_shared`, `returned_shared`, `returned_nil`, `returned_zero`, `tags_stay_fails` |
| C114 | View/Loops | goroutines and any number of loops as phases between channel operations, channels with capacity and closing, the causes of a panic; counting invariant over loops. `one_ends`, `others_end_process`, `no_rest`, `none_lost`. `_partial`: one `Start` (`loop_safe_partial`, `in_order_partial`), `not_producer_partial`; otherwise `twice_crashes`, `restart_crashes`, `two_loops_swap` |
| C115 | View/Rename | view objects in memory that the program can write to, `viewInternal` with the pointer, tables by name and by measure; refinement of a meter that keeps copies (`Rel`, `rel_step`). `_partial`: no writes to registered views (`reports_partial`); otherwise `renamed_stays`, `renamed_twice`, `other_removed`, `measure_changed`, `reports_fails` |
| C116 | Http/Panics | `RoundTrip` and `ServeHTTP` with hooks, base transport, body, handler and exporters that may panic; exact numbers of each thing recorded (`counted`, `started`, `finished`, `completed`, `closed`, `served`). `_partial`: clients in which nobody panics once counted (`balanced_partial`); otherwise `unfinished_iff`, `base_panics`, `name_panics`, `exporter_keeps_connection`, `balanced_fails` |
| C117 | Http/BodyConc | goroutines in phases between the steps of the two wrappers, `sync.Once` as entered, waited for and done, load and store of `respSize`; invariants of the holders (`Inv`), of the sum of what is counted and pending (`Sum`), of one reader (`One`); `once`, `over_complete`, `returned`, `progress`, `size_le`. `_partial`: exact sizes for one reader (`size_partial`); otherwise `close_during_read`, `two_readers`, `size_fails` |
| C118 | Examples/Log | the exporter, its reader and its files as a machine; exact logs by induction on histories from a specification that sees only the history (`spans_logged`, `reports_logged`, `start_fails_iff`), entries of a report (`report_panics_iff`, `report_complete`). `_partial`: `failed_start_partial`; otherwise `failed_start_logs`, `closed_silent`, `own_spans`, `create_leaks_iff`, `report_panics` |
| C119 | Grpc/Panics | contexts and calls as a machine; exact contents of the log for each RPC by induction on histories, from a specification that sees the RPC's own calls only (`started`, `exported`, `recorded`), exactly which calls panic (`panics_iff`). `_partial`: `completed_partial`; otherwise `exporter_loses_counts`, `completed_fails`, `ended_twice` |
| C120 | Examples/Print | the output byte by byte; injectivity for all spans (`ids`), `parent_iff`, the exact lines of a span and of a view without newlines (`span_lines`, `view_lines`). `_partial`: `name_partial`; otherwise `name_fails`, `attributes_ambiguous` |

## What is modelled

| code | model | not modelled |
|------|-------|--------------|
| `tag` | `Tag/Map`, `Tag/Codec`, `Varint`, `Tag/Profile`, mutators of the program (`Tag/Own`) | `runtime/pprof` (taken from its documentation) |
| `internal/tagencoding`, `internal/sanitize.go` | `TagEncoding`, `Sanitize` | — |
| `stats` | `Stats/Measure` | `units.go` constants |
| `stats/view` | `View/*`: aggregation data, collector, views, commands, worker, conversion to metrics, snapshot heap, goroutines and channel (`Conc`), reports and exporters (`ReportConc`), readers beside the worker (`ReadConc`), the loop and its ticker in time (`Period`), any number of loops (`Loops`), views that are changed (`Rename`) | logging, exporter panics |
| `metric`, `metricdata`, `metricexport`, `metricproducer` | `Metric/*`, with the exporter for tests (`TestExporter`) | the exporter's `String`, the exemplar attachments of `metricdata` |
| `resource` | `Resource/*` | — |
| `trace` | `Trace/*`: IDs, samplers, span life cycle, queues, LRU map, export, span stores, ring buckets, concurrent `End` (`EndConc`), a span shared by goroutines (`SpanConc`), arrays and maps in memory (`Heap`), stores and their locks (`StoreConc`), `*Span`, contexts, spans of other implementations and execution tracer tasks (`Api`) | a replaced `DefaultTracer`, a `*Span` inside a `*Span`, `trace_nongo11.go` (Go before 1.11), regions and logs of `runtime/trace` |
| `trace/propagation`, `trace/tracestate`, HTTP formats | `Wire/*` | — |
| `plugin/ochttp` | `Http/*`: client transport, trackers, server handler, writer wrapper, status, trace headers (`Propagate`), `httptrace` annotations (`Trace`), handlers inside handlers and routes (`Routes`), `CancelRequest` (`Cancel`), panics of hooks, transports, bodies and exporters (`Panics`), bodies used by several goroutines (`BodyConc`) | responses that are changed by their receiver (the views are in `Plugins/Views`, the latency values in `Plugins/Latency`) |
| `plugin/ocgrpc` | `Grpc/*`: both handlers, counters, spans, metadata | gRPC itself (a nil `RPCTagInfo` is in `Grpc/Panics`, the views are in `Plugins/Views`, the latency values in `Plugins/Latency`, the exemplar attachments in `Plugins/Exemplar`, without the tracestate) |
| processes that call each other | `Net`, from `Trace/Span`, `Http/*`, `Grpc/*`, `Wire/*` | the network (headers that carry traces and binary metadata arrive as sent), a call is one step |
| `plugin/runmetrics` | `Runmetrics/*`; `Conc` has concurrent reads | the runtime; that a field of the sample is loaded at once |
| package variables of `trace`, `stats`, `metricproducer` used by many goroutines | `Conc/*`: configuration, measures, producers, span stores by name | `GlobalManager`'s `once` |
| `zpages` | `Zpages/*`; the templates of the trace page are in `Zpages/Page` and that of the RPC page in `Zpages/RpcPage`, with the escapers of `html/template` and the parsing of `net/url` taken from their source; `ServeMux` (before Go 1.22), `path.Clean` and the file server are in `Zpages/Mux` | the calendar and `%q`/`%v` (parameters of `TraceRows`), request bodies |
| `examples/exporter` | `Examples/Log`: `LogExporter`; `Examples/Print`: `PrintExporter` | how values are printed; the other examples |
| `internal/check`, `opencensus.go` | `Check/Version` | running `git`, what is printed |

Library code is taken from its documentation: `encoding/binary` varints, `encoding/hex`, `strconv`, `strings`,
`unicode/utf8`, `regexp` (each regular expression is written out by hand as a matcher), `net/http` headers
(canonical names) and its cancelling of requests by pointer, context and channel, `sync`, `sync/atomic`, channels, `time.Ticker`, and groupcache's LRU. Unicode tables
(`unicode.IsDigit` and so on) and `strconv.IsPrint` are parameters of the theorems. `time.Sub` saturates in Go and
does not in the model. What a conversion from a float to an integer gives when the value does not fit is a
parameter (`Conv`).

Concurrency is at the level of atomic steps: a critical section, an atomic instruction, a channel operation. Data
races are modelled where the code has them and a claim depends on it (`Metric/Race` for the shared label slice,
`Grpc` for torn counts, `Trace/EndConc` at the level of single memory accesses). The server tracker's
`respSize +=` is one step.

## Where the code does not do what a reader would expect

Each item is a theorem (a witness of the negation) beside the `_partial` theorem of the part that does hold.

Tags
* `FromContext` gives the map itself, and `Mutate` is exported: a program that calls it changes the tags of every context with that map, and
  those of recordings that were made before and wait. A mutator that the program implements may return another map: the mutators after
  it then change that one, so `New` can change a context it was not given; for nil and `tag.Map{}` they panic (C113).
* `tag.Decode` panics on a declared length near 2^63; twelve bytes from the network reach it through the gRPC
  server handler (C06, C58). The zero `Key{}` can be inserted and makes an invalid map (C03). `tag.Do` panics when the
  context has no tags; two maps can print the same text (C85).

Stats and views
* A meter keeps pointers to the views it was given, but its tables by their old names and measures. A view renamed while registered cannot be
  unregistered, is reported twice after registering it again, and unregistering by the old name can remove another view (C115).
* A meter must be started once and not again after `Stop`: with a second loop `Stop` ends the process, by closing a channel twice or with a
  nil command, and so does a `Start` after `Stop`. While two loops run, recordings are handled out of order (C114).
* The zero `Measurement{}` panics; a failing mutator goes unnoticed when no view subscribes (C10),
  and whether one does is asked of all meters of the process together (C106).
* `SetResource` takes no lock and `Read` loads the resource once per view: one reading may have the data of a meter
  under two resources (C107). It is a data race in the sense of the Go memory model, too; the model takes the loads as atomic.
* The greatest sample is wrong when no sample is positive (C13). The running mean overflows on representable
  data (C14).
* `View.same` ignores tag keys and compares aggregation pointers, so an equal view conflicts and a different one
  does not (C16). `Register` sorts the tag keys in place: when two views have overlapping slices of one array, the
  rows of the view registered first come under the wrong keys (C65). Bounds are sorted in place as well, and rows keep the caller's slice: registering a second view can move the bounds of the first one's rows, and so does a caller that goes on using the slice; samples are then counted in the wrong bucket (C80). An empty measure name and duplicate bounds are accepted (C20).
* `Meter.Start` makes the meter a producer in the goroutine it starts, `Stop` removes it in the caller's. `Stop` soon after `Start` can come
  first; the stopped meter then stays among the producers for ever, though it has nothing to export (C101, `stopped_stays_producer`).
* A recording carries the time at which `Record` was called, but is handled when its command is. With several goroutines a series can
  contain recordings from before its start time, and data that was started afresh can have an earlier start than what was read before
  (C103, `recording_before_start`, `restart_goes_back`); on a coarse clock it can have the same (`restart_unnoticed`).
* `zpages.Handle` registers its files under `path.Join(prefix, "public/")`, which drops the slash, so the pattern matches one path only:
  the stylesheet that the pages link to is not found under any prefix, and no request ever gets a file (C100, `stylesheet_not_found`,
  `no_file`). A prefix that does not begin with a slash is taken as a host, and the empty prefix serves nothing
  (`relative_is_host`, `empty_serves_nothing`).
* The text pages escape nothing (C98): a span name, an annotation message or an attribute key with a newline forges a line
  (`names_forge_lines`, `messages_forge_lines`), and a name with the byte 255, the escape of `text/tabwriter`, leaves the lines after it
  without layout (`names_escape`).
* The RPC page as text has a heading for the greatest latency and no such figures: the rates and the errors are three columns too far to
  the left, and what is under `In (MiB/s)` is KiB/s (C99, `rate_not_under_heading`).
* `Row.Equal` is no equality (C97): a copy of a row whose sum or mean has become infinite is not equal to it
  (`infinite_not_equal`), it is not transitive, rows of different bounds are equal (`bounds_ignored`), and a row without
  tags that was read from a view never equals one written with an empty slice (`empty_tags_differ`).
* A call after `Stop` crashes, concurrent `Stop`s crash, `Stop` drops queued commands and blocks for ever on a
  meter that was never started (C19). While a view is being registered, the recordings of one goroutine can be
  collected out of order (C18).
* Exporters are called with the meter's locks held on the worker's goroutine: one that calls `RegisterExporter`,
  `UnregisterExporter`, `Find`, `Register`, `Unregister`, `RetrieveData` or (on a tick) `Read` from `ExportView`
  waits for ever, and so does one that records while the command channel is full (C61).
* `Transport.CancelRequest` does nothing to a request sent through the `Transport`, other than to a health endpoint:
  the base was given a copy and knows requests by pointer (C104, `cancel_request_lost`). Contexts, the `Cancel` channel
  and `CancelRequest(resp.Request)` get through.
* `ExportSpan` is called inside the `sync.Once` of the span (C105): an exporter that ends the span it is given waits for
  ever, as do two that end each other's; one that ends a sampled span is called again from inside itself, without end;
  and when one panics the others never get the span, though `End` counts as done.
* `net/http` may give a connection back after the body was read, when the client's span has ended: the annotation
  `PutIdleConn` is then lost (C73, `late_event_lost`).
* `Read` does not go through the command channel, so a goroutine need not see its own recordings in it (C72).
  `Unregister` clears the rows of a view without the lock that `Read` holds: this is a data race in Go; the model
  takes the assignment of the new map as one step.

Metrics and resources
* A label value of 255 bytes makes reads panic; one of 256 bytes collides with the empty value (C09).
* Adding a metric again replaces the one whose handle was given out (C41). Entry creation races through a shared
  slice; `UpsertEntry` has a gap between its two steps (C41).
* Cumulatives take NaN, and integers wrap; a negative gauge reads 0 through a derived reading (C40).
* Resource labels do not round-trip for the empty map, quotes before commas, non-ASCII text, or long values (C42).
* The deprecated runtime metrics stay at zero (C52).
* An exporter that calls its own interval reader can block it for ever, with its mutex locked (C112): any call when it was called by
  `Flush`, `Stop` when it was called for a tick, and even `Flush` or `Start`, which would do nothing, when another goroutine has come to
  `Stop` in the meantime.
* Two metric readers that read the runtime metrics at the same time disturb each other: a reading can have figures of two moments
  (`torn`), a gauge can go back to what it was before the reading was called (`gauge_goes_back`), and a cumulative can be without a point
  (`cumulative_missing`) (C102).
* `Sanitize` is not idempotent at 101 to 104 bytes and lets a non-ASCII digit lead (C49).

Trace
* `End` ends the span's execution tracer task before it looks whether the span has ended: a second `End` writes a
  second end of the task (C94, `ends_twice`). Every method of `&Span{}` panics, and `Internal` does on nil
  (`empty_panics`).
* `NewTraceID` can be zero (C23). Reading active spans changes which attribute is evicted next (C29).
  Annotations of a span shared by goroutines can be exported out of the order of their times: `Annotate` reads the
  clock before it takes the span's lock (C70). `UnregisterExporter` does not wait for running `End`s, so an
  exporter can be called after it has returned (C71).
* B3 accepts all-zero IDs (C36). Trace-context accepts long options and keeps a stale `tracestate` header (C37).
  The attributes of a link are the caller's map: writing to it later changes exported data (C76).
  The binary format truncates options to a byte (C35). `tracestate.New` keeps the caller's slice (C39).

Plugins and pages
* gRPC: `HandleRPC` ends the span before it records the counts, so an exporter that panics at the end of an RPC loses its counts. `TagRPC` with a nil
  info panics in `traceTagRPC` before the check in `statsTagRPC`. A second `End` records the counts again (C119).
* `PrintExporter` prints names and messages as they are: a newline in a name makes lines that look like others (C120).
* The `LogExporter` of the examples registers itself before it starts its reader: a `Start` that fails because of the interval still makes it log
  spans. Its reader is `&metricexport.Reader{}`, not the `NewReader()` it keeps beside, so with a sampler that takes all spans each report logs
  a span of its own. After `Close` a new `Start` succeeds and nothing is logged (C118).
* A body that is closed in one goroutine while another reads can be recorded without the bytes of that Read; with two readers the unprotected
  `respSize += n` loses bytes. The span and the statistics are still recorded once, before any `Close` returns (C117).
* `Transport.RoundTrip` defers nothing: if `NewClientTrace`, the propagation format or the base transport panics and the program recovers, the
  span is never ended and the request counted but never completed; an exporter that panics in `Close` keeps the body from being closed. The
  server's `Handler` defers both ends and has no such gap (C116).
* HTTP client: an unread body counts as Content-Length bytes, bytes read after EOF are not counted, a nil body
  panics (C44). HTTP server: `ReadFrom` bypasses the size, an invalid route drops the record, the last
  `WriteHeader` wins in the record though the first is sent (C45). A `Tracestate` header the caller already had is
  sent on when the client's span has none, and becomes the server span's (C62).
* HTTP client views: the documentation of the status tag says a transport error shows as "error"; it is recorded as
  500, so that it cannot be told from a response with that status (C67). `ClientRequestBytesView` is a distribution
  of `ClientSentBytes`, which is -1 for a request without a body. HTTP server views: a request with
  an invalid route is counted as started but not as answered (C68).
* HTTP server: a panicking handler is recorded without the route of `WithRouteTag`, with status 200 if it wrote none; of
  nested `WithRouteTag`s the outermost is recorded and the innermost is in the context (C84).
* Exporter for tests: label keys and values are written one after the other without separators, so the points of
  `{a: bc}` and `{ab: c}` are mixed up (C83).
* RPC page: the data rates are divided by 10^6 and shown under headings that say `kb/s` (C92, `heading_says_kb`).
  The columns for the last minute and the last hour never show anything but zero, and a count of zero is shown as a blank.
* Trace page: spans with an empty name are counted in the summary and no page lists them (C91,
  `empty_name_not_listed`); the link of the errors is never closed (`specRow` of C90).
* gRPC views: the measure and view `grpc.io/client/server_latency` exist but the plugin never records the
  measure: the view stays empty (C69).
* gRPC: a method that is no valid tag value drops the records; an error that is no status gives an empty status
  tag while the span says INTERNAL; counts can be torn at `End` (C48). A `grpc-trace-bin` value already in the
  outgoing metadata wins over the client's span (C58).
* Trace pages: a span whose duration is a bound is on two pages; one of 60 to 100 seconds is counted in one column
  and listed under another (C53).
  The elapsed column shows 5 µs as `     .     5` and -5 µs as `    0.000005` (C78).
* RPC page: bytes received by a server are never shown; the text page has a heading without figures (C59); the
  columns headed MiB/s hold KiB/s (not stated as a theorem).
* The version check before a release panics on a tag that is no version and on a repository without releases, and passes wrongly
  when a tag has a negative number that makes the comparison overflow (C108).
* `view.Register` ends the process, by a panic in the meter's goroutine, for a nil view (after valid ones), an aggregation without
  type (`&view.Aggregation{}`), a count, sum or last value of a measure of a type that the program defines, and a distribution of
  such a measure if package stats has none of the name (`stats.SubscriptionReporter` also leaves the lock of the measures taken: stats/record.go has no `defer`). An aggregation that is
  a literal with a type is accepted; the first record of its measure ends the process (C109). C74 takes views on measures that
  were created, by the guard `can`.
* Once z-pages are served, every span name ever used is kept for ever with nine preallocated
  buckets, though its spans have ended: a program that makes up span names grows without bound (C110, `names_kept`). Each status
  code other than 0 makes one more bucket per name.

## Wrong programs

`seeded/LOG.jsonl` has a line for each wrong program tried: the definition edited, the edit, the claim it breaks and
the theorems that failed. The lines up to C65 were written by an earlier script, which named a failing theorem by
the nearest declaration above the error and stopped at the first module that failed: a name may be that of the lemma
before, and later theorems are missing. The lines from C66 on list every declaration that fails once those that
fail before it are assumed.

## Trusted base

Lean 4.33.0's kernel. The axioms `propext`, `Classical.choice` and `Quot.sound` at most (`#print axioms`; the
gate checks it); none of our own, no `sorry`, no `native_decide`, no `bv_decide`. The reading of the Go code
recorded in the comments of the model, with the simplifications named there, and the library facts above.
