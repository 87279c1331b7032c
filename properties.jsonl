{"id": "C01", "title": "Tag mutators behave like updates of a partial function", "statement": "The map a caller reads back from the context returned by tag.New equals the incoming map with the mutators applied left to right, where Insert sets a key only if it is absent, Update sets a key only if it is present, Upsert always sets it and Delete removes it; no other key changes, and every metadata option is applied in order with the last TTL winning (unlimited when none is given).", "quantifier": "every incoming tag map, every finite list of mutators and metadata options, every key", "why_tests_cant": "Unit tests try a handful of short mutator lists; the law is about arbitrary compositions, repeated keys and every other (unmentioned) key.", "anchors": ["tag/map.go: New, Insert, Update, Upsert, Delete, createMetadatas", "tag/metadata.go: WithTTL"]}
{"id": "C02", "title": "tag.New is all-or-nothing and leaves the incoming map alone", "statement": "If any mutator fails, or the incoming map holds an invalid key or value, tag.New returns an error and the very context it was given; it never returns a context with only some of the mutators applied, and the incoming map reads the same before and after in every case.", "quantifier": "every incoming context, every mutator list, every position of the failing mutator", "why_tests_cant": "The failing position and the incoming map range over infinite sets; tests only place one bad mutator.", "anchors": ["tag/map.go: New", "tag/context.go: FromContext, NewContext"]}
{"id": "C03", "title": "Tag values and keys reachable through the API are always valid", "statement": "Starting from an empty context, any sequence of tag.New calls whose keys come from NewKey, and any successful Decode, yields maps in which every key is 1..255 printable ASCII bytes and every value is at most 255 printable ASCII bytes, so that a later tag.New never rejects them.", "quantifier": "every history of tag.New and Decode calls", "why_tests_cant": "Validity must be an invariant over unbounded histories, including maps received from the wire.", "anchors": ["tag/validate.go: checkKeyName, checkValue", "tag/map.go", "tag/map_codec.go: DecodeEach"]}
{"id": "C04", "title": "Tag wire format round-trips", "statement": "Decoding the bytes produced by Encode yields exactly the tags whose TTL is unlimited, each with its key and value and unlimited TTL, whatever order the runtime iterates the map in.", "quantifier": "every valid tag map of any size and every iteration order", "why_tests_cant": "Needs every map size, every length across varint boundaries and every iteration order.", "anchors": ["tag/map_codec.go: Encode, Decode, DecodeEach, encoderGRPC", "encoding/binary: PutUvarint, Uvarint"]}
{"id": "C05", "title": "Tags with no propagation never reach the wire", "statement": "A tag inserted with TTL NoPropagation (or any metadata whose last TTL is not unlimited) contributes nothing to Encode's output: changing or removing such tags does not change the encoded bytes of the others.", "quantifier": "every map and every subset of non-propagating tags", "why_tests_cant": "A leak for some combination of tags is a privacy bug that sampling maps cannot exclude.", "anchors": ["tag/map_codec.go: Encode", "tag/metadata.go"]}
{"id": "C06", "title": "Decode never panics and never returns partial results", "statement": "For every byte string, Decode returns either a map or an error; when it returns an error no map is returned; when it succeeds the map holds the last value given for every key in the input.", "quantifier": "every byte string", "why_tests_cant": "The input space is all byte strings, and the interesting ones (overlong varints, lengths near 2^63) are not hit by sampling.", "anchors": ["tag/map_codec.go: Decode, DecodeEach, readBytesWithVarintLen"]}
{"id": "C07", "title": "The tag encoder's buffer management is invisible", "statement": "However the output buffer is initially sized and grown, Encode's result is the concatenation of the bytes written, with no write past the end of the buffer and no stale byte in the result.", "quantifier": "every initial buffer size and every sequence of writes", "why_tests_cant": "Growth happens at sizes that depend on the whole history of writes.", "anchors": ["tag/map_codec.go: growIfRequired, writeByte, writeBytesWithVarintLen, bytes"]}
{"id": "C08", "title": "A view row is identified by exactly its tag-key values", "statement": "Two recordings land in the same row of a view if and only if their tag maps agree on every tag key of the view (an absent tag counting as the empty value), and the tags reported with the row are exactly the non-empty values the recordings carried for those keys.", "quantifier": "every list of view tag keys and every pair of tag maps with valid values", "why_tests_cant": "Row identity is an injectivity statement about a byte encoding; no finite set of pairs settles it.", "anchors": ["stats/view/collector.go: encodeWithKeys, decodeTags, collectedRows", "internal/tagencoding/tagencoding.go: WriteValue, ReadValue"]}
{"id": "C09", "title": "Metric entries are identified by exactly their label values", "statement": "In a gauge or cumulative two GetEntry calls return the same time series if and only if their label values are equal (including absent versus present), and a read reports with each series exactly the label values it was created with.", "quantifier": "every number of label keys and every list of label values", "why_tests_cant": "Injectivity and round-trip over all strings of all lengths.", "anchors": ["metric/common.go: entryForValues, encodeLabelVals, decodeLabelVals", "internal/tagencoding/tagencoding.go"]}
{"id": "C10", "title": "Recording is atomic with respect to tag errors", "statement": "stats.Record and RecordWithOptions with mutators either add every given measurement of a subscribed measure to its views under the mutated tags, or, when a mutator fails, add nothing at all and return the error; measurements whose measure no view subscribes to change nothing.", "quantifier": "every measurement list, mutator list, context and set of registered views", "why_tests_cant": "The combination of subscriptions, mutator failures and measurement lists is unbounded.", "anchors": ["stats/record.go: RecordWithOptions, Record, RecordWithTags", "stats/measure.go"]}
{"id": "C11", "title": "View rows aggregate every sample exactly once", "statement": "After any sequence of recordings, the data of each row of a Count, Sum, LastValue or Distribution view is the fold of exactly the samples recorded with that row's tags, in order: Count is their number, LastValue the last one, Sum their left-to-right sum; no row exists without a sample and no sample is in two rows.", "quantifier": "every sequence of samples over every set of tag maps", "why_tests_cant": "Exactly-once attribution has to hold for histories of any length and any interleaving of rows.", "anchors": ["stats/view/collector.go: addSample", "stats/view/aggregation_data.go: addSample", "stats/view/view.go: addSample"]}
{"id": "C12", "title": "Distribution buckets partition the samples", "statement": "With strictly increasing bounds b1<...<bn a distribution has n+1 buckets, bucket i counts exactly the samples v with b_i <= v < b_{i+1}, and the bucket counts always add up to Count; the exemplar of a bucket is the last sample with attachments that fell into the bucket.", "quantifier": "every list of bounds and every sequence of samples including NaN and infinities", "why_tests_cant": "Bucket boundaries and their sums must hold for all bound lists and all sample sequences.", "anchors": ["stats/view/aggregation_data.go: addToBucket, newDistributionData", "stats/view/view.go: canonicalize, dropZeroBounds"]}
{"id": "C13", "title": "Distribution Min and Max are those of the samples", "statement": "Once at least one sample has been recorded, Min and Max of a DistributionData are the least and greatest recorded sample.", "quantifier": "every non-empty sequence of finite samples", "why_tests_cant": "Depends on the sign pattern of the whole sequence; existing tests only use positive samples.", "anchors": ["stats/view/aggregation_data.go: newDistributionData, addSample"]}
{"id": "C14", "title": "Streaming mean and squared deviation are exact", "statement": "Mean, Sum and SumOfSquaredDev of a distribution equal the arithmetic mean, the total and the sum of squared deviations of all the samples.", "quantifier": "every non-empty sequence of samples", "why_tests_cant": "It is an algebraic identity over sequences of every length.", "anchors": ["stats/view/aggregation_data.go: addSample, Sum, variance"]}
{"id": "C15", "title": "Reported view data is a snapshot", "statement": "Rows handed to a caller by RetrieveData or to an exporter never change afterwards, whatever is recorded, cleared or unregistered later.", "quantifier": "every history of recordings interleaved with reads", "why_tests_cant": "Aliasing between a snapshot and live data only shows for particular later histories.", "anchors": ["stats/view/collector.go: collectedRows", "stats/view/aggregation_data.go: clone"]}
{"id": "C16", "title": "Registering views is idempotent and conflicts change nothing", "statement": "Registering a view that is the same as one already registered under its name (the same object, or one with the same aggregation object on the same measure) is a no-op that keeps its data; registering a different view under an existing name returns an error and leaves the registered view and its data untouched; a view's name maps to at most one registered view at any time.", "quantifier": "every history of Register, Unregister and Record calls", "why_tests_cant": "An invariant over unbounded histories of a shared registry.", "anchors": ["stats/view/worker.go: tryRegisterView, unregisterView", "stats/view/worker_commands.go: registerViewReq, unregisterFromViewReq", "stats/view/view.go: same"]}
{"id": "C17", "title": "A sample is collected by exactly the views registered for its measure when it is handled", "statement": "A recorded measurement is added once to every view that is registered for its measure and subscribed at the time the command is handled, and to no other view; samples recorded before a view is registered or after it is unregistered never show up in it.", "quantifier": "every history of register, unregister and record commands over any number of views and measures", "why_tests_cant": "Ranges over histories; a test can only try one ordering.", "anchors": ["stats/view/worker_commands.go: recordReq.handleCommand", "stats/view/worker.go: getMeasureRef, tryRegisterView, unregisterView", "stats/view/view.go: viewInternal.subscribe"]}
{"id": "C18", "title": "A read sees every record the same goroutine made before it", "statement": "The collection worker handles commands in the order they were accepted, and each goroutine's in program order, whatever the interleaving and whatever the channel buffering: when RetrieveData returns, its rows are exactly those of all the samples for the view's measure sent by any goroutine between the view's registration and the RetrieveData call; in particular they include every sample whose Record call started after Register returned and ended before RetrieveData was called. No goroutine gets stuck while the worker runs. The totals of Count views do not depend on the interleaving.", "quantifier": "every number of goroutines, every program each runs, every schedule", "why_tests_cant": "Schedules cannot be enumerated by tests.", "anchors": ["stats/view/worker.go: start, Record, RetrieveData", "stats/view/worker_commands.go"]}
{"id": "C19", "title": "Stopping a meter", "statement": "After Stop on a meter returns, its worker handles no further command and commands already accepted before are not half-applied; the API calls a program makes on a stopped meter do not crash the program.", "quantifier": "every history of calls including Start and Stop, every schedule", "why_tests_cant": "The crash depends on the order of Stop and other goroutines' calls.", "anchors": ["stats/view/worker.go: Start, Stop, start"]}
{"id": "C20", "title": "View validation and canonicalization", "statement": "Register accepts a view only if its name is 1..255 printable ASCII bytes and its measure and aggregation are set and its distribution bounds are sorted without duplicates after dropping a leading zero bound; the registered view has its tag keys sorted by name; an invalid view in the list makes Register fail without registering any view of the list.", "quantifier": "every view and every list of views", "why_tests_cant": "Sortedness and all-or-nothing are statements about all lists.", "anchors": ["stats/view/view.go: canonicalize, dropZeroBounds, checkViewName", "stats/view/worker_commands.go: registerViewReq.handleCommand"]}
{"id": "C21", "title": "Views convert to metrics with aligned labels", "statement": "After any history of registrations and recordings of views over measures made by stats.Int64/stats.Float64 and aggregations made by view.Count/Sum/Distribution/LastValue, reading the views as metrics gives exactly one metric per registered view with data. Every time series has as many label values as the descriptor has label keys, in the same order, with the value present exactly when the row has a tag for that key; the point agrees with the descriptor's metric type, carries the row's data, and conversion never panics.", "quantifier": "every history, view, row and aggregation/measure combination", "why_tests_cant": "Alignment must hold for all key lists and rows.", "anchors": ["stats/view/view_to_metric.go: getType, getLabelKeys, toLabelValues, rowToTimeseries, viewToMetric", "stats/view/aggregation_data.go: toPoint"]}
{"id": "C22", "title": "Measures are registered once", "statement": "Creating measures with the same name any number of times, with any descriptions and units, yields handles that share the first registration; a view registered through one handle collects the recordings made through another.", "quantifier": "every sequence of measure creations and lookups", "why_tests_cant": "It is a first-write-wins invariant over histories.", "anchors": ["stats/measure.go: registerMeasureHandle", "stats/measure_int64.go", "stats/measure_float64.go"]}
{"id": "C23", "title": "Span identifiers", "statement": "The default ID generator never returns a zero span ID and never repeats one within 2^64-1 consecutive calls, whatever the random seed and whatever the interleaving of concurrent callers; trace IDs are never zero.", "quantifier": "every seed, every number of calls up to 2^64-1, every interleaving", "why_tests_cant": "The range is 2^64 calls long.", "anchors": ["trace/trace.go: defaultIDGenerator.NewSpanID, NewTraceID, init"]}
{"id": "C24", "title": "A child span keeps its trace", "statement": "A span started with a local or remote parent has the parent's trace ID, records the parent's span ID as its parent, and has a span ID of its own; a span started without parent begins a new trace; along any chain of StartSpan calls all spans share one trace ID.", "quantifier": "every parent context, every option list, every chain of spans", "why_tests_cant": "Ranges over trees of any depth and all options.", "anchors": ["trace/trace.go: StartSpan, StartSpanWithRemoteParent, startSpanInternal"]}
{"id": "C25", "title": "Sampling decisions are inherited and consistent", "statement": "Unless a sampler option is given, a local child is sampled exactly when its parent is; the sampler is consulted exactly for root spans, remote parents and explicit sampler options, with the explicit sampler preferred over the configured default; the decision is visible in the span context's sampled bit and no other trace option bit changes.", "quantifier": "every parent, option list and sampler", "why_tests_cant": "All combinations of parent, remoteness, option order and samplers.", "anchors": ["trace/trace.go: startSpanInternal, setIsSampled", "trace/sampling.go", "trace/basetypes.go"]}
{"id": "C26", "title": "Probability sampling is a consistent threshold on the trace ID", "statement": "ProbabilitySampler(f) depends only on the trace ID and the parent's sampled bit, always samples when the parent is sampled, never samples a parentless trace for f<=0 or NaN, always samples for f>=1, and is monotone: a trace sampled at f is sampled at every g>=f; the accepted fraction of trace-ID space is floor(f*2^63)/2^63.", "quantifier": "every float64 fraction and every trace ID", "why_tests_cant": "2^64 fractions by 2^128 trace IDs.", "anchors": ["trace/sampling.go: ProbabilitySampler"]}
{"id": "C27", "title": "A sampled span is exported exactly once to every registered exporter", "statement": "However many times and from however many goroutines End is called, a sampled span is handed exactly once to each exporter registered when the first End runs, and an unsampled span to none; registering or unregistering exporters concurrently never makes an exporter see a span twice.", "quantifier": "every number of End callers, every schedule, every history of exporter registration", "why_tests_cant": "Schedules.", "anchors": ["trace/trace.go: End", "trace/export.go: RegisterExporter, UnregisterExporter"]}
{"id": "C28", "title": "Span event queues keep the newest events in order", "statement": "Annotations, message events and links of an exported span are the most recent ones, at most the configured maximum, in the order they were added, and the reported dropped count plus the number kept equals the number added.", "quantifier": "every positive limit and every sequence of additions", "why_tests_cant": "Any limit, any number of additions.", "anchors": ["trace/evictedqueue.go", "trace/trace.go: Annotate, AddMessageSendEvent, AddLink, makeSpanData"]}
{"id": "C29", "title": "Span attributes are a bounded last-write-wins map", "statement": "The attributes of a span are at most the configured maximum, each key carries the value last set for it, the keys kept are the most recently set ones, and the dropped count equals the number of evictions.", "quantifier": "every positive limit and every sequence of AddAttributes calls", "why_tests_cant": "LRU behaviour is about all sequences.", "anchors": ["trace/lrumap.go", "trace/trace.go: AddAttributes, copyToCappedAttributes, lruAttributesToAttributeMap"]}
{"id": "C30", "title": "Trace configuration is always usable", "statement": "After any sequence of ApplyConfig calls the global configuration has a sampler and an ID generator and strictly positive limits, non-positive limits and nil fields leave the previous value, so that no call on a span can panic on a full zero-sized queue.", "quantifier": "every sequence of configurations", "why_tests_cant": "Histories of configurations with arbitrary integers.", "anchors": ["trace/config.go: ApplyConfig", "trace/evictedqueue.go: add"]}
{"id": "C31", "title": "Unrecorded spans ignore every mutation", "statement": "On a nil span, and on a span that is not recording events, every method is a no-op that does not panic, and nothing is exported; on an ended span End is a no-op.", "quantifier": "every sequence of span method calls", "why_tests_cant": "Every sequence of methods.", "anchors": ["trace/trace.go", "trace/trace_api.go: Span"]}
{"id": "C32", "title": "Span store buckets hold the most recent samples", "statement": "A bucket of the local span store returns, in some order, exactly the most recent of the finished spans it accepted, never more than its configured size; it accepts at most one span per sample period; resizing it keeps the newest spans.", "quantifier": "every size, every sequence of finished spans, timestamps and resizes", "why_tests_cant": "Ring-buffer wrap-around and resizing at every index.", "anchors": ["trace/spanbucket.go: makeBucket, add, size, span, resize"]}
{"id": "C33", "title": "Latency reports are exact", "statement": "ReportSpansByLatency(name, min, max) returns exactly the stored successful spans of that name whose latency is at least min and (when max is non-zero) at most max, in bucket order; skipping buckets by bounds never loses a span, and every latency belongs to exactly one bucket.", "quantifier": "every stored span set and every min and max", "why_tests_cant": "All durations and bounds.", "anchors": ["trace/spanstore.go: ReportSpansByLatency, finished", "trace/spanbucket.go: latencyBucket, latencyBucketBounds"]}
{"id": "C34", "title": "Active spans and span stores", "statement": "A span is reported as active exactly from its start until its first End; finishing it adds it to precisely one latency bucket (status OK) or the error bucket of its status code, and to the store of the name it was started with even if it was renamed.", "quantifier": "every history of start, rename, end and configuration calls", "why_tests_cant": "Histories over many spans and names.", "anchors": ["trace/spanstore.go: add, finished, ReportActiveSpans, ReportSpansByError"]}
{"id": "C35", "title": "Binary span context format", "statement": "FromBinary(Binary(sc)) returns sc's trace ID, span ID and the low byte of its trace options (all the format has room for) for every non-zero span context; FromBinary accepts any byte string without panicking and ignores any trailing bytes; a zero context encodes to nothing.", "quantifier": "every span context and every byte string", "why_tests_cant": "2^200 contexts and all byte strings.", "anchors": ["trace/propagation/propagation.go: Binary, FromBinary"]}
{"id": "C36", "title": "B3 header format", "statement": "A span context written to B3 headers is read back identically (trace ID, span ID, sampled bit); 64-bit trace IDs are left-padded with zeros; a malformed or all-zero ID is rejected and no input panics.", "quantifier": "every span context and every header value", "why_tests_cant": "All strings of all lengths.", "anchors": ["plugin/ochttp/propagation/b3/b3.go: SpanContextFromRequest, SpanContextToRequest, ParseTraceID, ParseSpanID, ParseSampled"]}
{"id": "C37", "title": "W3C trace-context format", "statement": "A span context with non-zero IDs, options below 256 and no tracestate or a non-empty one that fits in 512 bytes, written to the traceparent/tracestate headers of a request, is read back identically; zero IDs, version ff and wrong section lengths are rejected; no input panics.", "quantifier": "every span context and every header value", "why_tests_cant": "All strings and all tracestates.", "anchors": ["plugin/ochttp/propagation/tracecontext/propagation.go: SpanContextFromRequest, SpanContextToRequest, tracestateToRequest, tracestateFromRequest"]}
{"id": "C38", "title": "Stackdriver trace header format", "statement": "A span context written to the X-Cloud-Trace-Context header is read back identically; values longer than 200 bytes, without slash, with bad hex or a non-decimal span ID are rejected; no input panics.", "quantifier": "every span context and every header value", "why_tests_cant": "All strings; decimal span IDs up to 2^64-1.", "anchors": ["exporter/stackdriver/propagation/http.go: SpanContextFromRequest, SpanContextToRequest"]}
{"id": "C39", "title": "Tracestate construction", "statement": "tracestate.New succeeds only with valid keys and values, unique new keys and at most 32 entries in the result; the result lists the new entries first, in the order given, followed by the parent's entries whose keys were not overwritten, in order; neither parent nor result shares storage with, or changes with, anything the caller or another call owns.", "quantifier": "every parent tracestate and entry list", "why_tests_cant": "List laws and aliasing over all lists.", "anchors": ["trace/tracestate/tracestate.go: New, add, remove, areEntriesValid, Entries"]}
{"id": "C40", "title": "Gauge and cumulative values", "statement": "Concurrent Add and Inc calls never lose an update, a cumulative never decreases (non-positive increments are ignored), and a reading equals the initial zero plus all the completed additions, whatever the schedule.", "quantifier": "every number of goroutines and every schedule of loads and compare-and-swaps", "why_tests_cant": "Schedules of the CAS retry loop.", "anchors": ["metric/gauge.go: Float64Entry.Add, Int64GaugeEntry.Add", "metric/cumulative.go: Inc"]}
{"id": "C41", "title": "Metric registry and readings", "statement": "Registry.Read returns exactly one metric per registered name, with constant labels first (sorted by key) and each time series having as many label values as the descriptor has keys; adding a metric under an existing name of another type is an error that leaves the registry unchanged; a handle obtained from the registry stays exported.", "quantifier": "every history of Add* and GetEntry calls", "why_tests_cant": "Histories.", "anchors": ["metric/registry.go: initBaseMetric, Read", "metric/common.go: read, startTime"]}
{"id": "C42", "title": "Resource label encoding round-trips", "statement": "DecodeLabels(EncodeLabels(m)) returns m.", "quantifier": "every label map", "why_tests_cant": "All maps over all strings; quoting interacts with the decoder's lazy regular expression.", "anchors": ["resource/resource.go: EncodeLabels, DecodeLabels"]}
{"id": "C43", "title": "Resource merging", "statement": "Merging resources is associative with the empty resource as identity, the first resource to define the type or a label wins, inputs are not modified, and MultiDetector returns the merge in order or the first error.", "quantifier": "every list of resources and detectors", "why_tests_cant": "Algebraic laws.", "anchors": ["resource/resource.go: merge, MultiDetector, detectAll"]}
{"id": "C44", "title": "HTTP client spans and stats finish exactly once", "statement": "For every response body consumption pattern (reads, errors, EOF, repeated Close) the client span ends and the roundtrip stats are recorded exactly once, the recorded received bytes equal the bytes delivered to the caller, and every Read and Close result is passed through unchanged.", "quantifier": "every sequence of Read and Close calls and results", "why_tests_cant": "All sequences.", "anchors": ["plugin/ochttp/client_stats.go: tracker", "plugin/ochttp/trace.go: bodyTracker"]}
{"id": "C45", "title": "HTTP server stats", "statement": "Every request handled by Handler records exactly one set of end-of-request stats, with the response size equal to the bytes accepted by the underlying writer and status 200 when the handler set none, while every Write/WriteHeader call is forwarded unchanged.", "quantifier": "every sequence of handler calls", "why_tests_cant": "All sequences of writer calls.", "anchors": ["plugin/ochttp/server.go: trackingResponseWriter"]}
{"id": "C46", "title": "The response writer seen by handlers keeps its capabilities", "statement": "The ResponseWriter passed to the wrapped handler implements Hijacker, Pusher, CloseNotifier, Flusher or ReaderFrom exactly when the original one does.", "quantifier": "every combination of optional interfaces", "why_tests_cant": "A 32-row hand-written table; tests cover a few rows.", "anchors": ["plugin/ochttp/server.go: wrappedResponseWriter"]}
{"id": "C47", "title": "HTTP status maps to span status", "statement": "TraceStatus maps every HTTP status code to a documented canonical code: 200..399 to OK, the listed codes to their canonical code and everything else to UNKNOWN, and the span is an error exactly when the status is outside 200..399.", "quantifier": "every integer status code", "why_tests_cant": "All integers.", "anchors": ["plugin/ochttp/trace.go: TraceStatus"]}
{"id": "C48", "title": "gRPC per-RPC counters", "statement": "At the end of an RPC the recorded sent and received byte and message counts equal the sums over all payload events of the RPC whatever their interleaving, the started counter is recorded once per RPC and the status tag is the canonical name of the final error's code.", "quantifier": "every multiset of payload events and every schedule", "why_tests_cant": "Interleavings of atomic adds.", "anchors": ["plugin/ocgrpc/stats_common.go: handleRPCBegin, handleRPCOutPayload, handleRPCInPayload, handleRPCEnd"]}
{"id": "C49", "title": "Sanitized names are safe", "statement": "internal.Sanitize returns only letters, digits and underscores, at most 104 characters, never starting with a digit or underscore for non-empty input, and leaves names already in that form unchanged.", "quantifier": "every string", "why_tests_cant": "All strings.", "anchors": ["internal/sanitize.go: Sanitize"]}
{"id": "C50", "title": "Interval reader lifecycle", "statement": "An IntervalReader runs at most one reader goroutine and never two exports at a time: Start fails and changes nothing while running, and otherwise starts it with the interval asked for, or one minute; Stop is idempotent, can always finish, and after it returns no further periodic export happens; while it runs and nobody stops it, every tick can be followed by an export, by steps of the reader's goroutine alone, and there is at most one per tick; Flush exports once if the reader is not running and does nothing otherwise; each read collects from every registered producer exactly once.", "quantifier": "every number of goroutines calling Start, Stop and Flush, every history and schedule of them, the reader goroutine and the ticks", "why_tests_cant": "Histories and schedules.", "anchors": ["metric/metricexport/reader.go: IntervalReader", "metric/metricproducer/manager.go"]}
{"id": "C51", "title": "Producer manager is a set", "statement": "On the global manager, AddProducer is idempotent, nil producers are ignored, DeleteProducer removes exactly the given producer, and GetAll returns each currently registered producer once. A producer whose dynamic type is not comparable cannot be registered (the call panics), nor can any on a Manager that does not come from GlobalManager.", "quantifier": "every history of Add, Delete and GetAll, every map iteration order", "why_tests_cant": "Histories.", "anchors": ["metric/metricproducer/manager.go"]}
{"id": "C52", "title": "Runtime metrics reflect the runtime", "statement": "When runtime metrics are enabled with memory statistics, each read reports the memory statistics sampled at that read, in both the derived-cumulative and the deprecated gauge mode.", "quantifier": "every option combination and every sequence of reads", "why_tests_cant": "Every combination of options and histories of reads.", "anchors": ["plugin/runmetrics/producer.go: Enable, producer.Read"]}
{"id": "C53", "title": "zPages latency page partitions the stored spans", "statement": "Each finished span counted in a latency column of the trace summary page is shown on that column's detail page, and on no other column's.", "quantifier": "every stored span latency", "why_tests_cant": "All durations.", "anchors": ["zpages/tracez.go: traceSpans, getSummaryPageData", "trace/spanbucket.go: defaultLatencies"]}
{"id": "C54", "title": "Health and public endpoints", "statement": "A request the handler classifies as a health check produces no sampled server span; with IsPublicEndpoint the incoming context never becomes the parent of the server span but is recorded as a link; otherwise a valid incoming context is its parent.", "quantifier": "every request and handler configuration", "why_tests_cant": "All requests.", "anchors": ["plugin/ochttp/server.go: startTrace", "plugin/ochttp/trace.go: isHealthEndpoint"]}
{"id": "C55", "title": "Exported span data reflects the calls", "statement": "The data of an exported span shows the name given last, the status set last, the span kind asked for, whether its parent was remote, the clock at its start and at its first End, and as child count the number of spans started with it as parent.", "quantifier": "every program of span operations, with operations on any number of other spans interleaved", "why_tests_cant": "Any history of calls on any number of spans, before and after End.", "anchors": ["trace/trace.go: makeSpanData, SetName, SetStatus, addChild, End, startSpanInternal"]}
{"id": "C56", "title": "The trace summary page counts what is stored", "statement": "The summary page has exactly one row for every span name in use, sorted by name, and each row shows the number of unfinished spans, the number of successful samples in each latency column and the number of spans listed on the error page of that name; the error page lists exactly the stored spans with an error status.", "quantifier": "every program using the tracing API, every iteration order of the stores", "why_tests_cant": "Any history of spans, sizes and names.", "anchors": ["zpages/tracez.go: getSummaryPageData, traceSpans", "trace/spanstore.go: ReportSpansPerMethod, ReportSpansByError"]}
{"id": "C57", "title": "gRPC spans are exported once, with the call's outcome", "statement": "For every RPC with one End event, in every schedule of its stats events, once the End handler has returned the span started for the RPC is exported exactly once to each exporter registered at its end (if sampled), with the name and kind it was started with, the status that stands for the RPC's error (code and message of a gRPC status, INTERNAL and the message of any other error, OK for none) and the link of a public endpoint; and if the payload handlers returned before End, its message events are the newest of the RPC's payloads with their sizes, the others being counted as dropped.", "quantifier": "every list of stats events, every schedule, every program around the RPC", "why_tests_cant": "All interleavings of handlers and all surrounding programs.", "anchors": ["plugin/ocgrpc/trace_common.go: traceHandleRPC", "plugin/ocgrpc/client.go: ClientHandler.TagRPC", "plugin/ocgrpc/server.go: ServerHandler.TagRPC"]}
{"id": "C58", "title": "gRPC carries the trace and the tags from client to server", "statement": "For every client span context and every tag map, what the client handler puts in the call's metadata makes the server handler start its span in the client's trace, with the client's span as remote parent and the same sampled bit (or, on a public endpoint, start a new trace and link to it), and gives the server's context exactly the client's tags with unlimited propagation, plus the server method. No metadata from a peer can make the server handler panic.", "quantifier": "every span context, every tag map, every metadata, every program on both sides", "why_tests_cant": "All contexts, tag maps and byte strings.", "anchors": ["plugin/ocgrpc/trace_common.go: ClientHandler.traceTagRPC, ServerHandler.traceTagRPC", "plugin/ocgrpc/client_stats_handler.go: statsTagRPC", "plugin/ocgrpc/server_stats_handler.go: statsTagRPC, propagateTags, extractPropagatedTags"]}
{"id": "C59", "title": "The RPC page shows the last exported figures of every method", "statement": "After any history of exported view data, the RPC page has, for each direction, exactly one row for every method that some exported data of that direction's gRPC views had rows for, sorted by method. The row shows the RPC count, the mean latency, the rates and the bytes in and out of the last exported data for the method, and as errors the number of RPCs with a status other than OK in the last exported data. On the text page every figure stands under its heading.", "quantifier": "every sequence of exported view data, every iteration order of the snapshots", "why_tests_cant": "Any history of exports, methods and statuses.", "anchors": ["zpages/rpcz.go: snapExporter.ExportView, getStatsPage, WriteTextRpczPage"]}
{"id": "C60", "title": "Exporters are handed each registered view once per report", "statement": "After any history of calls on a meter, every tick of the reporting timer hands every registered exporter exactly one Data for every registered view, and Unregister hands every registered exporter exactly one last Data for every registered view it names (also if named twice); no other call exports anything. Each Data has the view's definition, the time it was registered, the time of the report, and one row per distinct tag values aggregating exactly what was recorded for the view's measure since it was registered. A view that is not registered, and an exporter that is not registered, appear in no export.", "quantifier": "every history of calls, every iteration order of the map of views", "why_tests_cant": "All histories of registering, recording, ticking and unregistering.", "anchors": ["stats/view/worker.go: reportView, reportUsage, tryRegisterView, unregisterView, RegisterExporter, UnregisterExporter", "stats/view/worker_commands.go: unregisterFromViewReq.handleCommand"]}
{"id": "C61", "title": "Calls of ExportView: one at a time, and none after UnregisterExporter has returned", "statement": "However many goroutines use a meter and however often it was started, calls of ExportView on its exporters never overlap. When UnregisterExporter(e) has returned, ExportView of e is not running and is not called again unless RegisterExporter(e) is called or was still running. Every view reported after RegisterExporter(e) has returned is handed to e exactly once. If exporters make no calls on the meter, no report or call of RegisterExporter or UnregisterExporter is ever deadlocked.", "quantifier": "every program of every goroutine, every set of calls exporters make from ExportView, every schedule, every number of worker loops", "why_tests_cant": "All interleavings of registration, reports and exporters.", "anchors": ["stats/view/worker.go: reportView, reportUsage, RegisterExporter, UnregisterExporter, start", "stats/view/worker_commands.go: unregisterFromViewReq.handleCommand", "stats/view/export.go: Exporter"]}
{"id": "C62", "title": "HTTP carries the trace from client to server, and leaves the caller's request alone", "statement": "For every request sent through Transport with one of the three formats (B3 if none is chosen) whose format headers reach a Handler with the same format: the handler's span is in the trace of the transport's span and has it as remote parent, or on a public endpoint starts on its own and links to it; a handler that uses the configured probability sampler samples the request if the transport's span was sampled; and with the trace-context format the handler's span has the entries of the client's tracestate that fit the header. The transport changes no header and no tracestate the program had; what it sends has the caller's values under every name but those of the format. A health check is sent with the caller's header as it is. No headers make the handler panic.", "quantifier": "every span context with non-zero IDs, every header of the caller, every iteration order of it, every program on both sides", "why_tests_cant": "All contexts, headers and programs.", "anchors": ["plugin/ochttp/client.go: Transport.RoundTrip", "plugin/ochttp/trace.go: traceTransport.RoundTrip", "plugin/ochttp/server.go: Handler.startTrace, extractSpanContext", "plugin/ochttp/propagation/b3/b3.go", "plugin/ochttp/propagation/tracecontext/propagation.go", "exporter/stackdriver/propagation/http.go"]}
{"id": "C63", "title": "The float64 mean stays between the samples and close to the exact mean", "statement": "For every non-empty sequence of finite samples no further apart than MaxFloat64, the Mean of a distribution is finite and lies between any lower and upper bound of the samples, in particular Min <= Mean <= Max; the sum of squared deviations and the variance are never negative and never NaN. For up to 2^53 samples of absolute value at most M (2M <= MaxFloat64) the Mean differs from the arithmetic mean by at most 4*2^-53*M + 3*2^-1075 for each sample after the first.", "quantifier": "every sequence of float64 samples within the spread, in IEEE 754 double arithmetic with rounding to nearest even", "why_tests_cant": "Rounding errors for all sample values and all lengths.", "anchors": ["stats/view/aggregation_data.go: DistributionData.addSample, variance"]}
{"id": "C64", "title": "The exported attributes of an HTTP span describe the request and the response", "statement": "For every request through the transport and every request served by the handler, whatever else the program does, the exported span has exactly the attributes http.path, http.url, http.host, http.method, http.user_agent if the request has one, and http.status_code if there was a response, each with the value of the request or response; no attribute is counted as dropped.", "quantifier": "every request, response, use of the body, handler and surrounding program that ends the span, does not report active spans and leaves room for six attributes", "why_tests_cant": "Other operations interleave with those on the span, and eviction depends on the whole history.", "anchors": ["plugin/ochttp/trace.go: requestAttrs, responseAttrs, traceTransport.RoundTrip", "plugin/ochttp/server.go: startTrace, trackingResponseWriter.end", "trace/trace.go: AddAttributes"]}
{"id": "C65", "title": "Views do not disturb each other's tag keys", "statement": "When every view object keeps its tag keys in its own slice, or shares the same slice with other views, every reply of the view API and every export is the one of a program in which each view has its own copy of its keys, although Register sorts the keys in place. (When two slices overlap without being equal, registering one view makes the other's rows come under wrong keys.)", "quantifier": "every history of commands, every layout of the key slices in memory, every initial content", "why_tests_cant": "Any number of views over any layout of memory, with registrations at any point of the history.", "anchors": ["stats/view/view.go: View.canonicalize, viewInternal.addSample", "stats/view/worker_commands.go: registerViewReq.handleCommand", "stats/view/collector.go: collectedRows, decodeTags"]}
{"id": "C66", "title": "The predefined views register together", "statement": "Registering any selection, in any order, of the views that the HTTP and gRPC plugins define (with repetitions) succeeds whenever no other view of the same name is registered, and each view is then registered (and so collects data, C16), exactly as the plugin defines it; no two predefined views have the same name, and every predefined view has a valid name, a measure, and usable bounds.", "quantifier": "every selection and order of the predefined views, every earlier history of the view worker that leaves the names free", "why_tests_cant": "The selections and histories are unbounded; a conflict in names, measures or bounds would show only in some combinations.", "anchors": ["plugin/ochttp/stats.go: DefaultClientViews, DefaultServerViews and the other views", "plugin/ocgrpc/client_metrics.go, server_metrics.go: the views", "stats/view/view.go: View.canonicalize", "stats/view/worker.go: Register"]}
{"id": "C67", "title": "The client views of the HTTP plugin count the requests", "statement": "Whatever the goroutines of a program do, the view of completed requests shows for every method and status exactly the number of requests that were over since the view was registered; the distribution of latencies has the same counts; the distributions of sent and received bytes have in every bucket exactly the requests whose size lies in it; the view of started requests shows how many started.", "quantifier": "every number of requests, responses, uses of the bodies, every interleaving of what they record with the rest of the program, every history before the registration", "why_tests_cant": "The interleavings and the numbers of requests are unbounded, and a lost or doubled record shows only under some of them.", "anchors": ["plugin/ochttp/client_stats.go: statsTransport.RoundTrip, tracker", "plugin/ochttp/stats.go: the client views", "stats/record.go: Record", "stats/view/worker.go, collector.go"]}
{"id": "C68", "title": "The server views of the HTTP plugin count the requests", "statement": "Whatever the goroutines of a program do, the view of requests shows how many requests started since the view was registered, in total and for every method; the view of responses by status shows for every status exactly the number of requests answered with it, also when the handler panicked; the distribution of response sizes has in every bucket exactly the requests whose response lies in it. (A request that was given a route that is not a valid tag value is not counted.)", "quantifier": "every number of requests, every sequence of calls each handler makes, every interleaving of what they record with the rest of the program, every history before the registration", "why_tests_cant": "The interleavings and the numbers of requests are unbounded, and a lost or doubled record shows only under some of them.", "anchors": ["plugin/ochttp/server.go: Handler.ServeHTTP, trackingResponseWriter", "plugin/ochttp/stats.go: the server views", "stats/view/worker.go, collector.go"]}
{"id": "C69", "title": "The views of the gRPC plugin count the RPCs", "statement": "For RPCs whose method name is a valid tag value: whatever the goroutines of a program and of gRPC do, the views of completed RPCs of client and server show for every method and status exactly the number of RPCs whose end was handled since the view was registered; the views of started RPCs show for every method how many were started; the latency distributions have as many values as RPCs ended; the distributions of bytes and messages, sent and received, have in every bucket exactly the RPCs whose total lies in it, provided the handlers of an RPC's payloads return before its end is handed over.", "quantifier": "every number of client and server RPCs, their events and the interleavings of the handlers, every interleaving with the rest of the program, every history before the registration", "why_tests_cant": "The interleavings and the numbers of RPCs are unbounded; a lost, doubled or misattributed record shows only under some of them.", "anchors": ["plugin/ocgrpc/stats_common.go: statsHandleRPC", "plugin/ocgrpc/client_stats_handler.go, server_stats_handler.go: statsTagRPC", "plugin/ocgrpc/client_metrics.go, server_metrics.go: the views", "stats/view/worker.go, collector.go"]}
{"id": "C70", "title": "Concurrent calls on one span take effect one at a time", "statement": "However many goroutines call SetName, SetStatus, AddAttributes, Annotate, AddMessageSendEvent, AddMessageReceiveEvent, AddLink and End of one span, start children of it, or ask for a report of active spans: what is exported and stored is the same data everywhere, and it is what the span shows after some of the calls made one after the other in an order that agrees with real time and with the order of each goroutine's program. Every call that had returned when the exporting End was made is in it, none made after an End returned is. Every time recorded lies between the call and its return and within the span's start and end. When an End has returned, and the exporters do not change, the span is stored and exported to all of them as it should be. A report shows the span after such calls too. No call panics, and the calls never block each other for ever. The annotations are in the order of their times if no two calls that record a time overlap, in particular if one goroutine makes them.", "quantifier": "every number of goroutines, their programs, every schedule of their steps with the clock and with registrations of exporters, all limits above zero", "why_tests_cant": "A lost or half-applied update shows only under some schedules, and the schedules are unbounded.", "anchors": ["trace/trace.go: End, makeSpanData, SetName, SetStatus, addChild, AddAttributes, lazyPrintfInternal, printStringInternal, AddMessageSendEvent, AddMessageReceiveEvent, AddLink", "trace/spanstore.go: activeSpan reports"]}
{"id": "C71", "title": "Registering and unregistering an exporter takes effect when the call returns", "statement": "When RegisterExporter(e) has returned, and UnregisterExporter(e) is neither in progress nor called later, every sampled span whose End is first called after that is given to e exactly once before End returns. When UnregisterExporter(e) has returned, and RegisterExporter(e) is neither in progress nor called later, no span whose End is first called after that is given to e; and as soon as the calls of End that were in progress have returned too, e is not called any more. (It can be called until then.)", "quantifier": "every number of goroutines, their programs of End, RegisterExporter and UnregisterExporter, every schedule of their memory accesses and lock operations", "why_tests_cant": "A span lost or delivered late shows only when the registration falls between particular memory accesses of an End.", "anchors": ["trace/export.go: RegisterExporter, UnregisterExporter", "trace/trace.go: End"]}
{"id": "C72", "title": "Reading views as metrics while recording goes on gives a consistent snapshot", "statement": "Whatever other goroutines record, register, unregister, retrieve or report at the same time, what Read returns is the metrics of the views after the first n commands sent, n being the number of those that were completely handled at one moment between the call of Read and its return: one metric for each view registered by then with anything recorded by then, describing exactly what was recorded, and no other. In particular no recording is seen in part. Only the metric of a view that is being unregistered while Read runs may be missing. Neither Read nor the handling of commands panics or waits for ever because of the other. (Read need not see what the same goroutine has recorded before.)", "quantifier": "every sequence of commands of any number of goroutines, any number of concurrent Reads, every schedule of the steps of the worker and of the readers, every iteration order of the map of views", "why_tests_cant": "A torn or duplicated result shows only when a Read falls between particular steps of the worker.", "anchors": ["stats/view/worker.go: Read, toMetric, tryRegisterView, unregisterView", "stats/view/worker_commands.go: handleCommand", "stats/view/view.go: subscribe, unsubscribe, isSubscribed, clearRows"]}
{"id": "C73", "title": "The span of an HTTP client tells the events of its connection in order", "statement": "If a span annotating client trace is attached to a request (and nobody else annotates the span), the annotations of the exported span tell the events net/http reported up to the span's first End, in the order in which they were reported: each has the time and the name of its event, an attribute for each of its fields (with an error only if there was one, an idle time only for a connection that was idle) and no other attribute. When there are more events than the limit in force when the span was started, the newest are kept and the number of the others is the dropped count. Events reported after End are not exported.", "quantifier": "every program, every sequence of events with every address, error and time, every limit of annotations", "why_tests_cant": "The sequence of events of a connection and how many there are is up to the network; tests check a handful of exchanges.", "anchors": ["plugin/ochttp/span_annotating_client_trace.go: NewSpanAnnotatingClientTrace, spanAnnotator", "trace/trace.go: Annotate, makeSpanData", "trace/evictedqueue.go: add"]}
{"id": "C74", "title": "Configuration, measures, producers and span stores can be used from any goroutine", "statement": "Whatever goroutines call ApplyConfig and StartSpan, create measures and register views on them, add, delete and get producers, start spans and set bucket sizes, at the same time: every call takes effect at one moment between its call and its return, nothing panics and the locks cause no deadlock. A new span uses one configuration, which has in each field the last value given by an ApplyConfig that took effect before. Measures made with the same name are the same measure, with the description and unit given first; recording sees a measure as used by a view exactly if a view was registered on it before. GetAll returns each producer added and not deleted since, once, and nothing else. A span name has one store, whose buckets have the sizes last set for it.", "quantifier": "every number of goroutines, every program of each, every schedule of single accesses to memory and to the locks, every iteration order of the map of producers", "why_tests_cant": "A lost update or a second descriptor or store for a name shows only under particular schedules.", "anchors": ["trace/config.go: ApplyConfig", "trace/trace.go: startSpanInternal", "stats/measure.go: registerMeasureHandle, subscribe, subscribed", "stats/record.go: SubscriptionReporter", "metric/metricproducer/manager.go: AddProducer, DeleteProducer, GetAll", "trace/spanstore.go: spanStoreForName, spanStoreForNameCreateIfNew, spanStoreSetSize"]}
{"id": "C75", "title": "Reading a registry while other goroutines use it", "statement": "Whatever goroutines add metrics, get or upsert entries, set, add and increment at the same time: a Read returns no name twice and in a metric no label values twice. Each metric it returns was the one registered under its name at some moment of the call, each time series the entry of its label values at some moment of the call, with the value the entry had at some moment of the call; nothing that was there from the call to the return is missing. So an entry got before the call is reported, once, with the value of some moment of the call; of a cumulative this is at least what it had when Read was called. Adding a name fails only if the name has a metric of another type, and always does so if the calls that add metrics do not overlap (the documentation asks for that; if they do overlap both can succeed, and one metric is not exported).", "quantifier": "every number of goroutines, every history of calls, every schedule of the operations on the maps and the entries, every order and every moment in which the iteration of a concurrent map sees its keys", "why_tests_cant": "A concurrent map gives no snapshot; what an iteration may see depends on the schedule.", "anchors": ["metric/registry.go: Registry.Read, initBaseMetric", "metric/common.go: baseMetric.read, entryForValues, upsertEntry", "metric/gauge.go: Float64Entry, Int64GaugeEntry", "metric/cumulative.go: Float64CumulativeEntry, Int64CumulativeEntry"]}
{"id": "C76", "title": "Data once handed out does not change", "statement": "The data of a span that exporters, span stores and reports of active spans are given (they may keep the pointer) shows the span as it was when the data was made, for ever after: name, status, attributes, annotations with their attributes, message events, links and counts are not changed by any later call on the same span or another, however the queues' arrays are shared and grown. (The code: all but the attributes of links. Those are the caller's own map, so that writing to it after AddLink changes data already exported; without such writes they do not change either.)", "quantifier": "every number of spans, every history of calls on them, every point at which data is made and at which it is looked at again, every growth of the arrays by append, every iteration order of the attributes, every limit including zero and negative ones, every sequence of writes of the caller to its maps", "why_tests_cant": "Whether two slices share an array depends on the whole history of evictions and growth, and on the allocator.", "anchors": ["trace/trace.go: makeSpanData, interfaceArrayToAnnotationArray, interfaceArrayToMessageEventArray, interfaceArrayToLinksArray, lruAttributesToAttributeMap, printStringInternal, AddLink", "trace/evictedqueue.go: add", "trace/export.go: Exporter, SpanData"]}
{"id": "C77", "title": "Span stores beside running goroutines", "statement": "With the local span store on, goroutines start, change and end spans, make reports and set bucket sizes at the same time. No call panics, the locks never deadlock, and without new calls all calls return. A report of active spans has, for one moment of the call, exactly the spans of that name that are started and not finished, each once, with data it held at a moment of the call: a span whose start returned before and that is not finished is there, one whose End returned before is not. Reports by error and by latency are those of the store at a moment of the call, and all they hold was finished before with a fitting status; the report per method has the names of a moment, and for each name the summary of a moment. However many goroutines end a span, it is finished once, with what it held during that call of End, and every End returns after that.", "quantifier": "any number of goroutines, spans, names and stores; every interleaving of the critical sections, with waiting writers keeping readers out; every iteration order; every moment of a call", "why_tests_cant": "The races between creating a store, resizing it, adding to it, finishing spans and reporting need particular interleavings; a lock order that deadlocks seldom shows.", "anchors": ["trace/spanstore.go: ReportActiveSpans, ReportSpansByError, ReportSpansByLatency, ReportSpansPerMethod, ConfigureBucketSizes, spanStoreForName, spanStoreForNameCreateIfNew, spanStoreSetSize, resize, add, finished", "trace/trace.go: startSpanInternal, End, makeSpanData"]}
{"id": "C78", "title": "The trace page tells every event of a span once, in order, with times that can be read", "statement": "The page of a span has a row for the span with its context, its parent and its duration (blank while it runs), a row for its status if one is set, a row for its attributes if there are any, and one row for each annotation and message event and no other, in order of time. Read from top to bottom, the column of times gives the date, the clock and the microseconds of the start and of every event, though rows on the date of the row before leave the date out. The column of elapsed times, read as a number, is the time since the event before, in microseconds (whole seconds if it does not fit), and is always twelve bytes wide. Attributes are listed by key, each once, whatever the iteration order of the map; status codes by name, or by number if unknown. Texts are cut to 1024 bytes and otherwise whole.", "quantifier": "every span data, every order the unstable sort leaves events of equal time in, every calendar with dates of four-digit years, all pairs of times however far apart, every attribute map and iteration order", "why_tests_cant": "The format has five ranges of durations, dates that change between rows, ties in the sort and random map order; a test shows some texts of one span.", "anchors": ["zpages/tracez.go: traceRows, events.Less, canonicalCodeString, traceDataFromSpans"]}
{"id": "C79", "title": "The float64 sum, squared deviation and variance of a distribution are close to the exact ones", "statement": "For a distribution of up to 2^48 finite samples of absolute value at most M (M at least 1, and small enough that nothing overflows), computed in float64 as the program does: the sum of squared deviations differs from that of the samples by at most 31 n^2 2^-53 M^2, the variance by at most 68 n 2^-53 M^2, and the exported sum by at most 5 n^2 2^-53 M. If all samples are equal, the mean is exactly their value and deviation and variance are exactly zero.", "quantifier": "every list of up to 2^48 float64 samples within bounds, in every order, with every rounding the format does", "why_tests_cant": "Rounding errors accumulate over the samples; a test compares a few lists with a tolerance.", "anchors": ["stats/view/aggregation_data.go: DistributionData.addSample, Sum, variance"]}
{"id": "C80", "title": "Distributions keep the bounds they were given", "statement": "However views are registered, again or for the first time, accepted or refused, and however rows come into being between: the bounds of every distribution row are the positive ones of those that were passed to Distribution, in ascending order, there is one count more than bounds, and each count is the number of the row's samples in that bucket; no sample makes the program panic.", "quantifier": "every layout of the bounds of any number of aggregations in memory, every sequence of registrations, new rows, samples and writes to the slices", "why_tests_cant": "The aggregation uses the caller's slice, sorts it in place and every row keeps it. Whether that shows depends on which slices share memory and on the order of registrations and samples.", "anchors": ["stats/view/aggregation.go: Distribution", "stats/view/view.go: View.canonicalize, dropZeroBounds", "stats/view/aggregation_data.go: newDistributionData, DistributionData.addToBucket"]}
{"id": "C81", "title": "What is exported is what was recorded under the tags it was recorded with", "statement": "Whatever a program does with contexts, tags, views and recordings, no call panics, and each time the metrics are read there is exactly one metric for each view registered then that has recordings. In it, each combination of values of the view's tag keys under which something was recorded has exactly one series, labelled with these values (no label where the tag was absent), and its point is the count, sum, last value or buckets with exemplars of exactly the samples recorded under them since the view was registered, with the time of the first as start and the time of the read. The tags of a recording are those of its context as left by the mutators, then changed by the mutators given to the recording; of a context whose tags arrived encoded from another, only those with unlimited TTL. A recording with an invalid tag, or for another recorder, leaves no trace.", "quantifier": "every program of tag changes, hand-overs, registrations, unregistrations, recordings with any options, and reads; every iteration order of maps; every measure and aggregation of the package", "why_tests_cant": "The way from a tag to a label goes through the tag map, its encoding, the recording's options, the signature of tag values, the aggregation and the conversion to metrics. Tests look at these one by one; that they fit together for every program is not a matter of examples.", "anchors": ["tag/map.go: New", "tag/map_codec.go: Encode, Decode", "stats/record.go: RecordWithOptions", "stats/view/worker.go: Register, Unregister, worker.Read", "stats/view/view_to_metric.go: viewToMetric", "stats/view/collector.go: encodeWithKeys, decodeTags"]}
{"id": "C82", "title": "One trace across processes, exported whole or not at all", "statement": "Let any number of processes start spans, configure, register exporters, end spans, and call each other over gRPC (ocgrpc handlers) and HTTP (ochttp, any of the three formats, the same at both ends of a request). A span started from another one, in the same process or for a call made from it, has its trace ID and names its span ID as parent; so all spans that hang together, through any number of processes, have one trace ID. If all configured samplers are probability samplers and no span has its own, everything started from a sampled span is sampled. If the fraction is the same everywhere, the spans that hang together are all sampled or none is, and each is given exactly once to every exporter its process had registered at its first End, or to none. No process panics, whatever the others send. Public endpoints, health checks and metadata set by others do not continue a trace.", "quantifier": "every number of processes, every interleaving of what they do, every chain of calls over any mix of transports and formats, every fraction, every iteration order of maps", "why_tests_cant": "Whether a distributed trace is complete depends on the samplers, the encodings and the export of every process on the way, in every order of calls. Tests run one process, or one hop.", "anchors": ["trace/trace.go: StartSpan, StartSpanWithRemoteParent, startSpanInternal, End", "trace/sampling.go: ProbabilitySampler", "plugin/ochttp/trace.go: traceTransport.RoundTrip", "plugin/ochttp/server.go: Handler.startTrace, extractSpanContext", "plugin/ocgrpc/trace_common.go: traceTagRPC", "trace/propagation/propagation.go: Binary, FromBinary"]}
{"id": "C83", "title": "The exporter for tests returns the latest point of the time series asked for", "statement": "After any sequence of exports to the metric/test exporter, GetPoint(name, labels) returns the last point of the last exported time series with this metric name whose labels with a present value are exactly the labels asked for, and nothing if there was none, whatever the order of the label keys in the descriptor and of the map. Exporting panics exactly when a time series has another number of values than its metric has keys, or no point.", "quantifier": "every sequence of exports, every metric name, label keys and values, every iteration order of the map asked with", "why_tests_cant": "Two time series are mixed up only when their labels, written one after the other, read the same; tests of other code rely on this exporter and would check the wrong point.", "anchors": ["metric/test/exporter.go: ExportMetrics, GetPoint, labelSignature, labelObjectsToKeyValue, labelMapToKeyValue"]}
{"id": "C84", "title": "Handlers inside handlers record once each, with the right route", "statement": "Let ochttp Handlers, WithRouteTag handlers, handlers that recover from panics and user code with SetRoute be nested in any way. Every Handler that is called records the start and the end of its request once each, also when what runs inside panics, with the status and the bytes written inside it and the tags of the request it was given. WithRouteTag(h, r) makes the Handler around it record route r. Routes set inside an inner Handler do not reach the outer one, code inside sees the route of the innermost WithRouteTag in its context, the server's writer gets every call once and in order, and panics go on to who recovers.", "quantifier": "every nesting of handlers, every sequence of calls inside, every point of panic and recovery, every route string", "why_tests_cant": "The route, status and size recorded depend on the nesting of all handlers on the way and on where a panic passes; tests check one wrapper at a time.", "anchors": ["plugin/ochttp/route.go: SetRoute, WithRouteTag, taggedHandlerFunc.ServeHTTP", "plugin/ochttp/server.go: Handler.ServeHTTP, trackingResponseWriter.end"]}
{"id": "C85", "title": "Tags as profiler labels and as text", "statement": "Code run by tag.Do(ctx, f), nested in any way and with other tags on the way, is sampled by the profiler under the tags of the context of the innermost Do, and the labels from outside under other keys; when f returns or panics the goroutine has the labels it had before. Do does nothing but call f when the context has no tags. Map.String does not depend on the iteration order of the map, and two maps print the same text exactly when they have the same tags, values and TTLs.", "quantifier": "every nesting of Do and of new tag maps, every point of panic and recovery, every map of valid tags, every iteration order", "why_tests_cant": "Labels are inherited, replaced and restored along every nesting and past panics; the text depends on the order the runtime goes through the map.", "anchors": ["tag/profile_19.go: do", "tag/map.go: Do, Map.String"]}
{"id": "C86", "title": "Latency distributions have every request in the bucket of its duration", "statement": "The latency views of the HTTP and gRPC plugins, client and server, show in every bucket exactly the requests or RPCs that ended since the view was registered and whose duration in nanoseconds lies between the bucket's bounds, by method and status where the view has these tags: converting the duration to a float64 and dividing it never moves it over a bound. The recorded latency is the duration in milliseconds up to a relative error of 2^-53, and of two requests of up to 26 days the longer one is recorded with the greater latency.", "quantifier": "every duration (also negative or beyond 2^53 ns), every number of requests and RPCs and their interleavings with each other and with the rest of the program, every history before the registration", "why_tests_cant": "There are 2^64 durations, and the roundings of a conversion and a division next to each of the bounds; the interleavings are unbounded.", "anchors": ["plugin/ochttp/client_stats.go: tracker.end", "plugin/ochttp/server.go: trackingResponseWriter.end", "plugin/ocgrpc/stats_common.go: handleRPCEnd, DefaultMillisecondsDistribution", "plugin/ochttp/stats.go: DefaultLatencyDistribution, ClientRoundtripLatencyDistribution, ServerLatencyView", "stats/view/aggregation_data.go: addToBucket"]}
{"id": "C87", "title": "The exemplars of the gRPC latency views lead to exported spans", "statement": "A bucket of the gRPC plugin's latency views, client or server, has an exemplar exactly when a sampled RPC of the method ended since the view was registered with a duration in the bucket. The exemplar is made of one such RPC: its latency, the time of its end and the span context of its span, whose trace and span IDs can be read back from it; it is the latest such RPC when recordings are handled in the order of their times. By the time the exemplar can be seen, that span has ended and was exported under that context exactly once to every exporter registered when it ended. Views of the HTTP plugin have no exemplars.", "quantifier": "every number of RPCs, their event schedules and durations, their interleavings with each other and with the rest of the program, every history of span operations in which the RPC's span occurs, every set of exporters", "why_tests_cant": "The link from a metric's exemplar to an exported span goes through the schedule of the handlers, the worker's queue, the bucket choice and the exporters registered at the time; tests fix all of them.", "anchors": ["plugin/ocgrpc/stats_common.go: getSpanCtxAttachment, handleRPCEnd", "plugin/ocgrpc/trace_common.go: traceHandleRPC", "stats/view/aggregation_data.go: addToBucket, getExemplar", "stats/record.go: RecordWithOptions", "trace/trace.go: End"]}
{"id": "C88", "title": "What the span store holds is determined by the calls", "statement": "After any program, the finished spans kept under a span name, successful ones by latency column and failed ones by error code, oldest first, are exactly those that the history of calls says: each span started under that name while the span store was on goes, at its first End, to the column of its duration, or to the last status code it was given, whatever its name is changed to; there it is kept as C32 says, by the sizes set for that name since, within 0 and 100000, whether they were set before or after the first span of that name or that code. Each entry is that span's, with its start, end and status. The reports by latency and by error give exactly these spans, and the counts of the summary page are their numbers. So a span that ends is in the reports at once, if the size for its column is positive and no span of that name and column ended within the last second.", "quantifier": "every program of span, configuration, bucket size and clock operations, every span name, column, error code and pair of latency bounds", "why_tests_cant": "Which spans are shown depends on the whole history: when the store was switched on, when sizes were set, how long ago the last span of the same column was kept. Tests show short histories only.", "anchors": ["trace/spanstore.go: spanStoreForName, spanStoreForNameCreateIfNew, spanStoreSetSize, finished, resize, ReportSpansByLatency, ReportSpansByError, ConfigureBucketSizes", "trace/spanbucket.go: bucket", "trace/trace.go: startSpanInternal, End"]}
{"id": "C89", "title": "A meter reports at the period that was set", "statement": "After a call of SetReportingPeriod(d) has returned, and until the period is set again, the k-th report of the meter begins no earlier than k times the period after the call was made, and of any m+1 successive reports the last begins more than m-2 periods after the first: however long commands and reports take, and however many ticks are missed meanwhile, late reports are never made up for by a burst. No tick of the period in force before is left over. The period is d if d is positive and ten seconds otherwise; ten seconds is also the period of a meter for which none was set. If nothing keeps the meter waiting, the reports begin at exactly one, two, three and more periods after the return of the call, and none is missing. When a tick is due and no new period is just being set, three steps of the ticker and the loop suffice for a report, whatever went before.", "quantifier": "All durations, all starting times, all capacities of the command channel, all interleavings of goroutines that set the period (one after the other around the call in question, in any way before) and send other commands, all times that commands and reports take, and all lengths of run.", "why_tests_cant": "A test waits for one or two reports in real time with slack; the order of ticks and commands, the time commands take and the number of periods are unbounded.", "anchors": ["stats/view/worker.go: SetReportingPeriod, worker.SetReportingPeriod, NewMeter, worker.start, defaultReportingDuration", "stats/view/worker_commands.go: setReportingPeriodReq.handleCommand"]}
{"id": "C90", "title": "The trace page shows what was recorded and nothing recorded becomes markup", "statement": "Whatever bytes span names, annotations, attributes and messages consist of, and whatever query is sent, the HTML document that the trace page sends reads back, by an HTML reader that knows tags, quoted attributes and character references, as exactly: the head of the page; the summary with a row for each span name that shows the name, the number of running spans, the latency samples and the errors, each number with its link; if a span name is asked for, that name, the number of spans listed and one line for each row of their traces with time, elapsed time, text and identifiers; and the end of the page. The only tags are the fixed ones of the page and the links to the page itself, so no recorded name or text can add a tag or leave an attribute. A zero byte is shown as U+FFFD.", "quantifier": "All programs that use the span store, all byte strings as names, attributes, annotations and messages, all queries (with semicolons as separators or as errors), all iteration orders of maps, all lengths.", "why_tests_cant": "A test looks for a few strings in a page of a few spans; whether some name breaks out of the markup depends on all byte strings in all places.", "anchors": ["zpages/tracez.go: WriteHTMLTracezPage, tracezHandler", "zpages/templates.go: traceIDFormatter", "zpages/internal/templates/header.html, summary.html, traces.html, footer.html"]}
{"id": "C91", "title": "The links of the trace page lead to what they count, and every request is answered", "statement": "The links of every trace page, taken from the document as a browser sends them and parsed as the handler parses them, are for each row of the summary: the running spans, each latency column, and the errors of exactly that span name, whatever bytes the name has. Someone who follows a link, while nothing else happens, gets a page that lists the spans of that name, running, of that column, or failed, as many as the number at the link said. Every request with any query, however malformed, is answered with a page, without a panic. Without a query it is the summary alone.", "quantifier": "All programs that use the span store, all byte strings as names, all queries, all iteration orders of maps.", "why_tests_cant": "A test follows a link for one plain name; escaping in the link and unescaping in the handler must agree for all byte strings, and the counts for all contents of the store.", "anchors": ["zpages/tracez.go: tracezHandler, WriteHTMLTracezPage, traceSpans, getSummaryPageData", "zpages/internal/templates/summary.html"]}
{"id": "C92", "title": "The RPC page shows the figures of every method under their headings", "statement": "After any exports of view data, the HTML document of the RPC page reads back as two tables, for RPCs sent and received. Each has its headings and then exactly one row for each method that some export had rows for, sorted by method. Read as text and numbers under the headings, a row shows the method's name whatever its bytes, and the method's totals as the last exports have them: counts and errors exactly below a million and to within 0.0501 percent above, with the right unit letter; the mean latency in milliseconds, truncated to whole ones from ten milliseconds up and to three decimals below; the rate of RPCs to three decimals; the data rates in the unit that the heading names. A larger count never shows as a smaller figure. No method name can add a tag to the page.", "quantifier": "All sequences of exports, all method names as byte strings, all 64-bit counts and durations, all finite rates, all iteration orders of the map of snapshots.", "why_tests_cant": "A test renders a page with a few figures; rounding at the unit boundaries, float conversion and escaping have to be right for all numbers and names, and the columns have to stay aligned for all rows.", "anchors": ["zpages/rpcz.go: WriteHTMLRpczPage, WriteHTMLRpczSummary, getStatsPage", "zpages/templates.go: countFormatter, msFormatter, rateFormatter, dataRateFormatter", "zpages/internal/templates/rpcz.html"]}
{"id": "C93", "title": "The RPC page counts the RPCs", "statement": "In a program that enables the z-pages and uses the gRPC handlers, after a report of the view worker the RPC page has, for RPCs sent and received, exactly one row for each method of which an RPC has ended since the page was enabled, and no other row. The row shows under Count the number of those RPCs and under Errors the number of those that ended with an error: exactly below a million, and to within 0.0501 percent above. The rate is that number by the age of the program at the last report. This holds for all RPCs, however their events and handlers interleave with each other and with other users of the view package, however many reports came before, and whichever order the views are registered in. Calling Handle again registers nothing again.", "quantifier": "All sets of up to 2^53 RPCs of both sides with any methods, events, errors with a status and schedules; all other commands to the worker that leave the page its views, measures and exporter; all iteration orders; all numbers of reports; all ages of the program.", "why_tests_cant": "The page is the end of a chain of five concurrent parts; a test runs one schedule with a few RPCs and cannot show that none is lost or counted twice on the way in any interleaving.", "anchors": ["zpages/zpages.go: Handle, enable", "zpages/rpcz.go: viewType, registerRPCViews, ExportView, getStatsPage, WriteHTMLRpczPage", "plugin/ocgrpc/stats_common.go: handleRPCEnd", "stats/view/worker.go: reportUsage, handleCommand"]}
{"id": "C94", "title": "Spans in contexts, of any implementation", "statement": "StartSpan and StartSpanWithRemoteParent return the new span and a context in which FromContext finds it; FromContext finds the span attached last, through values of other packages. A span started in a context continues the trace of the span in it, whatever implementation of SpanInterface that is: same trace ID and tracestate, same sampling unless an option says otherwise, its span ID as parent; without one a new trace begins. Methods of a nil *Span do nothing. A *Span around another implementation hands it every End, and every other change, in order, exactly while it says it is recording; its answers are returned as they are, and nothing of the package is touched. Programs that go through contexts and *Span and keep to the package's own spans do exactly what the calls on those spans do. While the Go execution tracer is on, and only then, a started span has one task of its name, below the task of its context, which begins before it ends and is ended once.", "quantifier": "All programs: any number and order of starts, calls on any spans (nil, own, foreign) and switches of the execution tracer; all contexts; all behaviours of other implementations, depending on everything they were asked before.", "why_tests_cant": "Other implementations, contexts and orders of calls are unbounded; a test uses one of each.", "anchors": ["trace/trace_api.go: Span, SpanInterface, NewSpan, StartSpan, FromContext, NewContext", "trace/trace.go: tracer.StartSpan, tracer.StartSpanWithRemoteParent, span.End", "trace/trace_go11.go: startExecutionTracerTask"]}
{"id": "C95", "title": "What is exported while other goroutines use the registries", "statement": "Every call of ExportMetrics belongs to one ReadAndExport, of an interval reader or a user, and hands over exactly one reading of each registry that was a producer when the producers were listed, made between that and the call, and nothing else, whatever other goroutines add, remove, update, read or export meanwhile. An entry got before the ReadAndExport began, of a metric that keeps its name in a registry that stays a producer, is in the data exactly once, with a value it had at some moment of the call; exactly the value it had at the beginning if nobody updates it meanwhile (so a Flush after the last update exports it). Everything in the data was in its registry at a moment of the call. For an entry that only grows, no later export goes back.", "quantifier": "All interleavings of any number of goroutines that use any number of registries, add and remove producers and export; all orders in which the producers and the metrics are found.", "why_tests_cant": "The interleavings of exports with updates and registrations are unbounded; a test sees a few.", "anchors": ["metric/metricexport/reader.go: Reader.ReadAndExport, IntervalReader.Flush, IntervalReader.startInternal", "metric/metricproducer/manager.go: AddProducer, DeleteProducer, GetAll", "metric/registry.go: Registry.Read", "metric/common.go: baseMetric.read"]}
{"id": "C96", "title": "An interval reader exports at its interval", "statement": "After Start has succeeded, periodic exports come at the ReportingInterval that Start found, or every minute if it was zero, and never closer than a second on average: the k-th comes no earlier than k intervals after Start, and of any m+1 exports the last begins more than m-2 intervals after the first, however long exports take and however late ticks come, until the reader is started again. A reader that is not kept waiting exports exactly one, two, three \u2026 intervals after Start, as long as it runs, and at no other times; exports may take up to an interval. When a tick is due and nobody is stopping the reader an export can follow at once.", "quantifier": "All programs of any number of goroutines that call Start, Stop and Flush with any intervals, all schedules, all durations of exports and delays of the ticker.", "why_tests_cant": "Schedules, delays and numbers of exports are unbounded, and a test of minutes is not run.", "anchors": ["metric/metricexport/reader.go: IntervalReader.Start, IntervalReader.startInternal, IntervalReader.Stop"]}
{"id": "C97", "title": "Rows that are reported equal agree", "statement": "Row.Equal reports true exactly for rows with the same tags in the same order and the same data: kind, start, counts, bucket counts, smallest, greatest and last values exactly, sums, means and variances finite and within a tolerance of 0.0000316. It is symmetric, a row equals itself and every copy of itself, and it does not panic. After ClearStart on both, rows compare as if they had the same start, and nothing else has changed. The same number of samples counted, or the same integers summed in any order, give equal rows.", "quantifier": "All rows with any tags and data of any of the four kinds, all float64 values, all sequences and orders of samples.", "why_tests_cant": "float64 values, samples and their orders are unbounded; tests compare a few rows.", "anchors": ["stats/view/view.go: Row.Equal", "stats/view/aggregation_data.go: CountData.equal, SumData.equal, DistributionData.equal, LastValueData.equal, ClearStart", "stats/view/collector.go: decodeTags"]}
{"id": "C98", "title": "The text pages line up", "statement": "The trace summary written as text is a title, a line of headings and one line for each span name; every name and every figure begins as many characters from the left as the heading of its column, columns are at least eight characters wide, a count of zero is a point and every other count its decimal digits. The spans written as text are a line of headings and one line for each row of the spans, in order, with the time, the time elapsed, and the text and identifiers under When, Elapsed(s) and Type.", "quantifier": "All histories of spans, span names, attributes, annotations and message events, all iteration orders of the span stores, all numbers of rows and lengths of texts.", "why_tests_cant": "Names, messages and counts have any length and the width of a column depends on all rows; no test writes these pages with a tab, a newline or an escape in a name.", "anchors": ["zpages/tracez.go: WriteTextTracezSummary, WriteTextTracezSpans, writeTextTraces, getSummaryPageData, traceRows"]}
{"id": "C99", "title": "The RPC page as text shows the figures under their headings", "statement": "The RPC page written as text is a table of methods called and a table of methods served, each with two lines of headings and one line for each method that some export had rows for, sorted by method. The method, the number of RPCs, the mean latency, the rates of RPCs and bytes and the number of errors begin as many characters from the left as their headings; counts are exact, rates are right to two decimals.", "quantifier": "All sequences of exports of any views and rows, all iteration orders of the map of snapshots, all method names, counts, latencies and rates.", "why_tests_cant": "The width of every column depends on all rows and figures; no test reads the page as text.", "anchors": ["zpages/rpcz.go: WriteTextRpczPage, getStatsPage, snapExporter.ExportView"]}
{"id": "C100", "title": "The z-pages are served under the prefix given to Handle, with what they link to", "statement": "After Handle with a prefix that begins with a slash, however spelled, a request for the prefix followed by /rpcz or /tracez gets that page, at once or after one redirection, whatever else is registered without a host before and after. Relative links from either page reach the trace page and the stylesheet. On a mux with nothing else no other path serves anything, and a second Handle with the same prefix panics.", "quantifier": "All prefixes beginning with a slash (repeated slashes, dots and double dots included), all earlier and later registrations, all hosts and request paths.", "why_tests_cant": "Prefixes and the other patterns of a mux are unbounded; the cleaning of paths by path.Join and by ServeMux have to agree on all of them.", "anchors": ["zpages/zpages.go: Handle", "zpages/internal/resources.go: FS, _escStaticFS.Open", "zpages/internal/templates/header.html"]}
{"id": "C101", "title": "Metric exporters are given what the views have collected, and later exports are never behind", "statement": "Whatever goroutines record, register, read, start and stop meters meanwhile: each call of ExportMetrics gets the metrics of one reading of each meter that was a producer at one moment since ReadAndExport was called, each meter once, and no other. A reading shows all that its meter had handled when ReadAndExport was called and perhaps more, each recording completely or not at all, one metric for each registered view with data (but a view being unregistered may be missing). If ReadAndExport is called after another export was made, by whichever goroutine, its metric of a view has the same recordings and more unless the view was unregistered. After Stop of a meter no export that begins has anything of it.", "quantifier": "All numbers of meters and exporting goroutines, all commands, all schedules of the steps of workers, readers, Start and Stop, all orders of the producers and of the views.", "why_tests_cant": "A lost or torn recording shows only when an export falls between particular steps of the worker; the number of schedules is unbounded.", "anchors": ["stats/view/worker.go: Start, Stop, start, Read, toMetric", "metric/metricproducer/manager.go: AddProducer, DeleteProducer, GetAll", "metric/metricexport/reader.go: ReadAndExport"]}
{"id": "C102", "title": "Runtime metrics can be read by several metric readers", "statement": "Whatever goroutines read the runtime metrics at the same time, each reading has every metric once, and each point shows what the runtime said at a moment of the reading; if nobody else is reading, all memory figures are of one moment in the reading and no metric is without a point. The cumulatives do not go back from a reading to one that is called after it has returned, if what the runtime counts does not.", "quantifier": "All options with derived cumulatives, all numbers of goroutines that read, all schedules of their steps, everything the runtime may say, all orders of the metrics.", "why_tests_cant": "The readings share the sample and the entries without a lock; which figures are mixed depends on the schedule.", "anchors": ["plugin/runmetrics/producer.go: Read, (*memStats).read, (*cpuStats).read", "metric/common.go: upsertEntry, read", "metric/gauge.go: Set"]}
{"id": "C103", "title": "Start times of cumulative data say when it was started afresh", "statement": "The start time of a series of a view, as metric readers get it, is the time of the first recording in it since the view was registered; last values have none. Two readings of a series with the view not unregistered in between have the same start time, and counts in the second are not less. After the view was unregistered and registered again, the start time is later than anything the first reading was made of.", "quantifier": "All histories of commands of a meter, all views, tags and values, all pairs of readings, fewer than 2^63 measurements.", "why_tests_cant": "It relates any two moments of an unbounded history, and depends on the order in which recordings of several goroutines are handled.", "anchors": ["stats/view/collector.go: addSample", "stats/view/aggregation_data.go: StartTime, newDistributionData", "stats/view/view_to_metric.go: rowToTimeseries", "stats/view/worker.go: Record, tryRegisterView, unregisterView", "stats/view/worker_commands.go: recordReq.handleCommand"]}
{"id": "C104", "title": "Cancelling an HTTP request gets through the Transport", "statement": "A request sent through Transports of ochttp, any number deep, is given up by the transport at the bottom when the caller cancels the request's context or closes its Cancel channel, or, where that transport has CancelRequest, calls CancelRequest of the Transport with the request; and not otherwise. Requests of other callers go on.", "quantifier": "All histories of requests, contexts, channels, calls of RoundTrip and CancelRequest and completions, in any order; all chains of Transports and bases.", "why_tests_cant": "It is about which of arbitrarily many requests under way, and their copies, a cancellation reaches, in every order of events.", "anchors": ["plugin/ochttp/client.go: Transport.RoundTrip, Transport.CancelRequest", "plugin/ochttp/client_stats.go: statsTransport.RoundTrip, statsTransport.CancelRequest", "plugin/ochttp/trace.go: traceTransport.RoundTrip, traceTransport.CancelRequest"]}
{"id": "C105", "title": "Exporters may do anything with the trace API while they are called", "statement": "ExportSpan may start and end spans, register and unregister exporters, and panic. Whatever exporters do, on any number of goroutines: no exporter is called twice with a span, those called were all registered at one moment after End was called, and when End of a sampled span returns, to whomever, every exporter registered at such a moment has been called with it and has returned. If exporters return, every call of End returns.", "quantifier": "All interleavings of any number of goroutines, all behaviours of exporters, all sets of exporters and orders of calling them, any depth of calls inside calls.", "why_tests_cant": "The behaviour of exporters is arbitrary code, calls nest without bound, and the deadlocks need particular interleavings.", "anchors": ["trace/trace.go: End, startSpanInternal", "trace/export.go: Exporter, RegisterExporter, UnregisterExporter"]}
{"id": "C106", "title": "Meters in one process are separate, but for one error", "statement": "With any number of meters in a process (NewMeter, and the default one), what is read from a meter is at each read exactly what a process without the other meters would read: the samples recorded with it as recorder (with the default meter if no recorder was given; the last recorder if several), under the tags of the context as the mutators made it. What is registered, unregistered, recorded or read with other meters, even under the same names and for the same measures, leaves no trace in it, and no call panics. Only the error of RecordWithOptions is shared: a recording with an invalid mutator returns it if a view of one of its measures was ever registered with any meter, and only if one was given to Register of some meter.", "quantifier": "All programs of tagging, handing on of tags, registering, unregistering, recording and reading, any number of meters, all options of recordings, all iteration orders of maps.", "why_tests_cant": "The interplay of meters depends on the whole history of registrations and recordings of all of them.", "anchors": ["stats/view/worker.go: NewMeter, Meter, Register, Unregister, Record, Read", "stats/record.go: WithRecorder, RecordWithOptions", "stats/measure.go: subscribe, subscribed"]}
{"id": "C107", "title": "The metrics of a meter carry its resource", "statement": "Every metric that Read of a meter returns has the resource last set with SetResource of that meter, nil if none was set: the same for all metrics of one reading, and none that was replaced before Read was called, while other goroutines set resources, record, register and read. Resources make no difference to what else is read.", "quantifier": "All schedules of any number of goroutines that read, set resources and send commands, and of the worker.", "why_tests_cant": "SetResource takes no lock, and Read looks at the resource again for every view: what is mixed depends on the schedule.", "anchors": ["stats/view/worker.go: SetResource, Read, toMetric", "stats/view/view_to_metric.go: viewToMetric"]}
{"id": "C108", "title": "The version check passes exactly if the version is above every release", "statement": "The program that is run before a release passes exactly if the version in the code is greater than every release tag of the repository, in whatever order git lists the tags and whatever versions before releases (v1.2.3-rc) are among them; otherwise it fails and names a release above which there is none. No tag of another form makes it pass wrongly.", "quantifier": "All outputs of git tag, all versions in the code, all sorts that do what sort.Slice promises.", "why_tests_cant": "The tags of a repository are open-ended; that the last of the sorted versions is the greatest rests on the comparison being a strict weak order, for which no sample speaks.", "anchors": ["internal/check/version.go: main, versionLess, isPreRelease, parseVersion", "opencensus.go: Version"]}
{"id": "C109", "title": "Nothing passed to a meter ends the process", "statement": "Whatever views are passed to Register (nil pointers, measures of types that the program defines or that package stats does not know, aggregations that are literals instead of results of the package's functions), with whatever other calls before and after, no call ends the process by a panic in the goroutine of the meter; and the process ends exactly at the first call of a stated kind, Find giving until then the view that was registered first under the name.", "quantifier": "All histories of Register, Unregister, RetrieveData, Record, Find and ticks of the reports; all views, valid or not; all sets of measures.", "why_tests_cant": "Whether a record panics depends on every Register and Unregister before it: a test sees one history, and the view that ends the process may have been accepted long before.", "anchors": ["stats/view/worker_commands.go: registerViewReq.handleCommand, recordReq.handleCommand", "stats/view/view.go: canonicalize, newViewInternal, same", "stats/view/view_to_metric.go: getType", "stats/view/collector.go: addSample", "stats/record.go: SubscriptionReporter"]}
{"id": "C110", "title": "What tracing keeps does not grow with the number of spans", "statement": "Whatever a program does, the places that the span stores hold for finished spans are at most (span names) times (9 + status codes) times (bucket size), whatever the number of spans; no exported or kept span holds more attributes, annotations, message events and links than the greatest configured limit; the lists of running spans hold each span at most once and only spans that have not ended. The bound by names cannot be improved: once z-pages are served, every name under which a span is started is kept for ever with nine buckets.", "quantifier": "All histories of all calls on spans, configurations, exporters, stores and the clock; all limits that contain the names, codes and configurations in use.", "why_tests_cant": "A leak shows after millions of spans, in the interplay of bucket sizes, evictions, reconfigurations and errors; a test runs a few.", "anchors": ["trace/spanstore.go: spanStore, finished, spanStoreForNameCreateIfNew, resize, ConfigureBucketSizes", "trace/spanbucket.go: makeBucket, add, resize", "trace/evictedqueue.go: add", "trace/lrumap.go: add", "trace/config.go: ApplyConfig"]}
{"id": "C111", "title": "What a meter keeps does not grow with the number of records", "statement": "Whatever the number of records, reading a view gives at most as many rows as the records have different lists of values for the view's tag keys, so at most as many as there are tag maps; the meter keeps at most one reference per measure in use and one start time per registered view; when all views are unregistered it keeps no view, no start time and no reference of a measure to a view; only the empty references stay, for every measure that a record ever named, for as long as the meter runs.", "quantifier": "All histories of Register (with any pointers), Unregister, RetrieveData, Record, Find and reports that do not end the process; all tag maps of package tag, all sets of measures.", "why_tests_cant": "A leak shows after many records and many registrations of views, in the interplay of several views on a measure; a test sees one history.", "anchors": ["stats/view/collector.go: addSample, clearRows, encodeWithKeys", "stats/view/worker.go: getMeasureRef, tryRegisterView, unregisterView", "stats/view/worker_commands.go: unregisterFromViewReq.handleCommand, recordReq.handleCommand"]}
{"id": "C112", "title": "Exporters may call the interval reader that calls them", "statement": "An exporter of metrics may call Start, Stop and Flush of the interval reader that is calling it, beside any number of goroutines that call them: all calls return. Exactly: the reader is stuck, so that no call of Start, Stop and Flush by anybody ever returns and no export is made, if and only if the exporter calls anything when called by Flush, calls Stop when called for a tick, or calls anything when called for a tick while another goroutine is in Stop. A call that returns during a tick is not Stop, and Start fails.", "quantifier": "All programs of any number of goroutines, all sequences of calls that the exporter makes each time it is called, all schedules and ticks.", "why_tests_cant": "Whether a call of Flush in an exporter returns depends on whether another goroutine has got to Stop in the meantime: a test does not meet that schedule, and waiting for ever cannot be observed.", "anchors": ["metric/metricexport/reader.go: IntervalReader.Start, startInternal, Stop, Flush, ReadAndExport"]}
{"id": "C113", "title": "Who can change the tags of a context, with mutators of the program", "statement": "The tags of a context never change, and a recording is collected under the tags its context had when it was made. With Mutate called by the program and mutators that the program implements this holds for a context as long as no call is given its map: no Mutate on what FromContext returned, no implemented mutator that uses it or returns it in the place of the map it was given. If all implemented mutators use and return only the map they are given and the program does not call Mutate, New does not panic, makes a context exactly if the incoming tags are allowed and no mutator reports an error, and the new tags are the incoming ones with all edits in order. Mutate panics exactly for an allowed value and a nil map, or a tag.Map{} into which a tag would be inserted or upserted.", "quantifier": "All histories of New, NewContext, Mutate, Record and handling of recordings, all maps (also nil and tag.Map{}), all lists of mutators, those of the package and those that the program implements.", "why_tests_cant": "Whether a context shares its map with another, and with a recording that waits, depends on everything that was done with the pointer before; a test sees one history and usually one in which the recording has been handled already.", "anchors": ["tag/map.go: Mutator, mutator.Mutate, New, Insert, Update, Upsert, Delete, Map", "tag/context.go: FromContext, NewContext", "stats/record.go: Record, RecordWithOptions", "stats/view/worker.go: recordMeasurement"]}
{"id": "C114", "title": "A meter can be started and stopped any number of times", "statement": "Start and Stop of a meter can be called in any order and number. Exactly: at most one loop of a meter ever ends; when one has, every other loop (a second Start before the Stop, or one after it) can only take the recordings left in the channel and ticks, or end the process; and a process in which Start was called more than once does not come to rest after Stop. With at most one Start no loop ends the process, and recordings are handled in the order in which they were sent; with more, each is still handled at most once and none is lost. Stop takes the meter off the producers for good if all its loops have begun and Start is not called again.", "quantifier": "All programs of any number of goroutines that call Start, Stop and Record, all capacities of the channel, all schedules.", "why_tests_cant": "A second Start is harmless until Stop, and then the process ends only when the scheduler comes to the other loop, perhaps after the test is over; the order of recordings with two loops depends on the schedule.", "anchors": ["stats/view/worker.go: Meter, NewMeter, Start, start, Stop, recordMeasurement"]}
{"id": "C115", "title": "Programs may change their view objects", "statement": "A program may change the fields of its View objects at any time: what is reported is as if Register had made a copy. This holds if the program writes only to views that are not registered at that time (never registered, refused, registered through another object of the same name, or unregistered again): Register succeeds exactly if no other aggregation or measure has the name, and the reports have each registered view once, under its name and with everything recorded since. It fails for views that are registered: a renamed view cannot be unregistered and is reported under its new name, registering it again reports it twice, unregistering can remove another view that nobody has unregistered, and then a view can be registered without ever collecting anything.", "quantifier": "All histories of making and writing view objects, Register, Unregister and Record, with any number of views, names and measures.", "why_tests_cant": "Whether the tables of a meter still fit the objects depends on all writes and calls before; the damage shows in another view and much later.", "anchors": ["stats/view/view.go: View, newViewInternal, same", "stats/view/worker.go: Register, Unregister, tryRegisterView, unregisterView, reportView", "stats/view/worker_commands.go: registerViewReq, unregisterFromViewReq, recordReq"]}
{"id": "C116", "title": "HTTP requests in which the program's code panics", "statement": "Whoever of the program's code panics during an HTTP request and is recovered from, a span that was started is ended and a request that was counted is completed. For servers this holds for all panics (hooks, propagation, sampler, handler, exporter): a panic before the handler leaves nothing recorded, a later one everything, each once, and the panic is passed on. For clients a body that panics when closed is still accounted for, and nothing is ever recorded twice; but a panic of NewClientTrace, of the propagation format or of the base transport (or a base transport that returns nothing) leaves the span unended, one of FormatSpanName or the sampler the request counted without being completed, and a panic of an exporter the connection unreleased though the program closed the body.", "quantifier": "All choices of who panics, all outcomes of the base transport, all sequences of uses of the body.", "why_tests_cant": "Where a panic leaves the request depends on the order of all calls and deferred calls, for every combination and every use of the body before and after.", "anchors": ["plugin/ochttp/client.go: Transport.RoundTrip", "plugin/ochttp/client_stats.go: statsTransport.RoundTrip, tracker", "plugin/ochttp/trace.go: traceTransport.RoundTrip, bodyTracker", "plugin/ochttp/server.go: Handler.ServeHTTP, startTrace, startStats, trackingResponseWriter.end", "trace/trace.go: End"]}
{"id": "C117", "title": "Response bodies used by several goroutines", "statement": "A program may read a response's body in one goroutine and close it in another, or use it from more. In every schedule the span is exported at most once and the statistics are recorded at most once; when any Close returns, or any Read returns io.EOF, both have been done, also if another goroutine did it; no goroutine waits forever for another that waits; and the recorded response bytes are never more than were taken from the body. That they are exactly those taken by then holds if one goroutine reads and records itself; a Close in another goroutine can miss the bytes of the Read under way, and with two readers bytes are lost.", "quantifier": "All numbers of goroutines, all sequences of Read and Close in each, all schedules.", "why_tests_cant": "Schedules cannot be enumerated by tests; the wrong sizes need particular interleavings of an unprotected addition.", "anchors": ["plugin/ochttp/client_stats.go: tracker.Read, tracker.Close, tracker.end", "plugin/ochttp/trace.go: bodyTracker.Read, bodyTracker.Close", "trace/trace.go: End"]}
{"id": "C118", "title": "The log exporter of the examples logs what it was started for", "statement": "LogExporter logs the spans that end and the metric reports that are due while it is started and its logs are open, each once and in order; Start fails exactly if the interval is not allowed or the exporter is started already, and a Start that fails has no effect; every point of a report is logged with the labels of its series. For every history the logs are exactly described. The part about failing Starts holds for allowed intervals only: with one that is too short Start returns an error but the spans are logged from then on. A report with a series that has a point and fewer label values than keys ends the process. After Close of its files Start succeeds and nothing is logged; if all spans are sampled each report logs a span of its own; NewLogExporter that fails for the second file leaves the first one open.", "quantifier": "All histories of Start, Stop, Close, ended spans and due reports, all intervals and choices of files, all reports.", "why_tests_cant": "What is in the logs depends on the whole history of calls; reports have any number of metrics, series and points.", "anchors": ["examples/exporter/logexporter.go: NewLogExporter, Start, Stop, Close, ExportMetrics, printLabels, ExportSpan", "metric/metricexport/reader.go: IntervalReader.Start, Stop, Reader.ReadAndExport"]}
{"id": "C119", "title": "Panics and direct calls around the gRPC handlers", "statement": "When the sampler or an exporter of spans panics in a call of the gRPC client or server handler, and the caller goes on, everything that is recorded is as for a call without it: every RPC is counted as started once per Begin, its span is given to the exporters once if it is sampled and ended, its counts are recorded at its End with the totals of its messages, and other RPCs are not affected. This holds except for the counts: if an exporter panics at the End of a sampled RPC the counts of the RPC are not recorded. It is described exactly which calls panic: TagRPC without an info (though there is a check for it), TagRPC with a panicking sampler, Begin with a context that TagRPC did not return, and the first End of a sampled RPC with a panicking exporter. An RPC that is ended twice is counted twice, but its span is exported once.", "quantifier": "All histories of TagRPC and HandleRPC calls, with any number of RPCs, mixed in any order, with any panics.", "why_tests_cant": "Whatever was recorded depends on the place of the panic in the history, and RPCs are mixed in any number and order.", "anchors": ["plugin/ocgrpc/client.go: ClientHandler.TagRPC, HandleRPC", "plugin/ocgrpc/server.go: ServerHandler.TagRPC, HandleRPC", "plugin/ocgrpc/trace_common.go: traceTagRPC, traceHandleRPC", "plugin/ocgrpc/stats_common.go: handleRPCBegin, handleRPCOutPayload, handleRPCInPayload, handleRPCEnd", "plugin/ocgrpc/client_stats_handler.go: statsTagRPC", "plugin/ocgrpc/server_stats_handler.go: statsTagRPC", "trace/trace.go: span.End"]}
{"id": "C120", "title": "What PrintExporter prints can be read back", "statement": "The exporter of the examples that prints writes each span and each row of a view so that they can be read from the output. For spans: the trace ID, the span ID and the parent's ID are determined by the output for the span, whatever texts the span has, and the parent is printed exactly if it is not zero. For views: each row is a line with the time, the name and the data, followed by one line per tag, in order, and nothing else. The name of a span can be read back if it has no newline; otherwise the same is printed for spans with different names, and for attributes whose key or value has an equals sign.", "quantifier": "All spans (IDs, names, messages, annotations, attributes in any order of the map) and all views with any rows and tags without newlines.", "why_tests_cant": "That no text in a span changes what is read as its IDs from its output is about all texts.", "anchors": ["examples/exporter/exporter.go: PrintExporter.ExportView, ExportSpan, reZero"]}
