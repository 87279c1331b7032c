{
 "claims": [
  {
   "property": "C01",
   "status": "proved",
   "theorems": [
    "Verif.Props.Tag.new_refines_spec"
   ],
   "note": "heap model of tag.New; every iteration order of the incoming map"
  },
  {
   "property": "C02",
   "status": "proved",
   "theorems": [
    "Verif.Props.Tag.new_fails_iff",
    "Verif.Props.Tag.new_error_returns_input",
    "Verif.Props.Tag.new_preserves_existing"
   ],
   "note": "exact failure condition, input context returned on error, every existing map unchanged"
  },
  {
   "property": "C03",
   "status": "partial",
   "theorems": [
    "Verif.Props.Tag.reachable_tags_valid_partial",
    "Verif.Props.Tag.zero_key_poisons_context"
   ],
   "note": "proved for keys made by NewKey; false for the zero Key{}, witness proved"
  },
  {
   "property": "C04",
   "status": "proved",
   "theorems": [
    "Verif.Props.Tag.decode_encode"
   ],
   "note": "for every valid map and iteration order; slices shorter than 2^63 bytes"
  },
  {
   "property": "C05",
   "status": "proved",
   "theorems": [
    "Verif.Props.Tag.encode_ignores_nonpropagating",
    "Verif.Props.Tag.decode_encode"
   ],
   "note": ""
  },
  {
   "property": "C06",
   "status": "partial",
   "theorems": [
    "Verif.Props.Tag.decode_ok_iff",
    "Verif.Props.Tag.decode_panic_iff",
    "Verif.Props.Tag.decode_never_panics_partial",
    "Verif.Props.Tag.decode_can_panic",
    "Verif.Props.Tag.decodeEach_calls_valid"
   ],
   "note": "false of the code: a declared length near 2^63 panics; exact condition and witness proved"
  },
  {
   "property": "C07",
   "status": "proved",
   "theorems": [
    "Verif.Props.Tag.encode_is_concatenation",
    "Verif.Props.Tag.writes_refine_append"
   ],
   "note": ""
  },
  {
   "property": "C08",
   "status": "proved",
   "theorems": [
    "Verif.Props.Rows.same_signature_iff",
    "Verif.Props.Rows.decoded_tags",
    "Verif.Props.Rows.decoded_tags_any_order",
    "Verif.Props.Rows.same_tags_iff",
    "Verif.Props.Rows.view_rows"
   ],
   "note": "Tag values of at most 255 bytes (guaranteed by the tag package, C03). An empty tag value is indistinguishable from an absent one, as the claim says."
  },
  {
   "property": "C09",
   "status": "partial",
   "theorems": [
    "Verif.Props.Rows.same_series_iff_partial",
    "Verif.Props.Rows.read_labels_partial",
    "Verif.Props.Rows.label_255_read_panics",
    "Verif.Props.Rows.label_collision"
   ],
   "note": "Holds for label values of at most 254 bytes. The code violates it for longer values: a 255-byte value makes every later read panic, a 256-byte value collides with the empty value (both proved)."
  },
  {
   "property": "C10",
   "status": "partial",
   "theorems": [
    "Verif.Props.Recording.record_with_options_partial",
    "Verif.Props.Recording.record_partial",
    "Verif.Props.Recording.zero_measurement_panics",
    "Verif.Props.Recording.failing_mutator_unnoticed"
   ],
   "note": "Atomic for measurements made by Measure.M. The zero Measurement{} panics, and when no view subscribes to any of the measures a failing mutator is not reported: both are proved as witnesses."
  },
  {
   "property": "C11",
   "status": "proved",
   "theorems": [
    "Verif.Props.Rows.view_rows",
    "Verif.Props.Agg.count_data",
    "Verif.Props.Agg.sum_data",
    "Verif.Props.Agg.last_data",
    "Verif.Props.Agg.sum_data_exact_ints"
   ],
   "note": "view_rows says which samples each row is fed; the others say what Count, Sum and LastValue hold after them. Counts are int64 and exact below 2^63 samples."
  },
  {
   "property": "C12",
   "status": "proved",
   "theorems": [
    "Verif.Props.Agg.dist_buckets_count",
    "Verif.Props.Agg.dist_buckets_sum",
    "Verif.Props.Agg.dist_exemplar_last"
   ],
   "note": ""
  },
  {
   "property": "C13",
   "status": "partial",
   "theorems": [
    "Verif.Props.Agg.dist_min_max",
    "Verif.Props.Agg.dist_min_partial",
    "Verif.Props.Agg.dist_max_partial",
    "Verif.Props.Agg.dist_max_wrong"
   ],
   "note": "The code violates the claim for Max when no sample is positive (dist_max_wrong) and for Min when every sample is +Inf."
  },
  {
   "property": "C14",
   "status": "partial",
   "theorems": [
    "Verif.Props.Agg.dist_mean_exact_partial",
    "Verif.Props.Agg.dist_mean_overflows",
    "Verif.Props.AggFloat.mean_error"
   ],
   "note": "Exact arithmetic: all three figures. In float64 rounding applies, with the error of Mean bounded by mean_error, and the update overflows on representable means (dist_mean_overflows)."
  },
  {
   "property": "C15",
   "status": "proved",
   "theorems": [
    "Verif.View.Snap.rows_never_change",
    "Verif.View.Snap.collectors_undisturbed",
    "Verif.View.Snap.all_rows_handed_out"
   ],
   "note": "Over a heap model of aggregation data (objects, slice arrays, exemplars): handed-out objects share no writable cell with collectors or each other. Bounds slices and attachment maps are values: a program that modifies its own bounds or attachments after the call is out of scope."
  },
  {
   "property": "C16",
   "status": "proved",
   "theorems": [
    "Verif.Props.Worker.register_existing",
    "Verif.Props.Worker.worker_refines_spec",
    "Verif.Props.Recording.other_keys_same_view",
    "Verif.Props.Recording.fresh_aggregation_conflicts"
   ],
   "note": "same ignores tag keys and compares aggregation pointers; witnesses show both."
  },
  {
   "property": "C17",
   "status": "proved",
   "theorems": [
    "Verif.Props.Worker.view_collects_exactly",
    "Verif.Props.Worker.unregistered_view_gone",
    "Verif.Props.Worker.never_registered_no_data",
    "Verif.Props.Worker.worker_refines_spec"
   ],
   "note": "For views over measures made by package stats and aggregations made by package view, tag values below 2^32 bytes."
  },
  {
   "property": "C18",
   "status": "proved",
   "theorems": [
    "Verif.Props.Conc.replies_linearizable",
    "Verif.Props.Conc.fifo",
    "Verif.Props.Conc.program_order",
    "Verif.Props.Conc.retrieve_rows",
    "Verif.Props.Conc.record_not_skipped",
    "Verif.Props.Conc.no_deadlock",
    "Verif.Props.Conc.count_order_irrelevant",
    "Verif.Props.Conc.later_record_skipped_earlier_collected"
   ],
   "note": "later_record_skipped_earlier_collected is a witness that for a view still being registered the order of one goroutine's recordings is not kept."
  },
  {
   "property": "C19",
   "status": "partial",
   "theorems": [
    "Verif.Props.Conc.stop_is_final",
    "Verif.Props.Conc.nothing_half_applied",
    "Verif.Props.Conc.crash_needs_stop_partial",
    "Verif.Props.Conc.stop_waits_for_start",
    "Verif.Props.Conc.call_after_stop_crashes",
    "Verif.Props.Conc.record_after_stop_crashes",
    "Verif.Props.Conc.concurrent_stops_crash",
    "Verif.Props.Conc.stop_drops_commands"
   ],
   "note": "Stop is final and nothing is half-applied. The claim that calls on a stopped meter do not crash is false: witnesses."
  },
  {
   "property": "C20",
   "status": "partial",
   "theorems": [
    "Verif.Props.Canon.accepts_iff_partial",
    "Verif.Props.Canon.canonicalize_iff",
    "Verif.Props.Canon.register_batch",
    "Verif.Props.Canon.register_batch_ok",
    "Verif.Props.Canon.empty_name_accepted",
    "Verif.Props.Canon.duplicate_bounds_accepted"
   ],
   "note": "Exact characterisation of what is accepted. The code accepts an empty measure name and duplicate bounds, against the statement; witnesses prove it."
  },
  {
   "property": "C21",
   "status": "proved",
   "theorems": [
    "Verif.Props.ViewMetric.read_metrics",
    "Verif.Props.ViewMetric.custom_measure_panics"
   ],
   "note": "int64(float64) out of range is left unspecified, as in Go."
  },
  {
   "property": "C22",
   "status": "proved",
   "theorems": [
    "Verif.Props.Recording.first_creation_wins",
    "Verif.Props.Recording.handles_interchangeable"
   ],
   "note": ""
  },
  {
   "property": "C23",
   "status": "partial",
   "theorems": [
    "Verif.Props.Ids.spanID_nonzero",
    "Verif.Props.Ids.spanID_unique",
    "Verif.Props.Ids.spanID_bytes",
    "Verif.Props.Ids.call_terminates",
    "Verif.Props.Ids.traceID_nonzero_partial",
    "Verif.Props.Ids.traceID_can_be_zero"
   ],
   "note": "Span IDs: full claim. Trace IDs: the code draws two random words and adds two constants, so an all-zero trace ID is possible (witness traceID_can_be_zero); traceID_nonzero_partial states exactly when it is not zero."
  },
  {
   "property": "C24",
   "status": "proved",
   "theorems": [
    "Verif.Props.Start.trace_continuity",
    "Verif.Props.Start.chain_one_trace"
   ],
   "note": ""
  },
  {
   "property": "C25",
   "status": "proved",
   "theorems": [
    "Verif.Props.Start.sampled_bit",
    "Verif.Props.Start.sampling_decision",
    "Verif.Props.Start.child_inherits",
    "Verif.Props.Start.sampler_calls"
   ],
   "note": ""
  },
  {
   "property": "C26",
   "status": "proved",
   "theorems": [
    "Verif.Props.Start.depends_only",
    "Verif.Props.Start.sampled_parent",
    "Verif.Props.Start.threshold_exact",
    "Verif.Props.Start.never",
    "Verif.Props.Start.always",
    "Verif.Props.Start.monotone",
    "Verif.Props.Start.accepted_count",
    "Verif.Props.Start.word_bijective"
   ],
   "note": ""
  },
  {
   "property": "C27",
   "status": "proved",
   "theorems": [
    "Verif.Props.Spans.not_ended_not_exported",
    "Verif.Props.Spans.exported_exactly_once",
    "Verif.Props.EndConc.at_most_once",
    "Verif.Props.EndConc.exported_when_returned",
    "Verif.Props.EndConc.exporters_linearizable",
    "Verif.Props.EndConc.progress"
   ],
   "note": "Sequential programs with full span data, and every interleaving of any number of goroutines calling End, RegisterExporter and UnregisterExporter at the level of single memory accesses."
  },
  {
   "property": "C28",
   "status": "proved",
   "theorems": [
    "Verif.Props.Spans.exported_events"
   ],
   "note": "Annotations, message events and links of an exported span are the newest ones up to the limit, in order, with the exact dropped counts."
  },
  {
   "property": "C29",
   "status": "partial",
   "theorems": [
    "Verif.Props.Spans.exported_attributes",
    "Verif.Props.Spans.exported_attributes_partial",
    "Verif.Props.Spans.report_changes_eviction"
   ],
   "note": "Exact for programs that do not read active spans. With reports of active spans interleaved the eviction order may differ (report_changes_eviction is a witness: reading a report is a use of every attribute); what still holds is exported_attributes_partial: as many keys as the limit allows, each with its last value, and everything, with nothing dropped, when no more keys were set than the limit."
  },
  {
   "property": "C30",
   "status": "proved",
   "theorems": [
    "Verif.Props.Spans.config_values",
    "Verif.Props.Spans.config_usable",
    "Verif.Props.Spans.never_panics"
   ],
   "note": "Limits are always positive after any ApplyConfig; no program panics."
  },
  {
   "property": "C31",
   "status": "proved",
   "theorems": [
    "Verif.Props.Spans.nil_noop",
    "Verif.Props.Spans.unrecorded_noop",
    "Verif.Props.Spans.ended_noop",
    "Verif.Props.Spans.exported_only_recorded"
   ],
   "note": ""
  },
  {
   "property": "C32",
   "status": "proved",
   "theorems": [
    "Verif.Props.Bucket.bucket_refines",
    "Verif.Props.Bucket.size_bound",
    "Verif.Props.Bucket.samples_newest",
    "Verif.Props.Bucket.one_per_period",
    "Verif.Props.Bucket.resize_newest"
   ],
   "note": ""
  },
  {
   "property": "C33",
   "status": "proved",
   "theorems": [
    "Verif.Props.Store.latency_report_exact",
    "Verif.Props.Store.stored_sound",
    "Verif.Props.Bucket.latency_partition"
   ],
   "note": ""
  },
  {
   "property": "C34",
   "status": "proved",
   "theorems": [
    "Verif.Props.Store.active_report",
    "Verif.Props.Store.active_mem",
    "Verif.Props.Store.finish_effect",
    "Verif.Props.StoreHistory.shown_at_once"
   ],
   "note": " That the finished span is really kept, not ignored, when its bucket is free to take it is shown_at_once; the exact contents are C88."
  },
  {
   "property": "C35",
   "status": "proved",
   "theorems": [
    "Verif.Props.Binary.binary_roundtrip",
    "Verif.Props.Binary.binary_layout",
    "Verif.Props.Binary.fromBinary_spec",
    "Verif.Props.Binary.binary_zero",
    "Verif.Props.Binary.binary_truncates"
   ],
   "note": "Round trip for every non-zero context, byte layout, exact acceptance of every byte string without panic, and zero to nothing. binary_truncates shows the options above the low byte are lost."
  },
  {
   "property": "C36",
   "status": "partial",
   "theorems": [
    "Verif.Props.Headers.b3_roundtrip",
    "Verif.Props.Headers.b3_trace_id",
    "Verif.Props.Headers.b3_span_id",
    "Verif.Props.Headers.b3_accepts_partial",
    "Verif.Props.Headers.b3_short",
    "Verif.Props.Headers.b3_accepts_zero",
    "Verif.Props.Headers.b3_reads_partial",
    "Verif.Props.Headers.hex_reads"
   ],
   "note": "Round trip, exact acceptance condition and absence of panics for all headers. All-zero IDs are accepted by the code: b3_accepts_zero proves the negation of that part."
  },
  {
   "property": "C37",
   "status": "partial",
   "theorems": [
    "Verif.Props.TraceContext.tracecontext_roundtrip",
    "Verif.Props.TraceContext.traceparent_accepts_partial",
    "Verif.Props.TraceContext.tracestate_header",
    "Verif.Props.TraceContext.tracestate_roundtrip",
    "Verif.Props.TraceContext.headers_roundtrip",
    "Verif.Props.TraceContext.tracecontext_no_panic",
    "Verif.Props.TraceContext.long_options_accepted",
    "Verif.Props.TraceContext.stale_tracestate",
    "Verif.Props.TraceContext.tracecontext_request",
    "Verif.Props.Headers.hex_reads"
   ],
   "note": "Round trip for requests without a tracestate header; exact grammar of both headers; no panic. The code accepts options sections longer than two digits (long_options_accepted) and leaves a stale tracestate header in place (stale_tracestate)."
  },
  {
   "property": "C38",
   "status": "proved",
   "theorems": [
    "Verif.Props.Headers.stackdriver_roundtrip",
    "Verif.Props.Headers.stackdriver_accepts",
    "Verif.Props.Headers.stackdriver_any_trace_id_length",
    "Verif.Props.Headers.stackdriver_reads",
    "Verif.Props.Headers.hex_reads"
   ],
   "note": "Round trip for all contexts and requests, exact acceptance condition; trace IDs of any length are accepted."
  },
  {
   "property": "C39",
   "status": "partial",
   "theorems": [
    "Verif.Props.Tracestate.new_spec",
    "Verif.Props.Tracestate.isKey_iff",
    "Verif.Props.Tracestate.isValue_iff",
    "Verif.Props.Tracestate.tracestates_never_change_partial",
    "Verif.Props.Tracestate.tracestates_valid",
    "Verif.Props.Tracestate.new_keeps_callers_slice",
    "Verif.Props.Tracestate.second_call_changes_first"
   ],
   "note": "New against a value specification on a heap of arrays, with frame; the regular expressions; for every history of calls with entries written out no tracestate changes. Passing a slice shares storage with the caller (negations proved)."
  },
  {
   "property": "C40",
   "status": "partial",
   "theorems": [
    "Verif.Props.Entry.linearizable",
    "Verif.Props.Entry.respects_time",
    "Verif.Props.Entry.retry_only_after_progress",
    "Verif.Props.Entry.int_no_lost_update",
    "Verif.Props.Entry.float_no_lost_update",
    "Verif.Props.Entry.int_cumulative",
    "Verif.Props.Entry.int_cumulative_increases_partial",
    "Verif.Props.Entry.float_cumulative_increases_partial",
    "Verif.Props.Entry.readings_increase",
    "Verif.Props.Entry.int_cumulative_wraps",
    "Verif.Props.Entry.float_cumulative_nan",
    "Verif.Props.Entry.gauge_reads_negative_as_zero"
   ],
   "note": "Linearizability and no lost update hold for every schedule. 'Never decreases' fails for NaN increments and for sums of 2^63 or more, and 'a reading equals the sum' fails for negative gauges, which read as 0: negations proved."
  },
  {
   "property": "C41",
   "status": "partial",
   "theorems": [
    "Verif.Props.Registry.read_one_metric_per_name",
    "Verif.Props.Registry.add_fails_iff",
    "Verif.Props.Registry.handle_stays_exported_partial",
    "Verif.Props.Registry.const_label_in_place",
    "Verif.Props.Registry.same_entry_iff",
    "Verif.Props.Registry.entry_exported_partial",
    "Verif.Props.Registry.handle_no_longer_exported",
    "Verif.Props.MetricRace.concurrent_getEntry_partial",
    "Verif.Props.MetricRace.wrong_entry",
    "Verif.Props.MetricRace.upsert_gap"
   ],
   "note": "Proved for label values of at most 254 bytes (see C09) except that a handle stays exported only until its name is added again with the same type (negation: handle_no_longer_exported). Concurrent GetEntry calls are safe when append has no spare capacity; with 3 constant labels they are not (wrong_entry), and UpsertEntry has a gap (upsert_gap)."
  },
  {
   "property": "C42",
   "status": "partial",
   "theorems": [
    "Verif.Props.Resource.decode_encode_partial",
    "Verif.Props.Resource.fromEnv_encode_partial",
    "Verif.Props.Resource.encode_deterministic",
    "Verif.Props.Resource.decode_total",
    "Verif.Props.Resource.empty_not_decoded",
    "Verif.Props.Resource.quote_comma_not_decoded",
    "Verif.Props.Resource.non_ascii_not_decoded",
    "Verif.Props.Resource.long_not_decoded",
    "Verif.Props.Resource.key_read_as_others",
    "Verif.Props.Resource.key_trimmed",
    "Verif.Props.Resource.not_every_map_comes_back",
    "Verif.Resource.unquote_quote"
   ],
   "note": "Proved for maps whose keys and values are in the language of the regular expression. The code violates the property for the empty map, values with a quote followed by a comma, with printable non-ASCII text or longer than 256 bytes, and keys with =\" or leading white space."
  },
  {
   "property": "C43",
   "status": "proved",
   "theorems": [
    "Verif.Props.Resource.merge_spec",
    "Verif.Props.Resource.combine_assoc",
    "Verif.Props.Resource.combine_nil",
    "Verif.Props.Resource.combine_empty",
    "Verif.Props.Resource.multiDetector_ok",
    "Verif.Props.Resource.multiDetector_err"
   ],
   "note": "Detectors are assumed not to modify resources they do not own."
  },
  {
   "property": "C44",
   "status": "partial",
   "theorems": [
    "Verif.Props.HttpClient.stats_once",
    "Verif.Props.HttpClient.error_once",
    "Verif.Props.HttpClient.span_operations",
    "Verif.Props.HttpClient.passed_through",
    "Verif.Props.HttpClient.body_writer",
    "Verif.Props.HttpClient.health_untouched",
    "Verif.Props.HttpClient.received_bytes_partial",
    "Verif.Props.HttpClient.content_length_recorded",
    "Verif.Props.HttpClient.late_bytes_lost",
    "Verif.Props.HttpClient.nil_body_panics",
    "Verif.Props.HttpClient.sent_minus_one",
    "Verif.Props.HttpClient.bad_path_drops_tags",
    "Verif.Props.HttpClient.stats_once_concurrent",
    "Verif.Props.HttpClient.calls_progress",
    "Verif.Props.HttpClient.client_span_exported"
   ],
   "note": "Exactly-once recording, ending, export and pass-through are proved for every sequence of calls, and exactly-once also for every interleaving of goroutines. The received-bytes part is false as stated: the code records the announced Content-Length when nothing was read (content_length_recorded) and misses bytes read after io.EOF (late_bytes_lost); received_bytes_partial proves it otherwise. A nil response body panics (nil_body_panics)."
  },
  {
   "property": "C45",
   "status": "partial",
   "theorems": [
    "Verif.Props.HttpServer.server_stats_once",
    "Verif.Props.HttpServer.server_passed_through",
    "Verif.Props.HttpServer.response_bytes_partial",
    "Verif.Props.HttpServer.readFrom_not_counted",
    "Verif.Props.HttpServer.route_drops_stats",
    "Verif.Props.HttpServer.last_status_recorded",
    "Verif.Props.HttpServer.server_span_exported"
   ],
   "note": "Proved for every sequence of handler calls, also when the handler panics. Missing: bytes sent through ReadFrom are not counted (readFrom_not_counted), an invalid route loses the record (route_drops_stats), and the last WriteHeader is recorded rather than the one sent (last_status_recorded)."
  },
  {
   "property": "C46",
   "status": "proved",
   "theorems": [
    "Verif.Props.HttpServer.capabilities",
    "Verif.Props.HttpClient.body_writer"
   ],
   "note": "All 32 combinations, from the switch transcribed case by case."
  },
  {
   "property": "C47",
   "status": "proved",
   "theorems": [
    "Verif.Props.HttpServer.status_table",
    "Verif.Props.HttpServer.status_error",
    "Verif.Props.HttpServer.status_message"
   ],
   "note": "For every integer."
  },
  {
   "property": "C48",
   "status": "partial",
   "theorems": [
    "Verif.Props.Grpc.end_record_partial",
    "Verif.Props.Grpc.exact_sums_partial",
    "Verif.Props.Grpc.started_record_partial",
    "Verif.Props.Grpc.started_total_partial",
    "Verif.Props.Grpc.status_tag",
    "Verif.Props.Grpc.statusTag_valid",
    "Verif.Props.Grpc.span_operations",
    "Verif.Props.Grpc.never_panics",
    "Verif.Props.Grpc.begin_without_data_panics",
    "Verif.Props.Grpc.bad_method_drops_records",
    "Verif.Props.Grpc.plain_error_no_status",
    "Verif.Props.Grpc.torn_counts"
   ],
   "note": "Proved for every event list and schedule: the End record carries sums between those of the payload handlers that returned before and those called by then, so exactly the sums when payload handlers have returned before End (gRPC does not guarantee it; torn_counts). Missing: records need a method name that is a valid tag value (bad_method_drops_records), and an error that is no gRPC status yields an empty status tag (plain_error_no_status)."
  },
  {
   "property": "C49",
   "status": "partial",
   "theorems": [
    "Verif.Props.Sanitize.sanitize_safe_partial",
    "Verif.Props.Sanitize.sanitize_unchanged_partial",
    "Verif.Props.Sanitize.sanitize_empty",
    "Verif.Props.Sanitize.begins_with_digit",
    "Verif.Props.Sanitize.not_idempotent"
   ],
   "note": "The code violates two parts: a name may begin with a non-ASCII digit, and names of 101 to 104 bytes in the output form are truncated when sanitized again."
  },
  {
   "property": "C50",
   "status": "proved",
   "theorems": [
    "Verif.Props.Reader.follows_the_rules",
    "Verif.Props.Reader.quiet_after_stop",
    "Verif.Props.Reader.one_goroutine",
    "Verif.Props.Reader.never_panics",
    "Verif.Props.Reader.exports_le_ticks",
    "Verif.Props.Reader.start_result",
    "Verif.Props.Reader.stop_can_return",
    "Verif.Props.Reader.reads_each_producer_once",
    "Verif.Props.Reader.tick_exports",
    "Verif.Props.Reader.flush_result"
   ],
   "note": "Exporters and producers do not call back into the reader, and do not panic; the receiver is not nil (Flush on a nil reader panics)."
  },
  {
   "property": "C51",
   "status": "proved",
   "theorems": [
    "Verif.Props.Reader.getAll_registered",
    "Verif.Props.Reader.addProducer_panics"
   ],
   "note": ""
  },
  {
   "property": "C52",
   "status": "partial",
   "theorems": [
    "Verif.Props.Runmetrics.always_enabled",
    "Verif.Props.Runmetrics.runtime_shown_partial",
    "Verif.Props.Runmetrics.deprecated_shows_zero",
    "Verif.Props.Runmetrics.one_producer"
   ],
   "note": "Proved with derived cumulatives for every option combination and every history of reads (counts below 2^63). In the deprecated gauge mode the property fails: deprecated_shows_zero proves every memory metric reads zero for ever, as the sampling method is never called. one_producer: Enable and Disable keep at most one producer registered, and nobody else's is affected."
  },
  {
   "property": "C53",
   "status": "partial",
   "theorems": [
    "Verif.Props.Tracez.page_exact",
    "Verif.Props.Tracez.page_contents",
    "Verif.Props.Tracez.page_of_column_partial",
    "Verif.Props.Tracez.boundary_shown_twice",
    "Verif.Props.Tracez.minute_not_shown"
   ],
   "note": "False as stated: a span whose duration is exactly a bound is shown on two pages (boundary_shown_twice), and one from one minute to 100 seconds is counted in the last column but shown on the page before it (minute_not_shown), because the two packages use different tables. page_contents says exactly what each page shows for all durations; page_of_column_partial is the claim for the other durations."
  },
  {
   "property": "C54",
   "status": "proved",
   "theorems": [
    "Verif.Props.HttpServer.health_no_span",
    "Verif.Props.HttpServer.starts_one",
    "Verif.Props.HttpServer.incoming_is_parent",
    "Verif.Props.HttpServer.public_is_root",
    "Verif.Props.HttpServer.server_span_exported"
   ],
   "note": "Proved on the trace model for every program around the request. A valid incoming context is one that is not all zero; the request's context may itself hold a span, which is then the parent for a public handler."
  },
  {
   "property": "C55",
   "status": "proved",
   "theorems": [
    "Verif.Props.Spans.exported_data"
   ],
   "note": ""
  },
  {
   "property": "C56",
   "status": "proved",
   "theorems": [
    "Verif.Props.Tracez.summary_page",
    "Verif.Props.Tracez.error_page"
   ],
   "note": ""
  },
  {
   "property": "C57",
   "status": "proved",
   "theorems": [
    "Verif.Props.Grpc.rpc_span_exported",
    "Verif.Props.Grpc.messages_exported"
   ],
   "note": "Stated over every program of span operations that starts the span and makes on it the operations of the RPC, in any schedule."
  },
  {
   "property": "C58",
   "status": "partial",
   "theorems": [
    "Verif.Props.Grpc.client_starts",
    "Verif.Props.Grpc.server_starts",
    "Verif.Props.Grpc.trace_read_back_partial",
    "Verif.Props.Grpc.trace_continues_partial",
    "Verif.Props.Grpc.tags_continue",
    "Verif.Props.Grpc.server_without_tags",
    "Verif.Props.Grpc.stale_parent_wins",
    "Verif.Props.Grpc.tags_from_network_panic",
    "Verif.Props.Grpc.bad_method_keeps_tags"
   ],
   "note": "Proved when the caller's outgoing metadata has no grpc-trace-bin value yet (stale_parent_wins shows the property fails otherwise) and for encoded tags below 2^63 bytes. The claim that no metadata panics holds for the trace header (server_starts) and fails for the tags header (tags_from_network_panic: 12 bytes)."
  },
  {
   "property": "C59",
   "status": "partial",
   "theorems": [
    "Verif.Props.Rpcz.page_shown_partial",
    "Verif.Props.Rpcz.errors_shown",
    "Verif.Props.Rpcz.server_input_zero",
    "Verif.Props.Rpcz.text_aligned_partial",
    "Verif.Props.Rpcz.text_misaligned",
    "Verif.Props.Rpcz.latency_duration",
    "Verif.Props.Rpcz.latency_of_nothing"
   ],
   "note": "Rows, order and figures proved for every history. Fails: the bytes received by served methods are never shown (server_input_zero), and the text page has a heading without figures, so the figures from the eighth column on stand under the wrong heading (text_misaligned)."
  },
  {
   "property": "C60",
   "status": "proved",
   "theorems": [
    "Verif.Props.Exports.exports_exact",
    "Verif.Props.Exports.view_exported",
    "Verif.Props.Exports.unregistered_not_exported",
    "Verif.Props.Exports.unregistered_exporter_quiet",
    "Verif.Props.Exports.tick_any_order"
   ],
   "note": "Against a specification machine with the abstract views, their registration times and the set of exporters. One clock reading per command."
  },
  {
   "property": "C61",
   "status": "proved",
   "theorems": [
    "Verif.Props.ReportConc.exports_serial",
    "Verif.Props.ReportConc.unregistered_exporter_not_called",
    "Verif.Props.ReportConc.registered_exporter_called",
    "Verif.Props.ReportConc.no_deadlock",
    "Verif.Props.ReportConc.reentrant_register_never_returns",
    "Verif.Props.ReportConc.reentrant_read_never_returns",
    "Verif.Props.ReportConc.reentrant_command_never_returns",
    "Verif.Props.ReportConc.reentrant_record_never_returns"
   ],
   "note": "Locks and the command channel as a step machine with any number of goroutines and loops. The reentrant_ theorems are limits: an exporter that calls the meter from ExportView stops it for good. Stop is not modelled here."
  },
  {
   "property": "C62",
   "status": "partial",
   "theorems": [
    "Verif.Props.HttpWire.caller_untouched",
    "Verif.Props.HttpWire.extract_total",
    "Verif.Props.HttpWire.no_headers_no_parent",
    "Verif.Props.HttpWire.parent_is_read",
    "Verif.Props.HttpWire.context_read_back",
    "Verif.Props.HttpWire.client_starts",
    "Verif.Props.HttpWire.trace_continues",
    "Verif.Props.HttpWire.sampled_continues",
    "Verif.Props.HttpWire.public_links",
    "Verif.Props.HttpWire.tracestate_continues_partial",
    "Verif.Props.HttpWire.stale_tracestate_sent"
   ],
   "note": "Every part but one holds in full. The tracestate continues if the caller's request had no Tracestate header, or the client's span has a tracestate (tracestate_continues_partial); otherwise the caller's old header becomes the server span's tracestate (stale_tracestate_sent)."
  },
  {
   "property": "C63",
   "status": "proved",
   "theorems": [
    "Verif.Props.AggFloat.mean_between",
    "Verif.Props.AggFloat.min_mean_max",
    "Verif.Props.AggFloat.mean_error"
   ],
   "note": "Samples further apart than MaxFloat64 are outside the statement: there the update overflows (dist_mean_overflows, C14)."
  },
  {
   "property": "C64",
   "status": "proved",
   "theorems": [
    "Verif.Props.HttpAttrs.client_attributes",
    "Verif.Props.HttpAttrs.client_error_attributes",
    "Verif.Props.HttpAttrs.server_attributes"
   ],
   "note": "For programs that do not report active spans (that changes which attributes are kept, C29) and never set the attribute limit below six."
  },
  {
   "property": "C65",
   "status": "partial",
   "theorems": [
    "Verif.Props.Alias.keys_apart_partial",
    "Verif.Props.Alias.overlap_relabels"
   ],
   "note": "Holds whenever any two slices are equal or disjoint (keys_apart_partial); fails for overlapping ones, with a witness (overlap_relabels). The bounds of aggregations are slices sorted in place as well; see C80."
  },
  {
   "property": "C66",
   "status": "proved",
   "theorems": [
    "Verif.Props.PluginViews.predefined_register",
    "Verif.Props.PluginViews.names_nodup",
    "Verif.Props.PluginViews.names_ok",
    "Verif.Props.PluginViews.measures_ok",
    "Verif.Props.PluginViews.aggs_nice"
   ],
   "note": ""
  },
  {
   "property": "C67",
   "status": "proved",
   "theorems": [
    "Verif.Props.HttpViews.completed_count",
    "Verif.Props.HttpViews.roundtrip_latency",
    "Verif.Props.HttpViews.received_bytes",
    "Verif.Props.HttpViews.sent_bytes",
    "Verif.Props.HttpViews.request_count"
   ],
   "note": "For responses with a body and fewer than 2^63 requests; each body is used from one goroutine at a time."
  },
  {
   "property": "C68",
   "status": "proved",
   "theorems": [
    "Verif.Props.HttpServerViews.request_count",
    "Verif.Props.HttpServerViews.request_count_by_method",
    "Verif.Props.HttpServerViews.response_count_by_status",
    "Verif.Props.HttpServerViews.response_bytes"
   ],
   "note": "For fewer than 2^63 requests; each handler's calls are made from one goroutine at a time."
  },
  {
   "property": "C69",
   "status": "proved",
   "theorems": [
    "Verif.Props.GrpcViews.client_completed",
    "Verif.Props.GrpcViews.client_started",
    "Verif.Props.GrpcViews.client_latency",
    "Verif.Props.GrpcViews.client_sent_bytes",
    "Verif.Props.GrpcViews.client_sent_messages",
    "Verif.Props.GrpcViews.client_received_bytes",
    "Verif.Props.GrpcViews.client_received_messages",
    "Verif.Props.GrpcViews.server_completed",
    "Verif.Props.GrpcViews.server_started",
    "Verif.Props.GrpcViews.server_latency",
    "Verif.Props.GrpcViews.server_sent_bytes",
    "Verif.Props.GrpcViews.server_sent_messages",
    "Verif.Props.GrpcViews.server_received_bytes",
    "Verif.Props.GrpcViews.server_received_messages",
    "Verif.Props.GrpcViews.server_latency_never"
   ],
   "note": "ClientServerLatencyView never shows anything (server_latency_never). For fewer than 2^63 RPCs and totals within an int64."
  },
  {
   "property": "C70",
   "status": "proved",
   "theorems": [
    "Verif.Props.SpanConc.exported_linearizable",
    "Verif.Props.SpanConc.exported_same",
    "Verif.Props.SpanConc.end_delivers",
    "Verif.Props.SpanConc.reported_linearizable",
    "Verif.Props.SpanConc.never_crashes",
    "Verif.Props.SpanConc.no_deadlock",
    "Verif.Props.SpanConc.own_calls_in_order",
    "Verif.Props.SpanConc.annotations_sorted",
    "Verif.Props.SpanConc.annotations_sorted_one",
    "Verif.Props.SpanConc.annotations_out_of_order"
   ],
   "note": "Which attributes are kept beyond the limit is exact only without reports of active spans (C29). annotations_out_of_order is a witness that the condition of annotations_sorted is needed. An exporter that calls End of the same span from ExportSpan is not modelled."
  },
  {
   "property": "C71",
   "status": "proved",
   "theorems": [
    "Verif.Props.EndOrder.registered_gets_all",
    "Verif.Props.EndOrder.unregistered_gets_none",
    "Verif.Props.EndOrder.unregistered_is_quiet",
    "Verif.Props.EndOrder.called_after_unregister"
   ],
   "note": "calls and returns are events of the log of Trace/EndConc; called_after_unregister is a run in which an End already running calls the exporter after UnregisterExporter returned. Exporters that panic or end the same span again are not modelled."
  },
  {
   "property": "C72",
   "status": "proved",
   "theorems": [
    "Verif.Props.ReadConc.read_consistent",
    "Verif.Props.ReadConc.read_describes",
    "Verif.Props.ReadConc.worker_progress",
    "Verif.Props.ReadConc.read_progress",
    "Verif.Props.ReadConc.read_misses_own_record"
   ],
   "note": "The result is stated against the sequential worker (read_consistent) and against the abstract machine of C16/C21 (read_describes). Commands are good in the sense of C16 (views with usable aggregations of known measures, tags that fit). The channel is unbounded in the model, which allows more schedules."
  },
  {
   "property": "C73",
   "status": "proved",
   "theorems": [
    "Verif.Props.HttpTrace.exported_events",
    "Verif.Props.HttpTrace.late_event_lost"
   ],
   "note": "late_event_lost is a concrete run in which an event after End is not exported"
  },
  {
   "property": "C74",
   "status": "proved",
   "theorems": [
    "Verif.Conc.linear",
    "Verif.Conc.Linear.realtime",
    "Verif.Conc.progress",
    "Verif.Props.Shared.Conf.config_seen",
    "Verif.Props.Shared.Conf.config_progress",
    "Verif.Props.Shared.Meas.measures_shared",
    "Verif.Props.Shared.Meas.measures_progress",
    "Verif.Props.Shared.Prod.producers_shared",
    "Verif.Props.Shared.Prod.producers_progress",
    "Verif.Props.Shared.Stores.stores_shared",
    "Verif.Props.Shared.Stores.stores_progress"
   ],
   "note": "registering a view on a measure that stats did not create panics (DESIGN.md); here views are registered on measures that were created"
  },
  {
   "property": "C75",
   "status": "proved",
   "theorems": [
    "Verif.Props.RegConc.read_beside",
    "Verif.Props.RegConc.entry_seen",
    "Verif.Props.RegConc.entry_kept",
    "Verif.Props.RegConc.value_between",
    "Verif.Props.RegConc.add_refused",
    "Verif.Props.RegConc.add_stored",
    "Verif.Props.RegConc.add_race"
   ],
   "note": "sync.Map.Range is taken as documented: at most one mapping per key, of any moment of the call, and no key missed that is there throughout. Updates of entries are one step (C40). The key of an entry is given (C09 has the encoding and the race on constant labels). Upserting deletes and stores: a read in between misses the entry (upsert_gap, C09)."
  },
  {
   "property": "C76",
   "status": "partial",
   "theorems": [
    "Verif.Trace.Mem.run_outcome",
    "Verif.Trace.Mem.made_data",
    "Verif.Trace.Mem.data_kept_partial",
    "Verif.Trace.Mem.link_attributes_change"
   ],
   "note": "Missing: the attributes of links, which the code shares with the caller (witness link_attributes_change); without writes of the caller to those maps the property holds in full."
  },
  {
   "property": "C77",
   "status": "proved",
   "theorems": [
    "Verif.Trace.StoreConc.no_panic",
    "Verif.Trace.StoreConc.result",
    "Verif.Trace.StoreConc.active_report",
    "Verif.Trace.StoreConc.active_has",
    "Verif.Trace.StoreConc.active_not",
    "Verif.Trace.StoreConc.error_report",
    "Verif.Trace.StoreConc.latency_report",
    "Verif.Trace.StoreConc.method_report",
    "Verif.Trace.StoreConc.end_once",
    "Verif.Trace.StoreConc.no_deadlock",
    "Verif.Trace.StoreConc.no_livelock"
   ],
   "note": "Interleaved critical sections; exporters are left out (C27, C71). Go's scheduler and memory model are trusted: a critical section is one step."
  },
  {
   "property": "C78",
   "status": "partial",
   "theorems": [
    "Verif.Props.TraceRows.rows",
    "Verif.Props.TraceRows.no_panic",
    "Verif.Props.TraceRows.times_read",
    "Verif.Props.TraceRows.micros_read",
    "Verif.Props.TraceRows.elapsed_read_partial",
    "Verif.Props.TraceRows.elapsed_between_partial",
    "Verif.Props.TraceRows.elapsed_sign",
    "Verif.Props.TraceRows.elapsed_blank",
    "Verif.Props.TraceRows.elapsed_false",
    "Verif.Props.TraceRows.elapsed_width",
    "Verif.Props.TraceRows.attributes",
    "Verif.Props.TraceRows.attributes_order",
    "Verif.Props.TraceRows.code_text",
    "Verif.Props.TraceRows.page"
   ],
   "note": "The code violates the elapsed column: durations under 100 ms are padded with spaces after the point (elapsed_blank), durations between -1 s and 0 lose their sign (elapsed_sign). All else is proved."
  },
  {
   "property": "C79",
   "status": "proved",
   "theorems": [
    "Verif.Props.SsdFloat.ssd_error",
    "Verif.Props.SsdFloat.variance_error",
    "Verif.Props.SsdFloat.sum_error",
    "Verif.Props.SsdFloat.equal_samples"
   ],
   "note": "Bounds for every list of samples; the constants are not tight."
  },
  {
   "property": "C80",
   "status": "partial",
   "theorems": [
    "Verif.Props.BoundsAlias.rows_right_partial",
    "Verif.Props.BoundsAlias.no_panic",
    "Verif.Props.BoundsAlias.overlap_misplaces",
    "Verif.Props.BoundsAlias.caller_moves_bounds"
   ],
   "note": "Holds whenever any two slices are equal or disjoint and nobody writes to them (rows_right_partial); the code violates it for overlapping slices (overlap_misplaces) and for a caller or exporter that writes to the slice (caller_moves_bounds)."
  },
  {
   "property": "C81",
   "status": "proved",
   "theorems": [
    "Verif.Props.Program.exports_right"
   ],
   "note": "No panic, and every read shows exactly the specified metrics. A program that names a context it has not, or whose encoded tags would have 2^63 bytes, is not a program (second case of the theorem). The sum and squared deviation of a distribution are the subject of C14 and C79; counts are right up to 2^63 samples per series. One goroutine; C18 has many."
  },
  {
   "property": "C82",
   "status": "proved",
   "theorems": [
    "Verif.Props.Net.parent_recorded",
    "Verif.Props.Net.one_trace",
    "Verif.Props.Net.sampled_down",
    "Verif.Props.Net.sampled_alike",
    "Verif.Props.Net.exported_whole",
    "Verif.Props.Net.exported_parent",
    "Verif.Props.Net.never_panics",
    "Verif.Props.Net.sound_of_inputs",
    "Verif.Props.Net.transport_ops"
   ],
   "note": "Spans must have IDs (Sound): sound_of_inputs shows it for generators that make no zero ID and remote parents taken from elsewhere that have IDs. A call is one atomic step; gRPC metadata set by others than the handlers is excluded (stale_parent_wins in C58 shows what it does). With different fractions a trace may lack its beginning (fractions_differ)."
  },
  {
   "property": "C83",
   "status": "partial",
   "theorems": [
    "Verif.Props.TestExporter.latest_point_partial",
    "Verif.Props.TestExporter.panics_iff",
    "Verif.Props.TestExporter.one_key_separated",
    "Verif.Props.TestExporter.letters_separated",
    "Verif.Props.TestExporter.points_mixed_up",
    "Verif.Props.TestExporter.values_mixed_up"
   ],
   "note": "Proved for every history of exports whose time series are told apart by metric name and labels written one after the other, which two theorems give for large classes of metrics (one label key per metric; keys and values of different letters). Not true in general: the signature has no separators, so {a: bc} and {ab: c} share a point (points_mixed_up)."
  },
  {
   "property": "C84",
   "status": "partial",
   "theorems": [
    "Verif.Props.Routes.nested_partial",
    "Verif.Props.Routes.route_recorded_partial",
    "Verif.Props.Routes.one_handler",
    "Verif.Props.Routes.outer_recorded_inner_seen",
    "Verif.Props.Routes.panic_loses_route",
    "Verif.Props.Routes.inner_handler",
    "Verif.Props.Routes.panic_recorded_ok",
    "Verif.Props.Routes.replaced_route_loses_stats"
   ],
   "note": "Proved for every nesting and every point of panic. The route of WithRouteTag is recorded only when the handler inside returns (panic_loses_route), and one route that is no tag value loses the end of the request even if another route replaces it (replaced_route_loses_stats)."
  },
  {
   "property": "C85",
   "status": "partial",
   "theorems": [
    "Verif.Props.Profile.samples_labelled",
    "Verif.Props.Profile.do_without_tags_panics",
    "Verif.Props.Profile.string_perm",
    "Verif.Props.Profile.string_iff_partial",
    "Verif.Props.Profile.string_ambiguous"
   ],
   "note": "The labels are proved for every nesting. tag.Do panics when the context has no tag map (do_without_tags_panics). The text is proved to tell maps apart when names have no spaces and values no opening braces; otherwise it can be ambiguous (string_ambiguous)."
  },
  {
   "property": "C86",
   "status": "proved",
   "theorems": [
    "Verif.Props.Latency.latency_below",
    "Verif.Props.Latency.latency_strict",
    "Verif.Props.Latency.latency_close",
    "Verif.Props.Latency.http_client",
    "Verif.Props.Latency.http_server",
    "Verif.Props.Latency.grpc_client",
    "Verif.Props.Latency.grpc_server"
   ],
   "note": "binary64 as in Verif/Float.lean; bounds up to 2^51 ns (the default ones are below 2^47)"
  },
  {
   "property": "C87",
   "status": "proved",
   "theorems": [
    "Verif.Props.Exemplars.attached_inj",
    "Verif.Props.Exemplars.client_exemplar",
    "Verif.Props.Exemplars.server_exemplar",
    "Verif.Props.Exemplars.http_none"
   ],
   "note": "Attachment values are bytes in the model; the tracestate in the attached span context is left out. That the exemplar is the latest qualifying RPC needs recordings to be handled in the order of their times, which concurrent recorders do not guarantee."
  },
  {
   "property": "C88",
   "status": "proved",
   "theorems": [
    "Verif.Props.StoreHistory.latency_history",
    "Verif.Props.StoreHistory.error_history",
    "Verif.Props.StoreHistory.latency_report",
    "Verif.Props.StoreHistory.error_report",
    "Verif.Props.StoreHistory.error_report_any",
    "Verif.Props.StoreHistory.summary_counts",
    "Verif.Props.StoreHistory.shown_at_once"
   ],
   "note": "Times are assumed not to be before year 1 (zeroTime ≤ t, the zero time.Time), as for C32."
  },
  {
   "property": "C89",
   "status": "proved",
   "theorems": [
    "Verif.Props.Period.not_too_often",
    "Verif.Props.Period.default_period",
    "Verif.Props.Period.on_time",
    "Verif.Props.Period.default_on_time",
    "Verif.Props.Period.report_follows"
   ],
   "note": "The ticker is modelled as package time documents it. Assumes that no other call of SetReportingPeriod overlaps the one in question. One loop runs and Stop is not called (C19 has it); overflow of times is ignored."
  },
  {
   "property": "C90",
   "status": "proved",
   "theorems": [
    "Verif.Props.TracePage.page_reads",
    "Verif.Props.TracePage.no_markup"
   ],
   "note": "html/template's escapers are taken from its source."
  },
  {
   "property": "C91",
   "status": "partial",
   "theorems": [
    "Verif.Props.TraceLinks.page_links",
    "Verif.Props.TraceLinks.links_lead_partial",
    "Verif.Props.TraceLinks.always_answered",
    "Verif.Props.TraceLinks.no_query",
    "Verif.Props.TraceLinks.empty_name_not_listed"
   ],
   "note": "links_lead_partial: for latency columns the durations must be ordinary (the code takes different bounds for summary and page, see C53), and the name must not be empty (empty_name_not_listed shows the code does not list such spans)."
  },
  {
   "property": "C92",
   "status": "partial",
   "theorems": [
    "Verif.Props.RpcPage.page_tables_partial",
    "Verif.Props.RpcPage.row_shows",
    "Verif.Props.RpcPage.no_markup",
    "Verif.Props.RpcPage.heading_says_kb",
    "Verif.Props.RpcFigures.count_close",
    "Verif.Props.RpcFigures.count_exact",
    "Verif.Props.RpcFigures.count_mono",
    "Verif.Props.RpcFigures.ms_close",
    "Verif.Props.RpcFigures.rate_close",
    "Verif.Props.RpcFigures.dataRate_close"
   ],
   "note": "Partial because the code shows data rates in millions of bytes per second under headings that say kb/s (heading_says_kb); everything else in the statement is proved, for figures as C59 has them. The minute and hour columns are always zero or blank."
  },
  {
   "property": "C93",
   "status": "proved",
   "theorems": [
    "Verif.Props.RpcCounts.page_counts",
    "Verif.Props.RpcCounts.listed",
    "Verif.Props.RpcCounts.count_shown",
    "Verif.Props.RpcCounts.errors_shown",
    "Verif.Props.RpcCounts.rate_shown",
    "Verif.Props.RpcCounts.reports",
    "Verif.Props.RpcCounts.handles_once",
    "Verif.Props.RpcCounts.other_unseen"
   ],
   "note": "End to end from the events of RPCs to the tables of the page. Errors are assumed to have a status, as gRPC documents for stats.End."
  },
  {
   "property": "C94",
   "status": "partial",
   "theorems": [
    "Verif.Props.Api.returned",
    "Verif.Props.Api.from_context",
    "Verif.Props.Api.continues",
    "Verif.Props.Api.nil_safe",
    "Verif.Props.Api.empty_panics",
    "Verif.Props.Api.foreign_call",
    "Verif.Props.Api.foreign_run",
    "Verif.Props.Api.refines",
    "Verif.Props.Api.task_ends",
    "Verif.Props.Api.task_once_partial",
    "Verif.Props.Api.started_task",
    "Verif.Props.Api.derived_task",
    "Verif.Props.Api.ends_twice"
   ],
   "note": "Missing: that a task is ended once (a second End ends it again, ends_twice). A Span around a nil interface panics (empty_panics)."
  },
  {
   "property": "C95",
   "status": "proved",
   "theorems": [
    "Verif.Props.Pipeline.export_is",
    "Verif.Props.Pipeline.entry_exported",
    "Verif.Props.Pipeline.value_exact",
    "Verif.Props.Pipeline.flush_exact",
    "Verif.Props.Pipeline.exported_was",
    "Verif.Props.Pipeline.never_back",
    "Verif.Props.Pipeline.demo_log",
    "Verif.Props.Pipeline.demo_exports"
   ],
   "note": "Registries of entries with any value type; ReadAndExport from any goroutines. The interval reader's own loop is C50; here it is one of the goroutines that export."
  },
  {
   "property": "C96",
   "status": "proved",
   "theorems": [
    "Verif.Props.ReaderTime.not_too_often",
    "Verif.Props.ReaderTime.on_time",
    "Verif.Props.ReaderTime.export_follows",
    "Verif.Props.ReaderTime.untimed",
    "Verif.Props.ReaderTime.demo_log",
    "Verif.Props.ReaderTime.demo_late"
   ],
   "note": "The ticker is that of package time with a channel of capacity one, which drops ticks for a slow receiver. m-2 rather than m-1: a tick may wait while the ticker's timer is late."
  },
  {
   "property": "C97",
   "status": "partial",
   "theorems": [
    "Verif.Props.Equal.equal_only",
    "Verif.Props.Equal.equal_if",
    "Verif.Props.Equal.equal_symm",
    "Verif.Props.Equal.copy_equal_partial",
    "Verif.Props.Equal.not_compared",
    "Verif.Props.Equal.clear_start",
    "Verif.Props.Equal.cleared_equal",
    "Verif.Props.Equal.collected_int64",
    "Verif.Props.Equal.orders_equal",
    "Verif.Props.Equal.infinite_not_equal",
    "Verif.Props.Equal.not_transitive",
    "Verif.Props.Equal.bounds_ignored",
    "Verif.Props.Equal.empty_tags_differ",
    "Verif.Props.Equal.nil_panics"
   ],
   "note": "Partial because the code is no equality: copies of rows with an infinite sum or mean differ, bounds and exemplars are not compared, a nil tag slice differs from an empty one, nil data panics. math.Pow(x, 2) is taken as the rounded square."
  },
  {
   "property": "C98",
   "status": "partial",
   "theorems": [
    "Verif.Props.TextPages.table",
    "Verif.Props.TextPages.summary_text_partial",
    "Verif.Props.TextPages.traces_text_partial",
    "Verif.Props.TextPages.plain_page",
    "Verif.Props.TextPages.spans_text_partial",
    "Verif.Props.TextPages.names_forge_lines",
    "Verif.Props.TextPages.names_escape",
    "Verif.Props.TextPages.messages_forge_lines"
   ],
   "note": "For names, attribute keys and annotation messages without tabs, newlines, vertical tabs, form feeds and the byte 255. The code does not escape them: a name or a message with a newline in it forges a line (names_forge_lines, messages_forge_lines: two histories with the same text), and the byte 255 leaves the rest of the page without layout (names_escape). Figures are shown for counts below 2^63."
  },
  {
   "property": "C99",
   "status": "partial",
   "theorems": [
    "Verif.Props.RpcText.group_text",
    "Verif.Props.RpcText.rpc_text_partial",
    "Verif.Props.RpcText.counts",
    "Verif.Props.RpcText.rates",
    "Verif.Props.RpcText.byteRates",
    "Verif.Props.RpcText.rate_not_under_heading"
   ],
   "note": "For method names without tabs, newlines, vertical tabs, form feeds and the byte 255. Method, counts and mean latencies are under their headings. The code has a heading for the greatest latency and no such figures, so the rates and the errors stand three columns too far to the left, and data rates are KiB/s under headings that say MiB/s (TextShows, rate_not_under_heading); the theorem proves where they stand."
  },
  {
   "property": "C100",
   "status": "partial",
   "theorems": [
    "Verif.Props.Mux.pages_served_partial",
    "Verif.Props.Mux.tidy_served",
    "Verif.Props.Mux.links_lead_back",
    "Verif.Props.Mux.nothing_else",
    "Verif.Props.Mux.handle_fresh",
    "Verif.Props.Mux.stylesheet_not_found",
    "Verif.Props.Mux.no_file",
    "Verif.Props.Mux.twice_panics",
    "Verif.Props.Mux.relative_is_host",
    "Verif.Props.Mux.empty_serves_nothing"
   ],
   "note": "Both pages and the links between them are proved for every prefix that begins with a slash; the stylesheet they link to is proved not to be found."
  },
  {
   "property": "C101",
   "status": "partial",
   "theorems": [
    "Verif.Props.ViewExport.export_is",
    "Verif.Props.ViewExport.never_back",
    "Verif.Props.ViewExport.stopped_not_exported_partial",
    "Verif.Props.ViewExport.stopped_stays_producer",
    "Verif.Props.ViewExport.grows"
   ],
   "note": "Exports are proved complete, untorn and never behind. That nothing of a stopped meter is read is proved when the meter had taken a command; otherwise Start's goroutine can add it after Stop removed it (stopped_stays_producer)."
  },
  {
   "property": "C102",
   "status": "partial",
   "theorems": [
    "Verif.Props.RunConc.figures_partial",
    "Verif.Props.RunConc.alone",
    "Verif.Props.RunConc.cumulative_never_back",
    "Verif.Props.RunConc.torn",
    "Verif.Props.RunConc.gauge_goes_back",
    "Verif.Props.RunConc.cumulative_missing"
   ],
   "note": "Proved for a reading that overlaps with no other, and for cumulatives. When readings overlap a point is only proved not to be before the call of the oldest reading then running: the code mixes moments, shows gauges from before the call and loses cumulatives for a moment (torn, gauge_goes_back, cumulative_missing)."
  },
  {
   "property": "C103",
   "status": "partial",
   "theorems": [
    "Verif.Props.StartTimes.start_time_partial",
    "Verif.Props.StartTimes.same_start",
    "Verif.Props.StartTimes.restart_partial",
    "Verif.Props.StartTimes.recording_before_start",
    "Verif.Props.StartTimes.restart_goes_back",
    "Verif.Props.StartTimes.restart_unnoticed"
   ],
   "note": "same_start is the full claim for views that stay registered. The first and last parts need the recordings to be handled in the order of their times, which the code does not ensure when several goroutines record (witnesses recording_before_start, restart_goes_back), and restarts are told apart only if the clock moved (restart_unnoticed)."
  },
  {
   "property": "C104",
   "status": "partial",
   "theorems": [
    "Verif.Props.HttpCancel.given_up_partial",
    "Verif.Props.HttpCancel.given_up",
    "Verif.Props.HttpCancel.cancel_request_lost",
    "Verif.Props.HttpCancel.cancel_request_only",
    "Verif.Props.HttpCancel.cancel_response",
    "Verif.Props.HttpCancel.not_given_up"
   ],
   "note": "The full statement is false: RoundTrip gives the base a copy of the request, CancelRequest the original, so CancelRequest is lost (witness not_given_up; cancel_request_lost for every history). given_up_partial has the rest; given_up says exactly what happens in every history."
  },
  {
   "property": "C105",
   "status": "partial",
   "theorems": [
    "Verif.Props.ExportCalls.called_once",
    "Verif.Props.ExportCalls.told_partial",
    "Verif.Props.ExportCalls.never_stuck_partial",
    "Verif.Props.ExportCalls.not_nested",
    "Verif.Props.ExportCalls.wait_for_ever",
    "Verif.Props.ExportCalls.self_end_stuck",
    "Verif.Props.ExportCalls.each_other_stuck",
    "Verif.Props.ExportCalls.traces_itself",
    "Verif.Props.ExportCalls.panic_loses"
   ],
   "note": "The full statement is false: a panicking exporter keeps the span from the others (panic_loses), exporters that end the span they are given or each other's wait for ever (self_end_stuck, each_other_stuck), exporters that trace themselves recurse without end (traces_itself). The partial theorems assume no panic over the span, and that exporters end only spans started after the one they are given."
  },
  {
   "property": "C106",
   "status": "proved",
   "theorems": [
    "Verif.Props.Meters.separate",
    "Verif.Props.Meters.error_if",
    "Verif.Props.Meters.error_only_if",
    "Verif.Props.Meters.error_shared"
   ],
   "note": "every program, any number of meters; the error theorems say what of other meters shows"
  },
  {
   "property": "C107",
   "status": "partial",
   "theorems": [
    "Verif.Props.ViewResource.resource_is",
    "Verif.Props.ViewResource.one_resource_partial",
    "Verif.Props.ViewResource.otherwise_the_same",
    "Verif.Props.ViewResource.two_resources"
   ],
   "note": "All metrics of a reading have the last resource if none is set while Read runs. Otherwise they may differ (two_resources, a witness), each having one that was current since Read was called."
  },
  {
   "property": "C108",
   "status": "partial",
   "theorems": [
    "Verif.Props.CheckVersion.checks",
    "Verif.Props.CheckVersion.no_wrong_pass_partial",
    "Verif.Props.CheckVersion.version_read",
    "Verif.Props.CheckVersion.passes_wrongly",
    "Verif.Props.CheckVersion.other_tag_panics",
    "Verif.Props.CheckVersion.no_release_panics"
   ],
   "note": "Proved for tags of releases and of versions before releases; for tags of any form, that the check does not pass wrongly as long as none has a negative number. With one it does (passes_wrongly)."
  },
  {
   "property": "C109",
   "status": "partial",
   "theorems": [
    "Verif.Props.Crash.ends_iff",
    "Verif.Props.Crash.find_is",
    "Verif.Props.Crash.no_end_partial",
    "Verif.Props.Crash.nil_view_ends",
    "Verif.Props.Crash.untyped_ends",
    "Verif.Props.Crash.foreign_ends",
    "Verif.Props.Crash.unknown_ends",
    "Verif.Props.Crash.literal_registers",
    "Verif.Props.Crash.invalid_first"
   ],
   "note": "The exact condition is proved. The full statement is false: a nil view, an aggregation without type, a foreign or unknown measure end the process at Register, an aggregation literal at the first record of its measure; the witnesses are theorems. no_end_partial asks for non-nil views on measures and aggregations of the packages."
  },
  {
   "property": "C110",
   "status": "proved",
   "theorems": [
    "Verif.Props.Bounded.slots_bounded",
    "Verif.Props.Bounded.data_bounded",
    "Verif.Props.Bounded.ended_let_go",
    "Verif.Props.Bounded.names_kept"
   ],
   "note": "Over every history of the tracing machine. The growth with the number of different span names is itself a theorem (names_kept) and a finding in DESIGN.md."
  },
  {
   "property": "C111",
   "status": "proved",
   "theorems": [
    "Verif.Props.BoundedMeter.rows_bounded",
    "Verif.Props.BoundedMeter.refs_bounded",
    "Verif.Props.BoundedMeter.unregistered_let_go",
    "Verif.Props.BoundedMeter.recorded_kept"
   ],
   "note": "Over every history of the meter with whatever is passed to Register (the machine of C109)."
  },
  {
   "property": "C112",
   "status": "partial",
   "theorems": [
    "Verif.Props.ReaderCalls.stuck_iff",
    "Verif.Props.ReaderCalls.stuck_silent",
    "Verif.Props.ReaderCalls.not_stuck_partial",
    "Verif.Props.ReaderCalls.tick_calls",
    "Verif.Props.ReaderCalls.flush_in_flush",
    "Verif.Props.ReaderCalls.stop_in_tick",
    "Verif.Props.ReaderCalls.flush_while_stop"
   ],
   "note": "That all calls return is false: flush_in_flush, stop_in_tick, flush_while_stop. Proved: exactly when the reader is stuck, and that it is not if exporters make no calls, or only Start and Flush while nobody calls Flush or Stop."
  },
  {
   "property": "C113",
   "status": "partial",
   "theorems": [
    "Verif.Tag.Own.frame",
    "Verif.Tag.Own.mutate_changes",
    "Verif.Tag.Own.mutate_panics_iff",
    "Verif.Tag.Own.new_clean_partial",
    "Verif.Tag.Own.tags_stay_partial",
    "Verif.Tag.Own.recorded_partial",
    "Verif.Tag.Own.mutate_shared",
    "Verif.Tag.Own.returned_shared",
    "Verif.Tag.Own.returned_nil",
    "Verif.Tag.Own.returned_zero",
    "Verif.Tag.Own.tags_stay_fails"
   ],
   "note": "The full statement (tags of a context never change) is false of the code: tags_stay_fails, mutate_shared, returned_shared. Proved for every history as long as no call is given the map (frame), and for all programs whose mutators keep to the map they are given (the _partial theorems)."
  },
  {
   "property": "C114",
   "status": "partial",
   "theorems": [
    "Verif.Props.Loops.one_ends",
    "Verif.Props.Loops.others_end_process",
    "Verif.Props.Loops.no_rest",
    "Verif.Props.Loops.none_lost",
    "Verif.Props.Loops.all_sent",
    "Verif.Props.Loops.loop_safe_partial",
    "Verif.Props.Loops.in_order_partial",
    "Verif.Props.Loops.not_producer_partial",
    "Verif.Props.Loops.twice_crashes",
    "Verif.Props.Loops.restart_crashes",
    "Verif.Props.Loops.two_loops_swap"
   ],
   "note": "The full statement (Start and Stop in any order and number) is false of the code: twice_crashes, restart_crashes, two_loops_swap. What happens with any number of Starts is proved exactly (one_ends, others_end_process, no_rest, none_lost); the _partial theorems are for at most one Start. Commands other than recordings are not in this model (C18, C19 have them with one loop)."
  },
  {
   "property": "C115",
   "status": "partial",
   "theorems": [
    "Verif.Props.Rename.reports_partial",
    "Verif.Props.Rename.renamed_stays",
    "Verif.Props.Rename.renamed_twice",
    "Verif.Props.Rename.other_removed",
    "Verif.Props.Rename.measure_changed",
    "Verif.Props.Rename.reports_fails"
   ],
   "note": "The full statement is false of the code (reports_fails and the other witnesses). reports_partial is a refinement for every history that writes only to views that are not registered. Without tags; the metrics of Read take the name of the time of registering from the descriptor and are not in this model."
  },
  {
   "property": "C116",
   "status": "partial",
   "theorems": [
    "Verif.Http.Panics.counted",
    "Verif.Http.Panics.started",
    "Verif.Http.Panics.finished",
    "Verif.Http.Panics.completed",
    "Verif.Http.Panics.closed",
    "Verif.Http.Panics.unfinished_iff",
    "Verif.Http.Panics.balanced_partial",
    "Verif.Http.Panics.at_most_once",
    "Verif.Http.Panics.base_panics",
    "Verif.Http.Panics.trace_panics",
    "Verif.Http.Panics.name_panics",
    "Verif.Http.Panics.exporter_keeps_connection",
    "Verif.Http.Panics.exporter_loses_stats",
    "Verif.Http.Panics.balanced_fails",
    "Verif.Http.Panics.served",
    "Verif.Http.Panics.served_panics",
    "Verif.Http.Panics.served_order"
   ],
   "note": "Servers: proved outright. Clients: exact for every choice; the full statement fails, because RoundTrip has no deferred calls."
  },
  {
   "property": "C117",
   "status": "partial",
   "theorems": [
    "Verif.Http.BodyConc.once",
    "Verif.Http.BodyConc.over_complete",
    "Verif.Http.BodyConc.returned",
    "Verif.Http.BodyConc.progress",
    "Verif.Http.BodyConc.size_le",
    "Verif.Http.BodyConc.size_partial",
    "Verif.Http.BodyConc.close_during_read",
    "Verif.Http.BodyConc.two_readers",
    "Verif.Http.BodyConc.size_fails"
   ],
   "note": "Once, completeness at return, progress and the bound are proved outright; the exact size is proved for one reader, and fails otherwise (respSize is not protected)."
  },
  {
   "property": "C118",
   "status": "partial",
   "theorems": [
    "Verif.Examples.Log.spans_logged",
    "Verif.Examples.Log.reports_logged",
    "Verif.Examples.Log.start_fails_iff",
    "Verif.Examples.Log.failed_start_partial",
    "Verif.Examples.Log.failed_start_logs",
    "Verif.Examples.Log.closed_silent",
    "Verif.Examples.Log.own_spans",
    "Verif.Examples.Log.create_leaks_iff",
    "Verif.Examples.Log.report_panics_iff",
    "Verif.Examples.Log.report_complete",
    "Verif.Examples.Log.report_panics"
   ],
   "note": "The logs are described exactly for every history; that a failing Start has no effect holds for allowed intervals only."
  },
  {
   "property": "C119",
   "status": "partial",
   "theorems": [
    "Verif.Props.GrpcPanics.started",
    "Verif.Props.GrpcPanics.exported",
    "Verif.Props.GrpcPanics.recorded",
    "Verif.Props.GrpcPanics.completed_partial",
    "Verif.Props.GrpcPanics.exporter_loses_counts",
    "Verif.Props.GrpcPanics.panics_iff",
    "Verif.Props.GrpcPanics.completed_fails",
    "Verif.Props.GrpcPanics.ended_twice"
   ],
   "note": "The full statement is false of the code: an exporter that panics at the End of a sampled RPC loses the RPC's counts (exporter_loses_counts, completed_fails). Everything else is exact for every history (recorded, exported, started, panics_iff). Calls are one after the other; their interleavings are in C48 and C57."
  },
  {
   "property": "C120",
   "status": "partial",
   "theorems": [
    "Verif.Examples.Print.ids",
    "Verif.Examples.Print.parent_iff",
    "Verif.Examples.Print.name_partial",
    "Verif.Examples.Print.span_lines",
    "Verif.Examples.Print.name_fails",
    "Verif.Examples.Print.attributes_ambiguous",
    "Verif.Examples.Print.view_lines"
   ],
   "note": "The full statement is false of the code: names with newlines and attributes with equals signs cannot be read back (name_fails, attributes_ambiguous). IDs can be, for all spans; the lines of a view and of a span without newlines in its texts are exact. The texts of numbers and times and the order of maps are inputs."
  }
 ]
}
