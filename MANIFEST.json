{
 "claims": [
  {
   "property": "C01",
   "status": "proved",
   "theorems": [
    "Verif.Policy.all_eval_iff",
    "Verif.Policy.any_eval_iff",
    "Verif.Policy.and_or_not_eval_iff",
    "Verif.Policy.all_any_set_semantics"
   ],
   "note": ""
  },
  {
   "property": "C02",
   "status": "proved",
   "theorems": [
    "Verif.Engine.work_spec",
    "Verif.Engine.record_disposition",
    "Verif.Engine.record_disposition_general"
   ],
   "note": ""
  },
  {
   "property": "C03",
   "status": "proved",
   "theorems": [
    "Verif.Engine.attached_rules_exact",
    "Verif.Engine.record_rules_after",
    "Verif.FlatRecord.flat_record_rules",
    "Verif.FlatRecord.flat_stable"
   ],
   "note": ""
  },
  {
   "property": "C04",
   "status": "proved",
   "theorems": [
    "Verif.Engine.warnings_exact",
    "Verif.Engine.actions_exact",
    "Verif.Engine.action_errors_irrelevant",
    "Verif.Engine.loadUserActions_last_wins"
   ],
   "note": ""
  },
  {
   "property": "C05",
   "status": "proved",
   "theorems": [
    "Verif.Engine.Pool.pool_exactly_once",
    "Verif.Engine.Pool.pool_no_invention",
    "Verif.Engine.Pool.pool_bounded"
   ],
   "note": ""
  },
  {
   "property": "C06",
   "status": "proved",
   "theorems": [
    "Verif.Engine.Pool.single_worker_order"
   ],
   "note": ""
  },
  {
   "property": "C07",
   "status": "proved",
   "theorems": [
    "Verif.Engine.Pool.stop_no_deadlock",
    "Verif.Engine.Pool.stop_terminates",
    "Verif.Engine.Pool.submit_no_deadlock",
    "Verif.Engine.Pool.zero_workers_never_accept"
   ],
   "note": ""
  },
  {
   "property": "C08",
   "status": "proved",
   "theorems": [
    "Verif.Engine.Swap.swap_atomic",
    "Verif.Engine.Swap.swap_shutdown_complete",
    "Verif.Engine.Swap.swap_delivery",
    "Verif.Engine.Swap.swap_no_deadlock",
    "Verif.Engine.Swap.swap_single_worker_order"
   ],
   "note": ""
  },
  {
   "property": "C09",
   "status": "proved",
   "theorems": [
    "Verif.Engine.Swap.refresh_discipline",
    "Verif.Engine.Swap.refresh_takes_oldest"
   ],
   "note": ""
  },
  {
   "property": "C10",
   "status": "proved",
   "theorems": [
    "Verif.Monitor.failed_compile_keeps_policies",
    "Verif.Monitor.monitor_history"
   ],
   "note": ""
  },
  {
   "property": "C11",
   "status": "partial",
   "theorems": [
    "Verif.Monitor.change_detection_exact",
    "Verif.Monitor.recompile_iff_changed",
    "Verif.Monitor.yml_change_missed",
    "Verif.Monitor.combined_event_missed"
   ],
   "note": "Exact for .yaml files and pure write events; the code misses .yml files and combined events (negations proved)."
  },
  {
   "property": "C12",
   "status": "partial",
   "theorems": [
    "Verif.Engine.Pool.fanout_same_records",
    "Verif.Engine.Swap.swap_single_worker_order",
    "Verif.Engine.Pool.fanout_order_can_differ",
    "Verif.Config.engine_init_outcome",
    "Verif.Config.bypass_forwards_everything"
   ],
   "note": "All channels receive the same multiset of records; the same order only with one worker: with two workers and two channels the orders can differ (witness proved)."
  },
  {
   "property": "C13",
   "status": "proved",
   "theorems": [
    "Verif.FlatRecord.string_comparison",
    "Verif.FlatRecord.single_valued_comparison",
    "Verif.FlatRecord.integer_comparison"
   ],
   "note": ""
  },
  {
   "property": "C14",
   "status": "proved",
   "theorems": [
    "Verif.FlatRecord.string_operators",
    "Verif.FlatRecord.integer_operators",
    "Verif.FlatRecord.slice_operators"
   ],
   "note": "strings.ToLower and strings.EqualFold are abstract functions."
  },
  {
   "property": "C15",
   "status": "proved",
   "theorems": [
    "Verif.FlatRecord.foldAny_iff",
    "Verif.FlatRecord.foldAll_iff",
    "Verif.FlatRecord.regExp_iff"
   ],
   "note": ""
  },
  {
   "property": "C16",
   "status": "proved",
   "theorems": [
    "Verif.FlatRecord.exists_iff",
    "Verif.FlatRecord.name_fields_always_exist"
   ],
   "note": "Finding: exists() on a base-name field holds on every record."
  },
  {
   "property": "C17",
   "status": "partial",
   "theorems": [
    "Verif.FlatRecord.field_as_text",
    "Verif.FlatRecord.literal_as_text",
    "Verif.FlatRecord.path_as_text",
    "Verif.FlatRecord.resolve_integer",
    "Verif.FlatRecord.field_table_sound",
    "Verif.FlatRecord.bracket_literal_truncated",
    "Verif.FlatRecord.resolution_panics_iff",
    "Verif.FlatRecord.non_integer_field_reads_zero",
    "Verif.FlatRecord.parent_uid_compares_as_zero"
   ],
   "note": "Proved for fields and for literals without an opening bracket; a literal with one is truncated and field+\"[\" panics (both proved), and sf.pproc.uid/gid read 0 as integers (proved)."
  },
  {
   "property": "C18",
   "status": "proved",
   "theorems": [
    "Verif.FlatRecord.prefilter_iff",
    "Verif.FlatRecord.prefilter_sound",
    "Verif.FlatRecord.prefilter_redundant",
    "Verif.FlatRecord.type_text",
    "Verif.Engine.prefilter_transparent"
   ],
   "note": ""
  },
  {
   "property": "C19",
   "status": "proved",
   "theorems": [
    "Verif.FlatRecord.getters_read_section",
    "Verif.FlatRecord.getters_absent_source"
   ],
   "note": ""
  },
  {
   "property": "C20",
   "status": "proved",
   "theorems": [
    "Verif.FlatRecord.ancestor_fields",
    "Verif.FlatRecord.parent_fields",
    "Verif.FlatRecord.parent_fields_absent",
    "Verif.FlatRecord.ancestor_name_matches"
   ],
   "note": ""
  },
  {
   "property": "C21",
   "status": "proved",
   "theorems": [
    "Verif.FlatRecord.context_accumulates"
   ],
   "note": ""
  },
  {
   "property": "C22",
   "status": "proved",
   "theorems": [
    "Verif.Falco.falco_condition_meaning",
    "Verif.Falco.falco_built",
    "Verif.Falco.falco_engine"
   ],
   "note": "Starts from the parse tree; C67-C69 connect it to the text."
  },
  {
   "property": "C23",
   "status": "proved",
   "theorems": [
    "Verif.Falco.falco_compiles_iff_acyclic",
    "Verif.Falco.falco_result_unique",
    "Verif.Falco.falco_policy_terminates"
   ],
   "note": ""
  },
  {
   "property": "C24",
   "status": "proved",
   "theorems": [
    "Verif.Falco.falco_list_expansion",
    "Verif.Falco.falco_list_members",
    "Verif.Falco.falco_list_items",
    "Verif.Falco.falco_bracket_removal",
    "Verif.Falco.falco_empty_list_not_empty"
   ],
   "note": "Finding: the list [] has one (empty) item."
  },
  {
   "property": "C25",
   "status": "proved",
   "theorems": [
    "Verif.Falco.falco_in",
    "Verif.Falco.falco_pmatch",
    "Verif.Falco.falco_pmatch_empty_list",
    "Verif.Falco.falco_in_brackets_ignored"
   ],
   "note": "Findings: pmatch against [] always holds; items of in ([...]) are ignored."
  },
  {
   "property": "C26",
   "status": "proved",
   "theorems": [
    "Verif.Falco.falco_enabled",
    "Verif.Falco.falco_priority",
    "Verif.Falco.falco_priority_case",
    "Verif.Falco.falco_alert_is_low",
    "Verif.Falco.falco_rules_in_order",
    "Verif.Falco.falco_filters_in_order",
    "Verif.Falco.falco_nothing_else",
    "Verif.Falco.falco_bad_file_rejects_all"
   ],
   "note": "Finding: severity \"alert\" maps to low."
  },
  {
   "property": "C27",
   "status": "proved",
   "theorems": [
    "Verif.Sigma.sigma_condition",
    "Verif.Sigma.sigma_order_independent",
    "Verif.Sigma.sigma_built",
    "Verif.Sigma.sigma_engine"
   ],
   "note": "path.Match is a parameter here; what it does is C87."
  },
  {
   "property": "C28",
   "status": "proved",
   "theorems": [
    "Verif.Sigma.sigma_matcher",
    "Verif.Sigma.sigma_search",
    "Verif.Sigma.sigma_windash_both",
    "Verif.Sigma.sigma_matcher_panics_iff",
    "Verif.Sigma.sigma_list_of_maps_is_conjunction",
    "Verif.Sigma.sigma_ignored_modifiers",
    "Verif.Sigma.sigma_chained_transformers_are_alternatives"
   ],
   "note": "Findings: re and base64offset ignored, base64Offset and cidr panic, lists of maps are conjunctions."
  },
  {
   "property": "C29",
   "status": "proved",
   "theorems": [
    "Verif.Sigma.flags_are_a_set",
    "Verif.Sigma.windash_spec",
    "Verif.Sigma.base64_recoverable",
    "Verif.Sigma.base64_offset_panics",
    "Verif.Sigma.transform_spec"
   ],
   "note": ""
  },
  {
   "property": "C30",
   "status": "proved",
   "theorems": [
    "Verif.Sigma.sigma_priority",
    "Verif.Sigma.sigma_rules",
    "Verif.Sigma.sigma_unparsable_ignored",
    "Verif.Sigma.sigma_errors"
   ],
   "note": ""
  },
  {
   "property": "C31",
   "status": "proved",
   "theorems": [
    "Verif.Otel.otel_attribute_order",
    "Verif.Otel.otel_compare",
    "Verif.Otel.otel_first_decides",
    "Verif.Otel.otel_absent",
    "Verif.Otel.otel_compare_panics_iff",
    "Verif.Otel.otel_exists",
    "Verif.Otel.otel_folds",
    "Verif.Otel.otel_regexp",
    "Verif.Otel.otel_bool_spelling"
   ],
   "note": "Findings: panics characterised (no resource, attribute without value, empty array with startswith/endswith); Booleans only know the spelling False. Floating point comparison is abstract."
  },
  {
   "property": "C32",
   "status": "proved",
   "theorems": [
    "Verif.Otel.otel_enrich_only_adds",
    "Verif.Otel.otel_enrich_first",
    "Verif.Otel.otel_enrich_again",
    "Verif.Otel.otel_enrich_history",
    "Verif.Otel.otel_tags",
    "Verif.Otel.otel_engine",
    "Verif.Otel.otel_stable",
    "Verif.Otel.otel_tags_repeated",
    "Verif.Otel.otel_foreign_attribute_duplicates",
    "Verif.Otel.otel_enrich_panics",
    "Verif.Otel.otel_rules_see_earlier_rules"
   ],
   "note": "For records arriving without a sf-processor scope, or with one written by the processor. Findings: a foreign sf-processor scope can get a second sf.processor.rules attribute or make enrichment panic; tags repeat across rules; rules can read sf.processor.rules."
  },
  {
   "property": "C33",
   "status": "proved",
   "theorems": [
    "Verif.Filter.suppression_window",
    "Verif.Filter.suppressed_iff",
    "Verif.Filter.first_occurrence_emitted",
    "Verif.Filter.emitted_after_expiry"
   ],
   "note": "Every history of filter calls, every clock; exact when each call is instantaneous, sandwiched between start and end of the calls otherwise. The wiring to the flattener outputs is in C40."
  },
  {
   "property": "C34",
   "status": "proved",
   "theorems": [
    "Verif.Filter.stored_keys",
    "Verif.Filter.count_spec",
    "Verif.Filter.test_agrees"
   ],
   "note": "Raw Add is only reached through TestAndAdd in the repository."
  },
  {
   "property": "C35",
   "status": "proved",
   "theorems": [
    "Verif.Filter.key_of_identity",
    "Verif.Filter.key_ignores_volatile",
    "Verif.Filter.identity_of_key_partial",
    "Verif.Filter.key_confuses_exe_args",
    "Verif.Filter.key_ignores_container"
   ],
   "note": "The claim itself is proved; a converse (equal keys imply equal identity) fails in the code, as key_confuses_exe_args and key_ignores_container show."
  },
  {
   "property": "C36",
   "status": "proved",
   "theorems": [
    "Verif.Cache.latest_write_maps",
    "Verif.Cache.latest_eq_some",
    "Verif.Cache.no_interference"
   ],
   "note": ""
  },
  {
   "property": "C37",
   "status": "proved",
   "theorems": [
    "Verif.Cache.process_versions"
   ],
   "note": ""
  },
  {
   "property": "C38",
   "status": "proved",
   "theorems": [
    "Verif.Cache.provenance_iff",
    "Verif.Cache.provenance_terminates",
    "Verif.Cache.provenance_diverges_iff",
    "Verif.Cache.provenance_fuel_bound",
    "Verif.Cache.provenance_stable",
    "Verif.Cache.provenance_first",
    "Verif.Cache.provenance_stale",
    "Verif.Cache.provenance_can_diverge"
   ],
   "note": "Findings: a cached chain is stale after an exec, and cyclic parents make the lookup diverge (both witnessed)."
  },
  {
   "property": "C39",
   "status": "proved",
   "theorems": [
    "Verif.Processor.reader_one_call_per_event",
    "Verif.Processor.reader_context",
    "Verif.Processor.reader_total",
    "Verif.Processor.processor_forwards"
   ],
   "note": "Executions on which provenance terminates (reader_total: all streams with acyclic parents). Record pointers of the union are assumed non-nil."
  },
  {
   "property": "C40",
   "status": "proved",
   "theorems": [
    "Verif.Flattener.same_on_every_channel",
    "Verif.Flattener.all_delivered_without_filter",
    "Verif.Flattener.k8s_always_delivered",
    "Verif.Flattener.delivered_iff"
   ],
   "note": "delivered_iff states the suppression window of C33 on the output channels, for calls handled at an instant."
  },
  {
   "property": "C41",
   "status": "proved",
   "theorems": [
    "Verif.Flattener.procEvt_ints",
    "Verif.Flattener.fileEvt_ints",
    "Verif.Flattener.fileFlow_ints",
    "Verif.Flattener.netFlow_ints",
    "Verif.Flattener.k8s_ints",
    "Verif.Flattener.flat_strs",
    "Verif.Flattener.flat_anys",
    "Verif.Flattener.flat_ptree",
    "Verif.Flattener.hexEncode_injective",
    "Verif.Flattener.pod_ips_unseparated"
   ],
   "note": "Strings are trimmed of surrounding white space where the code trims them; sfgo.GetIPStr and json.Marshal are abstract. Finding: pod addresses are rendered without separator."
  },
  {
   "property": "C42",
   "status": "proved",
   "theorems": [
    "Verif.Exporter.no_early_flush",
    "Verif.Exporter.batches_are_the_input",
    "Verif.Exporter.batch_sizes",
    "Verif.Exporter.flush_deadline"
   ],
   "note": "Every history of arrivals, ticks and close; every encoder, transport, buffer size and clock."
  },
  {
   "property": "C43",
   "status": "proved",
   "theorems": [
    "Verif.Exporter.transport_calls",
    "Verif.Exporter.batches_independent",
    "Verif.Exporter.failure_isolation",
    "Verif.Exporter.per_record_isolation",
    "Verif.Exporter.total_eq",
    "Verif.Exporter.allOrNone_total",
    "Verif.Exporter.json_batch_failure",
    "Verif.Exporter.kafka_skips_failures",
    "Verif.Exporter.syslog_stops",
    "Verif.Exporter.console_never_fails"
   ],
   "note": "A failing record takes its whole batch with it in the JSON encoder (json_batch_failure) and a failing message the rest of its batch in syslog (syslog_stops): within a batch isolation is not claimed."
  },
  {
   "property": "C44",
   "status": "proved",
   "theorems": [
    "Verif.Exporter.file_framing",
    "Verif.Exporter.file_with_failures",
    "Verif.Exporter.file_log",
    "Verif.Exporter.terminal_log",
    "Verif.Exporter.kafka_log",
    "Verif.Exporter.linesOf_log",
    "Verif.Exporter.lost_newline_unreported"
   ],
   "note": "Finding: an error while writing the newline is ignored, so two records can share a line without an error being reported."
  },
  {
   "property": "C45",
   "status": "proved",
   "theorems": [
    "Verif.Json.string_round_trip",
    "Verif.Json.text_round_trip",
    "Verif.Json.string_no_control",
    "Verif.Json.string_cannot_be_closed",
    "Verif.Json.quote_injective"
   ],
   "note": "For every byte string (invalid UTF-8 included), against an independent strict JSON reader."
  },
  {
   "property": "C46",
   "status": "partial",
   "theorems": [
    "Verif.Json.json_record_partial",
    "Verif.Json.json_wellformed_iff",
    "Verif.Json.json_panic_iff",
    "Verif.Json.json_unknown_process"
   ],
   "note": "The full claim is false of the code. json_record_partial: for records with a known ancestor chain and at most one address/service per pod the text reads back as exactly the specified document. json_wellformed_iff and json_panic_iff describe all other records: the text is not JSON, or the encoder panics."
  },
  {
   "property": "C47",
   "status": "proved",
   "theorems": [
    "Verif.Ecs.ecs_alert",
    "Verif.Ecs.severity_unique",
    "Verif.Ecs.severity_max",
    "Verif.Ecs.ecs_document"
   ],
   "note": "Severity is never below Low: a match of informational rules only is shown as Low (ecs.go:147). Rule tags are modelled as []string."
  },
  {
   "property": "C48",
   "status": "proved",
   "theorems": [
    "Verif.Ecs.ecs_classification",
    "Verif.Ecs.ecs_classification_total",
    "Verif.Ecs.class_unique",
    "Verif.Ecs.performed_testBit",
    "Verif.Ecs.performed_or",
    "Verif.Ecs.performed_single"
   ],
   "note": "Operation bit numbers and Kubernetes action numbers are assumptions (only their distinctness matters)."
  },
  {
   "property": "C49",
   "status": "proved",
   "theorems": [
    "Verif.Ecs.ecs_times"
   ],
   "note": "RFC3339 rendering is an abstract function."
  },
  {
   "property": "C50",
   "status": "proved",
   "theorems": [
    "Verif.Config.exporter_init_otel_iff",
    "Verif.Whole.seconds_exact",
    "Verif.Whole.seconds_overflow",
    "Verif.Whole.configured_durations",
    "Verif.Config.engine_config_fields",
    "Verif.Config.engine_config_numbers",
    "Verif.Config.engine_config_bad_numbers",
    "Verif.Config.engine_init_outcome",
    "Verif.Config.flattener_config_fields",
    "Verif.Config.exporter_config_accepts_iff",
    "Verif.Config.exporter_config_fields",
    "Verif.Config.exporter_init_iff",
    "Verif.Config.terminal_without_kafka_rejected"
   ],
   "note": "The exporter rejects every configuration without a Kafka section, whatever the transport (finding)."
  },
  {
   "property": "C51",
   "status": "proved",
   "theorems": [
    "Verif.Pipeline.env_overrides",
    "Verif.Pipeline.env_total",
    "Verif.Pipeline.env_deterministic",
    "Verif.Pipeline.env_limits",
    "Verif.Pipeline.env_cannot_set_numWorkers",
    "Verif.Pipeline.env_entry_without_value_panics"
   ],
   "note": "strings.ToLower is abstract except in the numWorkers witness; viper's reading of the file is not modelled."
  },
  {
   "property": "C52",
   "status": "proved",
   "theorems": [
    "Verif.Pipeline.wiring",
    "Verif.Pipeline.root_is_first_input",
    "Verif.Pipeline.fields_spec",
    "Verif.Pipeline.type_of_later_reference_ignored",
    "Verif.Pipeline.short_reference_panics"
   ],
   "note": "The channel type of later references to a name is ignored and references with fewer than two fields panic (proved findings)."
  },
  {
   "property": "C53",
   "status": "proved",
   "theorems": [
    "Verif.Pipeline.Drain.pipeline_never_panics",
    "Verif.Pipeline.Drain.channels_lossless",
    "Verif.Pipeline.Drain.drained_when_wait_returns",
    "Verif.Pipeline.Drain.no_deadlock",
    "Verif.Pipeline.Drain.finitely_many_steps",
    "Verif.Pipeline.Drain.wait_returns",
    "Verif.Pipeline.Drain.wait_reachable",
    "Verif.Pipeline.Drain.wait_reachable_driven",
    "Verif.Pipeline.Drain.complete_run_exists",
    "Verif.Pipeline.Drain.fair_schedule_exists",
    "Verif.Pipeline.Drain.sync_contract",
    "Verif.Pipeline.Drain.exporter_contract",
    "Verif.Pipeline.Drain.engine_contract",
    "Verif.Pipeline.Drain.sync_delivers",
    "Verif.Pipeline.Drain.engine_delivers",
    "Verif.Pipeline.Drain.chain_tree",
    "Verif.Pipeline.Drain.log_complete",
    "Verif.Pipeline.Drain.log_single_worker",
    "Verif.Pipeline.Drain.wait_before_last_cleanup",
    "Verif.Pipeline.Drain.shared_channel_panics"
   ],
   "note": "Proved for all trees of stages meeting a stage contract, and the contract for the reader/flattener, the policy engine with its workers and policy replacement, and the exporter. Limits proved: Wait may return before the last stage's Cleanup; two stages writing one channel crash."
  },
  {
   "property": "C54",
   "status": "partial",
   "theorems": [
    "Verif.Pipeline.file_driver_delivers",
    "Verif.Pipeline.file_driver_all",
    "Verif.Pipeline.file_driver_error_leaves_channel_open",
    "Verif.Pipeline.files_of_path",
    "Verif.Pipeline.otel_file_driver_partial",
    "Verif.Pipeline.otel_second_file_overwrites_first",
    "Verif.Pipeline.otel_error_leaves_channel_open"
   ],
   "note": "Proved for the SysFlow file driver; for the OTel file driver only for a single file, because the property is false for several files (records of earlier files are overwritten: proved witness), and on errors the channel is not closed (proved)."
  },
  {
   "property": "C55",
   "status": "proved",
   "theorems": [
    "Verif.Pipeline.driver_lookup",
    "Verif.Pipeline.processor_lookup",
    "Verif.Pipeline.handler_lookup",
    "Verif.Pipeline.chans_get"
   ],
   "note": "Plugins are abstract factories; dynamic plugin files are an abstract loader."
  },
  {
   "property": "C56",
   "status": "partial",
   "theorems": [
    "Verif.Monitor.latest_adopted_partial",
    "Verif.Monitor.latest_can_be_lost"
   ],
   "note": "Holds when the queue has room at the last compile; a full queue discards the latest set (witness proved)."
  },
  {
   "property": "C57",
   "status": "partial",
   "theorems": [
    "Verif.FlatRecord.falco_names_are_aliases",
    "Verif.FlatRecord.falco_misleading_names"
   ],
   "note": "52 names are exact aliases; evt.rawres, proc.createtime and proc.tty read something else (proved); evt.dir is a constant."
  },
  {
   "property": "C58",
   "status": "proved",
   "theorems": [
    "Verif.Json.json_shows_rule_values",
    "Verif.Json.json_shows_rule_lists"
   ],
   "note": "Exceptions in the statement are hypotheses; an example shows that the tty exception is real."
  },
  {
   "property": "C59",
   "status": "proved",
   "theorems": [
    "Verif.Json.json_single_line",
    "Verif.Json.json_log_lines"
   ],
   "note": "Assumes the configured schema version and the flag names of the sfgo library have no control characters."
  },
  {
   "property": "C60",
   "status": "proved",
   "theorems": [
    "Verif.Ecs.ecs_id_determined",
    "Verif.Ecs.ecs_id_distinguishes",
    "Verif.Ecs.ecs_id_confuses_node_and_container"
   ],
   "note": "xxhash is abstract; node and container identifiers are not delimited in the digest input, so identifiers of different nodes can coincide (witness proved)."
  },
  {
   "property": "C61",
   "status": "proved",
   "theorems": [
    "Verif.Ecs.ecs_document",
    "Verif.Ecs.ecs_panics_iff"
   ],
   "note": "The final rendering by encoding/json is not modelled."
  },
  {
   "property": "C62",
   "status": "proved",
   "theorems": [
    "Verif.Pipeline.config_vocabulary",
    "Verif.Pipeline.global_items",
    "Verif.Pipeline.cluster_id_lookup",
    "Verif.Pipeline.own_cluster_id_lost"
   ],
   "note": "A stage's own cluster.id is always overwritten (proved finding)."
  },
  {
   "property": "C63",
   "status": "proved",
   "theorems": [
    "Verif.Pipeline.load_stops_silently",
    "Verif.Pipeline.loaded_stage_valid",
    "Verif.Pipeline.silent_stop_only_without_processor",
    "Verif.Pipeline.missing_input_fails"
   ],
   "note": "A stage without processor ends loading without an error (proved finding)."
  },
  {
   "property": "C64",
   "status": "proved",
   "theorems": [
    "Verif.Pipeline.driver_flag",
    "Verif.Pipeline.drivers_of_config",
    "Verif.Pipeline.driver_config_first"
   ],
   "note": ""
  },
  {
   "property": "C65",
   "status": "proved",
   "theorems": [
    "Verif.Pipeline.stream_driver_delivers",
    "Verif.Pipeline.undecodable_message_forwarded"
   ],
   "note": "Messages that cannot be decoded are forwarded as partial records (proved finding)."
  },
  {
   "property": "C66",
   "status": "proved",
   "theorems": [
    "Verif.Pipeline.kafka_driver_delivers",
    "Verif.Pipeline.kafka_driver_never_waits"
   ],
   "note": "The driver never waits for the pipeline (proved finding)."
  },
  {
   "property": "C67",
   "status": "proved",
   "theorems": [
    "Verif.Falco.operator_iff",
    "Verif.Falco.atom_iff",
    "Verif.Falco.parse_iff",
    "Verif.Falco.one_reading",
    "Verif.Falco.condition_end",
    "Verif.Falco.accepted_iff",
    "Verif.Falco.written_meaning",
    "Verif.Falco.condition_text_meaning",
    "Verif.Falco.reserved_word_rejected"
   ],
   "note": "The grammar of Sfpl.g4 is modelled as a derivation relation and a recursive-descent parser; that the ANTLR-generated parser implements the grammar is trusted."
  },
  {
   "property": "C68",
   "status": "proved",
   "theorems": [
    "Verif.Falco.reserved_iff",
    "Verif.Falco.severity_iff",
    "Verif.Falco.name_iff",
    "Verif.Falco.path_iff",
    "Verif.Falco.hidden_iff",
    "Verif.Falco.tokens_spell_text",
    "Verif.Falco.longest_rule_wins",
    "Verif.Falco.tokens_blank",
    "Verif.Falco.tokens_comment",
    "Verif.Falco.reserved_alone",
    "Verif.Falco.plain_word_is_id",
    "Verif.Falco.severity_alone",
    "Verif.Falco.quoted_is_string",
    "Verif.Falco.path_alone",
    "Verif.Falco.symbol_whole",
    "Verif.Falco.angle_whole",
    "Verif.Falco.colon_whole",
    "Verif.Falco.lay_tokens",
    "Verif.Falco.lay_visible"
   ],
   "note": "The rule STRING is a parameter with stated assumptions (StrRule), which the generated lexer's rule meets (C94, antlr_strRule)."
  },
  {
   "property": "C69",
   "status": "proved",
   "theorems": [
    "Verif.Falco.text_ends_iff",
    "Verif.Falco.rule_attributes",
    "Verif.Falco.policy_accepted_iff",
    "Verif.Falco.policy_rejected",
    "Verif.Falco.policy_one_reading",
    "Verif.Falco.policy_layout",
    "Verif.Falco.rule_text_verbatim",
    "Verif.Falco.declaration_after_output_lost"
   ],
   "note": "That the ANTLR-generated parser implements the grammar with a greedy text rule, and error recovery, are trusted."
  },
  {
   "property": "C70",
   "status": "proved",
   "theorems": [
    "Verif.Falco.policy_texts_to_alerts",
    "Verif.Falco.site_definitions"
   ],
   "note": "Composition of C22-C26, C02, C03, C18, C67-C69 for flat records."
  },
  {
   "property": "C71",
   "status": "proved",
   "theorems": [
    "Verif.Flattener.stream_to_fields",
    "Verif.Flattener.shows_field",
    "Verif.Flattener.eventsAfter_spec",
    "Verif.Flattener.known_unique",
    "Verif.Flattener.firstUse_unique"
   ],
   "note": "composition of C36-C41 and C17/C20: specification `fields` is a table over the stream's own notions (`Known`), which are determined by the stream (`known_unique`); hypotheses satisfiable by reader_total; example on demoStream"
  },
  {
   "property": "C72",
   "status": "proved",
   "theorems": [
    "Verif.Falco.stream_and_policies_to_alerts",
    "Verif.Falco.applies_iff",
    "Verif.Falco.filtered_iff",
    "Verif.Falco.same_attrs",
    "Verif.Falco.same_text",
    "Verif.Falco.same_int"
   ],
   "note": "composition of C70 and C71 for alert mode; `AppliesTo` speaks about field values only, `applies_iff` shows that it does not depend on which record shows them"
  },
  {
   "property": "C73",
   "status": "proved",
   "theorems": [
    "Verif.Config.exporter_accepts_iff",
    "Verif.Config.exporter_config_is",
    "Verif.Config.vault_off_not_consulted",
    "Verif.Config.vault_secrets_only_for_elastic",
    "Verif.Config.exporter_models_agree",
    "Verif.Config.splitComma_spec",
    "Verif.Config.CommaPieces.unique"
   ],
   "note": "time.ParseDuration and the vault are parameters; Kafka keys starting with {topic}. are treated as plain keys."
  },
  {
   "property": "C74",
   "status": "proved",
   "theorems": [
    "Verif.Config.kafka_driver_config"
   ],
   "note": "The consumer itself is not modelled here; see C66 for the driver loop."
  },
  {
   "property": "C75",
   "status": "proved",
   "theorems": [
    "Verif.Exporter.elastic_export",
    "Verif.Exporter.elastic_succeeds",
    "Verif.Exporter.elastic_log",
    "Verif.Exporter.elastic_index"
   ],
   "note": "The esutil bulk indexer is an oracle for success and failure of its calls; `create` is the documented meaning of the bulk action the code uses. Finding: on failure the bulk indexer is never closed."
  },
  {
   "property": "C76",
   "status": "proved",
   "theorems": [
    "Verif.Whole.whole_program",
    "Verif.Whole.whole_program_fixed",
    "Verif.Whole.whole_program_count",
    "Verif.Whole.whole_program_waits",
    "Verif.Whole.log_deterministic"
   ],
   "note": "Composition of the stage models; streams whose process table is cyclic make the reader hang and are excluded (hrun); file writes succeed; Example.lean gives a program, a stream and a complete execution."
  },
  {
   "property": "C77",
   "status": "proved",
   "theorems": [
    "Verif.Pipeline.Main.exit_zero_iff",
    "Verif.Pipeline.Main.no_driver_started",
    "Verif.Pipeline.Main.drivers_started",
    "Verif.Pipeline.Main.background_failure_ignored"
   ],
   "note": "Flag parsing, profiles and drivers are given by their outcomes; health checks are not modelled."
  },
  {
   "property": "C78",
   "status": "proved",
   "theorems": [
    "Verif.Pipeline.Process.run_returned",
    "Verif.Pipeline.Process.run_no_deadlock",
    "Verif.Pipeline.Process.run_returns",
    "Verif.Pipeline.Process.complete_run",
    "Verif.Whole.file_run",
    "Verif.Whole.file_run_returns",
    "Verif.Whole.stream_run"
   ],
   "note": "Streams whose process table is cyclic make the reader hang and are excluded (hret). For the socket driver return is conditional: whether accept returns is up to the environment."
  },
  {
   "property": "C79",
   "status": "proved",
   "theorems": [
    "Verif.Whole.log_at_every_moment",
    "Verif.Whole.log_at_every_moment_of_process",
    "Verif.Whole.complete_log_lines",
    "Verif.Whole.lines_at_every_moment"
   ],
   "note": "Bytes reach the file in the order of the writes and writes succeed; what the operating system loses in a power failure is outside."
  },
  {
   "property": "C80",
   "status": "proved",
   "theorems": [
    "Verif.Pipeline.Stop.running_iff",
    "Verif.Pipeline.Stop.flag_stays_stopped",
    "Verif.Pipeline.Stop.early_signal_lost",
    "Verif.Pipeline.Stop.few_steps_after_stop",
    "Verif.Pipeline.Stop.stop_ends",
    "Verif.Pipeline.Stop.stop_ends_after_four",
    "Verif.Pipeline.Stop.waiting_driver_not_stopped"
   ],
   "note": "os/signal is given its documented meaning for an unbuffered channel (a signal nobody waits for is dropped). early_signal_lost and waiting_driver_not_stopped are findings."
  },
  {
   "property": "C81",
   "status": "proved",
   "theorems": [
    "Verif.Ecs.ecs_text",
    "Verif.Ecs.ecs_text_event",
    "Verif.Ecs.ecs_text_process",
    "Verif.Ecs.record_text",
    "Verif.Ecs.value_text"
   ],
   "note": "encoding/json is given its documented behaviour (field order, omitempty, sorted keys, escaping); read is the JSON grammar of C45."
  },
  {
   "property": "C82",
   "status": "proved",
   "theorems": [
    "Verif.Whole.whole_program_ecs",
    "Verif.Whole.whole_program_elastic",
    "Verif.Whole.whole_program_index",
    "Verif.Whole.whole_program_elastic_dedup"
   ],
   "note": "The SysFlow library names each event kind NF, FF, FE, PE or KE (KindNames); writes to the file and calls of the bulk library succeed (failures: C43, C75)."
  },
  {
   "property": "C83",
   "status": "proved",
   "theorems": [
    "Verif.Whole.whole_program_dedup",
    "Verif.Whole.reader_survivors",
    "Verif.Whole.hasKey_iff",
    "Verif.Whole.survivors_unique",
    "Verif.Whole.survives_without_duplicate"
   ],
   "note": "Each event is handled at one instant (all clock readings of one call equal); the general window with distinct readings is C33. xxhash is left abstract."
  },
  {
   "property": "C84",
   "status": "proved",
   "theorems": [
    "Verif.Otel.otel_policy_texts_to_alerts",
    "Verif.Otel.otel_no_panic",
    "Verif.Otel.whole_meaning"
   ],
   "note": "Records with absent values or empty arrays can panic (C31 states exactly when); rules that read what the processor writes depend on their order (otel_rules_see_earlier_rules); StrRule is the lexer rule for quoted strings (C69)."
  },
  {
   "property": "C85",
   "status": "proved",
   "theorems": [
    "Verif.OtelRun.whole_program_otel",
    "Verif.OtelRun.whole_program_otel_file",
    "Verif.OtelRun.otel_messages_at_every_moment",
    "Verif.OtelRun.otel_kafka_run",
    "Verif.OtelRun.otel_file_run"
   ],
   "note": "Kafka Produce calls are taken to succeed (failures: C43); messages handed to the producer are sent by its Flush in Cleanup, which Wait does not await (wait_before_last_cleanup), and the Kafka driver does not call Wait at all (kafka_driver_never_waits); several OTel files overwrite each other (C54 finding), so the file driver is taken with one file; the file log needs an encoding without newlines (JSON; proto bytes may contain them)."
  },
  {
   "property": "C86",
   "status": "proved",
   "theorems": [
    "Verif.Whole.bypass_program",
    "Verif.Whole.bypass_program_ecs",
    "Verif.Whole.bypass_deterministic",
    "Verif.OtelRun.bypass_program_otel",
    "Verif.Config.engine_init_outcome"
   ],
   "note": "Writes to the log are taken to succeed (failures: C43). engine_init_outcome says when the engine has no interpreter."
  },
  {
   "property": "C87",
   "status": "proved",
   "theorems": [
    "Verif.Sigma.unmatched_pattern_fires",
    "Verif.Sigma.pattern_iff",
    "Verif.Sigma.pattern_sound",
    "Verif.Sigma.pattern_prefix",
    "Verif.Sigma.pattern_slash_incomplete"
   ],
   "note": "The model is of path.Match of the Go standard library, which compiler.go:171-198 calls. pattern_slash_incomplete is a proved finding about names with a slash."
  },
  {
   "property": "C88",
   "status": "proved",
   "theorems": [
    "Verif.Sigma.sigma_compiled_to_alerts",
    "Verif.Sigma.sigma_files_to_alerts",
    "Verif.Sigma.sigma_compiles"
   ],
   "note": "Starts from the parsed rules; the YAML parser of sigma-go is not modelled."
  },
  {
   "property": "C89",
   "status": "proved",
   "theorems": [
    "Verif.Whole.sigma_program",
    "Verif.Whole.sigma_program_dedup",
    "Verif.Whole.sigma_program_ecs",
    "Verif.Whole.sigma_file_run"
   ],
   "note": "Writes to the log are taken to succeed (failures: C43)."
  },
  {
   "property": "C90",
   "status": "proved",
   "theorems": [
    "Verif.Processor.stuck_never_returns",
    "Verif.Processor.reader_returns",
    "Verif.Processor.reader_returns_iff",
    "Verif.Processor.older_parents_not_stuck",
    "Verif.Processor.run_same",
    "Verif.Whole.sane_file_run"
   ],
   "note": "stuck_never_returns is a proved finding: two processes that name each other as parent make getProcProv (tables.go:141-150) recurse until the stack overflows, which kills the program."
  },
  {
   "property": "C91",
   "status": "proved",
   "theorems": [
    "Verif.Pipeline.wired_as_named",
    "Verif.Pipeline.tree_of_conf",
    "Verif.Pipeline.named_channels_deliver"
   ],
   "note": "The contract of stages (C53) is proved of the reader, the policy engine and the exporter."
  },
  {
   "property": "C92",
   "status": "proved",
   "theorems": [
    "Verif.Whole.shipped_never_load",
    "Verif.Whole.usual_boots",
    "Verif.Whole.usual_file_json",
    "Verif.Whole.usual_file_ecs",
    "Verif.Whole.usual_elastic",
    "Verif.Whole.usual_boots_bypass",
    "Verif.Whole.usual_manifest",
    "Verif.Whole.build_version",
    "Verif.Whole.boot_file_run",
    "Verif.Whole.no_kafka_never_loads",
    "Verif.Whole.shipped_local_never_loads"
   ],
   "note": "no_kafka_never_loads and shipped_local_never_loads are proved findings: CreateConfig (commons/config.go:126) requires a Kafka section for every transport, so the shipped pipelines other than pipeline.otel.json fail to load. Not covered: the dialling of syslog and Elastic in their Init (taken to succeed)."
  },
  {
   "property": "C93",
   "status": "proved",
   "theorems": [
    "Verif.Whole.directory_starts_iff",
    "Verif.Whole.directory_to_log",
    "Verif.Whole.createInterp_built",
    "Verif.Whole.initPolicies_finds",
    "Verif.Whole.policySet_good"
   ],
   "note": "Policies in Sigma: the language is a hypothesis here (C70-C73, C84 cover Sigma from parsed rules on)."
  },
  {
   "property": "C94",
   "status": "proved",
   "theorems": [
    "Verif.Falco.string_token",
    "Verif.Falco.string_bounds",
    "Verif.Falco.only_literal",
    "Verif.Falco.antlr_strRule",
    "Verif.Falco.quoted_start",
    "Verif.Falco.two_empty_literals"
   ],
   "note": "quoted_start and two_empty_literals are findings: the recursive alternative of STRING makes adjacent literals merge. Modelled is the algorithm of the ANTLR 4 lexer runtime (ordered configurations, dropping of lower-priority non-greedy ones at the end of the rule), which is not in /repo, on the automaton serialised in sfpl_lexer.go. antlr_strRule shows that the generated lexer meets the assumption StrRule of C68 and all theorems built on it."
  },
  {
   "property": "C95",
   "status": "proved",
   "theorems": [
    "Verif.Pipeline.Health.one_health_line",
    "Verif.Pipeline.Health.checks_in_order",
    "Verif.Pipeline.Health.passed_means_all_passed",
    "Verif.Pipeline.Health.failed_means_failure_or_timeout",
    "Verif.Pipeline.Health.returns_at_deadline",
    "Verif.Pipeline.Health.checks_are_bounded",
    "Verif.Pipeline.Health.checker_ends",
    "Verif.Pipeline.Health.shipped_checks_never_fail"
   ],
   "note": "shipped_checks_never_fail is a finding: the health line of the shipped program says nothing about the transports. A result that is ready when the timer fires may be ignored (example in the module): the code leaves the choice to select."
  },
  {
   "property": "C96",
   "status": "proved",
   "theorems": [
    "Verif.Pipeline.driver_channels_shared",
    "Verif.Whole.driver_reports",
    "Verif.Pipeline.type_of_first_mention",
    "Verif.Pipeline.refusing_stage_never_finishes",
    "Verif.Pipeline.unread_channel_never_finishes",
    "Verif.Whole.stage_starts_iff",
    "Verif.Whole.outputs_crash_iff",
    "Verif.Whole.driver_feeds_named_channel",
    "Verif.Whole.driver_feeds_nobody",
    "Verif.Whole.driver_feeds_root",
    "Verif.Whole.example_plugin_never_runs"
   ],
   "note": "Findings: a stage with several inputs makes the program hang at the end instead of failing at the start; a misspelt driver channel is not noticed; the example processor of /repo/plugins crashes on every channel, as it asserts a Channel where the factories make pointers. unread_channel_never_finishes models the driver as one that, as far as the pipeline can see, only waits and returns."
  },
  {
   "property": "C97",
   "status": "partial",
   "theorems": [
    "Verif.Whole.ecs_marks_partial",
    "Verif.Whole.ecs_log_never_says_alert",
    "Verif.Whole.ecs_alert_not_marked"
   ],
   "note": "Proved: reason, severity and tags exactly as the matching rules say, in every document of the whole program, unless actions set marks or tags. The claim about kind is false of the code: nothing calls SetAlert, so every document says `event` (proved for every run: ecs_log_never_says_alert; ecs_alert_not_marked is a run with a matching rule whose document says `event`)."
  },
  {
   "property": "C98",
   "status": "proved",
   "theorems": [
    "Verif.OtelRun.otel_boots",
    "Verif.OtelRun.boot_otel_kafka",
    "Verif.OtelRun.boot_otel_file",
    "Verif.OtelRun.otel_boots_bypass",
    "Verif.OtelRun.otel_needs_format",
    "Verif.OtelRun.shipped_otel_boots"
   ],
   "note": ""
  },
  {
   "property": "C99",
   "status": "proved",
   "theorems": [
    "Verif.Monitor.Live.edit_run",
    "Verif.Monitor.Live.settles",
    "Verif.Monitor.Live.up_to_date",
    "Verif.Monitor.Live.settled_iff",
    "Verif.Monitor.Live.in_order",
    "Verif.Monitor.Live.attempts_faithful",
    "Verif.Monitor.Live.latest_pushed",
    "Verif.Monitor.Live.at_most_every_ten_seconds",
    "Verif.Monitor.Live.ten_seconds_after_first_event",
    "Verif.Monitor.Live.stop_iff",
    "Verif.Monitor.Live.change_before_watch_missed",
    "Verif.Monitor.Live.change_back_missed",
    "Verif.Monitor.Live.chmod_missed",
    "Verif.Monitor.Live.cleanup_waits_for_the_storm"
   ],
   "note": ""
  },
  {
   "property": "C100",
   "status": "proved",
   "theorems": [
    "Verif.Monitor.Joint.directory_in_force",
    "Verif.Monitor.Joint.last_push_in_force",
    "Verif.Monitor.Joint.in_force_was_compiled",
    "Verif.Monitor.Joint.both_run",
    "Verif.Monitor.Joint.none_held_back"
   ],
   "note": ""
  },
  {
   "property": "C101",
   "status": "partial",
   "theorems": [
    "Verif.Pipeline.ConfFile.searched_dotted",
    "Verif.Pipeline.ConfFile.named_json_is_read_partial",
    "Verif.Pipeline.ConfFile.loaded_from_named_partial",
    "Verif.Pipeline.ConfFile.sibling_json_is_read",
    "Verif.Pipeline.ConfFile.unknown_extension_not_read",
    "Verif.Pipeline.ConfFile.plain_name_is_read_iff",
    "Verif.Pipeline.ConfFile.reading_crashes_iff",
    "Verif.Pipeline.ConfFile.denied_config_crashes",
    "Verif.Pipeline.ConfFile.driver_plugins",
    "Verif.Pipeline.ConfFile.driver_in_force",
    "Verif.Pipeline.ConfFile.load_has_outcome"
   ],
   "note": "The full statement is false of the code: the extension of the file named is dropped and viper searches for the stem, so NAME.yaml reads NAME.json if there is one (sibling_json_is_read), a file with an unknown extension is never read (unknown_extension_not_read), and a path that exists but cannot be looked at crashes the program (reading_crashes_iff). For names ending in .json, the default, everything is proved."
  },
  {
   "property": "C102",
   "status": "proved",
   "theorems": [
    "Verif.Whole.sigma_directory_to_log",
    "Verif.Whole.sigma_directory_needs"
   ],
   "note": ""
  },
  {
   "property": "C103",
   "status": "proved",
   "theorems": [
    "Verif.Pipeline.Reload.can_adopt",
    "Verif.Whole.waiting_can_take_effect",
    "Verif.Whole.edit_takes_effect",
    "Verif.Whole.edited_policies_adopted",
    "Verif.Whole.hot_reload",
    "Verif.Whole.reload_run",
    "Verif.Whole.reload_settled",
    "Verif.Whole.compileRead_accepts",
    "Verif.Pipeline.Reload.run_engine",
    "Verif.Pipeline.Reload.pushed_compiled",
    "Verif.Pipeline.Reload.can_finish",
    "Verif.Pipeline.Reload.drive_and_close"
   ],
   "note": ""
  },
  {
   "property": "C104",
   "status": "proved",
   "theorems": [
    "Verif.Whole.format_never_loads",
    "Verif.Exporter.syslog_sent",
    "Verif.Exporter.GetsThrough.all",
    "Verif.Whole.terminal_program",
    "Verif.Whole.syslog_program",
    "Verif.Whole.boot_terminal_run",
    "Verif.Whole.boot_syslog_run",
    "Verif.Whole.unreachable_never_loads"
   ],
   "note": "Failing sends are an arbitrary predicate on the number of the send. Reachability of the daemon is a parameter of the environment, checked once at start."
  },
  {
   "property": "C105",
   "status": "proved",
   "theorems": [
    "Verif.Whole.tree_program",
    "Verif.Whole.layout_shape",
    "Verif.Whole.layout_ok",
    "Verif.Whole.loaded_inited",
    "Verif.Pipeline.Drain.engine_delivers_outputs"
   ],
   "note": "Exporters have separate destinations in the model (two exporters configured with the same file are not modelled as sharing it); the policy monitor offers the same policy sets to every engine."
  },
  {
   "property": "C106",
   "status": "proved",
   "theorems": [
    "Verif.Exporter.file_kept",
    "Verif.Exporter.KeptOf.all",
    "Verif.Exporter.elastic_requests",
    "Verif.Exporter.RequestsFor.all",
    "Verif.Exporter.elastic_only_ecs",
    "Verif.Whole.file_program",
    "Verif.Whole.elastic_program",
    "Verif.Whole.boot_failing_file_run",
    "Verif.Whole.boot_failing_elastic_run"
   ],
   "note": "A failing write of a newline after a message is not reported by the code (finding, C44): the next message is then glued to it. Whether the indexing library later delivers what was added to an unclosed bulk is outside the model."
  },
  {
   "property": "C107",
   "status": "proved",
   "theorems": [
    "Verif.Whole.sigma_edit_takes_effect",
    "Verif.Whole.edited_rules_adopted",
    "Verif.Whole.compileSigma_accepts",
    "Verif.Whole.sigma_reload_run",
    "Verif.Whole.sigma_reload_settled",
    "Verif.Whole.sigma_hot_reload"
   ],
   "note": "The parser of Sigma rules and of the configuration file is a parameter. The configuration file, which the compiler reads again on every reload, is assumed not to change."
  },
  {
   "property": "C108",
   "status": "proved",
   "theorems": [
    "Verif.OtelRun.otel_edit_adopted",
    "Verif.OtelRun.otel_edit_takes_effect",
    "Verif.OtelRun.otel_edited_policies_adopted",
    "Verif.OtelRun.otel_directory_starts_iff",
    "Verif.OtelRun.otel_reload_run",
    "Verif.OtelRun.otel_reload_file",
    "Verif.OtelRun.otel_reload_settled",
    "Verif.OtelRun.otel_hot_reload"
   ],
   "note": "As in C85: for rules that do not read the attributes that the processor itself writes, and records that have not been processed before."
  },
  {
   "property": "C109",
   "status": "proved",
   "theorems": [
    "Verif.Engine.bench_index_beyond",
    "Verif.Engine.bench_needs_perf",
    "Verif.Engine.bench_default",
    "Verif.Engine.bench_index",
    "Verif.Engine.bench_size",
    "Verif.Engine.bench_only_removes",
    "Verif.Engine.bench_disposition",
    "Verif.Engine.bench_typo"
   ],
   "note": "Finding: a word instead of a number counts as 0 (bench_typo), so only the first rule, or none, is in force. The whole-program claims are for performance logging off."
  },
  {
   "property": "C110",
   "status": "proved",
   "theorems": [
    "Verif.FlatRecord.SymPath.sscan_iff",
    "Verif.FlatRecord.SymPath.link_split",
    "Verif.FlatRecord.SymPath.other_path_kept",
    "Verif.FlatRecord.SymPath.absolute_path_kept",
    "Verif.FlatRecord.SymPath.path_without_arrow_kept",
    "Verif.FlatRecord.SymPath.hex_value",
    "Verif.FlatRecord.SymPath.hex_digits_value",
    "Verif.FlatRecord.SymPath.link_roundtrip",
    "Verif.FlatRecord.SymPath.escaped_arrow_never_splits",
    "Verif.FlatRecord.SymPath.target_with_space_is_cut"
   ],
   "note": "The Go library's Sscanf is modelled for the two formats used; addresses are uint64 as declared."
  },
  {
   "property": "C111",
   "status": "proved",
   "theorems": [
    "Verif.FlatRecord.Paths.relative_directory",
    "Verif.FlatRecord.Paths.file_fields",
    "Verif.FlatRecord.Paths.new_file_fields",
    "Verif.FlatRecord.Paths.link_fields",
    "Verif.FlatRecord.Paths.directory_clean",
    "Verif.FlatRecord.Paths.trailing_slash_directory",
    "Verif.FlatRecord.Paths.no_file_is_dot"
   ],
   "note": "filepath.Dir and filepath.Clean are modelled for Unix."
  },
  {
   "property": "C112",
   "status": "proved",
   "theorems": [
    "Verif.FlatRecord.Paths.process_id_identifies",
    "Verif.FlatRecord.Paths.parent_id_identifies",
    "Verif.FlatRecord.Paths.process_ids_collide"
   ],
   "note": "The hash (xxhash, 64 bits) is a parameter; that it has no collisions is an assumption, which a 64-bit hash meets only approximately."
  },
  {
   "property": "C113",
   "status": "partial",
   "theorems": [
    "Verif.Shared.ecs_ids_undisturbed_partial",
    "Verif.Shared.ecs_ids_one_exporter",
    "Verif.Shared.keys_undisturbed_partial",
    "Verif.Shared.keys_one_reader",
    "Verif.Shared.two_ecs_exporters_mix",
    "Verif.Shared.two_ecs_exporters_collide",
    "Verif.Shared.two_readers_mix",
    "Verif.Shared.Tags.shared_record_tags",
    "Verif.Shared.Tags.record_tags_kept"
   ],
   "note": "The code contradicts the full statement (package-level scratch buffers): the negations are proved. Writes of eight bytes and calls of hash.Write are taken as single steps."
  },
  {
   "property": "C114",
   "status": "proved",
   "theorems": [
    "Verif.OtelRun.row_messages_at_every_moment",
    "Verif.OtelRun.row_file_at_every_moment",
    "Verif.OtelRun.row_file_at_every_moment_of_process",
    "Verif.OtelRun.engines_in_a_row_through",
    "Verif.Otel.otel_engine_again",
    "Verif.OtelRun.engines_in_a_row_kafka",
    "Verif.OtelRun.engines_in_a_row_file",
    "Verif.OtelRun.engines_in_a_row_fixed",
    "Verif.OtelRun.row_boots",
    "Verif.OtelRun.boot_row_file",
    "Verif.OtelRun.boot_row_kafka"
   ],
   "note": "Records as in C85 (no holes, no scope of the processor's on arrival)."
  },
  {
   "property": "C115",
   "status": "partial",
   "theorems": [
    "Verif.OtelRun.branches_encode_partial",
    "Verif.OtelRun.branches_never_separate",
    "Verif.OtelRun.branches_mix"
   ],
   "note": "The code contradicts the full statement: the negation is proved for every schedule. Steps of engines and exporters are taken as atomic (C125 has the single reads and writes of noting); one record, one policy set per branch."
  },
  {
   "property": "C116",
   "status": "proved",
   "theorems": [
    "Verif.Plugins.printer_prints",
    "Verif.Plugins.printer_crashes_on_stranger",
    "Verif.Plugins.printer_survives_iff",
    "Verif.Plugins.example_logs",
    "Verif.Plugins.now_tags"
   ],
   "note": "The printer's crash is a finding and is stated as such. The example processor is shown behind a flattener without duplicate suppression."
  },
  {
   "property": "C117",
   "status": "proved",
   "theorems": [
    "Verif.Pipeline.socket_records",
    "Verif.Pipeline.socket_delivers",
    "Verif.Pipeline.socket_delivers_all",
    "Verif.Pipeline.avro_reads_back",
    "Verif.Pipeline.long_packet_ends_connection",
    "Verif.Pipeline.short_packet_completed",
    "Verif.Pipeline.mixed_record_delivered",
    "Verif.Whole.socket_run"
   ],
   "note": "The Avro decoder (gogen-avro's vm.Eval) is a dependency: C117 asks of it only that it reads a record back from its encoding, whatever follows; that the Avro binary encoding allows this is proved for a decoder written after the Avro specification. The last three theorems of Verif.Pipeline are findings."
  },
  {
   "property": "C118",
   "status": "proved",
   "theorems": [
    "Verif.Pipeline.directory_in_name_order",
    "Verif.Pipeline.single_file",
    "Verif.Pipeline.rotated_files_in_time_order",
    "Verif.Pipeline.rotation_out_of_order",
    "Verif.Pipeline.subdirectory_ends_run",
    "Verif.Pipeline.no_trace",
    "Verif.Whole.trace_directory_run"
   ],
   "note": "os.ReadDir (sorted by name) and os.Stat are modelled after their documentation; nothing changes in the directory between listing and reading. rotation_out_of_order, subdirectory_ends_run and parts of no_trace are findings."
  },
  {
   "property": "C119",
   "status": "proved",
   "theorems": [
    "Verif.FlatRecord.FieldList.fields_listed",
    "Verif.FlatRecord.FieldList.fields_order_irrelevant"
   ],
   "note": ""
  },
  {
   "property": "C120",
   "status": "proved",
   "theorems": [
    "Verif.Exporter.NameSet.set_is_a_set"
   ],
   "note": ""
  },
  {
   "property": "C121",
   "status": "proved",
   "theorems": [
    "Verif.Otel.filtered_marked",
    "Verif.OtelRun.engines_in_a_row_through",
    "Verif.Otel.noted_rules_read_back",
    "Verif.Otel.noted_tags_read_back",
    "Verif.Otel.otel_engine_filters_noted",
    "Verif.Otel.filter_on_noted_rules"
   ],
   "note": "Finding: a rule without tags creates an empty array, so a later condition `sf.processor.tags startswith x` makes the worker panic."
  },
  {
   "property": "C122",
   "status": "proved",
   "theorems": [
    "Verif.Whole.reload_elastic",
    "Verif.Whole.reload_index",
    "Verif.Whole.elastic_edit_takes_effect",
    "Verif.Whole.hot_reload_elastic",
    "Verif.Whole.elastic_edited_policies_adopted",
    "Verif.Whole.reload_terminal",
    "Verif.Whole.reload_syslog",
    "Verif.Whole.reload_kept",
    "Verif.Whole.out_edit_takes_effect",
    "Verif.Whole.hot_reload_terminal",
    "Verif.Whole.hot_reload_syslog",
    "Verif.Whole.hot_reload_kept"
   ],
   "note": "Falco policies; the directory is changed by anyone at any time; the monitor of C103 runs beside the pipeline."
  },
  {
   "property": "C123",
   "status": "proved",
   "theorems": [
    "Verif.Whole.sigma_out",
    "Verif.Whole.sigma_elastic",
    "Verif.Whole.sigma_reload_out",
    "Verif.Whole.sigma_reload_elastic",
    "Verif.Whole.sigma_index",
    "Verif.Whole.sigma_out_edit_takes_effect",
    "Verif.Whole.sigma_elastic_edit_takes_effect",
    "Verif.Whole.sigma_start_terminal",
    "Verif.Whole.sigma_start_syslog",
    "Verif.Whole.sigma_start_file",
    "Verif.Whole.sigma_start_elastic",
    "Verif.Whole.sigma_hot_terminal",
    "Verif.Whole.sigma_hot_syslog",
    "Verif.Whole.sigma_hot_file",
    "Verif.Whole.sigma_hot_elastic"
   ],
   "note": "What a text of a file parses to is a parameter (the YAML and Sigma parsers are third-party code); what is compiled, mapped and evaluated from it is modelled."
  },
  {
   "property": "C124",
   "status": "proved",
   "theorems": [
    "Verif.Shared.Gather.writes_in_room",
    "Verif.Shared.Gather.shared_reading",
    "Verif.Shared.Gather.shared_conditions",
    "Verif.Shared.Gather.add_rules_notes",
    "Verif.Shared.Gather.attribute_missed"
   ],
   "note": "The slices, their arrays and Go's append are modelled, one element read or written in a step. Two engines that note at the same time are in C125. attribute_missed is the finding."
  },
  {
   "property": "C125",
   "status": "proved",
   "theorems": [
    "Verif.Shared.Noting.in_turn_noted",
    "Verif.Shared.Noting.turns_exist",
    "Verif.Shared.Noting.simultaneous_not_noted",
    "Verif.Shared.Noting.noted_only",
    "Verif.Shared.Noting.listed_once",
    "Verif.Shared.Noting.own_scopes_stay",
    "Verif.Shared.Noting.alone_kept",
    "Verif.Shared.Noting.in_turn_all",
    "Verif.Shared.Noting.call_ends",
    "Verif.Shared.Noting.rule_lost",
    "Verif.Shared.Noting.two_scopes"
   ],
   "note": "A slice (array, length, capacity) is read or written in one step, an element of an array in one step; memory is sequentially consistent. rule_lost, two_scopes and simultaneous_not_noted are the findings."
  },
  {
   "property": "C126",
   "status": "proved",
   "theorems": [
    "Verif.Whole.tree_at_every_moment",
    "Verif.Whole.dedup_at_every_moment",
    "Verif.Whole.ecs_at_every_moment",
    "Verif.Whole.sigma_at_every_moment",
    "Verif.Whole.bypass_at_every_moment",
    "Verif.Whole.bypass_ecs_at_every_moment",
    "Verif.OtelRun.bypass_messages_at_every_moment"
   ],
   "note": "Of one policy engine with the JSON encoder: C79; OpenTelemetry with policies: C85, C114. The records must have older parents (or the reader return on them)."
  },
  {
   "property": "C127",
   "status": "proved",
   "theorems": [
    "Verif.Whole.doc_id_unique",
    "Verif.Whole.index_after_restart",
    "Verif.Whole.restart_same_ids",
    "Verif.Whole.rerun_unchanged"
   ],
   "note": "Without the duplicate filter (what it lets pass depends on the clock). The library is assumed to store each document by `create` under its identifier, or not at all. One exporter: with several ECS exporters in one process identifiers may come out wrong (C113)."
  },
  {
   "property": "C128",
   "status": "proved",
   "theorems": [
    "Verif.Whole.reload_at_every_moment",
    "Verif.Whole.sigma_reload_at_every_moment",
    "Verif.Whole.reload_log_at_every_moment",
    "Verif.Whole.reload_requests_at_every_moment",
    "Verif.Whole.sigma_requests_at_every_moment",
    "Verif.Whole.terminal_moments",
    "Verif.Whole.syslog_moments",
    "Verif.Whole.file_moments",
    "Verif.Whole.elastic_moments",
    "Verif.Whole.log_moments",
    "Verif.Whole.sigma_terminal_moments",
    "Verif.Whole.sigma_syslog_moments",
    "Verif.Whole.sigma_file_moments",
    "Verif.Whole.sigma_elastic_moments"
   ],
   "note": "The usual pipeline of reader, policy engine and exporter; without the duplicate filter. The first sets are the ones already taken when the moment comes; those pushed but not yet taken may or may not be in force for events still to be judged, which is why the statement says `begin with` and `are the first of`."
  },
  {
   "property": "C129",
   "status": "proved",
   "theorems": [
    "Verif.OtelRun.otel_reload_at_every_moment",
    "Verif.OtelRun.otel_reload_file_at_every_moment",
    "Verif.OtelRun.otel_moments"
   ],
   "note": "That the policy sets read only input (C107's condition) is asked of each set in force. From the configuration for Kafka; for the file from the built pipeline."
  },
  {
   "property": "C130",
   "status": "proved",
   "theorems": [
    "Verif.OtelRun.otel_kafka_refusing",
    "Verif.OtelRun.otel_file_cut",
    "Verif.OtelRun.otel_printed",
    "Verif.OtelRun.otel_kafka_refusing_moments",
    "Verif.OtelRun.otel_file_cut_moments",
    "Verif.OtelRun.otel_printed_moments",
    "Verif.OtelRun.otel_kafka_refusing_reloading",
    "Verif.OtelRun.otel_file_cut_reloading",
    "Verif.OtelRun.boot_otel_kafka_refusing",
    "Verif.OtelRun.boot_otel_file_cut",
    "Verif.OtelRun.boot_otel_printed",
    "Verif.OtelRun.otel_reload_refusing",
    "Verif.OtelRun.otel_reload_cut",
    "Verif.OtelRun.otel_reload_printed",
    "Verif.Exporter.kafka_accepted",
    "Verif.Exporter.file_kept_partly"
   ],
   "note": "`Refuses` means that `Produce` returns an error (logged and skipped by the code); what the broker later does with an accepted message is outside the model. Records that cannot be encoded are skipped, as in C85."
  },
  {
   "property": "C131",
   "status": "proved",
   "theorems": [
    "Verif.OtelRun.row_kafka_refusing",
    "Verif.OtelRun.row_file_cut",
    "Verif.OtelRun.row_printed",
    "Verif.OtelRun.boot_row_kafka_refusing",
    "Verif.OtelRun.boot_row_file_cut",
    "Verif.OtelRun.boot_row_printed",
    "Verif.OtelRun.row_process"
   ],
   "note": "As C130: `Refuses` means that `Produce` returns an error; records that cannot be encoded are skipped."
  },
  {
   "property": "C132",
   "status": "proved",
   "theorems": [
    "Verif.Whole.doc_id_across",
    "Verif.Whole.index_after_starts",
    "Verif.Whole.one_doc_each",
    "Verif.Whole.index_after_changes"
   ],
   "note": "The duplicate filter is off. Elastic's index is modelled by its documented behaviour for the operation `create`: a document with an identifier that is present is refused."
  },
  {
   "property": "C133",
   "status": "proved",
   "theorems": [
    "Verif.Exporter.LogFile.log_is_own",
    "Verif.Exporter.LogFile.replaced_is_lost",
    "Verif.Exporter.LogFile.kept_is_appended",
    "Verif.Exporter.LogFile.log_is_exported",
    "Verif.Exporter.LogFile.export_writes"
   ],
   "note": "Links, renaming, directories under the path and other programs that change the file are outside the model."
  }
 ]
}