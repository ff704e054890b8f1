# Axioms of the theorems in MANIFEST.json

Output of `#print axioms`.

* `Verif.Policy.all_eval_iff`: propext, Quot.sound
* `Verif.Policy.any_eval_iff`: propext, Quot.sound
* `Verif.Policy.and_or_not_eval_iff`: propext
* `Verif.Policy.all_any_set_semantics`: propext, Quot.sound
* `Verif.Engine.work_spec`: propext, Quot.sound
* `Verif.Engine.record_disposition`: propext, Quot.sound
* `Verif.Engine.record_disposition_general`: propext, Quot.sound
* `Verif.Engine.attached_rules_exact`: propext, Quot.sound
* `Verif.Engine.record_rules_after`: propext, Quot.sound
* `Verif.FlatRecord.flat_record_rules`: propext, Classical.choice, Quot.sound
* `Verif.FlatRecord.flat_stable`: propext, Classical.choice, Quot.sound
* `Verif.Engine.warnings_exact`: propext, Quot.sound
* `Verif.Engine.actions_exact`: propext, Quot.sound
* `Verif.Engine.action_errors_irrelevant`: propext, Quot.sound
* `Verif.Engine.loadUserActions_last_wins`: propext, Quot.sound
* `Verif.Engine.Pool.pool_exactly_once`: propext, Classical.choice, Quot.sound
* `Verif.Engine.Pool.pool_no_invention`: propext, Classical.choice, Quot.sound
* `Verif.Engine.Pool.pool_bounded`: propext, Classical.choice, Quot.sound
* `Verif.Engine.Pool.single_worker_order`: propext, Classical.choice, Quot.sound
* `Verif.Engine.Pool.stop_no_deadlock`: propext, Classical.choice, Quot.sound
* `Verif.Engine.Pool.stop_terminates`: propext, Classical.choice, Quot.sound
* `Verif.Engine.Pool.submit_no_deadlock`: propext, Classical.choice, Quot.sound
* `Verif.Engine.Pool.zero_workers_never_accept`: propext, Classical.choice, Quot.sound
* `Verif.Engine.Swap.swap_atomic`: propext, Classical.choice, Quot.sound
* `Verif.Engine.Swap.swap_shutdown_complete`: propext, Classical.choice, Quot.sound
* `Verif.Engine.Swap.swap_delivery`: propext, Classical.choice, Quot.sound
* `Verif.Engine.Swap.swap_no_deadlock`: propext, Classical.choice, Quot.sound
* `Verif.Engine.Swap.swap_single_worker_order`: propext, Classical.choice, Quot.sound
* `Verif.Engine.Swap.refresh_discipline`: propext, Quot.sound
* `Verif.Engine.Swap.refresh_takes_oldest`: propext, Quot.sound
* `Verif.Monitor.failed_compile_keeps_policies`: propext, Classical.choice, Quot.sound
* `Verif.Monitor.monitor_history`: propext, Classical.choice, Quot.sound
* `Verif.Monitor.change_detection_exact`: propext, Classical.choice, Quot.sound
* `Verif.Monitor.recompile_iff_changed`: propext, Classical.choice, Quot.sound
* `Verif.Monitor.yml_change_missed`: propext, Classical.choice, Quot.sound
* `Verif.Monitor.combined_event_missed`: propext, Classical.choice, Quot.sound
* `Verif.Engine.Pool.fanout_same_records`: propext, Classical.choice, Quot.sound
* `Verif.Engine.Swap.swap_single_worker_order`: propext, Classical.choice, Quot.sound
* `Verif.Engine.Pool.fanout_order_can_differ`: propext
* `Verif.Config.engine_init_outcome`: propext, Classical.choice, Quot.sound
* `Verif.Config.bypass_forwards_everything`: propext, Classical.choice, Quot.sound
* `Verif.FlatRecord.string_comparison`: propext, Classical.choice, Quot.sound
* `Verif.FlatRecord.single_valued_comparison`: propext, Quot.sound
* `Verif.FlatRecord.integer_comparison`: propext, Classical.choice, Quot.sound
* `Verif.FlatRecord.string_operators`: propext, Quot.sound
* `Verif.FlatRecord.integer_operators`: propext, Quot.sound
* `Verif.FlatRecord.slice_operators`: propext, Classical.choice, Quot.sound
* `Verif.FlatRecord.foldAny_iff`: propext, Classical.choice, Quot.sound
* `Verif.FlatRecord.foldAll_iff`: propext, Classical.choice, Quot.sound
* `Verif.FlatRecord.regExp_iff`: propext, Classical.choice, Quot.sound
* `Verif.FlatRecord.exists_iff`: propext, Classical.choice, Quot.sound
* `Verif.FlatRecord.name_fields_always_exist`: propext, Classical.choice, Quot.sound
* `Verif.FlatRecord.field_as_text`: propext, Classical.choice, Quot.sound
* `Verif.FlatRecord.literal_as_text`: propext, Classical.choice, Quot.sound
* `Verif.FlatRecord.path_as_text`: propext, Classical.choice, Quot.sound
* `Verif.FlatRecord.resolve_integer`: propext, Quot.sound
* `Verif.FlatRecord.field_table_sound`: propext, Classical.choice, Quot.sound
* `Verif.FlatRecord.bracket_literal_truncated`: propext, Classical.choice, Quot.sound
* `Verif.FlatRecord.resolution_panics_iff`: propext, Classical.choice, Quot.sound
* `Verif.FlatRecord.non_integer_field_reads_zero`: propext, Classical.choice, Quot.sound
* `Verif.FlatRecord.parent_uid_compares_as_zero`: propext, Classical.choice, Quot.sound
* `Verif.FlatRecord.prefilter_iff`: propext, Classical.choice, Quot.sound
* `Verif.FlatRecord.prefilter_sound`: propext, Classical.choice, Quot.sound
* `Verif.FlatRecord.prefilter_redundant`: propext, Classical.choice, Quot.sound
* `Verif.FlatRecord.type_text`: propext, Classical.choice, Quot.sound
* `Verif.Engine.prefilter_transparent`: propext, Quot.sound
* `Verif.FlatRecord.getters_read_section`: propext
* `Verif.FlatRecord.getters_absent_source`: propext
* `Verif.FlatRecord.ancestor_fields`: propext, Classical.choice, Quot.sound
* `Verif.FlatRecord.parent_fields`: propext, Classical.choice, Quot.sound
* `Verif.FlatRecord.parent_fields_absent`: propext
* `Verif.FlatRecord.ancestor_name_matches`: propext, Classical.choice, Quot.sound
* `Verif.FlatRecord.context_accumulates`: propext, Quot.sound
* `Verif.Falco.falco_condition_meaning`: propext, Classical.choice, Quot.sound
* `Verif.Falco.falco_built`: propext, Quot.sound
* `Verif.Falco.falco_engine`: propext, Classical.choice, Quot.sound
* `Verif.Falco.falco_compiles_iff_acyclic`: propext, Classical.choice, Quot.sound
* `Verif.Falco.falco_result_unique`: propext, Quot.sound
* `Verif.Falco.falco_policy_terminates`: propext, Classical.choice, Quot.sound
* `Verif.Falco.falco_list_expansion`: propext, Quot.sound
* `Verif.Falco.falco_list_members`: propext, Classical.choice, Quot.sound
* `Verif.Falco.falco_list_items`: propext
* `Verif.Falco.falco_bracket_removal`: propext
* `Verif.Falco.falco_empty_list_not_empty`: propext, Classical.choice, Quot.sound
* `Verif.Falco.falco_in`: propext, Classical.choice, Quot.sound
* `Verif.Falco.falco_pmatch`: propext, Classical.choice, Quot.sound
* `Verif.Falco.falco_pmatch_empty_list`: propext, Classical.choice, Quot.sound
* `Verif.Falco.falco_in_brackets_ignored`: propext, Classical.choice, Quot.sound
* `Verif.Falco.falco_enabled`: propext, Classical.choice, Quot.sound
* `Verif.Falco.falco_priority`: propext, Classical.choice, Quot.sound
* `Verif.Falco.falco_priority_case`: propext, Classical.choice, Quot.sound
* `Verif.Falco.falco_alert_is_low`: propext, Classical.choice, Quot.sound
* `Verif.Falco.falco_rules_in_order`: propext, Classical.choice, Quot.sound
* `Verif.Falco.falco_filters_in_order`: propext, Classical.choice, Quot.sound
* `Verif.Falco.falco_nothing_else`: propext, Classical.choice, Quot.sound
* `Verif.Falco.falco_bad_file_rejects_all`: propext, Classical.choice, Quot.sound
* `Verif.Sigma.sigma_condition`: propext, Classical.choice, Quot.sound
* `Verif.Sigma.sigma_order_independent`: propext, Classical.choice, Quot.sound
* `Verif.Sigma.sigma_built`: propext, Classical.choice, Quot.sound
* `Verif.Sigma.sigma_engine`: propext, Classical.choice, Quot.sound
* `Verif.Sigma.sigma_matcher`: propext, Classical.choice, Quot.sound
* `Verif.Sigma.sigma_search`: propext, Classical.choice, Quot.sound
* `Verif.Sigma.sigma_windash_both`: propext, Classical.choice, Quot.sound
* `Verif.Sigma.sigma_matcher_panics_iff`: propext, Classical.choice, Quot.sound
* `Verif.Sigma.sigma_list_of_maps_is_conjunction`: propext, Classical.choice, Quot.sound
* `Verif.Sigma.sigma_ignored_modifiers`: propext, Classical.choice, Quot.sound
* `Verif.Sigma.sigma_chained_transformers_are_alternatives`: propext, Classical.choice, Quot.sound
* `Verif.Sigma.flags_are_a_set`: propext, Classical.choice, Quot.sound
* `Verif.Sigma.windash_spec`: propext, Quot.sound
* `Verif.Sigma.base64_recoverable`: propext, Classical.choice, Quot.sound
* `Verif.Sigma.base64_offset_panics`: propext, Classical.choice, Quot.sound
* `Verif.Sigma.transform_spec`: propext, Classical.choice, Quot.sound
* `Verif.Sigma.sigma_priority`: propext, Classical.choice, Quot.sound
* `Verif.Sigma.sigma_rules`: propext, Classical.choice, Quot.sound
* `Verif.Sigma.sigma_unparsable_ignored`: propext, Classical.choice, Quot.sound
* `Verif.Sigma.sigma_errors`: propext, Classical.choice, Quot.sound
* `Verif.Otel.otel_attribute_order`: propext, Quot.sound
* `Verif.Otel.otel_compare`: propext, Classical.choice, Quot.sound
* `Verif.Otel.otel_first_decides`: propext, Classical.choice, Quot.sound
* `Verif.Otel.otel_absent`: propext, Classical.choice, Quot.sound
* `Verif.Otel.otel_compare_panics_iff`: propext, Classical.choice, Quot.sound
* `Verif.Otel.otel_exists`: propext, Quot.sound
* `Verif.Otel.otel_folds`: propext, Classical.choice, Quot.sound
* `Verif.Otel.otel_regexp`: propext, Quot.sound
* `Verif.Otel.otel_bool_spelling`: propext, Classical.choice, Quot.sound
* `Verif.Otel.otel_enrich_only_adds`: propext, Classical.choice, Quot.sound
* `Verif.Otel.otel_enrich_first`: propext, Classical.choice, Quot.sound
* `Verif.Otel.otel_enrich_again`: propext, Classical.choice, Quot.sound
* `Verif.Otel.otel_enrich_history`: propext, Classical.choice, Quot.sound
* `Verif.Otel.otel_tags`: propext, Classical.choice, Quot.sound
* `Verif.Otel.otel_engine`: propext, Classical.choice, Quot.sound
* `Verif.Otel.otel_stable`: propext, Classical.choice, Quot.sound
* `Verif.Otel.otel_tags_repeated`: propext, Classical.choice, Quot.sound
* `Verif.Otel.otel_foreign_attribute_duplicates`: propext, Classical.choice, Quot.sound
* `Verif.Otel.otel_enrich_panics`: propext, Classical.choice, Quot.sound
* `Verif.Otel.otel_rules_see_earlier_rules`: propext, Classical.choice, Quot.sound
* `Verif.Filter.suppression_window`: propext, Quot.sound
* `Verif.Filter.suppressed_iff`: propext, Quot.sound
* `Verif.Filter.first_occurrence_emitted`: propext, Quot.sound
* `Verif.Filter.emitted_after_expiry`: propext, Quot.sound
* `Verif.Filter.stored_keys`: propext, Classical.choice, Quot.sound
* `Verif.Filter.count_spec`: propext, Quot.sound
* `Verif.Filter.test_agrees`: propext
* `Verif.Filter.key_of_identity`: none
* `Verif.Filter.key_ignores_volatile`: propext, Quot.sound
* `Verif.Filter.identity_of_key_partial`: propext, Classical.choice, Quot.sound
* `Verif.Filter.key_confuses_exe_args`: propext, Classical.choice, Quot.sound
* `Verif.Filter.key_ignores_container`: propext, Classical.choice, Quot.sound
* `Verif.Cache.latest_write_maps`: propext, Quot.sound
* `Verif.Cache.latest_eq_some`: propext, Quot.sound
* `Verif.Cache.no_interference`: propext, Quot.sound
* `Verif.Cache.process_versions`: propext, Quot.sound
* `Verif.Cache.provenance_iff`: propext
* `Verif.Cache.provenance_terminates`: propext, Classical.choice, Quot.sound
* `Verif.Cache.provenance_diverges_iff`: propext, Classical.choice, Quot.sound
* `Verif.Cache.provenance_fuel_bound`: propext, Classical.choice, Quot.sound
* `Verif.Cache.provenance_stable`: propext, Quot.sound
* `Verif.Cache.provenance_first`: propext
* `Verif.Cache.provenance_stale`: propext, Classical.choice, Quot.sound
* `Verif.Cache.provenance_can_diverge`: propext, Classical.choice, Quot.sound
* `Verif.Processor.reader_one_call_per_event`: propext
* `Verif.Processor.reader_context`: propext, Quot.sound
* `Verif.Processor.reader_total`: propext, Quot.sound
* `Verif.Processor.processor_forwards`: propext
* `Verif.Flattener.same_on_every_channel`: propext
* `Verif.Flattener.all_delivered_without_filter`: propext, Quot.sound
* `Verif.Flattener.k8s_always_delivered`: propext
* `Verif.Flattener.delivered_iff`: propext, Classical.choice, Quot.sound
* `Verif.Flattener.procEvt_ints`: propext
* `Verif.Flattener.fileEvt_ints`: propext
* `Verif.Flattener.fileFlow_ints`: propext
* `Verif.Flattener.netFlow_ints`: propext
* `Verif.Flattener.k8s_ints`: propext
* `Verif.Flattener.flat_strs`: propext
* `Verif.Flattener.flat_anys`: propext, Quot.sound
* `Verif.Flattener.flat_ptree`: none
* `Verif.Flattener.hexEncode_injective`: propext, Quot.sound
* `Verif.Flattener.pod_ips_unseparated`: propext, Classical.choice, Quot.sound
* `Verif.Exporter.no_early_flush`: propext, Quot.sound
* `Verif.Exporter.batches_are_the_input`: propext, Quot.sound
* `Verif.Exporter.batch_sizes`: propext, Quot.sound
* `Verif.Exporter.flush_deadline`: propext, Quot.sound
* `Verif.Exporter.transport_calls`: propext, Quot.sound
* `Verif.Exporter.batches_independent`: propext
* `Verif.Exporter.failure_isolation`: propext, Quot.sound
* `Verif.Exporter.per_record_isolation`: propext, Quot.sound
* `Verif.Exporter.total_eq`: propext, Quot.sound
* `Verif.Exporter.allOrNone_total`: propext, Quot.sound
* `Verif.Exporter.json_batch_failure`: propext, Quot.sound
* `Verif.Exporter.kafka_skips_failures`: propext, Quot.sound
* `Verif.Exporter.syslog_stops`: propext, Quot.sound
* `Verif.Exporter.console_never_fails`: none
* `Verif.Exporter.file_framing`: propext
* `Verif.Exporter.file_with_failures`: propext, Quot.sound
* `Verif.Exporter.file_log`: propext, Quot.sound
* `Verif.Exporter.terminal_log`: propext, Quot.sound
* `Verif.Exporter.kafka_log`: propext, Quot.sound
* `Verif.Exporter.linesOf_log`: propext
* `Verif.Exporter.lost_newline_unreported`: none
* `Verif.Json.string_round_trip`: propext, Quot.sound
* `Verif.Json.text_round_trip`: propext, Classical.choice, Quot.sound
* `Verif.Json.string_no_control`: propext, Quot.sound
* `Verif.Json.string_cannot_be_closed`: propext, Quot.sound
* `Verif.Json.quote_injective`: propext, Classical.choice, Quot.sound
* `Verif.Json.json_record_partial`: propext, Classical.choice, Quot.sound
* `Verif.Json.json_wellformed_iff`: propext, Classical.choice, Quot.sound
* `Verif.Json.json_panic_iff`: propext, Classical.choice, Quot.sound
* `Verif.Json.json_unknown_process`: propext, Classical.choice, Quot.sound
* `Verif.Ecs.ecs_alert`: propext, Classical.choice, Quot.sound
* `Verif.Ecs.severity_unique`: none
* `Verif.Ecs.severity_max`: propext
* `Verif.Ecs.ecs_document`: propext, Classical.choice, Quot.sound
* `Verif.Ecs.ecs_classification`: propext, Classical.choice, Quot.sound
* `Verif.Ecs.ecs_classification_total`: propext, Classical.choice, Quot.sound
* `Verif.Ecs.class_unique`: propext, Classical.choice, Quot.sound
* `Verif.Ecs.performed_testBit`: propext, Classical.choice, Quot.sound
* `Verif.Ecs.performed_or`: propext, Classical.choice, Quot.sound
* `Verif.Ecs.performed_single`: propext, Classical.choice, Quot.sound
* `Verif.Ecs.ecs_times`: propext, Classical.choice, Quot.sound
* `Verif.Config.exporter_init_otel_iff`: propext, Classical.choice, Quot.sound
* `Verif.Whole.seconds_exact`: propext, Quot.sound
* `Verif.Whole.seconds_overflow`: propext
* `Verif.Whole.configured_durations`: propext, Classical.choice, Quot.sound
* `Verif.Config.engine_config_fields`: propext, Classical.choice, Quot.sound
* `Verif.Config.engine_config_numbers`: propext, Classical.choice, Quot.sound
* `Verif.Config.engine_config_bad_numbers`: propext, Classical.choice, Quot.sound
* `Verif.Config.engine_init_outcome`: propext, Classical.choice, Quot.sound
* `Verif.Config.flattener_config_fields`: propext, Classical.choice, Quot.sound
* `Verif.Config.exporter_config_accepts_iff`: propext, Classical.choice, Quot.sound
* `Verif.Config.exporter_config_fields`: propext, Classical.choice, Quot.sound
* `Verif.Config.exporter_init_iff`: propext, Classical.choice, Quot.sound
* `Verif.Config.terminal_without_kafka_rejected`: propext, Classical.choice, Quot.sound
* `Verif.Pipeline.env_overrides`: propext, Classical.choice, Quot.sound
* `Verif.Pipeline.env_total`: propext, Classical.choice, Quot.sound
* `Verif.Pipeline.env_deterministic`: propext, Classical.choice, Quot.sound
* `Verif.Pipeline.env_limits`: propext, Quot.sound
* `Verif.Pipeline.env_cannot_set_numWorkers`: propext, Classical.choice, Quot.sound
* `Verif.Pipeline.env_entry_without_value_panics`: propext, Classical.choice, Quot.sound
* `Verif.Pipeline.wiring`: propext, Classical.choice, Quot.sound
* `Verif.Pipeline.root_is_first_input`: propext, Classical.choice, Quot.sound
* `Verif.Pipeline.fields_spec`: propext, Quot.sound
* `Verif.Pipeline.type_of_later_reference_ignored`: propext
* `Verif.Pipeline.short_reference_panics`: propext, Classical.choice, Quot.sound
* `Verif.Pipeline.Drain.pipeline_never_panics`: propext, Classical.choice, Quot.sound
* `Verif.Pipeline.Drain.channels_lossless`: propext, Classical.choice, Quot.sound
* `Verif.Pipeline.Drain.drained_when_wait_returns`: propext, Classical.choice, Quot.sound
* `Verif.Pipeline.Drain.no_deadlock`: propext, Classical.choice, Quot.sound
* `Verif.Pipeline.Drain.finitely_many_steps`: propext, Classical.choice, Quot.sound
* `Verif.Pipeline.Drain.wait_returns`: propext, Classical.choice, Quot.sound
* `Verif.Pipeline.Drain.wait_reachable`: propext, Classical.choice, Quot.sound
* `Verif.Pipeline.Drain.wait_reachable_driven`: propext, Classical.choice, Quot.sound
* `Verif.Pipeline.Drain.complete_run_exists`: propext, Classical.choice, Quot.sound
* `Verif.Pipeline.Drain.fair_schedule_exists`: propext, Classical.choice, Quot.sound
* `Verif.Pipeline.Drain.sync_contract`: propext, Classical.choice, Quot.sound
* `Verif.Pipeline.Drain.exporter_contract`: propext, Quot.sound
* `Verif.Pipeline.Drain.engine_contract`: propext, Classical.choice, Quot.sound
* `Verif.Pipeline.Drain.sync_delivers`: propext, Classical.choice, Quot.sound
* `Verif.Pipeline.Drain.engine_delivers`: propext, Classical.choice, Quot.sound
* `Verif.Pipeline.Drain.chain_tree`: propext, Quot.sound
* `Verif.Pipeline.Drain.log_complete`: propext, Classical.choice, Quot.sound
* `Verif.Pipeline.Drain.log_single_worker`: propext, Classical.choice, Quot.sound
* `Verif.Pipeline.Drain.wait_before_last_cleanup`: propext, Quot.sound
* `Verif.Pipeline.Drain.shared_channel_panics`: none
* `Verif.Pipeline.file_driver_delivers`: propext, Quot.sound
* `Verif.Pipeline.file_driver_all`: propext, Quot.sound
* `Verif.Pipeline.file_driver_error_leaves_channel_open`: propext, Quot.sound
* `Verif.Pipeline.files_of_path`: propext
* `Verif.Pipeline.otel_file_driver_partial`: propext, Classical.choice, Quot.sound
* `Verif.Pipeline.otel_second_file_overwrites_first`: propext
* `Verif.Pipeline.otel_error_leaves_channel_open`: propext
* `Verif.Pipeline.driver_lookup`: propext, Classical.choice, Quot.sound
* `Verif.Pipeline.processor_lookup`: propext, Classical.choice, Quot.sound
* `Verif.Pipeline.handler_lookup`: propext, Classical.choice, Quot.sound
* `Verif.Pipeline.chans_get`: propext, Quot.sound
* `Verif.Monitor.latest_adopted_partial`: propext, Classical.choice, Quot.sound
* `Verif.Monitor.latest_can_be_lost`: propext, Classical.choice, Quot.sound
* `Verif.FlatRecord.falco_names_are_aliases`: propext, Classical.choice, Quot.sound
* `Verif.FlatRecord.falco_misleading_names`: propext, Classical.choice, Quot.sound
* `Verif.Json.json_shows_rule_values`: propext, Classical.choice, Quot.sound
* `Verif.Json.json_shows_rule_lists`: propext, Classical.choice, Quot.sound
* `Verif.Json.json_single_line`: propext, Classical.choice, Quot.sound
* `Verif.Json.json_log_lines`: propext, Classical.choice, Quot.sound
* `Verif.Ecs.ecs_id_determined`: propext, Classical.choice, Quot.sound
* `Verif.Ecs.ecs_id_distinguishes`: propext, Classical.choice, Quot.sound
* `Verif.Ecs.ecs_id_confuses_node_and_container`: propext, Classical.choice, Quot.sound
* `Verif.Ecs.ecs_document`: propext, Classical.choice, Quot.sound
* `Verif.Ecs.ecs_panics_iff`: propext, Classical.choice, Quot.sound
* `Verif.Pipeline.config_vocabulary`: propext, Classical.choice, Quot.sound
* `Verif.Pipeline.global_items`: propext, Classical.choice, Quot.sound
* `Verif.Pipeline.cluster_id_lookup`: propext
* `Verif.Pipeline.own_cluster_id_lost`: propext, Classical.choice, Quot.sound
* `Verif.Pipeline.load_stops_silently`: propext, Classical.choice, Quot.sound
* `Verif.Pipeline.loaded_stage_valid`: propext, Classical.choice, Quot.sound
* `Verif.Pipeline.silent_stop_only_without_processor`: propext, Classical.choice, Quot.sound
* `Verif.Pipeline.missing_input_fails`: propext, Classical.choice, Quot.sound
* `Verif.Pipeline.driver_flag`: propext, Classical.choice, Quot.sound
* `Verif.Pipeline.drivers_of_config`: propext, Classical.choice, Quot.sound
* `Verif.Pipeline.driver_config_first`: propext, Classical.choice, Quot.sound
* `Verif.Pipeline.stream_driver_delivers`: propext, Classical.choice, Quot.sound
* `Verif.Pipeline.undecodable_message_forwarded`: propext
* `Verif.Pipeline.kafka_driver_delivers`: propext
* `Verif.Pipeline.kafka_driver_never_waits`: propext, Quot.sound
* `Verif.Falco.operator_iff`: propext, Classical.choice, Quot.sound
* `Verif.Falco.atom_iff`: propext, Classical.choice, Quot.sound
* `Verif.Falco.parse_iff`: propext, Quot.sound
* `Verif.Falco.one_reading`: propext, Quot.sound
* `Verif.Falco.condition_end`: propext, Quot.sound
* `Verif.Falco.accepted_iff`: propext, Classical.choice, Quot.sound
* `Verif.Falco.written_meaning`: propext, Classical.choice, Quot.sound
* `Verif.Falco.condition_text_meaning`: propext, Classical.choice, Quot.sound
* `Verif.Falco.reserved_word_rejected`: propext, Classical.choice, Quot.sound
* `Verif.Falco.reserved_iff`: propext, Classical.choice, Quot.sound
* `Verif.Falco.severity_iff`: propext, Classical.choice, Quot.sound
* `Verif.Falco.name_iff`: propext, Classical.choice, Quot.sound
* `Verif.Falco.path_iff`: propext, Classical.choice, Quot.sound
* `Verif.Falco.hidden_iff`: propext, Classical.choice, Quot.sound
* `Verif.Falco.tokens_spell_text`: propext, Classical.choice, Quot.sound
* `Verif.Falco.longest_rule_wins`: propext, Classical.choice, Quot.sound
* `Verif.Falco.tokens_blank`: propext, Classical.choice, Quot.sound
* `Verif.Falco.tokens_comment`: propext, Classical.choice, Quot.sound
* `Verif.Falco.reserved_alone`: propext, Classical.choice, Quot.sound
* `Verif.Falco.plain_word_is_id`: propext, Classical.choice, Quot.sound
* `Verif.Falco.severity_alone`: propext, Classical.choice, Quot.sound
* `Verif.Falco.quoted_is_string`: propext, Classical.choice, Quot.sound
* `Verif.Falco.path_alone`: propext, Classical.choice, Quot.sound
* `Verif.Falco.symbol_whole`: propext, Classical.choice, Quot.sound
* `Verif.Falco.angle_whole`: propext, Classical.choice, Quot.sound
* `Verif.Falco.colon_whole`: propext, Classical.choice, Quot.sound
* `Verif.Falco.lay_tokens`: propext, Classical.choice, Quot.sound
* `Verif.Falco.lay_visible`: propext, Classical.choice, Quot.sound
* `Verif.Falco.text_ends_iff`: propext, Classical.choice, Quot.sound
* `Verif.Falco.rule_attributes`: propext
* `Verif.Falco.policy_accepted_iff`: propext, Classical.choice, Quot.sound
* `Verif.Falco.policy_rejected`: propext, Classical.choice, Quot.sound
* `Verif.Falco.policy_one_reading`: propext, Classical.choice, Quot.sound
* `Verif.Falco.policy_layout`: propext, Classical.choice, Quot.sound
* `Verif.Falco.rule_text_verbatim`: propext, Classical.choice, Quot.sound
* `Verif.Falco.declaration_after_output_lost`: propext, Classical.choice, Quot.sound
* `Verif.Falco.policy_texts_to_alerts`: propext, Classical.choice, Quot.sound
* `Verif.Falco.site_definitions`: propext, Quot.sound
* `Verif.Flattener.stream_to_fields`: propext, Classical.choice, Quot.sound
* `Verif.Flattener.shows_field`: propext, Classical.choice, Quot.sound
* `Verif.Flattener.eventsAfter_spec`: propext
* `Verif.Flattener.known_unique`: propext, Quot.sound
* `Verif.Flattener.firstUse_unique`: propext, Quot.sound
* `Verif.Falco.stream_and_policies_to_alerts`: propext, Classical.choice, Quot.sound
* `Verif.Falco.applies_iff`: propext, Classical.choice, Quot.sound
* `Verif.Falco.filtered_iff`: propext, Classical.choice, Quot.sound
* `Verif.Falco.same_attrs`: propext, Classical.choice, Quot.sound
* `Verif.Falco.same_text`: propext, Classical.choice, Quot.sound
* `Verif.Falco.same_int`: propext, Classical.choice, Quot.sound
* `Verif.Config.exporter_accepts_iff`: propext, Classical.choice, Quot.sound
* `Verif.Config.exporter_config_is`: propext, Classical.choice, Quot.sound
* `Verif.Config.vault_off_not_consulted`: propext, Classical.choice, Quot.sound
* `Verif.Config.vault_secrets_only_for_elastic`: propext, Classical.choice, Quot.sound
* `Verif.Config.exporter_models_agree`: propext, Classical.choice, Quot.sound
* `Verif.Config.splitComma_spec`: propext, Quot.sound
* `Verif.Config.CommaPieces.unique`: propext
* `Verif.Config.kafka_driver_config`: propext, Classical.choice, Quot.sound
* `Verif.Exporter.elastic_export`: propext, Classical.choice, Quot.sound
* `Verif.Exporter.elastic_succeeds`: propext, Classical.choice, Quot.sound
* `Verif.Exporter.elastic_log`: propext, Classical.choice, Quot.sound
* `Verif.Exporter.elastic_index`: propext, Quot.sound
* `Verif.Whole.whole_program`: propext, Classical.choice, Quot.sound
* `Verif.Whole.whole_program_fixed`: propext, Classical.choice, Quot.sound
* `Verif.Whole.whole_program_count`: propext, Classical.choice, Quot.sound
* `Verif.Whole.whole_program_waits`: propext, Classical.choice, Quot.sound
* `Verif.Whole.log_deterministic`: propext, Classical.choice, Quot.sound
* `Verif.Pipeline.Main.exit_zero_iff`: propext, Quot.sound
* `Verif.Pipeline.Main.no_driver_started`: propext, Quot.sound
* `Verif.Pipeline.Main.drivers_started`: propext, Quot.sound
* `Verif.Pipeline.Main.background_failure_ignored`: propext
* `Verif.Pipeline.Process.run_returned`: propext, Classical.choice, Quot.sound
* `Verif.Pipeline.Process.run_no_deadlock`: propext, Classical.choice, Quot.sound
* `Verif.Pipeline.Process.run_returns`: propext, Classical.choice, Quot.sound
* `Verif.Pipeline.Process.complete_run`: propext, Classical.choice, Quot.sound
* `Verif.Whole.file_run`: propext, Classical.choice, Quot.sound
* `Verif.Whole.file_run_returns`: propext, Classical.choice, Quot.sound
* `Verif.Whole.stream_run`: propext, Classical.choice, Quot.sound
* `Verif.Whole.log_at_every_moment`: propext, Classical.choice, Quot.sound
* `Verif.Whole.log_at_every_moment_of_process`: propext, Classical.choice, Quot.sound
* `Verif.Whole.complete_log_lines`: propext, Classical.choice, Quot.sound
* `Verif.Whole.lines_at_every_moment`: propext, Classical.choice, Quot.sound
* `Verif.Pipeline.Stop.running_iff`: propext, Classical.choice, Quot.sound
* `Verif.Pipeline.Stop.flag_stays_stopped`: propext, Classical.choice, Quot.sound
* `Verif.Pipeline.Stop.early_signal_lost`: propext, Classical.choice, Quot.sound
* `Verif.Pipeline.Stop.few_steps_after_stop`: propext, Quot.sound
* `Verif.Pipeline.Stop.stop_ends`: none
* `Verif.Pipeline.Stop.stop_ends_after_four`: propext, Classical.choice, Quot.sound
* `Verif.Pipeline.Stop.waiting_driver_not_stopped`: propext, Quot.sound
* `Verif.Ecs.ecs_text`: propext, Classical.choice, Quot.sound
* `Verif.Ecs.ecs_text_event`: propext, Classical.choice, Quot.sound
* `Verif.Ecs.ecs_text_process`: propext, Classical.choice, Quot.sound
* `Verif.Ecs.record_text`: propext, Classical.choice, Quot.sound
* `Verif.Ecs.value_text`: propext, Classical.choice, Quot.sound
* `Verif.Whole.whole_program_ecs`: propext, Classical.choice, Quot.sound
* `Verif.Whole.whole_program_elastic`: propext, Classical.choice, Quot.sound
* `Verif.Whole.whole_program_index`: propext, Classical.choice, Quot.sound
* `Verif.Whole.whole_program_elastic_dedup`: propext, Classical.choice, Quot.sound
* `Verif.Whole.whole_program_dedup`: propext, Classical.choice, Quot.sound
* `Verif.Whole.reader_survivors`: propext, Classical.choice, Quot.sound
* `Verif.Whole.hasKey_iff`: propext, Quot.sound
* `Verif.Whole.survivors_unique`: propext, Quot.sound
* `Verif.Whole.survives_without_duplicate`: propext
* `Verif.Otel.otel_policy_texts_to_alerts`: propext, Classical.choice, Quot.sound
* `Verif.Otel.otel_no_panic`: propext, Classical.choice, Quot.sound
* `Verif.Otel.whole_meaning`: propext, Classical.choice, Quot.sound
* `Verif.OtelRun.whole_program_otel`: propext, Classical.choice, Quot.sound
* `Verif.OtelRun.whole_program_otel_file`: propext, Classical.choice, Quot.sound
* `Verif.OtelRun.otel_messages_at_every_moment`: propext, Classical.choice, Quot.sound
* `Verif.OtelRun.otel_kafka_run`: propext, Classical.choice, Quot.sound
* `Verif.OtelRun.otel_file_run`: propext, Classical.choice, Quot.sound
* `Verif.Whole.bypass_program`: propext, Classical.choice, Quot.sound
* `Verif.Whole.bypass_program_ecs`: propext, Classical.choice, Quot.sound
* `Verif.Whole.bypass_deterministic`: propext, Classical.choice, Quot.sound
* `Verif.OtelRun.bypass_program_otel`: propext, Classical.choice, Quot.sound
* `Verif.Config.engine_init_outcome`: propext, Classical.choice, Quot.sound
* `Verif.Sigma.unmatched_pattern_fires`: propext, Classical.choice, Quot.sound
* `Verif.Sigma.pattern_iff`: propext, Classical.choice, Quot.sound
* `Verif.Sigma.pattern_sound`: propext, Classical.choice, Quot.sound
* `Verif.Sigma.pattern_prefix`: propext, Classical.choice, Quot.sound
* `Verif.Sigma.pattern_slash_incomplete`: propext, Classical.choice, Quot.sound
* `Verif.Sigma.sigma_compiled_to_alerts`: propext, Classical.choice, Quot.sound
* `Verif.Sigma.sigma_files_to_alerts`: propext, Classical.choice, Quot.sound
* `Verif.Sigma.sigma_compiles`: propext, Classical.choice, Quot.sound
* `Verif.Whole.sigma_program`: propext, Classical.choice, Quot.sound
* `Verif.Whole.sigma_program_dedup`: propext, Classical.choice, Quot.sound
* `Verif.Whole.sigma_program_ecs`: propext, Classical.choice, Quot.sound
* `Verif.Whole.sigma_file_run`: propext, Classical.choice, Quot.sound
* `Verif.Processor.stuck_never_returns`: propext, Classical.choice, Quot.sound
* `Verif.Processor.reader_returns`: propext, Classical.choice, Quot.sound
* `Verif.Processor.reader_returns_iff`: propext, Classical.choice, Quot.sound
* `Verif.Processor.older_parents_not_stuck`: propext, Quot.sound
* `Verif.Processor.run_same`: propext, Quot.sound
* `Verif.Whole.sane_file_run`: propext, Classical.choice, Quot.sound
* `Verif.Pipeline.wired_as_named`: propext, Classical.choice, Quot.sound
* `Verif.Pipeline.tree_of_conf`: propext, Classical.choice, Quot.sound
* `Verif.Pipeline.named_channels_deliver`: propext, Classical.choice, Quot.sound
* `Verif.Whole.shipped_never_load`: propext, Classical.choice, Quot.sound
* `Verif.Whole.usual_boots`: propext, Classical.choice, Quot.sound
* `Verif.Whole.usual_file_json`: propext, Classical.choice, Quot.sound
* `Verif.Whole.usual_file_ecs`: propext, Classical.choice, Quot.sound
* `Verif.Whole.usual_elastic`: propext, Classical.choice, Quot.sound
* `Verif.Whole.usual_boots_bypass`: propext, Classical.choice, Quot.sound
* `Verif.Whole.usual_manifest`: propext, Classical.choice, Quot.sound
* `Verif.Whole.build_version`: propext, Classical.choice, Quot.sound
* `Verif.Whole.boot_file_run`: propext, Classical.choice, Quot.sound
* `Verif.Whole.no_kafka_never_loads`: propext, Classical.choice, Quot.sound
* `Verif.Whole.shipped_local_never_loads`: propext, Classical.choice, Quot.sound
* `Verif.Whole.directory_starts_iff`: propext, Classical.choice, Quot.sound
* `Verif.Whole.directory_to_log`: propext, Classical.choice, Quot.sound
* `Verif.Whole.createInterp_built`: propext, Classical.choice, Quot.sound
* `Verif.Whole.initPolicies_finds`: propext, Classical.choice, Quot.sound
* `Verif.Whole.policySet_good`: propext, Classical.choice, Quot.sound
* `Verif.Falco.string_token`: propext, Classical.choice, Quot.sound
* `Verif.Falco.string_bounds`: propext, Classical.choice, Quot.sound
* `Verif.Falco.only_literal`: propext, Classical.choice, Quot.sound
* `Verif.Falco.antlr_strRule`: propext, Classical.choice, Quot.sound
* `Verif.Falco.quoted_start`: propext, Classical.choice, Quot.sound
* `Verif.Falco.two_empty_literals`: propext, Classical.choice, Quot.sound
* `Verif.Pipeline.Health.one_health_line`: propext
* `Verif.Pipeline.Health.checks_in_order`: propext
* `Verif.Pipeline.Health.passed_means_all_passed`: propext
* `Verif.Pipeline.Health.failed_means_failure_or_timeout`: propext
* `Verif.Pipeline.Health.returns_at_deadline`: propext
* `Verif.Pipeline.Health.checks_are_bounded`: propext, Quot.sound
* `Verif.Pipeline.Health.checker_ends`: propext, Quot.sound
* `Verif.Pipeline.Health.shipped_checks_never_fail`: propext, Quot.sound
* `Verif.Pipeline.driver_channels_shared`: propext, Quot.sound
* `Verif.Whole.driver_reports`: propext, Classical.choice, Quot.sound
* `Verif.Pipeline.type_of_first_mention`: propext, Classical.choice, Quot.sound
* `Verif.Pipeline.refusing_stage_never_finishes`: propext
* `Verif.Pipeline.unread_channel_never_finishes`: propext, Classical.choice, Quot.sound
* `Verif.Whole.stage_starts_iff`: propext, Classical.choice, Quot.sound
* `Verif.Whole.outputs_crash_iff`: propext, Classical.choice, Quot.sound
* `Verif.Whole.driver_feeds_named_channel`: propext, Classical.choice, Quot.sound
* `Verif.Whole.driver_feeds_nobody`: propext, Classical.choice, Quot.sound
* `Verif.Whole.driver_feeds_root`: propext, Classical.choice, Quot.sound
* `Verif.Whole.example_plugin_never_runs`: none
* `Verif.Whole.ecs_marks_partial`: propext, Classical.choice, Quot.sound
* `Verif.Whole.ecs_log_never_says_alert`: propext, Classical.choice, Quot.sound
* `Verif.Whole.ecs_alert_not_marked`: propext, Classical.choice, Quot.sound
* `Verif.OtelRun.otel_boots`: propext, Classical.choice, Quot.sound
* `Verif.OtelRun.boot_otel_kafka`: propext, Classical.choice, Quot.sound
* `Verif.OtelRun.boot_otel_file`: propext, Classical.choice, Quot.sound
* `Verif.OtelRun.otel_boots_bypass`: propext, Classical.choice, Quot.sound
* `Verif.OtelRun.otel_needs_format`: propext, Classical.choice, Quot.sound
* `Verif.OtelRun.shipped_otel_boots`: propext, Classical.choice, Quot.sound
* `Verif.Monitor.Live.edit_run`: propext, Classical.choice, Quot.sound
* `Verif.Monitor.Live.settles`: propext, Classical.choice, Quot.sound
* `Verif.Monitor.Live.up_to_date`: propext, Classical.choice, Quot.sound
* `Verif.Monitor.Live.settled_iff`: propext, Classical.choice, Quot.sound
* `Verif.Monitor.Live.in_order`: propext, Classical.choice, Quot.sound
* `Verif.Monitor.Live.attempts_faithful`: propext, Classical.choice, Quot.sound
* `Verif.Monitor.Live.latest_pushed`: propext, Classical.choice, Quot.sound
* `Verif.Monitor.Live.at_most_every_ten_seconds`: propext, Classical.choice, Quot.sound
* `Verif.Monitor.Live.ten_seconds_after_first_event`: propext, Classical.choice, Quot.sound
* `Verif.Monitor.Live.stop_iff`: propext, Classical.choice, Quot.sound
* `Verif.Monitor.Live.change_before_watch_missed`: propext, Classical.choice, Quot.sound
* `Verif.Monitor.Live.change_back_missed`: propext, Classical.choice, Quot.sound
* `Verif.Monitor.Live.chmod_missed`: propext, Classical.choice, Quot.sound
* `Verif.Monitor.Live.cleanup_waits_for_the_storm`: propext, Classical.choice, Quot.sound
* `Verif.Monitor.Joint.directory_in_force`: propext, Classical.choice, Quot.sound
* `Verif.Monitor.Joint.last_push_in_force`: propext, Classical.choice, Quot.sound
* `Verif.Monitor.Joint.in_force_was_compiled`: propext, Classical.choice, Quot.sound
* `Verif.Monitor.Joint.both_run`: propext, Classical.choice, Quot.sound
* `Verif.Monitor.Joint.none_held_back`: propext, Classical.choice, Quot.sound
* `Verif.Pipeline.ConfFile.searched_dotted`: propext, Classical.choice, Quot.sound
* `Verif.Pipeline.ConfFile.named_json_is_read_partial`: propext, Classical.choice, Quot.sound
* `Verif.Pipeline.ConfFile.loaded_from_named_partial`: propext, Classical.choice, Quot.sound
* `Verif.Pipeline.ConfFile.sibling_json_is_read`: propext, Classical.choice, Quot.sound
* `Verif.Pipeline.ConfFile.unknown_extension_not_read`: propext, Classical.choice, Quot.sound
* `Verif.Pipeline.ConfFile.plain_name_is_read_iff`: propext, Classical.choice, Quot.sound
* `Verif.Pipeline.ConfFile.reading_crashes_iff`: propext, Classical.choice, Quot.sound
* `Verif.Pipeline.ConfFile.denied_config_crashes`: propext, Classical.choice, Quot.sound
* `Verif.Pipeline.ConfFile.driver_plugins`: propext, Quot.sound
* `Verif.Pipeline.ConfFile.driver_in_force`: propext, Classical.choice, Quot.sound
* `Verif.Pipeline.ConfFile.load_has_outcome`: propext, Classical.choice, Quot.sound
* `Verif.Whole.sigma_directory_to_log`: propext, Classical.choice, Quot.sound
* `Verif.Whole.sigma_directory_needs`: propext, Classical.choice, Quot.sound
* `Verif.Pipeline.Reload.can_adopt`: propext, Classical.choice, Quot.sound
* `Verif.Whole.waiting_can_take_effect`: propext, Classical.choice, Quot.sound
* `Verif.Whole.edit_takes_effect`: propext, Classical.choice, Quot.sound
* `Verif.Whole.edited_policies_adopted`: propext, Classical.choice, Quot.sound
* `Verif.Whole.hot_reload`: propext, Classical.choice, Quot.sound
* `Verif.Whole.reload_run`: propext, Classical.choice, Quot.sound
* `Verif.Whole.reload_settled`: propext, Classical.choice, Quot.sound
* `Verif.Whole.compileRead_accepts`: propext, Classical.choice, Quot.sound
* `Verif.Pipeline.Reload.run_engine`: propext, Classical.choice, Quot.sound
* `Verif.Pipeline.Reload.pushed_compiled`: propext, Classical.choice, Quot.sound
* `Verif.Pipeline.Reload.can_finish`: propext, Classical.choice, Quot.sound
* `Verif.Pipeline.Reload.drive_and_close`: propext, Classical.choice, Quot.sound
* `Verif.Whole.format_never_loads`: propext, Classical.choice, Quot.sound
* `Verif.Exporter.syslog_sent`: propext, Quot.sound
* `Verif.Exporter.GetsThrough.all`: propext, Classical.choice, Quot.sound
* `Verif.Whole.terminal_program`: propext, Classical.choice, Quot.sound
* `Verif.Whole.syslog_program`: propext, Classical.choice, Quot.sound
* `Verif.Whole.boot_terminal_run`: propext, Classical.choice, Quot.sound
* `Verif.Whole.boot_syslog_run`: propext, Classical.choice, Quot.sound
* `Verif.Whole.unreachable_never_loads`: propext, Classical.choice, Quot.sound
* `Verif.Whole.tree_program`: propext, Classical.choice, Quot.sound
* `Verif.Whole.layout_shape`: propext, Classical.choice, Quot.sound
* `Verif.Whole.layout_ok`: propext, Classical.choice, Quot.sound
* `Verif.Whole.loaded_inited`: propext, Classical.choice, Quot.sound
* `Verif.Pipeline.Drain.engine_delivers_outputs`: propext, Classical.choice, Quot.sound
* `Verif.Exporter.file_kept`: propext, Classical.choice, Quot.sound
* `Verif.Exporter.KeptOf.all`: propext
* `Verif.Exporter.elastic_requests`: propext, Quot.sound
* `Verif.Exporter.RequestsFor.all`: propext, Classical.choice, Quot.sound
* `Verif.Exporter.elastic_only_ecs`: propext, Quot.sound
* `Verif.Whole.file_program`: propext, Classical.choice, Quot.sound
* `Verif.Whole.elastic_program`: propext, Classical.choice, Quot.sound
* `Verif.Whole.boot_failing_file_run`: propext, Classical.choice, Quot.sound
* `Verif.Whole.boot_failing_elastic_run`: propext, Classical.choice, Quot.sound
* `Verif.Whole.sigma_edit_takes_effect`: propext, Classical.choice, Quot.sound
* `Verif.Whole.edited_rules_adopted`: propext, Classical.choice, Quot.sound
* `Verif.Whole.compileSigma_accepts`: propext, Classical.choice, Quot.sound
* `Verif.Whole.sigma_reload_run`: propext, Classical.choice, Quot.sound
* `Verif.Whole.sigma_reload_settled`: propext, Classical.choice, Quot.sound
* `Verif.Whole.sigma_hot_reload`: propext, Classical.choice, Quot.sound
* `Verif.OtelRun.otel_edit_adopted`: propext, Classical.choice, Quot.sound
* `Verif.OtelRun.otel_edit_takes_effect`: propext, Classical.choice, Quot.sound
* `Verif.OtelRun.otel_edited_policies_adopted`: propext, Classical.choice, Quot.sound
* `Verif.OtelRun.otel_directory_starts_iff`: propext, Classical.choice, Quot.sound
* `Verif.OtelRun.otel_reload_run`: propext, Classical.choice, Quot.sound
* `Verif.OtelRun.otel_reload_file`: propext, Classical.choice, Quot.sound
* `Verif.OtelRun.otel_reload_settled`: propext, Classical.choice, Quot.sound
* `Verif.OtelRun.otel_hot_reload`: propext, Classical.choice, Quot.sound
* `Verif.Engine.bench_index_beyond`: propext, Quot.sound
* `Verif.Engine.bench_needs_perf`: none
* `Verif.Engine.bench_default`: propext, Classical.choice, Quot.sound
* `Verif.Engine.bench_index`: propext, Classical.choice, Quot.sound
* `Verif.Engine.bench_size`: propext, Classical.choice, Quot.sound
* `Verif.Engine.bench_only_removes`: propext, Quot.sound
* `Verif.Engine.bench_disposition`: propext, Quot.sound
* `Verif.Engine.bench_typo`: propext, Classical.choice, Quot.sound
* `Verif.FlatRecord.SymPath.sscan_iff`: propext, Classical.choice, Quot.sound
* `Verif.FlatRecord.SymPath.link_split`: propext, Classical.choice, Quot.sound
* `Verif.FlatRecord.SymPath.other_path_kept`: propext, Classical.choice, Quot.sound
* `Verif.FlatRecord.SymPath.absolute_path_kept`: propext, Classical.choice, Quot.sound
* `Verif.FlatRecord.SymPath.path_without_arrow_kept`: propext, Classical.choice, Quot.sound
* `Verif.FlatRecord.SymPath.hex_value`: propext, Classical.choice, Quot.sound
* `Verif.FlatRecord.SymPath.hex_digits_value`: propext, Quot.sound
* `Verif.FlatRecord.SymPath.link_roundtrip`: propext, Classical.choice, Quot.sound
* `Verif.FlatRecord.SymPath.escaped_arrow_never_splits`: propext, Classical.choice, Quot.sound
* `Verif.FlatRecord.SymPath.target_with_space_is_cut`: propext, Classical.choice, Quot.sound
* `Verif.FlatRecord.Paths.relative_directory`: propext, Classical.choice, Quot.sound
* `Verif.FlatRecord.Paths.file_fields`: propext, Classical.choice, Quot.sound
* `Verif.FlatRecord.Paths.new_file_fields`: propext, Classical.choice, Quot.sound
* `Verif.FlatRecord.Paths.link_fields`: propext, Classical.choice, Quot.sound
* `Verif.FlatRecord.Paths.directory_clean`: propext, Classical.choice, Quot.sound
* `Verif.FlatRecord.Paths.trailing_slash_directory`: propext, Classical.choice, Quot.sound
* `Verif.FlatRecord.Paths.no_file_is_dot`: propext, Classical.choice, Quot.sound
* `Verif.FlatRecord.Paths.process_id_identifies`: propext, Classical.choice, Quot.sound
* `Verif.FlatRecord.Paths.parent_id_identifies`: propext, Classical.choice, Quot.sound
* `Verif.FlatRecord.Paths.process_ids_collide`: propext, Classical.choice, Quot.sound
* `Verif.Shared.ecs_ids_undisturbed_partial`: propext, Classical.choice, Quot.sound
* `Verif.Shared.ecs_ids_one_exporter`: propext, Classical.choice, Quot.sound
* `Verif.Shared.keys_undisturbed_partial`: propext, Quot.sound
* `Verif.Shared.keys_one_reader`: propext, Classical.choice, Quot.sound
* `Verif.Shared.two_ecs_exporters_mix`: propext, Classical.choice, Quot.sound
* `Verif.Shared.two_ecs_exporters_collide`: propext, Classical.choice, Quot.sound
* `Verif.Shared.two_readers_mix`: propext, Quot.sound
* `Verif.Shared.Tags.shared_record_tags`: propext, Classical.choice, Quot.sound
* `Verif.Shared.Tags.record_tags_kept`: propext, Quot.sound
* `Verif.OtelRun.row_messages_at_every_moment`: propext, Classical.choice, Quot.sound
* `Verif.OtelRun.row_file_at_every_moment`: propext, Classical.choice, Quot.sound
* `Verif.OtelRun.row_file_at_every_moment_of_process`: propext, Classical.choice, Quot.sound
* `Verif.OtelRun.engines_in_a_row_through`: propext, Classical.choice, Quot.sound
* `Verif.Otel.otel_engine_again`: propext, Classical.choice, Quot.sound
* `Verif.OtelRun.engines_in_a_row_kafka`: propext, Classical.choice, Quot.sound
* `Verif.OtelRun.engines_in_a_row_file`: propext, Classical.choice, Quot.sound
* `Verif.OtelRun.engines_in_a_row_fixed`: propext, Classical.choice, Quot.sound
* `Verif.OtelRun.row_boots`: propext, Classical.choice, Quot.sound
* `Verif.OtelRun.boot_row_file`: propext, Classical.choice, Quot.sound
* `Verif.OtelRun.boot_row_kafka`: propext, Classical.choice, Quot.sound
* `Verif.OtelRun.branches_encode_partial`: propext, Classical.choice, Quot.sound
* `Verif.OtelRun.branches_never_separate`: propext, Classical.choice, Quot.sound
* `Verif.OtelRun.branches_mix`: propext, Classical.choice, Quot.sound
* `Verif.Plugins.printer_prints`: propext, Classical.choice, Quot.sound
* `Verif.Plugins.printer_crashes_on_stranger`: propext, Classical.choice, Quot.sound
* `Verif.Plugins.printer_survives_iff`: propext, Classical.choice, Quot.sound
* `Verif.Plugins.example_logs`: propext, Classical.choice, Quot.sound
* `Verif.Plugins.now_tags`: propext, Classical.choice, Quot.sound
* `Verif.Pipeline.socket_records`: propext, Classical.choice, Quot.sound
* `Verif.Pipeline.socket_delivers`: propext, Classical.choice, Quot.sound
* `Verif.Pipeline.socket_delivers_all`: propext, Classical.choice, Quot.sound
* `Verif.Pipeline.avro_reads_back`: propext, Quot.sound
* `Verif.Pipeline.long_packet_ends_connection`: propext, Classical.choice, Quot.sound
* `Verif.Pipeline.short_packet_completed`: propext, Classical.choice, Quot.sound
* `Verif.Pipeline.mixed_record_delivered`: propext, Classical.choice, Quot.sound
* `Verif.Whole.socket_run`: propext, Classical.choice, Quot.sound
* `Verif.Pipeline.directory_in_name_order`: propext, Classical.choice, Quot.sound
* `Verif.Pipeline.single_file`: propext, Quot.sound
* `Verif.Pipeline.rotated_files_in_time_order`: propext, Classical.choice, Quot.sound
* `Verif.Pipeline.rotation_out_of_order`: propext, Classical.choice, Quot.sound
* `Verif.Pipeline.subdirectory_ends_run`: propext, Classical.choice, Quot.sound
* `Verif.Pipeline.no_trace`: propext, Quot.sound
* `Verif.Whole.trace_directory_run`: propext, Classical.choice, Quot.sound
* `Verif.FlatRecord.FieldList.fields_listed`: propext, Classical.choice, Quot.sound
* `Verif.FlatRecord.FieldList.fields_order_irrelevant`: propext, Classical.choice, Quot.sound
* `Verif.Exporter.NameSet.set_is_a_set`: propext, Quot.sound
* `Verif.Otel.filtered_marked`: propext, Classical.choice, Quot.sound
* `Verif.OtelRun.engines_in_a_row_through`: propext, Classical.choice, Quot.sound
* `Verif.Otel.noted_rules_read_back`: propext, Classical.choice, Quot.sound
* `Verif.Otel.noted_tags_read_back`: propext, Classical.choice, Quot.sound
* `Verif.Otel.otel_engine_filters_noted`: propext, Classical.choice, Quot.sound
* `Verif.Otel.filter_on_noted_rules`: propext, Classical.choice, Quot.sound
* `Verif.Whole.reload_elastic`: propext, Classical.choice, Quot.sound
* `Verif.Whole.reload_index`: propext, Classical.choice, Quot.sound
* `Verif.Whole.elastic_edit_takes_effect`: propext, Classical.choice, Quot.sound
* `Verif.Whole.hot_reload_elastic`: propext, Classical.choice, Quot.sound
* `Verif.Whole.elastic_edited_policies_adopted`: propext, Classical.choice, Quot.sound
* `Verif.Whole.reload_terminal`: propext, Classical.choice, Quot.sound
* `Verif.Whole.reload_syslog`: propext, Classical.choice, Quot.sound
* `Verif.Whole.reload_kept`: propext, Classical.choice, Quot.sound
* `Verif.Whole.out_edit_takes_effect`: propext, Classical.choice, Quot.sound
* `Verif.Whole.hot_reload_terminal`: propext, Classical.choice, Quot.sound
* `Verif.Whole.hot_reload_syslog`: propext, Classical.choice, Quot.sound
* `Verif.Whole.hot_reload_kept`: propext, Classical.choice, Quot.sound
* `Verif.Whole.sigma_out`: propext, Classical.choice, Quot.sound
* `Verif.Whole.sigma_elastic`: propext, Classical.choice, Quot.sound
* `Verif.Whole.sigma_reload_out`: propext, Classical.choice, Quot.sound
* `Verif.Whole.sigma_reload_elastic`: propext, Classical.choice, Quot.sound
* `Verif.Whole.sigma_index`: propext, Classical.choice, Quot.sound
* `Verif.Whole.sigma_out_edit_takes_effect`: propext, Classical.choice, Quot.sound
* `Verif.Whole.sigma_elastic_edit_takes_effect`: propext, Classical.choice, Quot.sound
* `Verif.Whole.sigma_start_terminal`: propext, Classical.choice, Quot.sound
* `Verif.Whole.sigma_start_syslog`: propext, Classical.choice, Quot.sound
* `Verif.Whole.sigma_start_file`: propext, Classical.choice, Quot.sound
* `Verif.Whole.sigma_start_elastic`: propext, Classical.choice, Quot.sound
* `Verif.Whole.sigma_hot_terminal`: propext, Classical.choice, Quot.sound
* `Verif.Whole.sigma_hot_syslog`: propext, Classical.choice, Quot.sound
* `Verif.Whole.sigma_hot_file`: propext, Classical.choice, Quot.sound
* `Verif.Whole.sigma_hot_elastic`: propext, Classical.choice, Quot.sound
* `Verif.Shared.Gather.writes_in_room`: propext, Quot.sound
* `Verif.Shared.Gather.shared_reading`: propext, Classical.choice, Quot.sound
* `Verif.Shared.Gather.shared_conditions`: propext, Classical.choice, Quot.sound
* `Verif.Shared.Gather.add_rules_notes`: propext, Classical.choice, Quot.sound
* `Verif.Shared.Gather.attribute_missed`: propext, Quot.sound
* `Verif.Shared.Noting.in_turn_noted`: propext, Classical.choice, Quot.sound
* `Verif.Shared.Noting.turns_exist`: propext, Quot.sound
* `Verif.Shared.Noting.simultaneous_not_noted`: propext, Classical.choice, Quot.sound
* `Verif.Shared.Noting.noted_only`: propext, Quot.sound
* `Verif.Shared.Noting.listed_once`: propext, Quot.sound
* `Verif.Shared.Noting.own_scopes_stay`: propext, Quot.sound
* `Verif.Shared.Noting.alone_kept`: propext, Classical.choice, Quot.sound
* `Verif.Shared.Noting.in_turn_all`: propext, Classical.choice, Quot.sound
* `Verif.Shared.Noting.call_ends`: propext, Classical.choice, Quot.sound
* `Verif.Shared.Noting.rule_lost`: propext, Classical.choice, Quot.sound
* `Verif.Shared.Noting.two_scopes`: propext, Classical.choice, Quot.sound
* `Verif.Whole.tree_at_every_moment`: propext, Classical.choice, Quot.sound
* `Verif.Whole.dedup_at_every_moment`: propext, Classical.choice, Quot.sound
* `Verif.Whole.ecs_at_every_moment`: propext, Classical.choice, Quot.sound
* `Verif.Whole.sigma_at_every_moment`: propext, Classical.choice, Quot.sound
* `Verif.Whole.bypass_at_every_moment`: propext, Classical.choice, Quot.sound
* `Verif.Whole.bypass_ecs_at_every_moment`: propext, Classical.choice, Quot.sound
* `Verif.OtelRun.bypass_messages_at_every_moment`: propext, Classical.choice, Quot.sound
* `Verif.Whole.doc_id_unique`: propext, Classical.choice, Quot.sound
* `Verif.Whole.index_after_restart`: propext, Classical.choice, Quot.sound
* `Verif.Whole.restart_same_ids`: propext, Classical.choice, Quot.sound
* `Verif.Whole.rerun_unchanged`: propext, Classical.choice, Quot.sound
* `Verif.Whole.reload_at_every_moment`: propext, Classical.choice, Quot.sound
* `Verif.Whole.sigma_reload_at_every_moment`: propext, Classical.choice, Quot.sound
* `Verif.Whole.reload_log_at_every_moment`: propext, Classical.choice, Quot.sound
* `Verif.Whole.reload_requests_at_every_moment`: propext, Classical.choice, Quot.sound
* `Verif.Whole.sigma_requests_at_every_moment`: propext, Classical.choice, Quot.sound
* `Verif.Whole.terminal_moments`: propext, Classical.choice, Quot.sound
* `Verif.Whole.syslog_moments`: propext, Classical.choice, Quot.sound
* `Verif.Whole.file_moments`: propext, Classical.choice, Quot.sound
* `Verif.Whole.elastic_moments`: propext, Classical.choice, Quot.sound
* `Verif.Whole.log_moments`: propext, Classical.choice, Quot.sound
* `Verif.Whole.sigma_terminal_moments`: propext, Classical.choice, Quot.sound
* `Verif.Whole.sigma_syslog_moments`: propext, Classical.choice, Quot.sound
* `Verif.Whole.sigma_file_moments`: propext, Classical.choice, Quot.sound
* `Verif.Whole.sigma_elastic_moments`: propext, Classical.choice, Quot.sound
* `Verif.OtelRun.otel_reload_at_every_moment`: propext, Classical.choice, Quot.sound
* `Verif.OtelRun.otel_reload_file_at_every_moment`: propext, Classical.choice, Quot.sound
* `Verif.OtelRun.otel_moments`: propext, Classical.choice, Quot.sound
* `Verif.OtelRun.otel_kafka_refusing`: propext, Classical.choice, Quot.sound
* `Verif.OtelRun.otel_file_cut`: propext, Classical.choice, Quot.sound
* `Verif.OtelRun.otel_printed`: propext, Classical.choice, Quot.sound
* `Verif.OtelRun.otel_kafka_refusing_moments`: propext, Classical.choice, Quot.sound
* `Verif.OtelRun.otel_file_cut_moments`: propext, Classical.choice, Quot.sound
* `Verif.OtelRun.otel_printed_moments`: propext, Classical.choice, Quot.sound
* `Verif.OtelRun.otel_kafka_refusing_reloading`: propext, Classical.choice, Quot.sound
* `Verif.OtelRun.otel_file_cut_reloading`: propext, Classical.choice, Quot.sound
* `Verif.OtelRun.boot_otel_kafka_refusing`: propext, Classical.choice, Quot.sound
* `Verif.OtelRun.boot_otel_file_cut`: propext, Classical.choice, Quot.sound
* `Verif.OtelRun.boot_otel_printed`: propext, Classical.choice, Quot.sound
* `Verif.OtelRun.otel_reload_refusing`: propext, Classical.choice, Quot.sound
* `Verif.OtelRun.otel_reload_cut`: propext, Classical.choice, Quot.sound
* `Verif.OtelRun.otel_reload_printed`: propext, Classical.choice, Quot.sound
* `Verif.Exporter.kafka_accepted`: propext, Quot.sound
* `Verif.Exporter.file_kept_partly`: propext, Classical.choice, Quot.sound
* `Verif.OtelRun.row_kafka_refusing`: propext, Classical.choice, Quot.sound
* `Verif.OtelRun.row_file_cut`: propext, Classical.choice, Quot.sound
* `Verif.OtelRun.row_printed`: propext, Classical.choice, Quot.sound
* `Verif.OtelRun.boot_row_kafka_refusing`: propext, Classical.choice, Quot.sound
* `Verif.OtelRun.boot_row_file_cut`: propext, Classical.choice, Quot.sound
* `Verif.OtelRun.boot_row_printed`: propext, Classical.choice, Quot.sound
* `Verif.OtelRun.row_process`: propext, Classical.choice, Quot.sound
* `Verif.Whole.doc_id_across`: propext, Classical.choice, Quot.sound
* `Verif.Whole.index_after_starts`: propext, Classical.choice, Quot.sound
* `Verif.Whole.one_doc_each`: propext, Classical.choice, Quot.sound
* `Verif.Whole.index_after_changes`: propext, Classical.choice, Quot.sound
* `Verif.Exporter.LogFile.log_is_own`: propext, Classical.choice, Quot.sound
* `Verif.Exporter.LogFile.replaced_is_lost`: propext, Quot.sound
* `Verif.Exporter.LogFile.kept_is_appended`: propext, Classical.choice, Quot.sound
* `Verif.Exporter.LogFile.log_is_exported`: propext, Classical.choice, Quot.sound
* `Verif.Exporter.LogFile.export_writes`: propext, Quot.sound
