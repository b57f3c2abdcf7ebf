# Axioms each property theorem depends on

Output of `#print axioms` for every theorem named in MANIFEST.json.

## none

* `TCP.Storage.C02_append_empty`

## propext

* `TCP.Storage.C04_term_agrees_fails_for_rewritten_snapshot_entry`
* `TCP.Storage.C06_covered_entries_immutable_fails`
* `TCP.Snap.C10_late_chunks_never_contaminate_fails`
* `TCP.Comm.C18_refused_before_init`
* `TCP.Comm.C18_refused_unsupported`
* `TCP.Handshake.C20_wrong_kind`
* `TCP.Counter.C34_merge_fails`
* `TCP.Cache.Props.C48_empty_fails`
* `TCP.Cache.Props.C48_same_region_fails`
* `TCP.Handshake.C58_verifier_selection`
* `TCP.Snap.C64_duplicate_fails`

## propext, Quot.sound

* `TCP.Storage.C05_install_snapshot`
* `TCP.Storage.C07_snapshot_answer`
* `TCP.Snap.C08_start_never_panics`
* `TCP.Snap.C10_late_chunks_never_contaminate_partial`
* `TCP.Comm.C16_lost_when_opening_fails`
* `TCP.Comm.C18_out_isolated`
* `TCP.Comm.C18_in_isolated`
* `TCP.Handshake.C20_completed_means_open`
* `TCP.Handshake.C20_permanent`
* `TCP.Handshake.C20_client_refuses_early`
* `TCP.Handshake.C20_exchange`
* `TCP.Handshake.C20_channel`
* `TCP.DrvProps.C22_feed`
* `TCP.DrvProps.C22_log`
* `TCP.DrvProps.C23_proposals`
* `TCP.DrvProps.C23_owner`
* `TCP.DrvProps.C23_single`
* `TCP.DrvProps.C25_time`
* `TCP.DrvProps.C25_monotone`
* `TCP.DrvProps.C26_start_refused`
* `TCP.DrvProps.C26_unstarted_refused`
* `TCP.DrvProps.C26_ephemeral_refused`
* `TCP.DrvProps.C26_before_start_partial`
* `TCP.DrvProps.C26_before_start_fails`
* `TCP.DrvProps.C26_stopped_app_fails`
* `TCP.DrvProps.C27_no_commands_partial`
* `TCP.DrvProps.C27_ephemeral_partial`
* `TCP.DrvProps.C27_fails`
* `TCP.DrvProps.C28_source_partial`
* `TCP.DrvProps.C28_fails`
* `TCP.DrvProps.C29_one_answer`
* `TCP.DrvProps.C29_other_error`
* `TCP.DrvProps.C29_only_answers`
* `TCP.DrvProps.C30_fails`
* `TCP.DrvProps.C31_empty`
* `TCP.DrvProps.C31_call`
* `TCP.DrvProps.C31_kept`
* `TCP.Counter.C32_linearizable`
* `TCP.Counter.C32_initial`
* `TCP.Counter.C33_failed_swap_fails`
* `TCP.Counter.C33_response_values_partial`
* `TCP.Counter.C34_fresh_partial`
* `TCP.Counter.C35_no_direct_change`
* `TCP.Counter.C35_decisions`
* `TCP.Counter.C35_events_apply`
* `TCP.Willow.C36_order`
* `TCP.Willow.C36_pipelined_ties`
* `TCP.Willow.C37_pipelined_fails`
* `TCP.Willow.C38_pipelined_fails`
* `TCP.Willow.C38_repeat`
* `TCP.TabletStore.C40_undecodable`
* `TCP.TabletStore.C44_total`
* `TCP.TabletStore.C44_unknown_table`
* `TCP.Cache.Props.C48_history_fails`
* `TCP.Cache.Props.C50_premature_history_fails`
* `TCP.Cache.Props.C50_shared_uri_fails`
* `TCP.Cache.Props.C51_fails`
* `TCP.Cache.Props.C51_written_partial`
* `TCP.Cache.Props.C53_fails`
* `TCP.Cache.Props.C54_batch`
* `TCP.Cache.Props.C54_handler`
* `TCP.Cache.Props.C55_once_partial`
* `TCP.Cache.Props.C55_dropped_fails`
* `TCP.Cache.Props.C55_crash_fails`
* `TCP.Cache.Props.C55_zero_fails`
* `TCP.Cache.Props.C55_span_fails`
* `TCP.Cache.Props.C55_silent_fails`
* `TCP.Comm.C56_missing_payload_crash_fails`
* `TCP.Handshake.C57_simultaneous_open_fails`
* `TCP.Handshake.C57_one_sided_open_partial`
* `TCP.Willow.C59_undecodable_fails`
* `TCP.Willow.C59_malformed_fails`
* `TCP.Willow.C59_decisions_partial`
* `TCP.TabletStore.C60_decisions`
* `TCP.TabletStore.C60_proposals_decode`
* `TCP.Replica.C67_sender_fails`
* `TCP.Replica.C68_silent_fails`
* `TCP.Replica.C69_store_history`
* `TCP.Replica.C69_store_reachable`
* `TCP.Replica.C70_stored_before_sent`
* `TCP.DrvProps.C71_members`
* `TCP.DrvProps.C71_snapshot_members`
* `TCP.DrvProps.C71_channel_members`
* `TCP.ServiceProps.C72_serial`
* `TCP.ServiceProps.C72_once`
* `TCP.ServiceProps.C72_within`
* `TCP.ServiceProps.C72_made`
* `TCP.ServiceProps.C72_real_time`
* `TCP.ServiceProps.C72_refused`
* `TCP.ServiceProps.C73_cancel_fails`
* `TCP.ServiceProps.C73_stops_partial`
* `TCP.ServiceProps.C74_answers`
* `TCP.Handshake.C79_envelope_fails`
* `TCP.Handshake.C79_identity_fails`
* `TCP.Log.C80_enabled`
* `TCP.Cache.Props.C82_silent_fails`
* `TCP.Cache.Props.C82_twice_fails`
* `TCP.Cache.Props.C83_new_tablets_fails`
* `TCP.Handshake.C94_crossing_fails`
* `TCP.Survive.C95_outside_fails`
* `TCP.Survive.C95_ephemeral_fails`
* `TCP.Survive.C95_command_fails`
* `TCP.Survive.C95_undecodable_fails`
* `TCP.Survive.C95_cache_undecodable_fails`
* `TCP.Survive.C95_dropped_fails`
* `TCP.Survive.C95_refused_fails`
* `TCP.Survive.C95_header_fails`
* `TCP.DrvProps.C97_counter`
* `TCP.DrvProps.C97_tablets`
* `TCP.DrvProps.C97_decryptor`
* `TCP.Sessions.C98_attested`
* `TCP.Sessions.C98_endorsed`
* `TCP.Sessions.C98_fixed`
* `TCP.Sessions.C98_ready`
* `TCP.Sessions.C98_shipped_fails`
* `TCP.Short.C100_snapshot_recent`
* `TCP.Short.C100_requests_served`
* `TCP.Removed.C101_reported_partial`
* `TCP.Removed.C101_listens_fails`
* `TCP.Removed.C101_returns_fails`
* `TCP.Removed.C101_transfer_fails`
* `TCP.Cache.Props.C105_room`
* `TCP.ShutdownProps.C107_shutdown_partial`
* `TCP.ShutdownProps.C107_clean`
* `TCP.ShutdownProps.C107_container_fails`
* `TCP.ShutdownProps.C107_cancel_fails`
* `TCP.ClockProps.C108_latest_partial`
* `TCP.ClockProps.C108_monotone_partial`
* `TCP.ClockProps.C108_wrap_fails`
* `TCP.ClockProps.C108_ahead_fails`
* `TCP.LameduckProps.C109_no_ticks`
* `TCP.LameduckProps.C109_leader_fails`
* `TCP.ReportProps.C110_one_report`
* `TCP.ReportProps.C110_only_reports`
* `TCP.ReportProps.C110_true`
* `TCP.ReportProps.C110_grows`
* `TCP.AskedProps.C112_asked`
* `TCP.AskedProps.C112_cluster`
* `TCP.HandedProps.C113_handed`
* `TCP.HandedProps.C113_never_more`
* `TCP.TracedProps.C114_events`
* `TCP.TracedProps.C114_proposals`
* `TCP.TracedProps.C114_cluster`
* `TCP.TracedProps.C114_counter`
* `TCP.TracedProps.C114_tablets`
* `TCP.TracedProps.C114_keys`
* `TCP.Eventual.Props.C115_told`
* `TCP.Eventual.Props.C115_error`
* `TCP.Eventual.Props.C115_once`
* `TCP.Eventual.Props.C115_stable`

## propext, Classical.choice, Quot.sound

* `TCP.Storage.C01_log_contiguous_and_anchored`
* `TCP.Storage.C02_append_overwrites_exact_suffix`
* `TCP.Storage.C03_range_reads_faithful`
* `TCP.Storage.C04_term_agrees_partial`
* `TCP.Storage.C05_snapshot_index_monotone`
* `TCP.Storage.C05_create_snapshot`
* `TCP.Storage.C06_covered_entries_immutable_partial`
* `TCP.Storage.C07_refused_request_remembered`
* `TCP.Storage.C07_should_snapshot`
* `TCP.Storage.C07_growth_limit_constant`
* `TCP.Snap.C08_chunking_lossless`
* `TCP.Snap.C08_sender_hands_out_expected`
* `TCP.Snap.C09_reassembly_exact`
* `TCP.Snap.C09_reassembly_exact_after_header`
* `TCP.Snap.C09_reassembly_completes`
* `TCP.Snap.C09_end_to_end`
* `TCP.Snap.C11_in_flight_bounded`
* `TCP.Snap.C11_delivery_ids_never_reused`
* `TCP.Snap.C12_finish_only_if_all_acknowledged`
* `TCP.Snap.C12_failure_iff_disturbed`
* `TCP.Snap.C12_reports_when_possible`
* `TCP.Snap.C12_reported_at_most_once`
* `TCP.Snap.C13_next_request_fair`
* `TCP.Snap.C13_prompt_transfer_finishes`
* `TCP.Snap.C14_role_separation`
* `TCP.Snap.C14_change_aborts_transfers`
* `TCP.Snap.C14_no_change_keeps_transfers`
* `TCP.Comm.C15_only_ciphertext`
* `TCP.Comm.C15_only_handshake_before_completion`
* `TCP.Comm.C15_only_handshake_while_not_completed`
* `TCP.Handshake.C15_only_what_the_session_produced`
* `TCP.Comm.C16_order_and_content_partial`
* `TCP.Comm.C16_one_heartbeat`
* `TCP.Comm.C16_flush_after_completion`
* `TCP.Comm.C16_flush_emits_all`
* `TCP.Comm.C16_flush_in_two_takes`
* `TCP.Comm.C17_timeout`
* `TCP.Comm.C17_retry`
* `TCP.Comm.C17_new_attempt`
* `TCP.Comm.C18_output_isolated`
* `TCP.Comm.C18_cluster_change`
* `TCP.Comm.C18_provider_failure`
* `TCP.Comm.C19_only_decrypted`
* `TCP.Comm.C19_early_payload`
* `TCP.Comm.C19_late_handshake`
* `TCP.Comm.C19_failed_drops`
* `TCP.Handshake.C19_only_what_the_session_read`
* `TCP.Handshake.C21_round_trip`
* `TCP.Handshake.C21_round_trip_sessions`
* `TCP.Handshake.C21_quiet`
* `TCP.DrvProps.C22_once`
* `TCP.DrvProps.C23_replies`
* `TCP.DrvProps.C24_agree`
* `TCP.DrvProps.C24_state`
* `TCP.DrvProps.C25_one_tick`
* `TCP.DrvProps.C25_paced`
* `TCP.DrvProps.C26_starts_once`
* `TCP.DrvProps.C30_reports_partial`
* `TCP.DrvProps.C31_history`
* `TCP.DrvProps.C31_replies`
* `TCP.Counter.C34_replicas_partial`
* `TCP.Willow.C36_capacity`
* `TCP.Willow.C36_eviction`
* `TCP.Willow.C36_oldest_sequential`
* `TCP.Willow.C36_kept_sequential`
* `TCP.Willow.C37_after_use_partial`
* `TCP.Willow.C37_sequential_partial`
* `TCP.Willow.C38_latest_partial`
* `TCP.Willow.C38_sequential_partial`
* `TCP.Willow.C39_restore`
* `TCP.Willow.C39_replicas`
* `TCP.TabletStore.C40_atomic`
* `TCP.TabletStore.C41_ops`
* `TCP.TabletStore.C41_versions`
* `TCP.TabletStore.C41_history`
* `TCP.TabletStore.C41_conflict`
* `TCP.TabletStore.C41_unchecked_fails`
* `TCP.TabletStore.C42_duplicate_fails`
* `TCP.TabletStore.C42_distinct_partial`
* `TCP.TabletStore.C43_closed_partial`
* `TCP.TabletStore.C43_exclusive_fails`
* `TCP.TabletStore.C44_restore`
* `TCP.TabletStore.C44_refused_may_change`
* `TCP.TabletStore.C45_add_fails`
* `TCP.TabletStore.C45_safe_ops_partial`
* `TCP.TabletStore.C45_event_partial`
* `TCP.Cache.Props.C46_split`
* `TCP.Cache.Props.C46_asked`
* `TCP.Cache.Props.C46_bounds`
* `TCP.Cache.Props.C47_last_fails`
* `TCP.Cache.Props.C47_partial`
* `TCP.Cache.Props.C48_drop_fails`
* `TCP.Cache.Props.C48_sound_partial`
* `TCP.Cache.Props.C49_rejected_fails`
* `TCP.Cache.Props.C49_highest_partial`
* `TCP.Cache.Props.C49_forward_partial`
* `TCP.Cache.Props.C50_contents`
* `TCP.Cache.Props.C50_complete_partial`
* `TCP.Cache.Props.C50_premature_fails`
* `TCP.Cache.Props.C50_failure`
* `TCP.Cache.Props.C50_store`
* `TCP.Cache.Props.C50_store_failure`
* `TCP.Cache.Props.C50_once`
* `TCP.Cache.Props.C50_answered`
* `TCP.Cache.Props.C50_store_answered`
* `TCP.Cache.Props.C50_requests`
* `TCP.Cache.Props.C52_read_only_fails`
* `TCP.Cache.Props.C52_failed_fails`
* `TCP.Cache.Props.C52_empty_fails`
* `TCP.Cache.Props.C52_advances_partial`
* `TCP.Cache.Props.C52_commit_partial`
* `TCP.Cache.Props.C52_outcome_partial`
* `TCP.Cache.Props.C53_confirmed_partial`
* `TCP.Cache.Props.C53_failed`
* `TCP.Cache.Props.C53_stable`
* `TCP.Cache.Props.C53_requests`
* `TCP.Cache.Props.C53_store_partial`
* `TCP.Cache.Props.C55_committed_partial`
* `TCP.Cache.Props.C55_gets_fails`
* `TCP.Comm.C56_no_crash_partial`
* `TCP.TabletStore.C61_converge`
* `TCP.TabletStore.C61_answers`
* `TCP.TabletStore.C61_without_snapshot_differ`
* `TCP.Cache.Props.C62_error_fails`
* `TCP.Cache.Props.C62_shared_uri_fails`
* `TCP.Cache.Props.C62_response_partial`
* `TCP.Cache.Props.C63_validated_partial`
* `TCP.Cache.Props.C63_fails`
* `TCP.Snap.C64_ack_truthful`
* `TCP.Snap.C64_finish_means_received_partial`
* `TCP.Snap.C65_ids_never_reused`
* `TCP.Snap.C65_live_ids_distinct`
* `TCP.Snap.C65_late_replies_harmless`
* `TCP.Replica.C66_confidential`
* `TCP.Replica.C67_authentic_partial`
* `TCP.Replica.C68_reports_partial`
* `TCP.Replica.C70_service`
* `TCP.DrvProps.C75_replicas`
* `TCP.DrvProps.C75_calls`
* `TCP.DrvProps.C75_answers`
* `TCP.DrvProps.C75_proposals`
* `TCP.DrvProps.C75_realtime`
* `TCP.Counter.C76_counters`
* `TCP.Counter.C76_answers`
* `TCP.Counter.C76_linearizable`
* `TCP.Willow.C77_keys`
* `TCP.Willow.C77_answers`
* `TCP.Willow.C77_events`
* `TCP.TabletStore.C78_store`
* `TCP.TabletStore.C78_linearizable`
* `TCP.Handshake.C79_contents_partial`
* `TCP.Log.C80_once`
* `TCP.Log.C80_prompt`
* `TCP.Log.C80_transparent`
* `TCP.Log.C80_content`
* `TCP.Log.C80_place`
* `TCP.Log.C81_entries_fails`
* `TCP.Log.C81_snapshots_fails`
* `TCP.Log.C81_local_partial`
* `TCP.Log.C81_severe_partial`
* `TCP.Log.C81_key_fails`
* `TCP.Cache.Props.C82_answer_partial`
* `TCP.Cache.Props.C82_asked_partial`
* `TCP.Cache.Props.C82_listed_partial`
* `TCP.Cache.Props.C83_given_partial`
* `TCP.Cache.Props.C83_missing_fails`
* `TCP.Cache.Props.C84_stored`
* `TCP.Cache.Props.C84_complete`
* `TCP.Cache.Props.C85_answered`
* `TCP.Cache.Props.C85_every_partial`
* `TCP.Cache.Props.C85_serial_partial`
* `TCP.Cache.Props.C85_not_after`
* `TCP.Cache.Props.C85_dirty_read_fails`
* `TCP.Cache.Props.C85_lost_update_fails`
* `TCP.Cache.Props.C85_stale_read_fails`
* `TCP.Cache.Props.C86_uri`
* `TCP.Cache.Props.C86_immutable`
* `TCP.Cache.Props.C86_differ`
* `TCP.Cache.Props.C87_again_fails`
* `TCP.Cache.Props.C87_concurrent_fails`
* `TCP.Cache.Props.C87_retry_fails`
* `TCP.Cache.Props.C87_new_partial`
* `TCP.Cache.Props.C88_commits_partial`
* `TCP.Cache.Props.C88_every_partial`
* `TCP.Cache.Props.C88_values_partial`
* `TCP.Cache.Props.C88_last_partial`
* `TCP.Cache.Props.C89_first_partial`
* `TCP.Cache.Props.C89_new_fails`
* `TCP.Cache.Props.C90_store`
* `TCP.Cache.Props.C90_strict_partial`
* `TCP.ServiceProps.C91_order`
* `TCP.Counter.C91_counters`
* `TCP.TabletStore.C91_tablets`
* `TCP.Willow.C92_clients_partial`
* `TCP.Willow.C92_stale_fails`
* `TCP.Replica.C93_intact_partial`
* `TCP.Replica.C93_order_fails`
* `TCP.Replica.C93_ordered_partial`
* `TCP.Replica.C93_cluster_partial`
* `TCP.Handshake.C94_cut_fails`
* `TCP.Handshake.C94_reopens_partial`
* `TCP.Survive.C95_survives_partial`
* `TCP.Survive.C95_ephemeral`
* `TCP.Survive.C95_counter_partial`
* `TCP.Survive.C95_tablets_partial`
* `TCP.Survive.C95_decryptor_partial`
* `TCP.Survive.C96_survives_partial`
* `TCP.Survive.C96_log_partial`
* `TCP.Survive.C96_counter_partial`
* `TCP.DrvProps.C97_handed`
* `TCP.DrvProps.C97_outstanding_partial`
* `TCP.DrvProps.C97_once_partial`
* `TCP.DrvProps.C97_ephemeral`
* `TCP.DrvProps.C97_skipped_fails`
* `TCP.Sessions.C98_sealed`
* `TCP.Sessions.C98_heard`
* `TCP.Rollback.C99_forward_partial`
* `TCP.Rollback.C99_identity_fails`
* `TCP.Rollback.C99_restart_fails`
* `TCP.Short.C100_log_short`
* `TCP.Removed.C101_leader_partial`
* `TCP.Removed.C101_cut_off`
* `TCP.Removed.C101_follower_fails`
* `TCP.Cache.Props.C102_rejected_fails`
* `TCP.Cache.Props.C102_map_partial`
* `TCP.Cache.Props.C102_one_map_partial`
* `TCP.Cache.Props.C103_realtime_partial`
* `TCP.Cache.Props.C104_once_partial`
* `TCP.Cache.Props.C105_distinct`
* `TCP.Cache.Props.C105_takes`
* `TCP.Cache.Props.C105_shipped`
* `TCP.Cache.Props.C105_requests`
* `TCP.Cache.Props.C105_network`
* `TCP.Cache.Props.C105_matching`
* `TCP.Cache.Props.C106_transactions`
* `TCP.Cache.Props.C106_requests`
* `TCP.Cache.Props.C106_resolutions_fails`
* `TCP.Cache.Props.C106_queries_fails`
* `TCP.ClockProps.C108_ticks_fails`
* `TCP.ReportProps.C110_size`
* `TCP.TabletStore.C111_owner`
* `TCP.TabletStore.C111_listed`
* `TCP.TabletStore.C111_members`
* `TCP.TabletStore.C111_configured_partial`
* `TCP.TabletStore.C111_count`
* `TCP.TabletStore.C111_empty_fails`
* `TCP.TracedProps.C114_values`
* `TCP.TracedProps.C114_held`
* `TCP.TracedProps.C114_metadata`
* `TCP.Eventual.Props.C115_distinct`
