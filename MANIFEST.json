{
 "claims": [
  {
   "property": "C01",
   "status": "proved",
   "theorems": [
    "TCP.Storage.C01_log_contiguous_and_anchored"
   ],
   "note": "all reachable states of the storage API"
  },
  {
   "property": "C02",
   "status": "proved",
   "theorems": [
    "TCP.Storage.C02_append_overwrites_exact_suffix",
    "TCP.Storage.C02_append_empty"
   ],
   "note": "all reachable states, all contiguous batches"
  },
  {
   "property": "C03",
   "status": "proved",
   "theorems": [
    "TCP.Storage.C03_range_reads_faithful"
   ],
   "note": "for every limit_size meeting raft-rs' contract"
  },
  {
   "property": "C04",
   "status": "partial",
   "theorems": [
    "TCP.Storage.C04_term_agrees_partial",
    "TCP.Storage.C04_term_agrees_fails_for_rewritten_snapshot_entry"
   ],
   "note": "Proved for histories in which Raft never appends at or below the snapshot index; for arbitrary histories the code violates it at the snapshot index (counterexample theorem)."
  },
  {
   "property": "C05",
   "status": "proved",
   "theorems": [
    "TCP.Storage.C05_snapshot_index_monotone",
    "TCP.Storage.C05_create_snapshot",
    "TCP.Storage.C05_install_snapshot"
   ],
   "note": "monotonicity over all histories; full characterisation of create/install"
  },
  {
   "property": "C06",
   "status": "partial",
   "theorems": [
    "TCP.Storage.C06_covered_entries_immutable_fails",
    "TCP.Storage.C06_covered_entries_immutable_partial"
   ],
   "note": "False in the code: the entry at the snapshot index is retained and an append may replace it (counterexample theorem). Proved: every append strictly below the snapshot index, or at it when the entry is gone, panics."
  },
  {
   "property": "C07",
   "status": "proved",
   "theorems": [
    "TCP.Storage.C07_snapshot_answer",
    "TCP.Storage.C07_refused_request_remembered",
    "TCP.Storage.C07_should_snapshot",
    "TCP.Storage.C07_growth_limit_constant"
   ],
   "note": "answers, memory over all histories, and both directions of should_snapshot"
  },
  {
   "property": "C08",
   "status": "proved",
   "theorems": [
    "TCP.Snap.C08_chunking_lossless",
    "TCP.Snap.C08_sender_hands_out_expected",
    "TCP.Snap.C08_start_never_panics"
   ],
   "note": "all snapshots, all chunk sizes > 0; history theorem ties it to the requests the sender hands out"
  },
  {
   "property": "C09",
   "status": "proved",
   "theorems": [
    "TCP.Snap.C09_reassembly_exact",
    "TCP.Snap.C09_reassembly_exact_after_header",
    "TCP.Snap.C09_reassembly_completes",
    "TCP.Snap.C09_end_to_end"
   ],
   "note": "any order, duplication, loss; safety, completeness and end-to-end with the sender; only hypothesis: decode inverts encode"
  },
  {
   "property": "C10",
   "status": "partial",
   "theorems": [
    "TCP.Snap.C10_late_chunks_never_contaminate_fails",
    "TCP.Snap.C10_late_chunks_never_contaminate_partial"
   ],
   "note": "False in the code: chunks are not matched against the snapshot id, a late chunk of the previous transfer is mixed in (counterexample theorem). Proved: other senders, out-of-range indices and wrong lengths are rejected."
  },
  {
   "property": "C11",
   "status": "proved",
   "theorems": [
    "TCP.Snap.C11_in_flight_bounded",
    "TCP.Snap.C11_delivery_ids_never_reused"
   ],
   "note": "all histories incl. restarted transfers, resets, failures; requests of an overridden or cancelled transfer no longer count"
  },
  {
   "property": "C12",
   "status": "proved",
   "theorems": [
    "TCP.Snap.C12_finish_only_if_all_acknowledged",
    "TCP.Snap.C12_failure_iff_disturbed",
    "TCP.Snap.C12_reports_when_possible",
    "TCP.Snap.C12_reported_at_most_once"
   ],
   "note": "all histories: finish only if every chunk acked once, failure iff disturbed, no forgotten report, at most one report"
  },
  {
   "property": "C13",
   "status": "proved",
   "theorems": [
    "TCP.Snap.C13_next_request_fair",
    "TCP.Snap.C13_prompt_transfer_finishes"
   ],
   "note": "fairness stated on the observable logs; termination under prompt acknowledgement in exactly n rounds; progress fractions are exact instead of f64; receiver id 0 excluded"
  },
  {
   "property": "C14",
   "status": "proved",
   "theorems": [
    "TCP.Snap.C14_role_separation",
    "TCP.Snap.C14_change_aborts_transfers",
    "TCP.Snap.C14_no_change_keeps_transfers"
   ],
   "note": "all lives of the processor (PReach); replica ids non-zero"
  },
  {
   "property": "C15",
   "status": "proved",
   "theorems": [
    "TCP.Comm.C15_only_ciphertext",
    "TCP.Comm.C15_only_handshake_before_completion",
    "TCP.Comm.C15_only_handshake_while_not_completed",
    "TCP.Handshake.C15_only_what_the_session_produced"
   ],
   "note": "Any handshake session and encryptor behaviour (parameters). Handshake messages are the second kind of output; every other output is an encryption of an accepted message under an encryptor obtained from a completed session provided for that peer."
  },
  {
   "property": "C16",
   "status": "partial",
   "theorems": [
    "TCP.Comm.C16_order_and_content_partial",
    "TCP.Comm.C16_one_heartbeat",
    "TCP.Comm.C16_flush_after_completion",
    "TCP.Comm.C16_flush_emits_all",
    "TCP.Comm.C16_flush_in_two_takes",
    "TCP.Comm.C16_lost_when_opening_fails"
   ],
   "note": "Order/content/no duplication/no loss proved for histories whose opening sessions produce a first message. The full statement is false: a message that has to open the channel and whose session cannot produce its first message is accepted (Ok) but dropped (C16_lost_when_opening_fails). A newer heartbeat takes the queue position of the older one, so the order between heartbeats and other messages is not claimed."
  },
  {
   "property": "C17",
   "status": "proved",
   "theorems": [
    "TCP.Comm.C17_timeout",
    "TCP.Comm.C17_retry",
    "TCP.Comm.C17_new_attempt"
   ],
   "note": "Over every continuation in which nothing arrives from the peer, with any interleaved sends, takes, cluster changes keeping the peer and traffic of other peers."
  },
  {
   "property": "C18",
   "status": "proved",
   "theorems": [
    "TCP.Comm.C18_out_isolated",
    "TCP.Comm.C18_in_isolated",
    "TCP.Comm.C18_output_isolated",
    "TCP.Comm.C18_cluster_change",
    "TCP.Comm.C18_refused_before_init",
    "TCP.Comm.C18_refused_unsupported",
    "TCP.Comm.C18_provider_failure"
   ],
   "note": "Frame theorems for every module state; cluster change and provider failure over every history."
  },
  {
   "property": "C19",
   "status": "proved",
   "theorems": [
    "TCP.Comm.C19_only_decrypted",
    "TCP.Comm.C19_early_payload",
    "TCP.Comm.C19_late_handshake",
    "TCP.Comm.C19_failed_drops",
    "TCP.Handshake.C19_only_what_the_session_read"
   ],
   "note": "Passed up only after decryption under the completed session of the sender; the four cases of the statement."
  },
  {
   "property": "C20",
   "status": "proved",
   "theorems": [
    "TCP.Handshake.C20_completed_means_open",
    "TCP.Handshake.C20_permanent",
    "TCP.Handshake.C20_client_refuses_early",
    "TCP.Handshake.C20_wrong_kind",
    "TCP.Handshake.C20_exchange",
    "TCP.Handshake.C20_channel"
   ],
   "note": "Over every call sequence on a session and any session library behaviour; C20_channel lifts it to the channel layer."
  },
  {
   "property": "C21",
   "status": "proved",
   "theorems": [
    "TCP.Handshake.C21_round_trip",
    "TCP.Handshake.C21_round_trip_sessions",
    "TCP.Handshake.C21_quiet"
   ],
   "note": "Over every interleaving of both replicas' calls and in-order deliveries, under the session library contract Linked/OakLinked (what one side writes the other reads back, in order). Heartbeats may be superseded while queued (by design), stated in Recovered."
  },
  {
   "property": "C22",
   "status": "proved",
   "theorems": [
    "TCP.DrvProps.C22_feed",
    "TCP.DrvProps.C22_log",
    "TCP.DrvProps.C22_once"
   ],
   "note": "For any consensus behaviour (C22_feed); for consecutive batches of a log (C22_log); strictly increasing indices if snapshots never go back (C22_once)."
  },
  {
   "property": "C23",
   "status": "proved",
   "theorems": [
    "TCP.DrvProps.C23_proposals",
    "TCP.DrvProps.C23_owner",
    "TCP.DrvProps.C23_single",
    "TCP.DrvProps.C23_replies"
   ],
   "note": "Proposals carry the own id (C23_proposals); an entry is owned exactly on its proposer (C23_owner, C23_single); replies answer own commands (C23_replies)."
  },
  {
   "property": "C24",
   "status": "proved",
   "theorems": [
    "TCP.DrvProps.C24_agree",
    "TCP.DrvProps.C24_state"
   ],
   "note": "Cluster of any size under the assumptions on consensus stated in Spec/DriverLog Cluster."
  },
  {
   "property": "C25",
   "status": "proved",
   "theorems": [
    "TCP.DrvProps.C25_time",
    "TCP.DrvProps.C25_monotone",
    "TCP.DrvProps.C25_one_tick",
    "TCP.DrvProps.C25_paced"
   ],
   "note": "Whole driver, every sequence of host calls with arbitrary instants, including calls that fail."
  },
  {
   "property": "C26",
   "status": "partial",
   "theorems": [
    "TCP.DrvProps.C26_start_refused",
    "TCP.DrvProps.C26_unstarted_refused",
    "TCP.DrvProps.C26_ephemeral_refused",
    "TCP.DrvProps.C26_starts_once",
    "TCP.DrvProps.C26_before_start_partial",
    "TCP.DrvProps.C26_before_start_fails",
    "TCP.DrvProps.C26_stopped_app_fails"
   ],
   "note": "Started at most once, refusals without effect. False in the code for messages other than requests needing a started replica: before the start request an application message or an empty call crashes the replica, and a stopped replica silently drops application messages (counterexample theorems)."
  },
  {
   "property": "C27",
   "status": "partial",
   "theorems": [
    "TCP.DrvProps.C27_no_commands_partial",
    "TCP.DrvProps.C27_ephemeral_partial",
    "TCP.DrvProps.C27_fails"
   ],
   "note": "False in the code: committed entries are still applied after shutdown (counterexample theorem). Proved: no further commands, and nothing at all for replicas without replication."
  },
  {
   "property": "C28",
   "status": "partial",
   "theorems": [
    "TCP.DrvProps.C28_source_partial",
    "TCP.DrvProps.C28_fails"
   ],
   "note": "False in the code: a misaddressed message is stepped into consensus (counterexample theorem). Proved: where every stepped message comes from, and that reassembled snapshots are addressed to this replica."
  },
  {
   "property": "C29",
   "status": "proved",
   "theorems": [
    "TCP.DrvProps.C29_one_answer",
    "TCP.DrvProps.C29_other_error",
    "TCP.DrvProps.C29_only_answers"
   ],
   "note": "All histories; the request that fails gets an error instead of an answer."
  },
  {
   "property": "C30",
   "status": "partial",
   "theorems": [
    "TCP.DrvProps.C30_reports_partial",
    "TCP.DrvProps.C30_fails"
   ],
   "note": "Exactly-on-change proved; a CheckCluster request is not answered while the state is the initial one (counterexample theorem)."
  },
  {
   "property": "C31",
   "status": "proved",
   "theorems": [
    "TCP.DrvProps.C31_empty",
    "TCP.DrvProps.C31_call",
    "TCP.DrvProps.C31_kept",
    "TCP.DrvProps.C31_history",
    "TCP.DrvProps.C31_replies"
   ],
   "note": "All histories including failed calls, whose output stays for the next call."
  },
  {
   "property": "C32",
   "status": "proved",
   "theorems": [
    "TCP.Counter.C32_linearizable",
    "TCP.Counter.C32_initial"
   ],
   "note": "Follows: sequential map semantics over every call sequence; C32_initial for the configured start."
  },
  {
   "property": "C33",
   "status": "partial",
   "theorems": [
    "TCP.Counter.C33_failed_swap_fails",
    "TCP.Counter.C33_response_values_partial"
   ],
   "note": "Refuted by C33_failed_swap_fails (new_value is 0 after a failure); the rest of the response is C33_response_values_partial."
  },
  {
   "property": "C34",
   "status": "partial",
   "theorems": [
    "TCP.Counter.C34_merge_fails",
    "TCP.Counter.C34_replicas_partial",
    "TCP.Counter.C34_fresh_partial"
   ],
   "note": "Refuted for arbitrary loaders (load merges); proved for replicas of one cluster (same configuration and log), with or without snapshot transfers."
  },
  {
   "property": "C35",
   "status": "proved",
   "theorems": [
    "TCP.Counter.C35_no_direct_change",
    "TCP.Counter.C35_decisions",
    "TCP.Counter.C35_events_apply"
   ],
   "note": "Complete decision table, plus: events produced by commands always apply."
  },
  {
   "property": "C36",
   "status": "proved",
   "theorems": [
    "TCP.Willow.C36_capacity",
    "TCP.Willow.C36_eviction",
    "TCP.Willow.C36_order",
    "TCP.Willow.C36_oldest_sequential",
    "TCP.Willow.C36_pipelined_ties",
    "TCP.Willow.C36_kept_sequential"
   ],
   "note": "full; eviction stated over the number of stored ids, generation order as stored"
  },
  {
   "property": "C37",
   "status": "partial",
   "theorems": [
    "TCP.Willow.C37_pipelined_fails",
    "TCP.Willow.C37_after_use_partial",
    "TCP.Willow.C37_sequential_partial"
   ],
   "note": "false when commands are pipelined (C37_pipelined_fails); holds for one command at a time and after the decryption was applied"
  },
  {
   "property": "C38",
   "status": "partial",
   "theorems": [
    "TCP.Willow.C38_pipelined_fails",
    "TCP.Willow.C38_latest_partial",
    "TCP.Willow.C38_repeat",
    "TCP.Willow.C38_sequential_partial"
   ],
   "note": "false when commands are pipelined (C38_pipelined_fails); the stored pair is always the latest generated one; exact for one command at a time"
  },
  {
   "property": "C39",
   "status": "proved",
   "theorems": [
    "TCP.Willow.C39_restore",
    "TCP.Willow.C39_replicas"
   ],
   "note": "full"
  },
  {
   "property": "C40",
   "status": "proved",
   "theorems": [
    "TCP.TabletStore.C40_atomic",
    "TCP.TabletStore.C40_undecodable"
   ],
   "note": "Whole property, for every store and every op list; an undecodable request leaves the store unchanged."
  },
  {
   "property": "C41",
   "status": "partial",
   "theorems": [
    "TCP.TabletStore.C41_ops",
    "TCP.TabletStore.C41_versions",
    "TCP.TabletStore.C41_history",
    "TCP.TabletStore.C41_conflict",
    "TCP.TabletStore.C41_unchecked_fails"
   ],
   "note": "proved for builds with overflow checks; with wrapping arithmetic a version can fall from u32::MAX to 0 (witness)"
  },
  {
   "property": "C42",
   "status": "partial",
   "theorems": [
    "TCP.TabletStore.C42_duplicate_fails",
    "TCP.TabletStore.C42_distinct_partial"
   ],
   "note": "false for two updates of one tablet in one transaction (witness); proved when no op follows an update of the tablet it updates or checks"
  },
  {
   "property": "C43",
   "status": "partial",
   "theorems": [
    "TCP.TabletStore.C43_closed_partial",
    "TCP.TabletStore.C43_exclusive_fails"
   ],
   "note": "proto documents the upper bound as exclusive, the code treats it as inclusive (witness); exact characterisation proved for the inclusive range"
  },
  {
   "property": "C44",
   "status": "proved",
   "theorems": [
    "TCP.TabletStore.C44_restore",
    "TCP.TabletStore.C44_total",
    "TCP.TabletStore.C44_unknown_table",
    "TCP.TabletStore.C44_refused_may_change"
   ],
   "note": "a refused snapshot can leave earlier tables replaced (witness)"
  },
  {
   "property": "C45",
   "status": "partial",
   "theorems": [
    "TCP.TabletStore.C45_add_fails",
    "TCP.TabletStore.C45_safe_ops_partial",
    "TCP.TabletStore.C45_event_partial"
   ],
   "note": "Add and Remove reach todo!() on every replica (witness); all other requests proved panic-free"
  },
  {
   "property": "C46",
   "status": "proved",
   "theorems": [
    "TCP.Cache.Props.C46_split",
    "TCP.Cache.Props.C46_asked",
    "TCP.Cache.Props.C46_bounds"
   ],
   "note": "Every region size > 0 and every sorted query; no overflow."
  },
  {
   "property": "C47",
   "status": "partial",
   "theorems": [
    "TCP.Cache.Props.C47_last_fails",
    "TCP.Cache.Props.C47_partial"
   ],
   "note": "False in the code: the last hash of the ring never has a region and a query for it crashes (for every region size). Proved: exactly which hashes have one."
  },
  {
   "property": "C48",
   "status": "partial",
   "theorems": [
    "TCP.Cache.Props.C48_drop_fails",
    "TCP.Cache.Props.C48_history_fails",
    "TCP.Cache.Props.C48_empty_fails",
    "TCP.Cache.Props.C48_same_region_fails",
    "TCP.Cache.Props.C48_sound_partial"
   ],
   "note": "False in the code: trailing hashes after the first tablet of a region are dropped (for every fresh region), empty lists and two queries of one request in one region crash. Proved: nothing invented or repeated and every returned hash comes with its owner."
  },
  {
   "property": "C49",
   "status": "partial",
   "theorems": [
    "TCP.Cache.Props.C49_rejected_fails",
    "TCP.Cache.Props.C49_highest_partial",
    "TCP.Cache.Props.C49_forward_partial"
   ],
   "note": "See also C49_rejected_fails: a rejected transaction leaves uncommitted versions in the cache."
  },
  {
   "property": "C50",
   "status": "partial",
   "theorems": [
    "TCP.Cache.Props.C50_contents",
    "TCP.Cache.Props.C50_complete_partial",
    "TCP.Cache.Props.C50_premature_fails",
    "TCP.Cache.Props.C50_premature_history_fails",
    "TCP.Cache.Props.C50_shared_uri_fails",
    "TCP.Cache.Props.C50_failure",
    "TCP.Cache.Props.C50_store",
    "TCP.Cache.Props.C50_store_failure",
    "TCP.Cache.Props.C50_once",
    "TCP.Cache.Props.C50_answered",
    "TCP.Cache.Props.C50_store_answered",
    "TCP.Cache.Props.C50_requests"
   ],
   "note": "Contents, failures, at-most-once and liveness over all histories. False in the code: a load whose first tablet is cached completes with that tablet alone, and tablets sharing a uri share an entry (counterexample theorems)."
  },
  {
   "property": "C51",
   "status": "partial",
   "theorems": [
    "TCP.Cache.Props.C51_fails",
    "TCP.Cache.Props.C51_written_partial"
   ],
   "note": "False in the code: neither hash nor size are compared (for every decodable blob). Proved: what is written carries the hash and size of the bytes sent."
  },
  {
   "property": "C52",
   "status": "partial",
   "theorems": [
    "TCP.Cache.Props.C52_read_only_fails",
    "TCP.Cache.Props.C52_failed_fails",
    "TCP.Cache.Props.C52_empty_fails",
    "TCP.Cache.Props.C52_advances_partial",
    "TCP.Cache.Props.C52_commit_partial",
    "TCP.Cache.Props.C52_outcome_partial"
   ],
   "note": "False as stated. Three classes of transactions never report an outcome, proved for every history: transactions that only read, transactions with a failed process request, and transactions without ops. Proved for the others: every step of processing advances once the storage has answered, commit is possible once nothing is pending, and an answer of the store yields an outcome."
  },
  {
   "property": "C53",
   "status": "partial",
   "theorems": [
    "TCP.Cache.Props.C53_confirmed_partial",
    "TCP.Cache.Props.C53_failed",
    "TCP.Cache.Props.C53_stable",
    "TCP.Cache.Props.C53_requests",
    "TCP.Cache.Props.C53_store_partial",
    "TCP.Cache.Props.C53_fails"
   ],
   "note": "The coordinator zips ops with results without comparing lengths (C53_fails). Proved: with one result per op, and together with the model of the tablet store, Succeeded means the store carried out all ops; outcomes are stable; correlation ids are unique."
  },
  {
   "property": "C54",
   "status": "proved",
   "theorems": [
    "TCP.Cache.Props.C54_batch",
    "TCP.Cache.Props.C54_handler"
   ],
   "note": "Every tablet content, every batch; stated for one tablet and for a whole transaction."
  },
  {
   "property": "C55",
   "status": "partial",
   "theorems": [
    "TCP.Cache.Props.C55_once_partial",
    "TCP.Cache.Props.C55_committed_partial",
    "TCP.Cache.Props.C55_dropped_fails",
    "TCP.Cache.Props.C55_crash_fails",
    "TCP.Cache.Props.C55_zero_fails",
    "TCP.Cache.Props.C55_span_fails",
    "TCP.Cache.Props.C55_gets_fails",
    "TCP.Cache.Props.C55_silent_fails"
   ],
   "note": "False in the code: the shipped actor never answers anything (for every configuration and history), a store that accepts only gets never answers (every history), requests of a rejected transaction are dropped for good, a batch spanning two tablets leaves requests behind, and a request for a known region crashes the store. Proved for all histories: never answered twice or unasked, and answered only after its transaction was confirmed."
  },
  {
   "property": "C56",
   "status": "partial",
   "theorems": [
    "TCP.Comm.C56_missing_payload_crash_fails",
    "TCP.Comm.C56_no_crash_partial"
   ],
   "note": "False as stated: a data message without payload from a peer in the completed state crashes the replica (C56_missing_payload_crash_fails). Proved for all other traffic under the contract that a completed session has an encryptor."
  },
  {
   "property": "C57",
   "status": "partial",
   "theorems": [
    "TCP.Handshake.C57_simultaneous_open_fails",
    "TCP.Handshake.C57_one_sided_open_partial"
   ],
   "note": "Refuted: crossing opening requests fail both sides for every session library (C57_simultaneous_open_fails). Holds when one side opens (partial)."
  },
  {
   "property": "C58",
   "status": "proved",
   "theorems": [
    "TCP.Handshake.C58_verifier_selection"
   ],
   "note": "The selection of the verifier; C98 has the values each verifier is given and ties the selection to the sessions of a replica. The verifiers themselves are Oak's library."
  },
  {
   "property": "C59",
   "status": "partial",
   "theorems": [
    "TCP.Willow.C59_undecodable_fails",
    "TCP.Willow.C59_malformed_fails",
    "TCP.Willow.C59_decisions_partial"
   ],
   "note": "false: undecodable header stops the node, malformed decryption request panics; holds otherwise"
  },
  {
   "property": "C60",
   "status": "proved",
   "theorems": [
    "TCP.TabletStore.C60_decisions",
    "TCP.TabletStore.C60_proposals_decode"
   ],
   "note": "Whole property, for every state, role and command."
  },
  {
   "property": "C61",
   "status": "proved",
   "theorems": [
    "TCP.TabletStore.C61_converge",
    "TCP.TabletStore.C61_answers",
    "TCP.TabletStore.C61_without_snapshot_differ"
   ],
   "note": "without a snapshot transfer the random tablets differ (witness)"
  },
  {
   "property": "C62",
   "status": "partial",
   "theorems": [
    "TCP.Cache.Props.C62_error_fails",
    "TCP.Cache.Props.C62_shared_uri_fails",
    "TCP.Cache.Props.C62_response_partial"
   ],
   "note": "False as stated: a communication error for any committed transaction with ops crashes the manager (every history), and tablets without uri collide in the data cache. Proved for well-formed answers to requests of transactions."
  },
  {
   "property": "C63",
   "status": "partial",
   "theorems": [
    "TCP.Cache.Props.C63_validated_partial",
    "TCP.Cache.Props.C63_fails"
   ],
   "note": "Fails for two tables, since tablets are tracked by id and version only; proved when the resolved tablets differ in id or version."
  },
  {
   "property": "C64",
   "status": "partial",
   "theorems": [
    "TCP.Snap.C64_ack_truthful",
    "TCP.Snap.C64_finish_means_received_partial",
    "TCP.Snap.C64_duplicate_fails"
   ],
   "note": "The statement about one answer is proved for every state and request. Finished implies received is proved for networks that deliver each request at most once; C64_duplicate_fails shows that a duplicated header breaks it."
  },
  {
   "property": "C65",
   "status": "proved",
   "theorems": [
    "TCP.Snap.C65_ids_never_reused",
    "TCP.Snap.C65_live_ids_distinct",
    "TCP.Snap.C65_late_replies_harmless"
   ],
   "note": "Whole property, over every history of the sender."
  },
  {
   "property": "C66",
   "status": "proved",
   "theorems": [
    "TCP.Replica.C66_confidential"
   ],
   "note": "For all calls with any result, any parameters."
  },
  {
   "property": "C67",
   "status": "partial",
   "theorems": [
    "TCP.Replica.C67_authentic_partial",
    "TCP.Replica.C67_sender_fails"
   ],
   "note": "Partial: everything given to consensus is authentic (some replica sent it over an established session; snapshots from the named sender). The named sender of other messages is not checked: C67_sender_fails."
  },
  {
   "property": "C68",
   "status": "partial",
   "theorems": [
    "TCP.Replica.C68_reports_partial",
    "TCP.Replica.C68_silent_fails"
   ],
   "note": "Partial: exact description of reports; a non-leader never answers a request: C68_silent_fails."
  },
  {
   "property": "C69",
   "status": "proved",
   "theorems": [
    "TCP.Replica.C69_store_history",
    "TCP.Replica.C69_store_reachable"
   ],
   "note": "For all calls with any result; second theorem makes C01-C10 applicable to the store of a replica."
  },
  {
   "property": "C70",
   "status": "proved",
   "theorems": [
    "TCP.Replica.C70_stored_before_sent",
    "TCP.Replica.C70_service"
   ],
   "note": "For all successful calls, and for the service."
  },
  {
   "property": "C71",
   "status": "proved",
   "theorems": [
    "TCP.DrvProps.C71_members",
    "TCP.DrvProps.C71_snapshot_members",
    "TCP.DrvProps.C71_channel_members"
   ],
   "note": "All calls, any results. Members are read off the interactions with consensus by Spec/Driver membersOf; what consensus answers to a change is a parameter."
  },
  {
   "property": "C72",
   "status": "proved",
   "theorems": [
    "TCP.ServiceProps.C72_serial",
    "TCP.ServiceProps.C72_once",
    "TCP.ServiceProps.C72_within",
    "TCP.ServiceProps.C72_made",
    "TCP.ServiceProps.C72_real_time",
    "TCP.ServiceProps.C72_refused"
   ],
   "note": "All schedules; the driver is a parameter (Model/Replica.serve is used in the examples); tokio channels are modelled by their documented behaviour."
  },
  {
   "property": "C73",
   "status": "partial",
   "theorems": [
    "TCP.ServiceProps.C73_cancel_fails",
    "TCP.ServiceProps.C73_stops_partial"
   ],
   "note": "False in the code: a client that goes away while its request is handled makes the driver thread panic, in every idle state and for every request (C73_cancel_fails). Proved: there is no other way to stop it than that or a request the driver cannot handle."
  },
  {
   "property": "C74",
   "status": "proved",
   "theorems": [
    "TCP.ServiceProps.C74_answers"
   ],
   "note": "All schedules; the senders waiting for the channel may be served in any order."
  },
  {
   "property": "C75",
   "status": "proved",
   "theorems": [
    "TCP.DrvProps.C75_replicas",
    "TCP.DrvProps.C75_calls",
    "TCP.DrvProps.C75_answers",
    "TCP.DrvProps.C75_proposals",
    "TCP.DrvProps.C75_realtime"
   ],
   "note": "For actors that do not change state when saving or shutting down (all applications in the repository, Proofs/Apps and Replica). Consensus is a parameter with the stated contract (one log, delivered in order; no ephemeral replicas)."
  },
  {
   "property": "C76",
   "status": "proved",
   "theorems": [
    "TCP.Counter.C76_counters",
    "TCP.Counter.C76_answers",
    "TCP.Counter.C76_linearizable"
   ],
   "note": "All clauses; consensus contract as in C75, real time under Causal."
  },
  {
   "property": "C77",
   "status": "proved",
   "theorems": [
    "TCP.Willow.C77_keys",
    "TCP.Willow.C77_answers",
    "TCP.Willow.C77_events"
   ],
   "note": "All clauses; consensus contract as in C75, origin of events under Causal. Known pipelining defects (C37, C38) are separate properties."
  },
  {
   "property": "C78",
   "status": "proved",
   "theorems": [
    "TCP.TabletStore.C78_store",
    "TCP.TabletStore.C78_linearizable"
   ],
   "note": "All clauses; consensus contract as in C75, real time under Causal."
  },
  {
   "property": "C79",
   "status": "partial",
   "theorems": [
    "TCP.Handshake.C79_contents_partial",
    "TCP.Handshake.C79_envelope_fails",
    "TCP.Handshake.C79_identity_fails"
   ],
   "note": "Contents: proved for every behaviour of the host (nothing invented, altered or repeated), under the stated contract on sessions. False in the code: kind and delivery id of a message are outside the encryption and can be changed at will (C79_envelope_fails), and a session does not say which replica is at its other end, so that one replica can be passed off as another (C79_identity_fails)."
  },
  {
   "property": "C80",
   "status": "proved",
   "theorems": [
    "TCP.Log.C80_once",
    "TCP.Log.C80_prompt",
    "TCP.Log.C80_transparent",
    "TCP.Log.C80_content",
    "TCP.Log.C80_enabled",
    "TCP.Log.C80_place"
   ],
   "note": "what is logged during a call is a parameter; terminal drain of std builds left out"
  },
  {
   "property": "C81",
   "status": "partial",
   "theorems": [
    "TCP.Log.C81_entries_fails",
    "TCP.Log.C81_snapshots_fails",
    "TCP.Log.C81_local_partial",
    "TCP.Log.C81_severe_partial",
    "TCP.Log.C81_key_fails"
   ],
   "note": "refuted for builds with debug output and the shipped start-up (no logger of its own); holds with a logger of its own; builds compiled for info send no line of the log store. Missing: lines of other components"
  },
  {
   "property": "C82",
   "status": "partial",
   "theorems": [
    "TCP.Cache.Props.C82_answer_partial",
    "TCP.Cache.Props.C82_asked_partial",
    "TCP.Cache.Props.C82_listed_partial",
    "TCP.Cache.Props.C82_silent_fails",
    "TCP.Cache.Props.C82_twice_fails"
   ],
   "note": "requests whose parts are about different regions; refuted for lost messages and for two queries in one region"
  },
  {
   "property": "C83",
   "status": "partial",
   "theorems": [
    "TCP.Cache.Props.C83_given_partial",
    "TCP.Cache.Props.C83_missing_fails",
    "TCP.Cache.Props.C83_new_tablets_fails"
   ],
   "note": "Proved for every call of a handler in every history, under the hypotheses that uris tell tablets apart and the resolved tablets differ in id or version. The full statement is false: when the first tablet is cached the others come without contents (C83_missing_fails), and a second new tablet crashes the manager because all new tablets have the empty uri (C83_new_tablets_fails)."
  },
  {
   "property": "C84",
   "status": "proved",
   "theorems": [
    "TCP.Cache.Props.C84_stored",
    "TCP.Cache.Props.C84_complete"
   ],
   "note": "Both directions for all histories: C84_stored for every update committed, C84_complete for every handler call and every tablet it was given."
  },
  {
   "property": "C85",
   "status": "partial",
   "theorems": [
    "TCP.Cache.Props.C85_answered",
    "TCP.Cache.Props.C85_every_partial",
    "TCP.Cache.Props.C85_serial_partial",
    "TCP.Cache.Props.C85_not_after",
    "TCP.Cache.Props.C85_dirty_read_fails",
    "TCP.Cache.Props.C85_lost_update_fails",
    "TCP.Cache.Props.C85_stale_read_fails"
   ],
   "note": "Partial: as stated it fails (C85_dirty_read_fails: contents of a refused transaction are given to the next one, which then succeeds; C85_lost_update_fails, C85_stale_read_fails: a transaction that updates a tablet twice). Proved when no refused commit had ops answered as succeeded, no transaction updates a tablet twice, answered tablets differ in id or version, uris tell tablets apart, the store knows the tables and is built with overflow checks."
  },
  {
   "property": "C86",
   "status": "proved",
   "theorems": [
    "TCP.Cache.Props.C86_uri",
    "TCP.Cache.Props.C86_immutable",
    "TCP.Cache.Props.C86_differ"
   ],
   "note": "uris and base64 as in the code; 'same contents' is 'same hash', collisions are outside the model"
  },
  {
   "property": "C87",
   "status": "partial",
   "theorems": [
    "TCP.Cache.Props.C87_again_fails",
    "TCP.Cache.Props.C87_concurrent_fails",
    "TCP.Cache.Props.C87_retry_fails",
    "TCP.Cache.Props.C87_new_partial"
   ],
   "note": "false: proved false for every history of the data cache with the default policy, and by witnesses for managers; contents never written before are written without a crash (_partial)"
  },
  {
   "property": "C88",
   "status": "partial",
   "theorems": [
    "TCP.Cache.Props.C88_commits_partial",
    "TCP.Cache.Props.C88_every_partial",
    "TCP.Cache.Props.C88_values_partial",
    "TCP.Cache.Props.C88_last_partial"
   ],
   "note": "Partial: as for C85 (refused commits with ops answered as succeeded, and double updates, are excluded: C85_dirty_read_fails, C85_lost_update_fails). Assumes a storage that returns for a uri what some manager stored under it and fixed contents for the empty uri, a hash without collisions on stored contents, and that a manager knows at most one new tablet (C83_new_tablets_fails)."
  },
  {
   "property": "C89",
   "status": "partial",
   "theorems": [
    "TCP.Cache.Props.C89_first_partial",
    "TCP.Cache.Props.C89_new_fails"
   ],
   "note": "False for new tablets, for every history (C89_new_fails); proved for written ones."
  },
  {
   "property": "C90",
   "status": "partial",
   "theorems": [
    "TCP.Cache.Props.C90_store",
    "TCP.Cache.Props.C90_strict_partial"
   ],
   "note": "C90_store: a replicated tablet store acts as one store. C90_strict_partial: strict serializability of the transactions that succeed, from the contract of consensus (one log, only proposed entries, snapshots that replicas saved), a network that may delay, lose, repeat and reorder, and one storage. Missing: as for C85/C88 (refused transactions with partly successful answers, tablets updated twice, tablets that share an id and version or, when new, the empty uri)."
  },
  {
   "property": "C91",
   "status": "proved",
   "theorems": [
    "TCP.ServiceProps.C91_order",
    "TCP.Counter.C91_counters",
    "TCP.TabletStore.C91_tablets"
   ],
   "note": "Any application (C91_order), atomic counter (C91_counters), tablet store (C91_tablets). Correlation ids identify commands: the real-time clause asks that no earlier call at a replica of the answering replica's id carried the correlation id of the later answer. Consensus within its contract (Consensus in Spec/ServiceCluster)."
  },
  {
   "property": "C92",
   "status": "partial",
   "theorems": [
    "TCP.Willow.C92_clients_partial",
    "TCP.Willow.C92_stale_fails"
   ],
   "note": "Fails across services: C92_stale_fails, a deposed leader answers a key request from its local state. C92_clients_partial: every answer is an error, a key current after some part of the log, or the answer to a logged event; logged answers respect real time across all services; key reads respect it at the same service. Missing: key reads at the services of different replicas."
  },
  {
   "property": "C93",
   "status": "partial",
   "theorems": [
    "TCP.Replica.C93_intact_partial",
    "TCP.Replica.C93_order_fails",
    "TCP.Replica.C93_ordered_partial",
    "TCP.Replica.C93_cluster_partial"
   ],
   "note": "Proved: snapshots arrive intact if the channels invent nothing and do not mix transfers (C93_intact_partial); channels that keep order and refuse nothing do not mix (C93_ordered_partial); a cluster whose snapshots travel like this is Deployed, so C75-C78 apply, and every snapshot installed was made by a replica (C93_cluster_partial). Missing: reordering, which the channels allow within a window, makes a replica install a mixture of two snapshots (C93_order_fails). Carried assumes the envelope (kind) of a message is not altered (it is not authenticated, cf. C79) and that all messages come from the current incarnation of the sender."
  },
  {
   "property": "C94",
   "status": "partial",
   "theorems": [
    "TCP.Handshake.C94_cut_fails",
    "TCP.Handshake.C94_crossing_fails",
    "TCP.Handshake.C94_reopens_partial"
   ],
   "note": "Does not hold in general (C94_cut_fails: a side that takes the channel for open never learns the other lost it, and as long as the other side has nothing to send nothing is ever delivered; C94_crossing_fails: both sides opening at the same moment fail forever when their timers agree). C94_reopens_partial: when neither side takes the channel for open and both were quiet for the longer of the two timers, the next message opens it and everything queued is ready for delivery. Missing: recovery when one side still takes the channel for open."
  },
  {
   "property": "C95",
   "status": "partial",
   "theorems": [
    "TCP.Survive.C95_survives_partial",
    "TCP.Survive.C95_ephemeral",
    "TCP.Survive.C95_counter_partial",
    "TCP.Survive.C95_tablets_partial",
    "TCP.Survive.C95_decryptor_partial",
    "TCP.Survive.C95_outside_fails",
    "TCP.Survive.C95_ephemeral_fails",
    "TCP.Survive.C95_command_fails",
    "TCP.Survive.C95_undecodable_fails",
    "TCP.Survive.C95_cache_undecodable_fails",
    "TCP.Survive.C95_dropped_fails",
    "TCP.Survive.C95_refused_fails",
    "TCP.Survive.C95_header_fails"
   ],
   "note": "Proved for any application, consensus and session library that keep the promises spelled out in Spec/Survive (C95_survives_partial), for ephemeral replicas without any promise of consensus (C95_ephemeral), and with the application's promises discharged for the counter (all commands), the tablet store and the decryptor. C96 discharges the promises of the consensus layer and its log store, leaving those of raft-rs. Partial because raft-rs is not modelled: its promises are assumptions. The _fails theorems are the calls that do end the process: requests outside the life of a replica, messages about consensus to an ephemeral replica, commands the decryptor or the tablet cache cannot decode, proposals consensus drops (a leader that was removed), authentic messages consensus refuses, snapshot headers that announce contents and carry none."
  },
  {
   "property": "C96",
   "status": "partial",
   "theorems": [
    "TCP.Survive.C96_survives_partial",
    "TCP.Survive.C96_log_partial",
    "TCP.Survive.C96_counter_partial"
   ],
   "note": "Proved for the shipped RaftSimple and MemoryStorage: if raft-rs' RawNode keeps the promises of NodeSafe (no failure when called in order, entries handed out extend the log, snapshots to be installed are newer than what was applied, entries to be applied are stored), every call returns (C96_survives_partial) and the log covers what was applied (C96_log_partial); with the application's promises discharged for the counter (C96_counter_partial). Partial because raft-rs is not modelled. A concrete node over the real store meets the promises."
  },
  {
   "property": "C97",
   "status": "partial",
   "theorems": [
    "TCP.DrvProps.C97_handed",
    "TCP.DrvProps.C97_outstanding_partial",
    "TCP.DrvProps.C97_once_partial",
    "TCP.DrvProps.C97_ephemeral",
    "TCP.DrvProps.C97_counter",
    "TCP.DrvProps.C97_tablets",
    "TCP.DrvProps.C97_decryptor",
    "TCP.DrvProps.C97_skipped_fails"
   ],
   "note": "Answers per correlation id equal commands less the proposals consensus has not handed back. Partial: consensus is assumed to hand a proposal back at most once, and commands whose entry arrives in a snapshot are never answered (C97_skipped_fails)."
  },
  {
   "property": "C98",
   "status": "partial",
   "theorems": [
    "TCP.Sessions.C98_attested",
    "TCP.Sessions.C98_endorsed",
    "TCP.Sessions.C98_fixed",
    "TCP.Sessions.C98_ready",
    "TCP.Sessions.C98_sealed",
    "TCP.Sessions.C98_heard",
    "TCP.Sessions.C98_shipped_fails"
   ],
   "note": "Holds for every application with constant reference values and clock. Partial: the verifiers and the Noise handshake are Oak's library, a parameter with the contract Attests; and the shipped applications ask for a check that accepts anything (C98_shipped_fails)."
  },
  {
   "property": "C99",
   "status": "partial",
   "theorems": [
    "TCP.Rollback.C99_forward_partial",
    "TCP.Rollback.C99_identity_fails",
    "TCP.Rollback.C99_restart_fails"
   ],
   "note": "Within a process it is proved for every sequence of calls, given that consensus does not go back in the log. Across processes it is refuted: the host picks the id and whether a replica founds a cluster, and nothing outlives a process."
  },
  {
   "property": "C100",
   "status": "proved",
   "theorems": [
    "TCP.Short.C100_snapshot_recent",
    "TCP.Short.C100_log_short",
    "TCP.Short.C100_requests_served"
   ],
   "note": "Proved for every application and every node that keeps to the raft::Storage trait; entries not yet applied are not limited by this code."
  },
  {
   "property": "C101",
   "status": "partial",
   "theorems": [
    "TCP.Removed.C101_reported_partial",
    "TCP.Removed.C101_leader_partial",
    "TCP.Removed.C101_cut_off",
    "TCP.Removed.C101_follower_fails",
    "TCP.Removed.C101_listens_fails",
    "TCP.Removed.C101_returns_fails",
    "TCP.Removed.C101_transfer_fails"
   ],
   "note": "Proved for leaders: the call that learns of a removal closes the channel with the removed member unless a snapshot is being sent to it; and a replica without a session takes nothing of a peer for genuine until the peer greets again. The rest fails: replicas that do not lead close no channel (for every call, and a concrete case), the removed member can come back with a new handshake, and a snapshot transfer reopens the channel."
  },
  {
   "property": "C102",
   "status": "partial",
   "theorems": [
    "TCP.Cache.Props.C102_rejected_fails",
    "TCP.Cache.Props.C102_map_partial",
    "TCP.Cache.Props.C102_one_map_partial"
   ],
   "note": "Partial: for deployments in which the known defects of the cache do not strike (hypotheses orderly and rejected of KvDeployment; see C63, C83, C85), the storage returns what was stored, the hash does not collide and only the stores write tablets. Without rejected the claim is false: C102_rejected_fails gives five stores in which a put that one store acknowledged is lost for another, all of whose requests are applied later. With the hypotheses there is one map per table, such that with every request the tablet store applies the map stays as it is or requests that one store accepted before it sent that request are carried out on it, and every response is an answer in a batch of accepted requests carried out on the map of one such moment, with the puts of the batch in the map right after; the request of that moment was sent after the batch was accepted and its response arrived before the store gave its own. C104 adds that no request is carried out more often than it was accepted."
  },
  {
   "property": "C103",
   "status": "partial",
   "theorems": [
    "TCP.Cache.Props.C103_realtime_partial"
   ],
   "note": "Partial: as for C102 (hypotheses KvSpared: no rejected commit with an op that could have been carried out by itself, orderly answers about tablets, at most one new tablet known to a store; C102_rejected_fails shows that the first is needed). Proved from the contract of consensus (one log, only proposed entries, snapshots that replicas saved), a network that may delay, lose, repeat and reorder, one storage that returns what was stored, and a hash that does not collide on it: one map per table over the replicated log, changed only by accepted requests, each carried out no more often than it was accepted, every response an answer of the map at its place, and places in real-time order across stores."
  },
  {
   "property": "C104",
   "status": "partial",
   "theorems": [
    "TCP.Cache.Props.C104_once_partial"
   ],
   "note": "Partial: under the hypotheses of C102 (KvDeployment: orderly answers about tablets, no rejected commit with an op that could have been carried out by itself, a storage that returns what was stored, a hash without collisions, only the stores write tablets). Proved: the requests carried out at each position of the tablet store's log can be named such that they account for every change of the map, every response is an answer on that map, and over the whole log each request is carried out no more often than the store accepted it. The same clause is part of C103_realtime_partial for a replicated tablet store. Whether an accepted request is carried out at all is not claimed (C55, C102: the response proves it)."
  },
  {
   "property": "C105",
   "status": "proved",
   "theorems": [
    "TCP.Cache.Props.C105_distinct",
    "TCP.Cache.Props.C105_takes",
    "TCP.Cache.Props.C105_shipped",
    "TCP.Cache.Props.C105_room",
    "TCP.Cache.Props.C105_requests",
    "TCP.Cache.Props.C105_network",
    "TCP.Cache.Props.C105_matching"
   ],
   "note": "Proved for any client of a manager and for the store as shipped, for up to 2^56 requests (the distance of the counters in main.rs); C105_network and C105_matching derive the id assumptions of C102-C104 from it."
  },
  {
   "property": "C106",
   "status": "partial",
   "theorems": [
    "TCP.Cache.Props.C106_transactions",
    "TCP.Cache.Props.C106_requests",
    "TCP.Cache.Props.C106_resolutions_fails",
    "TCP.Cache.Props.C106_queries_fails"
   ],
   "note": "Violated for resolutions and queries: the metadata cache never removes a resolve request (metadata.rs:105, inserted at 122-136, looked up at 229-239, removed nowhere), and the key-value store leaves an empty entry in waiting_processing_requests for every query (store.rs:478 takes the requests but keeps the key). C106_resolutions_fails and C106_queries_fails show this of every history. Transactions (exactly the unfinished ones) and requests (only outstanding ones) are proved to be forgotten by C106_transactions and C106_requests. Not covered: the batches of the data cache, the entries of the data cache, which are the eviction policy's matter, and the effect of error messages on the records of whose commit a request was."
  },
  {
   "property": "C107",
   "status": "partial",
   "theorems": [
    "TCP.ShutdownProps.C107_shutdown_partial",
    "TCP.ShutdownProps.C107_clean",
    "TCP.ShutdownProps.C107_container_fails",
    "TCP.ShutdownProps.C107_cancel_fails"
   ],
   "note": "What holds: a shutdown succeeds exactly on a thread that may block, while the replica runs and holds no request of a client that went away; then nothing is lost. False in the code: inside a task, as in both containers, dropping the service always panics, and anywhere else one abandoned request makes it panic. Tokio's channels and block_on are modelled by their documentation."
  },
  {
   "property": "C108",
   "status": "partial",
   "theorems": [
    "TCP.ClockProps.C108_latest_partial",
    "TCP.ClockProps.C108_monotone_partial",
    "TCP.ClockProps.C108_wrap_fails",
    "TCP.ClockProps.C108_ahead_fails",
    "TCP.ClockProps.C108_ticks_fails"
   ],
   "note": "Holds for readings below 2^63 except that a reading that is ahead is kept until the host's clock has passed it (C108_ahead_fails). False in the code for larger ones: the instant is cast to a signed number, so the clock falls back to before 1970 for good (C108_wrap_fails), and after a tick at the largest instant consensus never gets another one (C108_ticks_fails)."
  },
  {
   "property": "C109",
   "status": "partial",
   "theorems": [
    "TCP.LameduckProps.C109_no_ticks",
    "TCP.LameduckProps.C109_leader_fails"
   ],
   "note": "Proved: consensus gets no tick any more, for every state and every continuation (that a replica without ticks is silent is raft-rs' doing). False in the code: consensus is not told, so a leader leads on and serves commands until another replica's message deposes it (C109_leader_fails)."
  },
  {
   "property": "C110",
   "status": "proved",
   "theorems": [
    "TCP.ReportProps.C110_one_report",
    "TCP.ReportProps.C110_only_reports",
    "TCP.ReportProps.C110_true",
    "TCP.ReportProps.C110_grows",
    "TCP.ReportProps.C110_size"
   ],
   "note": "Proved for every application, consensus and session library; that consensus delivers one log in order (Follows, Advances) is a hypothesis about raft-rs, as for C22."
  },
  {
   "property": "C111",
   "status": "partial",
   "theorems": [
    "TCP.TabletStore.C111_owner",
    "TCP.TabletStore.C111_listed",
    "TCP.TabletStore.C111_members",
    "TCP.TabletStore.C111_configured_partial",
    "TCP.TabletStore.C111_count",
    "TCP.TabletStore.C111_empty_fails"
   ],
   "note": "Proved: unique owner in every reachable state with a tablet, agreement of all replicas at all times, exact tablet count. Partial because a table may be configured with no tablets (C111_empty_fails); the positive theorem assumes a positive count."
  },
  {
   "property": "C112",
   "status": "proved",
   "theorems": [
    "TCP.AskedProps.C112_asked",
    "TCP.AskedProps.C112_cluster"
   ],
   "note": "Proved for one replica over every history of calls, and for a cluster under the contract that consensus commits only proposed changes."
  },
  {
   "property": "C113",
   "status": "proved",
   "theorems": [
    "TCP.HandedProps.C113_handed",
    "TCP.HandedProps.C113_never_more"
   ],
   "note": "All calls, messages and results. The first theorem needs the replica to run at both ends and its calls to succeed; commands passed to a stopped replica are dropped (C26_stopped_app_fails)."
  },
  {
   "property": "C114",
   "status": "proved",
   "theorems": [
    "TCP.TracedProps.C114_events",
    "TCP.TracedProps.C114_proposals",
    "TCP.TracedProps.C114_cluster",
    "TCP.TracedProps.C114_counter",
    "TCP.TracedProps.C114_tablets",
    "TCP.TracedProps.C114_keys",
    "TCP.TracedProps.C114_values",
    "TCP.TracedProps.C114_held",
    "TCP.TracedProps.C114_metadata"
   ],
   "note": "Any application for which the events follow from commands; the counters, the tablet store and the decryptor are shown to be such. C114_cluster takes the contract of consensus (one log, only proposed entries) and successful calls as hypotheses."
  },
  {
   "property": "C115",
   "status": "proved",
   "theorems": [
    "TCP.Eventual.Props.C115_told",
    "TCP.Eventual.Props.C115_error",
    "TCP.Eventual.Props.C115_once",
    "TCP.Eventual.Props.C115_stable",
    "TCP.Eventual.Props.C115_distinct"
   ],
   "note": "The cells themselves, result.rs function by function. Model/CacheData and Model/CacheMetadata keep the cells of their own results in the state of the cache."
  }
 ]
}