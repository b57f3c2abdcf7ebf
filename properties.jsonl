{"id": "C01", "title": "Raft log storage stays contiguous and anchored at its snapshot", "statement": "After any sequence of storage calls that return, the stored log entries carry consecutive indices, the first available index is at most one above the snapshot index, and last_index is at least the snapshot index, so every index between first_index and last_index is readable.", "quantifier": "every sequence of append / apply_snapshot / create_snapshot / set_hard_state / snapshot calls with contiguous append batches, every entry content", "why_tests_cant": "The state after an arbitrary history of truncating appends, compactions and installed snapshots is unbounded; tests try a handful of fixed histories.", "anchors": ["runtime/src/storage.rs:MemoryStorageCore::append_entries", "runtime/src/storage.rs:MemoryStorageCore::apply_snapshot", "runtime/src/storage.rs:MemoryStorageCore::create_snapshot", "runtime/src/storage.rs:MemoryStorageCore::compact_entries"]}
{"id": "C02", "title": "Append overwrites exactly the conflicting suffix", "statement": "After append(batch) returns, reading the log gives the old entries at every index below the batch's first index, exactly the batch at and above it, and nothing beyond its end; snapshot and hard state are unchanged. An append that would leave a gap or start before the retained log is never silently accepted.", "quantifier": "every log state and every contiguous batch", "why_tests_cant": "Needs all overlaps between old log and batch (prefix, conflict in the middle, pure extension) for every size.", "anchors": ["runtime/src/storage.rs:MemoryStorageCore::append_entries"]}
{"id": "C03", "title": "Range reads return a faithful, size-limited prefix", "statement": "entries(low, high, max_size) returns the stored entries low, low+1, ... in order, a prefix of [low, high); the prefix is never empty for a non-empty valid range, and stops only because of the size limit; indices compacted away or not present are reported as Compacted / Unavailable, never as wrong data.", "quantifier": "every log state, every low/high/limit", "why_tests_cant": "Boundary arithmetic between absolute indices and vector offsets must be right for every offset.", "anchors": ["runtime/src/storage.rs:MemoryStorageCore::entries", "runtime/src/storage.rs:MemoryStorageCore::entry_term"]}
{"id": "C04", "title": "term(index) agrees with the log and the snapshot", "statement": "term(i) equals the term of the stored entry i for each readable i, equals the snapshot term at the snapshot index, and is Compacted / Unavailable exactly outside that window.", "quantifier": "every reachable storage state and every index", "why_tests_cant": "Raft safety depends on it at every index, including the two window edges after arbitrary compaction history.", "anchors": ["runtime/src/storage.rs:MemoryStorageCore::entry_term"]}
{"id": "C05", "title": "Snapshots never move backwards and never lose live entries", "statement": "Across any history the snapshot index never decreases; creating a snapshot at an applied index keeps every entry above that index and records that index, the term of that entry, the given config and data; installing a snapshot replaces the log and moves the commit index to the snapshot index; an out-of-date snapshot is refused with an error and changes nothing.", "quantifier": "every history of storage calls", "why_tests_cant": "A monotonicity claim over all histories and all interleavings of create/install.", "anchors": ["runtime/src/storage.rs:MemoryStorageCore::create_snapshot", "runtime/src/storage.rs:MemoryStorageCore::apply_snapshot", "runtime/src/storage.rs:MemoryStorageCore::compact_entries"]}
{"id": "C06", "title": "Entries covered by a snapshot are immutable", "statement": "Once a snapshot at index s exists, an append at an index <= s is refused (panics) - the entry covered by the snapshot cannot be replaced.", "quantifier": "every storage state and every append batch", "why_tests_cant": "Universal over states; the violating case needs create_snapshot followed by an append exactly at the boundary.", "anchors": ["runtime/src/storage.rs:MemoryStorageCore::append_entries", "runtime/src/storage.rs:MemoryStorageCore::create_snapshot"]}
{"id": "C07", "title": "Peers asking for a snapshot get one that is fresh enough and knows them", "statement": "A snapshot request from a peer is answered immediately only with a snapshot at or above the requested index whose configuration contains the peer; otherwise the request is remembered (one per peer, the latest) until a snapshot that satisfies it is created or installed, and should_snapshot is true whenever a snapshot at the current applied point would satisfy a remembered request or the log has outgrown the limit.", "quantifier": "every history of requests from every peer interleaved with snapshot creation", "why_tests_cant": "Per-peer bookkeeping over arbitrary histories.", "anchors": ["runtime/src/storage.rs:MemoryStorageCore::try_satisfy_request", "runtime/src/storage.rs:MemoryStorageCore::set_snapshot", "runtime/src/storage.rs:MemoryStorageCore::should_snapshot", "runtime/src/util.rs:raft::config_state_contains_node"]}
{"id": "C08", "title": "Snapshot chunking is lossless", "statement": "For every snapshot and every non-zero chunk size, the chunks the sender produces for indices 0..count, concatenated in index order, are the snapshot bytes; all chunks but the last have exactly the configured size and at least one chunk is always sent.", "quantifier": "every byte string and every chunk size > 0", "why_tests_cant": "Requires all sizes relative to the chunk size, including empty and exact multiples.", "anchors": ["runtime/src/snapshot.rs:chunk_count", "runtime/src/snapshot.rs:SnapshotSenderState::next_chunk"]}
{"id": "C09", "title": "A transferred snapshot is reassembled exactly, under loss, duplication and reordering of chunks", "statement": "If the receiver reports a completed snapshot, its bytes and metadata are those of the sender's snapshot, for every delivery order, duplication and loss of that transfer's chunk requests (header delivered first or again at any time).", "quantifier": "every snapshot, chunk size, and every finite delivery sequence of the chunk requests of one transfer", "why_tests_cant": "Number of delivery schedules is infinite.", "anchors": ["runtime/src/snapshot.rs:DefaultSnapshotReceiver::process_request", "runtime/src/snapshot.rs:ReceiverState"]}
{"id": "C10", "title": "Late chunks from an older transfer never contaminate a newer snapshot", "statement": "A chunk belonging to a different snapshot id than the transfer in progress is never stored in the snapshot being assembled (the snapshot id exists to resolve late requests).", "quantifier": "every interleaving of chunk requests of two transfers from the same sender", "why_tests_cant": "Needs a schedule in which an old chunk overtakes a new header.", "anchors": ["runtime/src/snapshot.rs:ReceiverState::accept_chunk", "proto/src/endpoint.proto:SnapshotHeader.snapshot_id"]}
{"id": "C11", "title": "Snapshot flow control: never more in-flight chunks than allowed", "statement": "At every point of every history the total number of unacknowledged chunk requests over all receivers is at most the configured maximum, and delivery ids are never reused.", "quantifier": "every history of start/next_request/process_response/try_complete/reset with any number of receivers", "why_tests_cant": "Bound over all schedules and any number of receivers.", "anchors": ["runtime/src/snapshot.rs:DefaultSnapshotSender::next_request"]}
{"id": "C12", "title": "Snapshot sender reports success exactly when every chunk was acknowledged", "statement": "The sender reports Finish for a receiver only after each chunk index 0..count-1 of that transfer was sent and positively acknowledged exactly once; any rejected, undeliverable, undecodable or unexpected response makes the transfer be reported as Failure; each started transfer is reported at most once and then forgotten.", "quantifier": "every history of responses, including wrong ids, duplicates and failures", "why_tests_cant": "Universal over response sequences.", "anchors": ["runtime/src/snapshot.rs:DefaultSnapshotSender::process_response", "runtime/src/snapshot.rs:DefaultSnapshotSender::try_complete", "runtime/src/snapshot.rs:SnapshotSenderState"]}
{"id": "C13", "title": "Snapshot transfer is serviced fairly and always progresses", "statement": "Whenever the in-flight budget is not exhausted and some transfer still has unsent chunks, next_request yields a chunk; it is taken from a transfer with least progress and is that transfer's next unsent chunk in order. With prompt positive acknowledgements a transfer finishes after exactly chunk_count requests.", "quantifier": "every set of concurrent transfers at any progress", "why_tests_cant": "Liveness/fairness argument over all states.", "anchors": ["runtime/src/snapshot.rs:DefaultSnapshotSender::next_request"]}
{"id": "C14", "title": "Leadership changes abort in-flight snapshot transfers", "statement": "After a change of leader or term (or removal of this replica) no snapshot transfer state survives: a former leader reports Failure for every in-flight receiver, a follower discards the partially received snapshot; a replica produces snapshot chunks only while it is leader and accepts snapshot chunks only while it is a follower.", "quantifier": "every history of cluster changes and snapshot messages", "why_tests_cant": "Interleavings of role change with in-flight transfer are unbounded.", "anchors": ["runtime/src/snapshot.rs:DefaultSnapshotProcessor::process_cluster_change", "runtime/src/snapshot.rs:DefaultSnapshotProcessor::mut_processor"]}
{"id": "C15", "title": "No application or consensus payload leaves a replica unencrypted", "statement": "Every message a replica hands to the host for another replica is either a handshake message or the ciphertext of a queued message under the session established with that very peer, and nothing but handshake messages is emitted to a peer before the handshake with it completed.", "quantifier": "every history of outgoing messages, incoming messages, ticks and cluster changes, for any handshake/encryption behaviour", "why_tests_cant": "Safety over every schedule of handshake progress and message traffic.", "anchors": ["runtime/src/communication.rs:DefaultCommunicationModule::take_out_messages", "runtime/src/communication.rs:CommunicationState::take_out_messages"]}
{"id": "C16", "title": "Secure channel queue preserves order and content; no message lost or duplicated while waiting for the handshake", "statement": "Messages accepted for a peer before the handshake completes are delivered in acceptance order, each at most once, after the handshake completes; the only deduplication is that a newer Raft heartbeat replaces an older queued heartbeat, so at most one heartbeat is queued.", "quantifier": "every history and any number of handshake retries", "why_tests_cant": "FIFO over arbitrary histories incl. retry.", "anchors": ["runtime/src/communication.rs:CommunicationState::process_out_message", "runtime/src/communication.rs:CommunicationState::take_out_messages"]}
{"id": "C17", "title": "Handshake timeout and retry", "statement": "A handshake that does not complete within the configured number of ticks fails, and after the configured retry delay the peer state becomes usable again (a new handshake is attempted with the next message) with the queued messages intact; without enough ticks it does not fail.", "quantifier": "every configuration and every number of ticks", "why_tests_cant": "Timer behaviour for all tick counts.", "anchors": ["runtime/src/communication.rs:CommunicationState::make_tick", "runtime/src/communication.rs:CommunicationState::reset_state_machine"]}
{"id": "C18", "title": "Peers are isolated in the secure channel layer", "statement": "Processing an outgoing or incoming message for one peer never changes the channel state, queue or output of another peer; a cluster change drops exactly the channels of peers no longer in the cluster (all of them when this replica itself is removed); messages before initialisation or of an unexpected kind are refused with an error and no effect.", "quantifier": "every state with any number of peers", "why_tests_cant": "Frame property over all peers and states.", "anchors": ["runtime/src/communication.rs:DefaultCommunicationModule::process_out_message", "runtime/src/communication.rs:DefaultCommunicationModule::process_in_message", "runtime/src/communication.rs:DefaultCommunicationModule::process_cluster_change"]}
{"id": "C19", "title": "Plaintext or unexpected traffic kills the channel instead of being delivered", "statement": "Only payloads that decrypt under the completed session with the sender are passed up; a payload arriving before completion or a handshake message after completion moves the channel to failed, and everything received while failed is dropped.", "quantifier": "every history of incoming messages", "why_tests_cant": "Universal over adversarial input sequences.", "anchors": ["runtime/src/communication.rs:CommunicationState::process_in_message"]}
{"id": "C20", "title": "Handshake sessions complete only through the attested exchange", "statement": "A handshake session (either role) reports completed, and yields an encryptor, only after the underlying attested session is open; completed and failed are permanent; a client refuses any incoming message before it produced its first one, and messages of the wrong kind never advance it.", "quantifier": "every sequence of calls on a session and any behaviour of the underlying session library", "why_tests_cant": "Universal over call sequences and environment behaviours.", "anchors": ["runtime/src/handshake.rs:ClientHandshakeSession", "runtime/src/handshake.rs:ServerHandshakeSession"]}
{"id": "C21", "title": "Encrypted round trip between two replicas", "statement": "Once both replicas completed a handshake with each other, each message accepted by one side is recovered unchanged and in order by the other, provided the transport delivers the emitted messages in order.", "quantifier": "every message sequence, any handshake length", "why_tests_cant": "End-to-end composition of two state machines.", "anchors": ["runtime/src/encryptor.rs:ClientEncryptor", "runtime/src/encryptor.rs:ServerEncryptor", "runtime/src/communication.rs:CommunicationState"]}
{"id": "C22", "title": "Committed entries are applied to the actor exactly once and in log order", "statement": "For any way the consensus layer delivers committed entries in batches, the actor observes the payload of every non-empty normal entry exactly once, in index order, with the entry's index, and the applied index the driver reports is the last delivered index.", "quantifier": "every committed log and every batching of it over driver calls", "why_tests_cant": "Quantifies over all batchings.", "anchors": ["runtime/src/driver.rs:Driver::apply_raft_committed_entries", "runtime/src/driver.rs:Driver::advance_raft"]}
{"id": "C23", "title": "Only the proposing replica answers a command", "statement": "Over a whole cluster, a committed command is marked owned on exactly the replica that proposed it, so replies to the requesting client are emitted by that replica only and with the command's correlation id.", "quantifier": "every cluster size and every committed log", "why_tests_cant": "Statement about all replicas at once.", "anchors": ["runtime/src/driver.rs:Driver::apply_raft_committed_entries", "runtime/src/driver.rs:Driver::process_deliver_app_message"]}
{"id": "C24", "title": "Replicas that applied the same log are in the same state", "statement": "For every deterministic actor whose snapshot load inverts snapshot save, a replica that applied the log from the start and a replica that installed a snapshot taken at any point and applied the rest have the same actor state and applied index.", "quantifier": "every log, every snapshot point, every actor", "why_tests_cant": "State machine safety over all logs and snapshot points.", "anchors": ["runtime/src/driver.rs:Driver::apply_raft_committed_entries", "runtime/src/driver.rs:Driver::restore_raft_snapshot", "runtime/src/driver.rs:Driver::maybe_create_raft_snapshot"]}
{"id": "C25", "title": "Driver time never goes backwards and ticks are paced", "statement": "The instant exposed to the actor is non-decreasing over any sequence of host calls even if the host clock goes backwards; consensus receives at most one tick per host call and two consecutive ticks are at least tick_period apart.", "quantifier": "every sequence of host calls with arbitrary clock readings", "why_tests_cant": "All clock histories.", "anchors": ["runtime/src/driver.rs:Driver::trigger_raft_tick", "runtime/src/driver.rs:Driver::preset_state_machine"]}
{"id": "C26", "title": "Replica lifecycle is enforced", "statement": "A replica starts at most once; start requests in any other state and requests that need a started replica are refused with an error and have no effect on actor or log.", "quantifier": "every sequence of host messages", "why_tests_cant": "All call orders.", "anchors": ["runtime/src/driver.rs:Driver::process_start_node", "runtime/src/driver.rs:Driver::process_stop_node", "runtime/src/driver.rs:Driver::check_driver_started"]}
{"id": "C27", "title": "A stopped replica no longer touches the actor", "statement": "After a stop request has been processed the actor receives no further commands or events.", "quantifier": "every history of host messages after StopReplica", "why_tests_cant": "Needs committed entries to arrive after the stop.", "anchors": ["runtime/src/driver.rs:Driver::process_stop_node", "runtime/src/driver.rs:Driver::receive_message"]}
{"id": "C28", "title": "Host messages addressed to another replica are ignored", "statement": "A message whose recipient id is not this replica's id is not stepped into consensus.", "quantifier": "every incoming system message", "why_tests_cant": "Universal over ids; code logs 'Ignoring' on this path.", "anchors": ["runtime/src/driver.rs:Driver::make_raft_step"]}
{"id": "C29", "title": "Every cluster-change request gets exactly one answer", "statement": "A ChangeCluster request produces exactly one ChangeCluster response with the request's correlation id: Pending when the proposal was accepted, Rejected when consensus dropped it, and an error is returned otherwise.", "quantifier": "every request and consensus reaction", "why_tests_cant": "Response matching across all paths.", "anchors": ["runtime/src/driver.rs:Driver::process_change_cluster", "runtime/src/driver.rs:Driver::make_raft_config_change_proposal"]}
{"id": "C30", "title": "Cluster state reports are emitted exactly on change", "statement": "A CheckCluster response is emitted exactly when the observable consensus state (leader, term, members) differs from the last reported one or a CheckCluster request asked for it, and carries the current state.", "quantifier": "every history of consensus states", "why_tests_cant": "All sequences of states.", "anchors": ["runtime/src/driver.rs:Driver::stash_leader_state", "runtime/src/driver.rs:Driver::process_check_cluster"]}
{"id": "C31", "title": "Nothing the driver stashed for the host is lost, reordered or repeated", "statement": "The messages returned to the host by a call are exactly those produced during that call in production order; the next call starts with an empty outbox.", "quantifier": "every call in every state", "why_tests_cant": "Frame condition over all paths.", "anchors": ["runtime/src/driver.rs:Driver::stash_message", "runtime/src/driver.rs:Driver::take_out_messages", "runtime/src/driver.rs:Driver::receive_message"]}
{"id": "C32", "title": "Atomic counter compare-and-swap is linearizable against the log order", "statement": "Applying a sequence of compare-and-set events answers exactly as a sequential map from names to values (absent names read 0): success iff the expected value equals the current one, the reported old value is the current one, and only a successful operation on that name changes it.", "quantifier": "every event sequence", "why_tests_cant": "Refinement over all histories.", "anchors": ["apps/atomic_counter/service/src/actor.rs:CounterActor::apply_compare_and_swap", "apps/atomic_counter/service/src/actor.rs:CounterActor::on_apply_event"]}
{"id": "C33", "title": "A failed compare-and-set reports the unchanged value as new value", "statement": "When a compare-and-set fails, the response's new_value equals its old_value (as the service proto documents).", "quantifier": "every state and every failing request", "why_tests_cant": "Universal claim; one counterexample suffices to refute.", "anchors": ["apps/atomic_counter/service/src/actor.rs:CounterActor::apply_compare_and_swap", "apps/atomic_counter/service/proto/atomic_counter.proto:CounterCompareAndSwapResponse"]}
{"id": "C34", "title": "Atomic counter snapshots restore the counter state", "statement": "A replica that loads a snapshot saved by another replica answers all later operations exactly as the saver does.", "quantifier": "every state of loader and saver", "why_tests_cant": "All pairs of states; loading into a non-empty replica is the interesting case.", "anchors": ["apps/atomic_counter/service/src/actor.rs:CounterActor::on_load_snapshot", "apps/atomic_counter/service/src/actor.rs:CounterActor::on_save_snapshot"]}
{"id": "C35", "title": "Atomic counter commands are validated before they reach the log", "statement": "A command on a non-leader is rejected; on a leader an undecodable or empty command is answered with an invalid-operation status and produces no event; each valid command produces exactly one event carrying its correlation id and operation; no command ever changes the counters directly.", "quantifier": "every command, every state", "why_tests_cant": "Decision table over all inputs.", "anchors": ["apps/atomic_counter/service/src/actor.rs:CounterActor::on_process_command"]}
{"id": "C36", "title": "Willow decryptor never holds more than its key capacity and evicts the oldest key", "statement": "At every point of every history at most the configured maximum number of keys is stored, and a key is evicted by generation only when the store is full and then it is one with the smallest generation order. When commands are handled one at a time, a key is therefore kept until it is used, or as many further keys as can be stored were generated.", "quantifier": "every event history", "why_tests_cant": "Capacity bound over all histories.", "anchors": ["apps/willow/decryptor/actor/src/actor.rs:DecryptorActor"]}
{"id": "C37", "title": "Willow decryption keys are single use", "statement": "For each generated key at most one decryption result is ever released; after a decryption of a key was applied further decryption requests for it fail until a new key is generated.", "quantifier": "every interleaving of commands and their events", "why_tests_cant": "Pipelined commands (accepted before earlier events are applied) are the interesting schedules.", "anchors": ["apps/willow/decryptor/actor/src/actor.rs:DecryptorActor::on_process_command", "apps/willow/decryptor/actor/src/actor.rs:DecryptorActor::on_apply_event"]}
{"id": "C38", "title": "A public key handed out stays valid until it is used or evicted", "statement": "After a generate-key response returned public key P for id k, the private state stored for k corresponds to P until k is decrypted or evicted; repeated generate requests return the same P.", "quantifier": "every interleaving of generate commands and events", "why_tests_cant": "Needs two in-flight generate commands for one id.", "anchors": ["apps/willow/decryptor/actor/src/actor.rs:DecryptorActor::on_process_command", "apps/willow/decryptor/actor/src/actor.rs:DecryptorActor::on_apply_event"]}
{"id": "C39", "title": "Willow snapshots restore exactly the saved keys", "statement": "Loading a saved snapshot into any replica yields exactly the saver's keys and generation order.", "quantifier": "every pair of states", "why_tests_cant": "Round trip over all states.", "anchors": ["apps/willow/decryptor/actor/src/actor.rs:DecryptorActor::on_save_snapshot", "apps/willow/decryptor/actor/src/actor.rs:DecryptorActor::on_load_snapshot"]}
{"id": "C40", "title": "Tablet store transactions are atomic", "statement": "A tablets request either applies every update in it, when every op succeeded, or leaves every table unchanged; the response has one result per op in order and its overall status is Succeeded iff all ops succeeded.", "quantifier": "every store state and every op list", "why_tests_cant": "All-or-nothing over arbitrary lists of ops.", "anchors": ["apps/tablet_store/service/src/actor.rs:TabletStoreActor::on_apply_tablets_request", "apps/tablet_store/service/src/actor.rs:TableMetadata::prepare_tablet_op", "apps/tablet_store/service/src/actor.rs:TableMetadata::commit_tablet_op"]}
{"id": "C41", "title": "Tablet versions implement optimistic concurrency control", "statement": "A check succeeds iff the tablet has the expected version; an update is accepted iff the tablet exists and the supplied version is exactly one above the current; hence along any history a tablet's version never decreases, a successful transaction increases the version of each tablet it updates by exactly one and tablets are never created or destroyed; of two transactions prepared against the same version of a tablet with at least one updating it at most one updater succeeds.", "quantifier": "every history of requests", "why_tests_cant": "Serializability argument over all histories.", "anchors": ["apps/tablet_store/service/src/actor.rs:TableMetadata::prepare_tablet_op", "apps/tablet_store/service/src/actor.rs:TableMetadata::commit_tablet_op"]}
{"id": "C42", "title": "Every successful update within a transaction takes effect", "statement": "If a transaction containing several updates succeeds, the effect equals executing its ops one after another.", "quantifier": "every op list", "why_tests_cant": "Needs two updates of one tablet inside one transaction.", "anchors": ["apps/tablet_store/service/src/actor.rs:TabletStoreActor::on_apply_tablets_request"]}
{"id": "C43", "title": "Listing returns exactly the tablets responsible for a key range", "statement": "list(from, to) returns, without duplicates, exactly the tablets that own (first tablet clockwise) some hash of the ring interval from..to, including wrap-around, and returns at least one tablet when the table is not empty.", "quantifier": "every tablet set and every interval", "why_tests_cant": "Ring arithmetic over all sets and intervals.", "anchors": ["apps/tablet_store/service/src/actor.rs:TableMetadata::find_tablets"]}
{"id": "C44", "title": "Tablet store snapshots restore exactly the saved tables", "statement": "Loading a snapshot produced by a replica with the same table configuration gives exactly the saver's tablets in every table; a snapshot naming an unknown table is refused.", "quantifier": "every pair of states", "why_tests_cant": "Round trip over all states, including different randomly generated initial tablets.", "anchors": ["apps/tablet_store/service/src/actor.rs:TabletStoreActor::on_save_snapshot", "apps/tablet_store/service/src/actor.rs:TabletStoreActor::on_load_snapshot", "apps/tablet_store/service/src/actor.rs:TableMetadata::load_snapshot"]}
{"id": "C45", "title": "No well-formed client request can crash the tablet store replicas", "statement": "Applying any decodable tablets request returns a response.", "quantifier": "every request", "why_tests_cant": "Universal over requests; a crash would be replicated to all replicas.", "anchors": ["apps/tablet_store/service/src/actor.rs:TableMetadata::prepare_tablet_op"]}
{"id": "C46", "title": "Queries are split over cache regions without losing keys", "statement": "Splitting a table query over the cached ring regions assigns every key hash to the region containing it, exactly once, keeping order.", "quantifier": "every query and every region size", "why_tests_cant": "Arithmetic over the whole 32-bit ring for every region size.", "anchors": ["apps/tablet_cache/service/src/transaction/metadata.rs:TableMetadata::split_and_map_query", "apps/tablet_cache/service/src/transaction/metadata.rs:TableMetadata::compute_table_region_bounds"]}
{"id": "C47", "title": "Every key hash has a cache region", "statement": "For every configured region size and every key hash the region the hash maps to exists in the metadata cache.", "quantifier": "every region size and hash", "why_tests_cant": "Off-by-one in the number of regions shows only at the end of the ring.", "anchors": ["apps/tablet_cache/service/src/transaction/metadata.rs:TableMetadata::create", "apps/tablet_cache/service/src/transaction/metadata.rs:TableMetadata::map_table_region"]}
{"id": "C48", "title": "Key resolution maps every key hash to its owning tablet", "statement": "Resolving a query against a fresh region returns every key hash of the query exactly once, paired with the tablet that owns it on the ring.", "quantifier": "every query and tablet set", "why_tests_cant": "Merge loop over two sorted sequences, all shapes.", "anchors": ["apps/tablet_cache/service/src/transaction/metadata.rs:TableMetadata::try_resolve_pending_query"]}
{"id": "C49", "title": "Cached tablet metadata only moves forward and only to committed versions", "statement": "The metadata cache keeps for each tablet the highest version it was told about, and never holds a version that the tablet store has not committed.", "quantifier": "every history of transactions and list responses", "why_tests_cant": "Requires cross-component interleavings of failing transactions.", "anchors": ["apps/tablet_cache/service/src/transaction/metadata.rs:TableMetadata::insert_latest_tablet", "apps/tablet_cache/service/src/transaction/coordinator.rs:CommittingTabletTransactionState::complete"]}
{"id": "C50", "title": "Tablet data handed to a transaction is the data that was stored", "statement": "A load completes only when all requested tablets are available and yields for each the contents the storage returned for it (or the cached contents previously stored under the same uri); a failed load is reported as a failure; every result is delivered at most once.", "quantifier": "every sequence of load/store calls and storage responses", "why_tests_cant": "Batches, cached entries and responses interleave arbitrarily.", "anchors": ["apps/tablet_cache/service/src/transaction/data.rs:DefaultTabletDataCache", "apps/tablet_cache/service/src/transaction/data.rs:TabletBatch"]}
{"id": "C51", "title": "Loaded tablet blobs are verified against the committed hash", "statement": "Bytes returned by the untrusted storage are handed to a transaction only if they match the hash in the tablet's metadata (rollback / tamper protection).", "quantifier": "every storage response", "why_tests_cant": "Adversarial storage responses.", "anchors": ["apps/tablet_cache/service/src/transaction/data.rs:DefaultTabletDataCache::prepare_tablet_read"]}
{"id": "C52", "title": "Transactions reach an outcome", "statement": "A transaction whose reads and writes have been answered, including one that only reads or one whose processing failed, eventually reports Succeeded or Failed.", "quantifier": "every transaction", "why_tests_cant": "Liveness over all response histories.", "anchors": ["apps/tablet_cache/service/src/transaction/coordinator.rs:PreparingTabletTransactionState", "apps/tablet_cache/service/src/transaction/data.rs:DefaultTabletDataCache::store_tablets"]}
{"id": "C53", "title": "A transaction reports success only if the tablet store committed all its ops", "statement": "Succeeded is reported only if every op of the transaction was confirmed as succeeded by the tablet store; the outcome never changes once known.", "quantifier": "every response from the tablet store", "why_tests_cant": "Universal over responses.", "anchors": ["apps/tablet_cache/service/src/transaction/coordinator.rs:CommittingTabletTransactionState::complete", "apps/tablet_cache/service/src/transaction/coordinator.rs:DefaultTabletTransactionCoordinator::process_in_message"]}
{"id": "C54", "title": "Key-value requests on a tablet behave like a sequential map", "statement": "Processing a batch of get/put requests against a tablet answers each as executing them one by one on the tablet's dictionary, stores exactly the resulting dictionary, and writes nothing if there was no put.", "quantifier": "every batch and every dictionary", "why_tests_cant": "Refinement over all batches.", "anchors": ["apps/tablet_cache/service/src/store.rs:TabletTracker::process_table_query", "apps/tablet_cache/service/src/store.rs:TabletTracker::process_put_request", "apps/tablet_cache/service/src/store.rs:TabletTracker::process_get_request"]}
{"id": "C55", "title": "Every accepted key-value request is eventually answered", "statement": "Every accepted get/put request is answered exactly once: it is never dropped when its transaction fails or its batch spans several tablets.", "quantifier": "every history", "why_tests_cant": "Needs failing transactions and multi-tablet batches.", "anchors": ["apps/tablet_cache/service/src/store.rs:SimpleKeyValueStoreCore::maybe_finalize_or_retry_transactions", "apps/tablet_cache/service/src/store.rs:SimpleKeyValueStoreCore::handle_query_resolve"]}
{"id": "C56", "title": "Peer traffic never crashes the secure channel layer", "statement": "No sequence of messages handed in by the (untrusted) host or by peers makes the secure channel layer crash the replica; malformed messages are refused or fail the channel of that peer.", "quantifier": "every history of outgoing and incoming messages, ticks and cluster changes, including messages with missing fields", "why_tests_cant": "Ranges over all malformed messages in all channel states; one missing field in one state is enough to break it.", "anchors": ["runtime/src/communication.rs:CommunicationState::decrypt_message", "runtime/src/communication.rs:CommunicationState::process_in_message", "runtime/src/communication.rs:CommunicationState::take_encrypted_messages"]}
{"id": "C57", "title": "Simultaneous first contact still yields a channel", "statement": "If two replicas send each other their first message at the same time, the crossing handshake messages lead to a working channel between them rather than a failure on both sides.", "quantifier": "every pair of replicas, every first message, any behaviour of the session library", "why_tests_cant": "Depends on the interleaving of two state machines and the network; unit tests drive one side with a scripted peer.", "anchors": ["runtime/src/handshake.rs:ClientHandshakeSession", "runtime/src/communication.rs:CommunicationState"]}
{"id": "C58", "title": "Insecure attestation only on explicit request", "statement": "Evidence of peers is checked by the insecure verifier exactly when the operator's reference values ask for it in the root layer and cover all upper layers; by the SEV-SNP verifier exactly when they do not and give SEV-SNP values with firmware; otherwise by the full DICE verifier.", "quantifier": "every reference values message", "why_tests_cant": "Universal over configuration messages, including unusual combinations of present and absent layers.", "anchors": ["runtime/src/session.rs:DefaultOakSessionFactory"]}
{"id": "C59", "title": "No client request stops the willow decryptor", "statement": "Every request delivered to a willow replica, whatever its bytes, is answered or turned into exactly one event and leaves the replica running; only a leader proposes events and no request changes stored keys before its event is applied.", "quantifier": "every request, replica state and leadership", "why_tests_cant": "Ranges over all request bytes and states.", "anchors": ["apps/willow/decryptor/actor/src/actor.rs:DecryptorActor::on_process_command", "apps/willow/decryptor/actor/src/actor.rs:DecryptorActor::decrypt"]}
{"id": "C60", "title": "Only the leader proposes tablet requests, and only well-formed ones", "statement": "A tablet store replica that is not leader answers every command with Rejected; a leader proposes exactly the well-formed requests, unchanged, and answers everything else with InvalidOperation; no command changes the tables.", "quantifier": "every state, role and command", "why_tests_cant": "Universal over header and payload bytes and over states.", "anchors": ["apps/tablet_store/service/src/actor.rs:TabletStoreActor::on_process_command"]}
{"id": "C61", "title": "Tablet store replicas converge through snapshots", "statement": "In a cluster where one replica creates the tables and the others obtain them through a snapshot, replicas reflecting the same committed events hold the same tablets and answer (or crash on) the next event identically, although every replica draws its initial tablets at random; without the snapshot they differ from the start.", "quantifier": "every sequence of events, commands and snapshot transfers and every random draw", "why_tests_cant": "Quantifies over histories of several replicas and over random draws.", "anchors": ["apps/tablet_store/service/src/actor.rs:TabletStoreActor::on_init", "apps/tablet_store/service/src/actor.rs:TabletStoreActor::on_load_snapshot", "apps/tablet_store/service/src/actor.rs:TabletStoreActor::on_apply_event"]}
{"id": "C62", "title": "The transaction manager survives every answer", "statement": "No communication error, storage response or tablet store response to one of its own requests crashes the transaction manager of the tablet cache, whatever transactions are in progress.", "quantifier": "every history of client calls, incoming messages and progress calls", "why_tests_cant": "Ranges over all interleavings of transactions and responses; the crashes need particular combinations.", "anchors": ["apps/tablet_cache/service/src/transaction/manager.rs:TabletTransactionManagerCore::process_in_message", "apps/tablet_cache/service/src/transaction/manager.rs:create_failed_op_result", "apps/tablet_cache/service/src/transaction/coordinator.rs:CommittingTabletTransactionState::complete", "apps/tablet_cache/service/src/transaction/coordinator.rs:PreparingTabletTransactionState::make_progress"]}
{"id": "C63", "title": "A transaction validates everything it read", "statement": "When a transaction is committed, its request to the tablet store contains, for every tablet its process requests were resolved to, an op on that tablet in that table: a check of the version it was resolved to, or an update to the next version.", "quantifier": "every transaction, every resolution result and every interleaving with other transactions", "why_tests_cant": "Missed validation shows only as a lost update under a particular concurrent schedule.", "anchors": ["apps/tablet_cache/service/src/transaction/coordinator.rs:PreparingTabletTransactionState::make_progress", "apps/tablet_cache/service/src/transaction/coordinator.rs:create_tablet_key", "apps/tablet_cache/service/src/transaction/coordinator.rs:TabletState::get_tablet_op"]}
{"id": "C64", "title": "A positive acknowledgement of a snapshot chunk is truthful", "statement": "A receiver acknowledges a snapshot chunk positively exactly when it holds that chunk of the transfer under way afterwards, and otherwise rejects it and stays unchanged. Hence a transfer that the sender reports as finished has been received: the receiver reports that very snapshot, once.", "quantifier": "every receiver state and request; every history of the sender and every delivery sequence (order, loss, duplication, polls) at the receiver", "why_tests_cant": "The link between what the sender concludes and what the receiver holds depends on the delivery schedule.", "anchors": ["runtime/src/snapshot.rs:DefaultSnapshotReceiver::process_request", "runtime/src/snapshot.rs:ReceiverState::accept_chunk", "runtime/src/snapshot.rs:DefaultSnapshotSender::try_complete"]}
{"id": "C65", "title": "Replies to one snapshot transfer never count for another", "statement": "Snapshot ids are never reused by a sender: a newly started transfer carries an id above that of every request handed out before, and transfers to different receivers carry different ids. A late acknowledgement of an earlier transfer, positive or negative, neither fails nor advances a later transfer to the same receiver.", "quantifier": "every history of the sender: starts, restarts, requests, replies, completions, resets", "why_tests_cant": "Late replies may arrive at any later point of an unbounded history.", "anchors": ["runtime/src/snapshot.rs:DefaultSnapshotSender::start", "runtime/src/snapshot.rs:DefaultSnapshotSender::process_response", "runtime/src/snapshot.rs:SenderState::process_response"]}
{"id": "C66", "title": "Everything a replica sends to another replica is encrypted for that replica", "statement": "Every message other than a handshake that a replica hands to the untrusted host for another replica carries a ciphertext. It was made with an established session with exactly the replica the message is addressed to, and it encrypts a message the replica wanted to send to that same replica.", "quantifier": "every sequence of host calls with any result, every actor, consensus behaviour, handshake, cipher and hash map order", "why_tests_cant": "One path that leaks plaintext or encrypts for the wrong peer is enough; the host chooses the order of all calls.", "anchors": ["runtime/src/driver.rs:Driver::receive_message", "runtime/src/communication.rs:DefaultCommunicationModule", "runtime/src/service.rs:ApplicationService"]}
{"id": "C67", "title": "Consensus is only given messages of authenticated replicas", "statement": "Every message given to consensus was received over an established session from the replica it names as its sender, either as it is or as a snapshot put together of chunks this replica sent.", "quantifier": "every sequence of host calls with any result, every actor, consensus behaviour, handshake, cipher and hash map order", "why_tests_cant": "The host may forge, mix, replay and reorder messages arbitrarily.", "anchors": ["runtime/src/driver.rs:Driver::make_raft_step", "runtime/src/driver.rs:Driver::process_snapshot_progress", "runtime/src/communication.rs:DefaultCommunicationModule::process_in_message", "runtime/src/snapshot.rs:DefaultSnapshotReceiver"]}
{"id": "C68", "title": "A replica reports leadership exactly when it changes or when asked", "statement": "A started replica answers every request for the state of the cluster. Without a request the leader reports its leadership, term, members and pending changes exactly when they changed since the previous call, and a replica that loses leadership sends one empty report.", "quantifier": "every history of successful calls of a started replica, every message, every consensus behaviour in which a leader knows who leads", "why_tests_cant": "Leadership may change in any call; both missing and repeated reports must be excluded for all histories.", "anchors": ["runtime/src/driver.rs:Driver::process_check_cluster", "runtime/src/driver.rs:Driver::stash_leader_state", "runtime/src/consensus.rs:RaftSimple::state", "runtime/src/endpoint.proto:CheckClusterResponse"]}
{"id": "C69", "title": "The store of a replica holds exactly what consensus asked to store", "statement": "The log store of a replica is at any time what the store operations of the driver, in the order performed, make of an empty store; a founding replica starts from a snapshot of the initial application state at index 1. So if consensus appends consecutive entries, all guarantees of the store hold in every replica.", "quantifier": "every sequence of host calls with any result, every consensus core that only uses the storage interface", "why_tests_cant": "Every path of the driver could touch, replace or skip the store.", "anchors": ["runtime/src/consensus.rs:RaftSimple::init", "runtime/src/consensus.rs:RaftSimple::mut_store", "runtime/src/storage.rs:MemoryStorage", "runtime/src/driver.rs:Driver::advance_raft"]}
{"id": "C70", "title": "Nothing leaves a replica before what consensus wanted stored is stored", "statement": "When a message for another replica leaves the replica, the hard state, snapshot and log entries of every batch consensus produced before are stored successfully, and consensus was told so only afterwards; every batch is completely handled before the call that took it returns.", "quantifier": "every history of calls of the service, with any number of batches per call", "why_tests_cant": "The order must hold for all contents of the batches and all later calls.", "anchors": ["runtime/src/driver.rs:Driver::advance_raft", "runtime/src/driver.rs:Driver::receive_message", "runtime/src/service.rs:ApplicationService::receive_message"]}
{"id": "C71", "title": "Members follow consensus and travel with snapshots", "statement": "The members a replica reports, and the voters it gives its channel module, are those of the moment: itself after founding a cluster, afterwards what consensus answered to the last applied membership change or what the last installed snapshot says. Every snapshot a replica stores carries the members of the moment it is stored.", "quantifier": "every history of calls with any results, including errors", "why_tests_cant": "A stale member list shows only after particular interleavings of changes, snapshots and reports.", "anchors": ["runtime/src/driver.rs:Driver::apply_raft_committed_entries", "runtime/src/driver.rs:Driver::restore_raft_snapshot", "runtime/src/driver.rs:Driver::maybe_create_raft_snapshot", "runtime/src/driver.rs:Driver::collect_config_state"]}
{"id": "C72", "title": "Concurrent calls of the service are linearizable", "statement": "Requests made concurrently to the gRPC endpoint of a replica are handled one at a time: the replica is always in the state reached by handling some sequence of them, each at most once, and a call that returns an answer returns the one computed for its own request, which was handled between the start and the end of the call. Calls that do not overlap are handled in order. A call that returns an error has had, and will have, no effect.", "quantifier": "any number of concurrent calls, all schedules of callers and the driver thread, all points at which callers go away or the driver stops", "why_tests_cant": "Misdelivered, repeated or reordered answers only show under particular schedules.", "anchors": ["runtime/src/service.rs:TonicApplicationService::receive_message", "runtime/src/service.rs:TonicApplicationService::run_driver_loop"]}
{"id": "C73", "title": "A client that goes away does not stop the replica", "statement": "A replica behind the gRPC endpoint keeps serving its clients when one of them cancels a request or loses its connection.", "quantifier": "all points in a call at which a client may go away", "why_tests_cant": "The moment at which the client goes away decides the outcome.", "anchors": ["runtime/src/service.rs:TonicApplicationService::run_driver_loop", "runtime/src/service.rs:TonicApplicationService::receive_message"]}
{"id": "C74", "title": "Every call of the service gets an outcome", "statement": "Once no new calls arrive, every call in progress gets an answer or an error after finitely many steps of the service; while the replica has not stopped, all of them get answers.", "quantifier": "all schedules, any number of calls in progress, live and stopped replicas", "why_tests_cant": "A lost wake-up or a stuck channel appears under some schedules only.", "anchors": ["runtime/src/service.rs:TonicApplicationService::receive_message", "runtime/src/service.rs:TonicApplicationService::run_driver_loop"]}
{"id": "C75", "title": "A cluster runs its application", "statement": "On every replica of a cluster the application's state reflects exactly the events of the log up to the index the replica has applied, each once and in log order, whether it applied them itself or installed a snapshot another replica saved; all replicas start from the state of the replica that founded the cluster. Every message a replica sends to a client is what the application answers in such a state, to a command this replica was handed or to an event of the log, and the application is told that it owns an event exactly on the replica that proposed it. An event that belongs to a command its proposer has not been handed yet comes after everything any replica has applied so far.", "quantifier": "all applications whose saving and shutting down leave their state alone, all numbers of replicas, all messages in all orders, all snapshots taken and installed at any point, all logs", "why_tests_cant": "Where snapshots fall between events, and on which replica, decides whether an event is lost or applied twice; there are unboundedly many such histories.", "anchors": ["runtime/src/driver.rs:Driver", "runtime/src/model.rs:Actor"]}
{"id": "C76", "title": "The counters of a cluster are linearizable", "statement": "On every replica of a cluster of the counter application the counters are those configured, changed by the compare-and-swaps of the log up to the applied index one after the other. Every message a replica sends to a client refuses a command it was handed, or answers the compare-and-swap at some index of the log, which it proposed, with the value found just before that index. If consensus commits only what was proposed, the answer to a command handed in after some moment is computed from counters that include every compare-and-swap applied, hence every one answered, by that moment.", "quantifier": "all numbers of replicas, all requests in all orders, all snapshots and log histories", "why_tests_cant": "A stale or doubled compare-and-swap shows only in particular interleavings of several replicas.", "anchors": ["apps/atomic_counter/service/src/actor.rs:CounterActor", "runtime/src/driver.rs:Driver"]}
{"id": "C77", "title": "The keys of a decryptor cluster", "statement": "No replica of a cluster of the willow decryptor ever holds more keys than the capacity; replicas that applied the same part of the log hold the same keys, each the last one generated for its id and not used since. Every message a replica sends to a client is an error; or the current public key of an id the client asked for; or the outcome of an event of the log this replica proposed. If consensus commits only what was proposed, a key pair that enters the log was freshly drawn for an id some client asked for, and a decryption that enters the log is that of a ciphertext some client asked to decrypt, with the private key then current for the id asked for.", "quantifier": "all numbers of replicas, all requests in all orders, all snapshots and log histories, all random draws", "why_tests_cant": "Use of an evicted or replaced key depends on the order of requests across replicas.", "anchors": ["apps/willow/decryptor/actor/src/actor.rs:DecryptorActor", "runtime/src/driver.rs:Driver"]}
{"id": "C78", "title": "The tablets of a metadata cluster are linearizable", "statement": "There is one initial set of tablets, the one the replica that founded the cluster drew for the configuration, such that on every replica that joined the tablet metadata are those, changed by the requests of the log up to the applied index one after the other. Every message a replica sends to a client refuses a command, or answers the request at some index of the log, which it proposed, op by op for the tablets just before that index, and reports success exactly if all ops could be carried out. If consensus commits only what was proposed, the answer to a command handed in after some moment is computed from tablets that include every request applied by that moment.", "quantifier": "all numbers of replicas, all batches of ops, all snapshots and log histories, all random initial ids", "why_tests_cant": "The initial ids are random, and a second founder or a lost update shows only in particular histories.", "anchors": ["apps/tablet_store/service/src/actor.rs:TabletStoreActor", "runtime/src/driver.rs:Driver"]}
{"id": "C79", "title": "The host cannot forge, alter, repeat or relabel what replicas tell each other", "statement": "The untrusted host carries all traffic between replicas and may drop, delay, repeat, reorder, alter and invent messages. Whatever it does, while the channels of an established session are up, a message that one end passes up was given to the other end to send, with the same contents, and is passed up at most as often as it was given; and it is passed up as the same kind of message, with the same delivery id, and under the id of the replica that sent it.", "quantifier": "all sequences of calls with arbitrary messages at both ends, all session libraries that meet the stated contract (payloads cannot be forged or opened twice)", "why_tests_cant": "The attacker chooses every message and every order.", "anchors": ["runtime/src/communication.rs:DefaultCommunicationModule", "runtime/src/communication.rs:CommunicationState", "runtime/src/handshake.rs:ClientHandshakeSession", "runtime/src/handshake.rs:ServerHandshakeSession", "runtime/src/session.rs:DefaultEncryptorProvider"]}
{"id": "C80", "title": "Log messages reach the host once and in order", "statement": "A replica that is started without a logger of its own delivers what it logs to the host as log messages. Every record logged above the compiled level becomes exactly one message with its severity and its text; messages arrive in the order of logging, and a response to the host brings everything logged so far. Nothing else the replica answers or does depends on the log.", "quantifier": "all records logged, all histories of calls including failing calls, all applications and consensus behaviours", "why_tests_cant": "Loss or duplication of log messages shows only for particular interleavings of logging with failing and succeeding calls.", "anchors": ["runtime/src/logger.rs:DrainOutput", "runtime/src/logger.rs:RemoteDrain", "runtime/src/driver.rs:Driver::receive_message", "runtime/src/driver.rs:Driver::stash_log_entries"]}
{"id": "C81", "title": "The host learns nothing about replicated data from the log", "statement": "Commands, events and application state are inside the enclave and between replicas in encrypted form only. The log messages delivered to the host do not contain log entries or snapshots of the replicated application.", "quantifier": "all histories of calls, all applications, all levels of logging", "why_tests_cant": "It must hold for every entry, snapshot and history.", "anchors": ["runtime/src/logger.rs:create_remote_logger", "runtime/src/storage.rs:MemoryStorage::append", "runtime/src/storage.rs:MemoryStorage::apply_snapshot", "runtime/src/driver.rs:Driver::stash_log_entries"]}
{"id": "C82", "title": "A tablet resolution is answered exactly once and completely", "statement": "A caller that asks the tablet metadata cache which tablets own a set of hashes gets exactly one answer. Until then the regions it still needs are asked for from the tablet store and not forgotten; once they have all been listed the answer is given, and it says about every hash exactly what the regions said when they were known: nothing is lost when several regions or tablets are put together, and nothing is repeated.", "quantifier": "all configurations, all histories of requests, progress, list responses (failing ones included), metadata updates and conflicts, all sets of queries", "why_tests_cant": "Whether a request is forgotten depends on how conflicts, failed listings and overlapping requests for the same region interleave.", "anchors": ["apps/tablet_cache/service/src/transaction/metadata.rs:TabletResolve", "apps/tablet_cache/service/src/transaction/metadata.rs:TableRegion", "apps/tablet_cache/service/src/transaction/metadata.rs:DefaultTabletMetadataCache"]}
{"id": "C83", "title": "Process handlers are given the tablets their queries resolve to, with their stored contents", "statement": "A process handler of a transaction is called only once its queries have been answered, and is given exactly the tablets of that answer, each with the part of the queries it owns and with the contents that the blob storage returned for (or confirmed to have stored under) that tablet's uri; contents of one tablet are never given for another.", "quantifier": "all histories of concurrent transactions, cache contents, evictions, responses and failures of the storage and the tablet store", "why_tests_cant": "Whether the contents fit the tablet depends on what other transactions have cached, loaded or written before and in which order the responses arrive.", "anchors": ["apps/tablet_cache/service/src/transaction/coordinator.rs:PreparingTabletTransactionState", "apps/tablet_cache/service/src/transaction/data.rs:DefaultTabletDataCache", "apps/tablet_cache/service/src/transaction.rs:TabletTransaction"]}
{"id": "C84", "title": "A committed transaction refers only to stored contents, and leaves nothing out", "statement": "Every tablet update in the request by which a transaction is committed was written by one of the transaction's handlers for that tablet, and the blob storage has confirmed the serialised contents under the update's uri before the request is made, with matching hash and size. Conversely, every tablet a handler of the transaction was given is in the request: as an update with the bytes the handler set, or as a check if the handler left it alone.", "quantifier": "all histories of concurrent transactions, all handlers, all orders of storage confirmations and failures", "why_tests_cant": "A missing or unconfirmed write shows only for particular interleavings of several handlers, stores and commits.", "anchors": ["apps/tablet_cache/service/src/transaction/coordinator.rs:commit_transaction", "apps/tablet_cache/service/src/transaction/coordinator.rs:TabletState", "apps/tablet_cache/service/src/transaction/data.rs:store_tablets"]}
{"id": "C85", "title": "Committed transactions are serializable in the order of the tablet store's log", "statement": "A transaction that reports success takes effect atomically at its place in the log of requests applied by the tablet store, whoever sent the other requests: the contents each of its process handlers was given are those of the tablets the store has immediately before the transaction, and the contents its handlers set are those the store has immediately after it. Handlers run only before their transaction is committed or aborted.", "quantifier": "all histories of a transaction manager with concurrent transactions, all requests of other clients interleaved in the store's log, all orders, losses and repetitions of responses, all evictions and storage failures", "why_tests_cant": "Lost updates and dirty reads show only for particular interleavings of several clients, cached metadata, rejected commits and late responses.", "anchors": ["apps/tablet_cache/service/src/transaction/coordinator.rs:CommittingTabletTransactionState", "apps/tablet_cache/service/src/transaction/manager.rs:DefaultTabletTransactionManager", "apps/tablet_cache/service/src/transaction/metadata.rs:update_tablet", "apps/tablet_store/service/src/actor.rs:TabletStoreActor"]}
{"id": "C86", "title": "Stored blobs are immutable: a uri names one content", "statement": "The uri under which a tablet's contents are written determines the tablet id, the version and the hash of the contents. Hence, whichever clients write, two writes under the same uri carry contents with the same hash, so nothing stored is ever replaced by something different (unless the hash function collides), and tablets with different ids or versions have different uris.", "quantifier": "all tablet ids, versions and hashes; all pairs of transaction managers, with all their histories of transactions, responses, failures and evictions", "why_tests_cant": "Injectivity of the uri format concerns all pairs of ids, versions and byte strings; the writes of independent clients over whole histories cannot be enumerated.", "anchors": ["apps/tablet_cache/service/src/transaction/data.rs:format_blob_uri", "apps/tablet_cache/service/src/transaction/data.rs:prepare_tablet_write", "apps/tablet_cache/service/src/transaction/data.rs:store_tablets"]}
{"id": "C87", "title": "Transactions can be repeated, and may write what others write", "statement": "Transactions that write the same contents to the same tablet, at the same time or one after another was refused or abandoned, do not crash the transaction manager, and a refused transaction that is repeated while no other client interferes succeeds.", "quantifier": "all histories of a data cache with the default eviction policy and all contents written; all histories of a transaction manager", "why_tests_cant": "Depends on what any earlier transaction wrote, was refused or abandoned, over unbounded histories.", "anchors": ["apps/tablet_cache/service/src/transaction/data.rs:store_tablets", "apps/tablet_cache/service/src/transaction/data.rs:DefaultTabletDataCachePolicy", "apps/tablet_cache/service/src/transaction/coordinator.rs:CommittingTabletTransactionState"]}
{"id": "C88", "title": "Across all managers, what transactions read is what transactions wrote", "statement": "When any number of transaction managers use one tablet store and one storage, every transaction that succeeded read, for each tablet it accessed, exactly the contents the last earlier successful transaction (in the order in which the tablet store applied them) wrote to that tablet, whichever manager ran it, or the contents of a new tablet if none wrote it; nothing else ever becomes visible.", "quantifier": "all numbers of managers, all their histories of transactions, responses, failures and evictions, all orders in which the tablet store applies their requests", "why_tests_cant": "Values flow between managers through metadata, uris and blobs; the interleavings of any number of managers over unbounded histories cannot be enumerated.", "anchors": ["apps/tablet_cache/service/src/transaction/coordinator.rs", "apps/tablet_cache/service/src/transaction/data.rs:load_tablets", "apps/tablet_cache/service/src/transaction/data.rs:store_tablets", "apps/tablet_cache/service/src/transaction/metadata.rs", "apps/tablet_store/service/src/actor.rs:TabletStoreActor"]}
{"id": "C89", "title": "A transaction can be the first to write a tablet", "statement": "A transaction may use a tablet that was never written: its process handler is called although the storage holds nothing for that tablet, and can write the first contents. For tablets that were written, the handler is called only once the storage returned the contents of the first tablet of the request or confirmed to have stored them.", "quantifier": "all histories of a transaction manager, all requests and answers of the tablet store and the storage", "why_tests_cant": "Concerns every history of requests, responses and cached entries.", "anchors": ["apps/tablet_cache/service/src/transaction/data.rs:load_tablets", "apps/tablet_cache/service/src/transaction/data.rs:process_load_response", "apps/tablet_cache/service/src/transaction/coordinator.rs:TabletProcessState"]}
{"id": "C90", "title": "Transactions on a replicated tablet store are strictly serializable", "statement": "When any number of transaction managers use a tablet store that any number of replicas replicate (joining by snapshots, restarting consensus, changing leaders), and one storage, the transactions that succeeded have distinct places in one order, each reads what the transactions before it left and leaves what it wrote to those after it, and a transaction reported as succeeded before the commit of another one reached any replica comes before that one.", "quantifier": "all numbers of managers and replicas, all histories of each, all delays, losses and duplications of requests and responses, all histories of the consensus layer within its contract", "why_tests_cant": "Composes the managers, the storage, the driver and the consensus contract; the interleavings of all of them over unbounded histories cannot be enumerated.", "anchors": ["apps/tablet_cache/service/src/transaction/coordinator.rs", "apps/tablet_cache/service/src/transaction/data.rs", "apps/tablet_cache/service/src/transaction/metadata.rs", "apps/tablet_store/service/src/actor.rs:TabletStoreActor", "runtime/src/driver.rs:Driver"]}
{"id": "C91", "title": "What clients of a cluster's services observe is linearizable", "statement": "Clients call the gRPC services of all replicas of a cluster, concurrently and in any order. For the atomic counter and the tablet store, every answer a client gets either refuses a command that was called for, or is the answer to the operation at one position of a single order, computed from the state after the operations before it. If a client had its answer before another command was called for at any service, then the position of the first is before that of the second.", "quantifier": "all numbers of replicas and clients, all interleavings of calls, cancellations, the services' steps and the replicas' steps, all histories of the consensus layer within its contract", "why_tests_cant": "Linearizability is a property of all concurrent histories of calls to several services over replicas that join by snapshots and change leaders; tests sample schedules.", "anchors": ["runtime/src/service.rs:TonicApplicationService", "runtime/src/driver.rs:Driver", "apps/atomic_counter/service/src/actor.rs:CounterActor", "apps/tablet_store/service/src/actor.rs:TabletStoreActor"]}
{"id": "C92", "title": "Clients of a decryptor cluster see answers in real-time order and never a key that was replaced", "statement": "Clients call the services of all replicas of a cluster of willow decryptors. Every answer is an error, a public key current for the requested id at some moment, or the answer to an event at one position of a single order. If a client had an answer before another request was called for, at any service, the second answer reflects everything the first one did: no client gets a key that was used or replaced before.", "quantifier": "all numbers of replicas and clients, all interleavings of calls and of the services' and replicas' steps, all histories of the consensus layer within its contract including deposed leaders that do not know yet", "why_tests_cant": "Stale reads need a particular interleaving of a leader change with calls at two services; the absence of others is a property of all histories.", "anchors": ["apps/willow/decryptor/actor/src/actor.rs:DecryptorActor::process_generate_key_command", "apps/willow/decryptor/actor/src/actor.rs:DecryptorActor::on_process_command", "runtime/src/driver.rs:Driver", "runtime/src/service.rs:TonicApplicationService"]}
{"id": "C93", "title": "A snapshot arrives as it was sent", "statement": "A leader sends a replica that is far behind a snapshot in pieces. Every snapshot a replica installs is, metadata and contents, one that the consensus layer of the replica it came from wanted sent to it, and in a cluster it is one that some replica's application made. Lost, repeated or reordered messages may prevent an installation but never lead to another one.", "quantifier": "all histories of the replicas, all snapshot sizes and chunk sizes, all numbers of transfers to the same replica one after the other, all channel behaviours between the replicas that deliver only messages that were sent", "why_tests_cant": "Whether pieces of two transfers can be put together depends on when transfers are cut off, restarted and which messages overtake which; tests deliver one transfer in order.", "anchors": ["runtime/src/snapshot.rs:DefaultSnapshotSender", "runtime/src/snapshot.rs:DefaultSnapshotReceiver", "runtime/src/driver.rs:Driver::process_snapshot_request", "runtime/src/driver.rs:Driver::send_messages", "runtime/src/session.rs:DefaultEncryptorProvider"]}
{"id": "C94", "title": "A channel that broke is opened again", "statement": "When the secure channel between two replicas is lost at one of them (it restarted, its handshake failed or timed out, or the host handed it a stray handshake message), time and further messages bring the channel up again and the messages sent from then on are delivered.", "quantifier": "all histories of the two replicas, all session and cipher libraries, all retry and timeout settings, all amounts of time and numbers of messages", "why_tests_cant": "Recovery depends on which of the two sides lost the channel, when its timers fire and which side speaks first; tests open a channel once and never run it through a loss.", "anchors": ["runtime/src/communication.rs:CommunicationState::process_in_message", "runtime/src/communication.rs:CommunicationState::process_out_message", "runtime/src/communication.rs:CommunicationState::make_tick", "runtime/src/communication.rs:CommunicationState::reset_state_machine", "runtime/src/communication.rs:DefaultCommunicationModule::make_tick"]}
{"id": "C95", "title": "A running replica keeps running", "statement": "Every failure while a message is handled ends the replica's process. A replica that was started with valid configurations gets through every further message of the host, of clients and of other replicas: each call returns. In particular no client command ends a replica of the counter, and of the other applications only commands that are malformed or ask for what is not implemented.", "quantifier": "all applications, consensus implementations and secure session libraries that keep their documented contracts, all histories of calls, all messages and commands, all instants", "why_tests_cant": "Whether some unwrap, expect or error return is reached depends on the whole history of calls and on the combination of the states of driver, consensus, snapshot transfer and channels; tests show that chosen histories get through.", "anchors": ["runtime/src/service.rs:ApplicationService::receive_message", "runtime/src/service.rs:TonicApplicationService::run_driver_loop", "runtime/src/driver.rs:Driver::receive_message", "runtime/src/driver.rs:Driver::make_raft_proposal", "runtime/src/driver.rs:Driver::make_raft_step", "runtime/src/snapshot.rs:ReceiverState::new", "apps/willow/decryptor/actor/src/actor.rs:on_process_command", "apps/tablet_cache/service/src/actor.rs:on_process_command", "apps/atomic_counter/service/src/actor.rs:on_process_command"]}
{"id": "C96", "title": "The log store takes whatever consensus hands out", "statement": "A replica over the shipped consensus layer and in-memory log store gets through every call provided raft-rs itself does: entries handed out are always stored, a snapshot to be installed is always taken, and whenever the store wants a snapshot of what was applied, taking it succeeds. Between calls the log holds all that was applied: its snapshot is not ahead of it, the log does not end before it, and no entry is missing.", "quantifier": "all applications, raft-rs nodes that keep the contracts spelled out, all histories of calls, all messages and commands, all snapshot intervals, all requests of peers for snapshots", "why_tests_cant": "Whether a request of a peer for a snapshot, compaction, a received snapshot and appended entries can combine so that the store refuses what it is given, which ends the process, depends on the whole history; tests run chosen interleavings.", "anchors": ["runtime/src/storage.rs:MemoryStorage::append_entries", "runtime/src/storage.rs:MemoryStorage::apply_snapshot", "runtime/src/storage.rs:MemoryStorage::create_snapshot", "runtime/src/storage.rs:MemoryStorage::should_snapshot", "runtime/src/consensus.rs:RaftSimple", "runtime/src/driver.rs:Driver::advance_raft", "runtime/src/driver.rs:Driver::maybe_create_raft_snapshot"]}
{"id": "C97", "title": "Every client command is answered exactly once", "statement": "A started replica hands the command of an application message to its application once, in that call. For every correlation id, the answers it has sent to its host are exactly the commands it was given with that id, except those whose proposal consensus has not handed back: never two answers for a command, never an answer without one, and none missing once the proposal came back. Without replication the answer is in the result of the same call. The counter, the tablet store and the decryptor behave so that this holds. A command whose committed entry reaches the replica only inside a snapshot is never answered, however long the replica runs.", "quantifier": "all applications that answer a command at once or through one event, all consensus layers that hand a proposal back at most once, all histories of calls that return Ok, all correlation ids", "why_tests_cant": "the balance must hold after any interleaving of commands, batches of committed entries, foreign entries, snapshots, role changes and ticks, and the failure is about all futures of a replica", "anchors": ["runtime/src/driver.rs:Driver::process_deliver_app_message", "runtime/src/driver.rs:Driver::apply_raft_committed_entries", "runtime/src/driver.rs:Driver::restore_raft_snapshot", "runtime/src/driver.rs:Driver::receive_message", "apps/atomic_counter/service/src/actor.rs:Actor impl", "apps/tablet_store/service/src/actor.rs:Actor impl", "apps/willow/decryptor/actor/src/actor.rs:Actor impl"]}
{"id": "C98", "title": "Replicas talk only to peers attested the way the application asks", "statement": "Every session a replica opens with another replica, whichever side opened it, demands attestation of both sides, shows the replica's own evidence with exactly the endorsements of the request that started the replica, and has the peer checked with exactly the verifier, reference values, clock and bound key that the application's reference values and clock call for. What peers are checked with is fixed by the start request and no later call changes it, and the replica never asks for a session before it is set up. If the session library opens a session only once the peer passed the check it was given, then everything the replica sends to another replica beyond handshakes is encrypted for, and everything it takes for the words of another replica was sent by, somebody who passed that check. The applications as they are ask for a check that accepts evidence rooted in no hardware and of any software.", "quantifier": "all applications with fixed reference values and clock, all session libraries, sources of evidence and consensus layers, all histories of calls, both roles, all peers", "why_tests_cant": "an unattested session would look exactly like an attested one in a test; the claim is about every session of every history, and about peers an adversary controls", "anchors": ["runtime/src/session.rs:DefaultOakSessionFactory::init", "runtime/src/session.rs:get_oak_client_session", "runtime/src/session.rs:get_oak_server_session", "runtime/src/session.rs:DefaultOakClientSession::create", "runtime/src/session.rs:DefaultOakServerSession::create", "runtime/src/handshake.rs:DefaultHandshakeSessionProvider", "runtime/src/driver.rs:Driver::process_start_replica", "runtime/src/model.rs:Actor::get_reference_values", "runtime/src/model.rs:Actor::get_clock_override", "apps/atomic_counter/service/src/actor.rs:CounterActor::new", "apps/atomic_counter/container/src/main.rs:get_reference_values", "apps/willow/decryptor/actor/src/actor.rs:DecryptorActor::new", "apps/tablet_store/service/src/actor.rs:get_reference_values", "apps/tablet_cache/service/src/actor.rs:get_reference_values"]}
{"id": "C99", "title": "Rollback and forking protection", "statement": "A replica that keeps running never goes back: the index of the log it has reached does not decrease, what its application has seen stays, and every further event comes after that index. Moreover, what a cluster has committed and answered is never contradicted by replicas the host starts later, or elsewhere, from the same binary: no second replica with the same id founds the cluster anew and answers clients from the initial state.", "quantifier": "every sequence of calls to a replica, every log, and every set of processes the host starts with any start requests", "why_tests_cant": "Quantifies over all histories of a replica and over all processes an adversarial host may start, before, after or at the same time.", "anchors": ["README.md", "docs/key_value_store.md", "runtime/src/driver.rs:Driver::initialize_driver", "runtime/src/driver.rs:Driver::initialize_raft_node", "runtime/src/driver.rs:Driver::apply_raft_committed_entries", "runtime/src/storage.rs:MemoryStorage", "proto/src/endpoint.proto:StartReplicaRequest"]}
{"id": "C100", "title": "The log of a replica stays short, and members get their snapshots", "statement": "A replica started with a snapshot count of c (1000 if the start request gives none) takes snapshots often enough: after every call its newest snapshot is at most c entries behind what its application has applied, so its in-memory log holds at most c + 1 entries the application has already been given. And after every call no member of the cluster is left waiting for a snapshot up to an index that was already applied: the snapshot is taken in the same call in which it becomes possible.", "quantifier": "every application, every start request for a replica that takes part in consensus, every sequence of calls that return, and every behaviour of raft-rs towards its store", "why_tests_cant": "A bound on memory over the whole lifetime of a replica: it must hold after every call of every history, with any application, whatever was committed in one batch and whenever peers ask for snapshots.", "anchors": ["runtime/src/driver.rs:Driver::maybe_create_raft_snapshot", "runtime/src/driver.rs:Driver::process_state_machine", "runtime/src/driver.rs:Driver::initialize_raft_node", "runtime/src/storage.rs:MemoryStorageCore::should_snapshot", "runtime/src/storage.rs:MemoryStorageCore::create_snapshot", "runtime/src/storage.rs:MemoryStorageCore::set_snapshot"]}
{"id": "C101", "title": "A replica that was removed from the cluster is cut off", "statement": "Once a replica has applied the removal of a member, it has no channel with the removed member any more: it takes nothing that comes in its name for genuine, hands nothing of it to consensus and sends it nothing encrypted, unless the member is let in again.", "quantifier": "every application, every behaviour of raft-rs, the host, the network and the removed member, every sequence of calls to a replica that takes part in consensus, and every membership change", "why_tests_cant": "A security property of all later messages and all schedules: it concerns leaders and followers, transfers that are under way when the member is removed, and anything the removed member may send afterwards.", "anchors": ["runtime/src/driver.rs:Driver::stash_leader_state", "runtime/src/driver.rs:Driver::get_raft_state", "runtime/src/driver.rs:Driver::process_snapshot_sending", "runtime/src/communication.rs:DefaultCommunicationModule::process_cluster_change", "runtime/src/communication.rs:DefaultCommunicationModule::process_in_message", "runtime/src/snapshot.rs:DefaultSnapshotSender"]}
{"id": "C102", "title": "Key-value stores that share a tablet store answer as one map", "statement": "When any number of key-value stores work on the tablets of one tablet store and one blob storage, every answer to a put or get is the one a single map would give, if the batches of requests were carried out one after the other in the order in which the tablet store applied the transactions: a get returns the value of the latest put of that key in this order, and a put says truthfully whether the key existed.", "quantifier": "every number of stores, every sequence of client requests, every schedule of the stores, every order, delay, loss and repetition of the responses of the tablet store and the blob storage, and every conflict between the stores", "why_tests_cant": "A claim about all interleavings of all stores: what one store answers depends on what the others have committed at one moment in the log of the tablet store, while the caches of the store may be arbitrarily old.", "anchors": ["apps/tablet_cache/service/src/store.rs:SimpleKeyValueStoreCore", "apps/tablet_cache/service/src/transaction/manager.rs", "apps/tablet_cache/service/src/transaction/coordinator.rs", "apps/tablet_cache/service/src/transaction/metadata.rs", "apps/tablet_cache/service/src/transaction/data.rs", "apps/tablet_store/service/src/actor.rs:TabletStoreActor"]}
{"id": "C103", "title": "Key-value stores on a replicated tablet store are one map, in real time", "statement": "When key-value stores work on a tablet store that a cluster of replicas keeps, and on one blob storage, every response to a client is the one a single map gives at one place in the replicated log, and the places respect real time: when a client has got its response before another client's request is accepted, by the same or another store, the other response comes from a later place, so an acknowledged put is seen by everyone who asks afterwards.", "quantifier": "every number of stores and replicas, every sequence of client requests, every schedule of stores and replicas, every order, delay, loss and repetition of the messages between them, every behaviour of consensus within its contract, replicas that join late by snapshots, and every pair of moments", "why_tests_cant": "A linearizability claim about the whole system: it ranges over all interleavings of all stores and all replicas, and relates the moments at which clients ask and are answered at different stores to one order of a log that no single component sees as a whole.", "anchors": ["apps/tablet_cache/service/src/store.rs:SimpleKeyValueStoreCore", "apps/tablet_cache/service/src/transaction/manager.rs", "apps/tablet_cache/service/src/transaction/coordinator.rs", "apps/tablet_store/service/src/actor.rs:TabletStoreActor", "runtime/src/driver.rs:Driver"]}
{"id": "C104", "title": "Key-value stores carry out each accepted request at most once", "statement": "When any number of key-value stores work on the tablets of one tablet store and one blob storage, no put or get that a client sent is carried out on the map more often than it was accepted: a transaction that is retried after a conflict, a response that arrives twice, late or not at all, and a request that waits while tablets are loaded never make an old put overwrite a newer one a second time.", "quantifier": "every number of stores, every sequence of client requests, every schedule of the stores, every order, delay, loss and repetition of the responses of the tablet store and the blob storage, every conflict between the stores, every client request and every length of the log", "why_tests_cant": "At-most-once execution is about all retries in all histories: a request can be loaded, resolved, committed, refused and started again any number of times, and a repeated effect shows only when another store wrote the same key in between.", "anchors": ["apps/tablet_cache/service/src/store.rs:SimpleKeyValueStoreCore", "apps/tablet_cache/service/src/transaction/manager.rs", "apps/tablet_cache/service/src/transaction/coordinator.rs", "apps/tablet_store/service/src/actor.rs:TabletStoreActor"]}
{"id": "C105", "title": "The requests of a cache can be told apart", "statement": "No two requests that a transaction manager, or the key-value store built on it, makes to the tablet store or to the blob storage carry the same correlation id, so that an answer belongs to one request; the ids fit in 64 bits, and taking the messages to be sent never crashes on an id that is in use. With the counters the shipped actor starts from this holds for up to 2^56 requests.", "quantifier": "every sequence of calls by clients, every answer, error, repetition, loss and order of incoming messages, every number of transactions, and every number of requests up to the distance of the counters", "why_tests_cant": "The ids come from three independent counters and the table of awaited answers shrinks and grows with the traffic; a repeated id would need a particular interleaving of resolutions, loads, stores and commits, and only shows when the answer to one request is taken for that to another.", "anchors": ["apps/tablet_cache/app/src/main.rs", "apps/tablet_cache/service/src/transaction/coordinator.rs:DefaultTabletTransactionCoordinator", "apps/tablet_cache/service/src/transaction/metadata.rs:DefaultTabletMetadataCache", "apps/tablet_cache/service/src/transaction/data.rs:DefaultTabletDataCache", "apps/tablet_cache/service/src/transaction/manager.rs:DefaultTabletTransactionManager"]}
{"id": "C106", "title": "A cache forgets what is finished", "statement": "What a transaction manager, and the key-value store built on it, remember beyond the cached tablets concerns unfinished work only: transactions that were neither aborted nor have told anybody their outcome, requests that have not been answered, and tablet resolutions and queries that are still open. So memory does not grow with the number of requests served.", "quantifier": "every sequence of calls by clients, every answer, error, repetition, loss and order of incoming messages, every number of transactions and resolutions, every point of the history", "why_tests_cant": "A test runs a handful of requests and looks at the answers; records that are left behind change no answer and only show as memory use after very many requests, and whether one is left behind depends on the order in which answers, errors and client calls meet.", "anchors": ["apps/tablet_cache/service/src/transaction/metadata.rs:DefaultTabletMetadataCache", "apps/tablet_cache/service/src/transaction/coordinator.rs:DefaultTabletTransactionCoordinator", "apps/tablet_cache/service/src/transaction/data.rs:DefaultTabletDataCache", "apps/tablet_cache/service/src/transaction/manager.rs:DefaultTabletTransactionManager", "apps/tablet_cache/service/src/store.rs:TabletTracker"]}
{"id": "C107", "title": "A service can be shut down without a crash and without losing a request", "statement": "When no call is in progress, shutting a gRPC service down waits for its replica to finish and never panics; afterwards every request that was handed to the replica has been handled and every call that its client did not abandon has its answer.", "quantifier": "every schedule of concurrent calls and cancellations before the shutdown, every request, every behaviour of the replica, every place in the process where the service is dropped", "why_tests_cant": "The outcome depends on where the last request is when the channel is closed, on which clients went away before, and on whether the process drops the service inside an asynchronous task; tests of the service call the driver directly and never drop it in any of these states.", "anchors": ["runtime/src/service.rs:TonicApplicationService", "runtime/src/service.rs:drop", "runtime/src/service.rs:run_driver_loop", "apps/atomic_counter/container/src/main.rs:main", "apps/willow/decryptor/container/src/main.rs:main"]}
{"id": "C108", "title": "The clock that evidence is checked against follows the host's clock and never goes back", "statement": "The time a replica compares certificates and evidence of its peers with is, after every call, the latest time its host has given; it never goes back, a wrong reading has no lasting effect, and as long as the host lets time pass consensus is told about it.", "quantifier": "every sequence of calls with any 64-bit instants, in any order, every application, consensus and session library, every result of the calls", "why_tests_cant": "Tests pass a few small constants as the host's time or a fixed clock; what happens depends on the whole history of readings and, at the boundaries of the 64-bit types, on values no test uses.", "anchors": ["runtime/src/driver.rs:DefaultClock", "runtime/src/driver.rs:preset_state_machine", "runtime/src/driver.rs:trigger_raft_tick", "runtime/src/platform.rs:receive_message"]}
{"id": "C109", "title": "A replica that is about to go down hands over", "statement": "From the moment a replica is asked to enter lameduck mode, it never again sends heartbeats or starts an election on its own, whatever the host asks it and however much time passes, and it gives up leadership.", "quantifier": "every history before the request, every sequence of calls after it with any messages and times, every application, consensus and session library", "why_tests_cant": "A test lets some time pass in one cluster and sees another leader elected; that no later message or passage of time ever brings the replica back, in any state, is a statement about all continuations.", "anchors": ["runtime/src/driver.rs:advance_raft", "runtime/src/driver.rs:trigger_raft_tick", "runtime/src/driver.rs:receive_message", "proto/src/endpoint.proto:EnterLameduckMode"]}
{"id": "C110", "title": "Reports about the state of a replica are true", "statement": "A host that asks a started replica for its state gets, in that call, exactly one report, and none unasked. The reported index is the one up to which consensus has delivered the log and the application has seen it; over the life of a replica the reported indices never decrease. The reported size is that of the snapshot other replicas are given.", "quantifier": "every sequence of calls, every batching of the log by consensus and every snapshot installed in between, every application, consensus and session library; for the last part, every consensus that does not go back in the log", "why_tests_cant": "A test asks once after a few entries; that the report agrees with what the application has seen after every history of batches, snapshots and failures is an invariant of all histories.", "anchors": ["runtime/src/driver.rs:process_get_replica_state", "runtime/src/driver.rs:apply_raft_committed_entries", "runtime/src/driver.rs:restore_raft_snapshot", "runtime/src/storage.rs:latest_snapshot_size"]}
{"id": "C111", "title": "Every key has one responsible tablet, always the same", "statement": "In a table of the tablet store every key hash has exactly one responsible tablet. The set of tablets of a table is fixed when the cluster is created and has the configured size: all replicas, at all times and after every snapshot, agree on which tablet a hash belongs to.", "quantifier": "every configuration, draw of tablet ids, table, hash, replica, sequence of requests, snapshot transfers between replicas", "why_tests_cant": "A test looks at a few hashes of a fixed ring; that 2^32 hashes are each covered once on every ring, and that no request or snapshot ever moves one, is a statement about all rings and histories.", "anchors": ["apps/tablet_store/service/src/actor.rs:TableMetadata::create", "apps/tablet_store/service/src/actor.rs:RandomTabletConfigurator::generate", "apps/tablet_store/service/src/actor.rs:on_apply_event", "apps/tablet_store/service/src/actor.rs:on_load_snapshot"]}
{"id": "C112", "title": "The members of a cluster change only as hosts ask", "statement": "What a replica proposes to consensus about the members of the cluster is what its host asked for: adding or removing the named replica, in the order of the requests, each request at most once, and nothing unasked. So, consensus committing only what was proposed, every change any replica carries out was asked for by the host of some replica; no application, client or other replica can cause one.", "quantifier": "every sequence of calls with any messages and results, every application, consensus and session library, every number of replicas", "why_tests_cant": "A test shows that one request leads to one proposal; that no other sequence of inputs ever leads to one is a statement about all histories.", "anchors": ["runtime/src/driver.rs:process_change_cluster", "runtime/src/driver.rs:make_raft_config_change_proposal", "runtime/src/driver.rs:receive_message", "runtime/src/driver.rs:apply_raft_committed_entries"]}
{"id": "C113", "title": "The application is handed each command once, in order", "statement": "While a replica runs and its calls succeed, its application is asked to process exactly the commands its host passes: each of them, once, in the order they were passed. Over the whole life of a replica, whatever its calls return, the application is never asked to process a command the host did not pass, or one more often or in another order than they were passed.", "quantifier": "every sequence of calls with any messages and results, every application, consensus and session library", "why_tests_cant": "A test passes a few commands and sees them arrive; that none is lost, repeated or reordered between any other messages is a statement about all histories.", "anchors": ["runtime/src/driver.rs:receive_message", "runtime/src/driver.rs:process_deliver_app_message"]}
{"id": "C114", "title": "Replicated data changes only as clients ask", "statement": "What a replica's application asks to replicate, and what the replica proposes, stems from the commands its host passed: in their order, at most one event for each command, with the command's correlation id. So, consensus committing only what was proposed, every event any replica of a cluster applies stems from a command that a host passed to some replica, and it is treated as their own exactly by replicas with the id of that one. For the counters the event is the request in the command without its context; for the tablet store the payload of the command; for the decryptor the generation of a key under the id the command names or the use of the key the command names. In particular each counter of each replica has its configured value or one that a client asked to write to it. Each tablet of each tablet store is as the founder set it up or as in an update of it a client asked for. And each key a decryptor holds was generated for an id that a client asked a key for.", "quantifier": "every sequence of calls with any messages, every consensus and session library, every number of replicas, every log", "why_tests_cant": "A test shows that a command leads to a change; that no change ever comes from anything else, on any replica, is a statement about all histories of a cluster.", "anchors": ["runtime/src/driver.rs:receive_message", "runtime/src/driver.rs:process_deliver_app_message", "runtime/src/driver.rs:process_actor_raft_proposals", "apps/atomic_counter/service/src/actor.rs:on_process_command", "apps/willow/decryptor/actor/src/actor.rs:on_process_command"]}
{"id": "C115", "title": "An eventual result is what its source set, once and for all", "statement": "The tablet cache hands out results that become known later: a handle to ask with and a source to set. A handle tells a value exactly if its own source was set to that value, an error exactly if its own source was set to that error, and nothing exactly until its source is set. A handle created from an error always tells that error. A source is set at most once, whether to a value or to an error: setting it again ends the process, setting it for the first time does not. What a handle told it tells ever after, whatever happens to other results. No two creations return the same handle or source.", "quantifier": "every type of values and errors, every number of results, every sequence of creations and settings in any order", "why_tests_cant": "Results share their state between two owners; that no sequence of calls on any number of results makes one show through another, or change after it was told, is a statement about all interleavings.", "anchors": ["apps/tablet_cache/service/src/transaction/result.rs:create_eventual_result", "apps/tablet_cache/service/src/transaction/result.rs:create_result_from_error", "apps/tablet_cache/service/src/transaction/result.rs:check_result", "apps/tablet_cache/service/src/transaction/result.rs:set_result", "apps/tablet_cache/service/src/transaction/result.rs:set_error"]}
