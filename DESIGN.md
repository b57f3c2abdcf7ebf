# Formal model of the Trusted Computations Platform in Lean 4

Source under verification: `/repo` (google-parfait/trusted-computations-platform, Rust).
Nothing from `/repo` is built or run; it is read as text, and every definition of the
model cites the file and lines it was read from.

## Layout

| directory | contents |
|---|---|
| `lean/Verif/Lib/` | tiny libraries: `Run` (return or panic), `AMap` (association lists), `SMap` (sorted maps), `Codec` (encodings for examples), `ListExtra` |
| `lean/Verif/Model/` | the executable model, one file per Rust file; no theorems about properties |
| `lean/Verif/Spec/` | small specifications, written without reference to the model's helpers |
| `lean/Verif/Proofs/` | helper lemmas and invariants |
| `lean/Verif/Props/` | the property theorems `C01_…`, `C02_…`, … with their non-vacuity examples |
| `properties.jsonl` | the English properties |
| `MANIFEST.json` | property → theorem names and status |
| `seeded/LOG.jsonl` | log of seeded-bug experiments |
| `AXIOMS.md` | the axioms each property theorem depends on, as printed by Lean |

### Reading `seeded/LOG.jsonl`

An experiment rebuilds an edited model with every proof that no longer checks replaced by `sorry`. The examples beside the theorems are left out of the verdict.

* `proofs_broken` lists the theorems and lemmas whose own proof no longer checks.
* `theorems_failed` lists the property theorems that are no longer proved: their own proof is broken, or they rest on a lemma whose proof is.
* In about two thirds of the experiments no property theorem of the property in question is in `proofs_broken`; it fails only through a lemma.
  Such an entry shows that the edit is noticed. It does not by itself show that the statement of the theorem has become false: a lemma may state more than
  the theorem needs, or its proof may merely no longer fit the edited text. Where one early lemma breaks, `theorems_failed` also names theorems
  about unrelated claims.
* An entry without a `note` and with an empty `properties` was expected to break nothing.
* `proofs_broken` does not name `private` lemmas: the script looks for names under `TCP`. A few entries about snapshots with theorems in `theorems_failed`
  therefore have an empty `proofs_broken`.

## Modelling conventions

* `&mut self` methods become functions returning the new state. `Result`/`Option` stay data.
* A Rust panic (`panic!`, `unwrap` on `None`/`Err`, slice out of bounds, `assert!`, `todo!`,
  division by zero) is the explicit value `Run.panic`; it is never totalised away.
* `u64`/`u32`/`usize` counters are `Nat` unless a property is about wrap-around
  (hash ring arithmetic is bounded by an explicit `u32` bound). Overflow of 64-bit counters
  is outside the model.
* A `HashMap` is an association list with unique keys. Iteration order of a `HashMap` is the list order;
  theorems quantify over every such list, hence over every iteration order.
* A `BTreeMap` is a strictly sorted association list.
* Protobuf encoding/decoding is a parameter (an abstract `decode`) or elided (messages are
  already structured values); logging is elided.
* Cryptography (Oak sessions, Willow), raft-rs, the allocator and the host are parameters with explicitly stated contracts.

## Trusted base

* The Lean 4.33.0 kernel. No theorem uses `sorry`, `native_decide`, `bv_decide` or an axiom of ours. Every property
  theorem depends on a subset of `propext`, `Classical.choice`, `Quot.sound`; `AXIOMS.md` lists the subset for each.
* The reading of the Rust source recorded in the model's comments.
* External components are parameters. Most theorems hold for every behaviour of them; where a contract is needed it
  is an explicit hypothesis of the theorem, defined in `Spec/`.

### What is modelled

| model | code | parameters |
|---|---|---|
| `Model/Storage` | `runtime/src/storage.rs`, `util.rs`: the whole `MemoryStorageCore` | raft-rs' `limit_size` (contract: keeps a prefix, at least one entry) |
| `Model/Snapshot` | `runtime/src/snapshot.rs`: sender, receiver, processor | encoding of the metadata |
| `Model/Comm` | `runtime/src/communication.rs` | handshake sessions and encryptors, arbitrary state machines |
| `Model/Handshake` | `runtime/src/handshake.rs`, `encryptor.rs`; of `session.rs` the choice of the verifier | the Oak session library |
| `Model/Attest`, `Model/Sessions` | reference values; `runtime/src/session.rs`, the session provider of `handshake.rs` | the Oak session library, the sources of evidence |
| `Model/Driver` | `runtime/src/driver.rs`: every function of `DriverState`, the message dispatch, the ready loop | actor, raft-rs with its store, communication module, encodings |
| `Model/Replica` | `runtime/src/consensus.rs` (`RaftSimple`), the composition and the calls of `service.rs` | raft-rs `RawNode`, session provider, hash map order |
| `Model/Service` | `runtime/src/service.rs`: `TonicApplicationService` (concurrent calls, driver thread) | tokio channels (documented behaviour), the driver |
| `Model/Shutdown` | `runtime/src/service.rs`: `Drop` | as above |
| `Model/Clock` | `runtime/src/driver.rs`: `DefaultClock` | |
| `Model/Actor` | `runtime/src/model.rs`: the actor interface | |
| `Model/Counter` | `apps/atomic_counter/service/src/actor.rs` | encodings |
| `Model/Willow` | `apps/willow/decryptor/actor/src/actor.rs` | encodings, cryptography, randomness |
| `Model/TabletStore` | `apps/tablet_store/service/src/actor.rs` | encodings, random tablet ids, overflow checks on/off |
| `Model/CacheMetadata` | `apps/tablet_cache/service/src/transaction/metadata.rs` | |
| `Model/CacheData` | `…/transaction/data.rs` | serializer, hash, uri format, eviction policy |
| `Model/CacheCoordinator` | `…/transaction/coordinator.rs`, `manager.rs`, `result.rs`, `transaction.rs` | process handlers |
| `Model/EventualResult` | `…/transaction/result.rs` on its own | types of values and errors |
| `Model/Log` | `runtime/src/logger.rs`, `driver.rs` (`stash_log_entries`) | texts made by `Debug`, what is logged |
| `Model/CacheStore` | `apps/tablet_cache/service/src/store.rs`, `actor.rs`, `app/src/main.rs` (initial state) | hash of keys, encodings |

### What is not modelled

* raft-rs itself: the driver's theorems hold for every consensus behaviour, or under the assumptions on delivered logs
  written out in `Spec/DriverLog.lean` (`Follows`, `Cluster`).
* Cryptography, attestation verification, Oak sessions; protobuf encodings; what components other than the
  log store write to the log; metrics; memory allocation.
* `runtime/src/platform.rs`, the gRPC transport of `service.rs`, the binaries' `main.rs` and the build scripts: transport and
  start-up of the host process. Mocks, tests and the integration harness.
* Overflow of 64-bit counters; floating point rounding of the progress fraction (exact fractions instead).

## Plan per property

| id | modelled | proof method |
|---|---|---|
| C01–C07 | `runtime/src/storage.rs`, `util.rs` (whole `MemoryStorageCore`) | invariant over all op sequences; refinement of reads/appends to an abstract index → entry function; C06 expected false: witness + partial |
| C08–C14 | `runtime/src/snapshot.rs` (sender, receiver, processor) | round-trip law for chunking; invariant over delivery sequences for the receiver; sender invariant over op sequences (pending+sent accounting); C10 expected false: witness + partial |
| C15–C19 | `runtime/src/communication.rs` | handshake session and encryptor are parameters; invariants and frame lemmas over op sequences |
| C20–C21 | `runtime/src/handshake.rs`, `encryptor.rs` | state machine over an abstract Oak session; composition of two peers over an ideal channel |
| C22–C31 | `runtime/src/driver.rs`, parts of `consensus.rs`, `model.rs` | driver state machine parameterised by the actor and the consensus core (its `Ready` records are inputs); induction over calls; C27, C28, C30 expected (partly) false: witness + partial |
| C32–C35 | `apps/atomic_counter/service/src/actor.rs` | refinement to `name → value`; C33, C34 expected false in general: witness + partial |
| C36–C39 | `apps/willow/decryptor/actor/src/actor.rs` | crypto is a parameter; invariants over command/event histories; C37, C38 expected false under pipelining: witness + partial; `C36_kept_sequential`: the keys generated after one are at most as many as the generations since, so it is not the oldest of a full store |
| C40–C45 | `apps/tablet_store/service/src/actor.rs` | equational characterisation of transactions, ring specification for listing; C42, C45 expected false: witness + partial |
| C46–C49 | `apps/tablet_cache/service/src/transaction/metadata.rs` | ring arithmetic; loop invariants; C47, C48, C49 expected false: witness + partial |
| C50–C53 | `…/transaction/data.rs`, `coordinator.rs`, `result.rs`, `manager.rs` | state machine invariants; C51, C52, C53 expected false: witness + partial |
| C54–C55 | `…/store.rs`, `actor.rs` | refinement to a sequential map; C55 expected false: witness + partial; potential argument for "at most once"; simulation of the manager for "only after commit"; `C55_gets_fails`: without puts the handlers do what handlers that never write do, and such transactions are stuck (C52) |
| C56–C57 | `communication.rs`, `handshake.rs` | absence of `Run.panic` over all histories; two peers composed; both expected false: witness + partial |
| C64–C65 | `runtime/src/snapshot.rs` sender and receiver | exact description of one answer; receiver run from an idle state tied to a finished sender history; invariant on snapshot ids over histories |
| C58 | `session.rs` (choice of the verifier) | case analysis |
| C59 | `apps/willow/decryptor/actor/src/actor.rs` | case analysis per command; expected false: witness + partial |
| C60–C61 | `apps/tablet_store/service/src/actor.rs` | decision table; replicas compared along one log |
| C62–C63 | `…/transaction/manager.rs`, `coordinator.rs` | invariants tying outstanding requests to transactions; coverage of resolved tablets; both expected false: witness + partial |
| C66–C70 | a whole replica: `driver.rs`, `consensus.rs` (`RaftSimple`), `storage.rs`, `communication.rs`, `snapshot.rs`, `service.rs` composed; raft-rs `RawNode`, handshake, cipher and actor are parameters | one invariant per property preserved by every leaf operation of the driver (`Leaves`), lifted to all calls; C67, C68 expected partly false: witness + partial |
| C71 | `driver.rs` (`apply_raft_committed_entries`, `restore_raft_snapshot`, `maybe_create_raft_snapshot`, `stash_leader_state`) | members as a fold over the driver's interactions (`membersOf`); an invariant along the trace preserved by every leaf operation |
| C72–C74 | `service.rs` (`TonicApplicationService`) | concurrent calls, one-slot channel, driver thread and one-shot channels as a transition system with all interleavings; invariant, well-founded measure; C73 expected false: witness + partial |
| C75 | `driver.rs` composed with any actor, any number of replicas | cluster histories (`Deployed`); invariant: every actor is an `ActorSpec.Replica` (and, once joined, `Member`) for the events of the log up to its applied index; saved snapshots carry that state; hypotheses about consensus: one log, delivered in order, snapshots installed were saved by a replica, one founder |
| C76–C78 | the counter, willow and tablet store actors on such clusters | the theorems about each actor (C31–C45, C60–C61) applied at every replica by C75; real time from "consensus commits only what was proposed" (`Causal`) |
| C79 | `communication.rs`, `handshake.rs`; two ends of a session and a host that makes any call on either with any message | counting invariant: contents opened are distinct payloads of the other end, payloads made are contents given; sessions by contract (`Ideal`), no forgery as a restriction of the host; relabelling expected to go unnoticed: two refutations for every session library |
| C80–C81 | `logger.rs` (`create_log_message`, drain), `driver.rs` (`stash_log_entries`); what components log during a call is a parameter, except the lines of the log store | induction over calls with any result; C81 expected false: witnesses for entries, snapshots and a private key of willow, plus partial
| C82 | `…/transaction/metadata.rs`: whole resolve requests | invariant per request along a history: parts waited for ↔ regions listing the request, results collected = results of the parts done; ghost-free, moments of the history as witnesses; lost messages and two queries in one region expected to break it: witness + partial
| C83–C84 | `…/transaction/coordinator.rs`, `data.rs`, `metadata.rs` together | handler calls observed by replacing the handler (no trace in the model); the manager's history projected to a metadata-cache history (C82) and a data-cache history (C50); per process request an invariant from resolution to completed store; expected false where tablets share a uri or a load completes early: witnesses + partial |
| C85 | the manager (C83–C84) together with the tablet store (C41–C44) | a log of requests applied by the store, from any clients, and the hypothesis that responses come from it; provenance invariant: every metadata in the cache was in the store at some moment of the log; the version check at commit then identifies that moment with the place of the commit; expected false for refused commits and double updates: witnesses + partial |
| C86–C87 | `…/transaction/data.rs` (`format_blob_uri`, `store_tablets`), the default policy that evicts nothing | uri format with base64 written out (the base64 crate is modelled, the hash is a parameter), injectivity; invariant: every write request names the hash of its bytes, and with the default policy every written uri stays in the cache; C87 expected false: for every history, and witnesses for managers |
| C88 | any number of managers (C83–C86), one tablet store, one storage | `Spec.Deployment`: the histories of the managers, the log of the store, a storage that returns what some manager stored (and a fixed blank for the empty uri of new tablets); every metadata in the store is new or was written by a manager, so C86 names its contents; induction over the log, with C85 for each transaction |
| C89 | the manager (C83) with the uris of the code (C86) | from the load of a process request to the storage's answer for its first tablet; expected false for new tablets: for every history |
| C90 | C88 on a cluster of drivers that run the tablet store (C75, C78) | the tables of every replica are, table by table, those of one store after a prefix of the replicated log, and each response sent is that store's (`C90_store`); hence `Spec.Deployment` holds with that log; a commit's place is the first successful entry with its correlation id, and C75's real-time order of entries orders places |
| C91 | the services of all replicas (C72) in front of a cluster (C75), one global history of calls and answers | commands the driver hands to the application come from calls, answers returned are messages it sent (C72 and traces); every prefix of the history was the whole history at some moment (`served_cut`), so C75's real-time order of entries becomes one of calls; the least index with that reply is the position |
| C92 | C91's services in front of willow decryptors | the core of C91 for answers that are no errors (events without a kind are answered with an error by every replica); key requests answered at once are reads of the key current after a prefix of the log (C38); at one service the prefix only grows; witness for two services: the second replica takes over, the first does not know yet |
| C93 | two replicas' whole systems (driver, channel layer, snapshot sender and receiver) with the messages between them | what the sender's channel layer was given for a replica is, per transfer, the pieces of one snapshot its consensus wanted sent (invariant over all driver calls); what the receiver holds was passed up in between (invariant); if what is passed up does not mix transfers the pieces put together are the snapshot; channels that keep order and refuse nothing do not mix; a cluster (`Networked`) whose snapshots travel like this is a `Deployed` one, where every installed snapshot was made by an application; witness: one message overtakes two others |
| C94 | two replicas' channel layers (`Module`) with the data messages between them | invariants over all calls: a completed channel stays completed for everything but handshake messages, an idle channel stays idle for ticks and data messages, so nothing crosses (`C94_cut_fails`); induction over attempts for crossing openings (`C94_crossing_fails`); a state that is not completed and has been quiet for the longer timer is `unknown`, from which the opening of C21 goes through (`C94_reopens_partial`) |
| C95 | the whole replica (`serve`): driver, snapshot processor, channels, with any application and consensus that keep the contracts of `Spec/Survive` | invariant over all calls, method by method: every method of the driver goes through and keeps its parts in order; the contracts of the counter, tablet store and decryptor are proved; the calls that do end the process are the `_fails` theorems |
| C96 | the whole replica over the shipped consensus layer (`sys`): RaftSimple and the in-memory log store are the modelled code, raft-rs' `RawNode` is a parameter with the contracts `NodeContract` and `NodeSafe` | the promises C95 asks of consensus are derived: an invariant ties the store to the applied index and members (`LogOk`), and every operation of the store on what the node hands out succeeds and keeps it; C95 then applies |
| C97 | driver, with any consensus layer and any application that answers a command at once or through one event (`Responds`, shown for the counter, the tablet store and the decryptor) | every interaction with the application balances answers and requested events against commands and own events; requested events are the proposals and own events the own entries delivered (C22, C23), so counting per correlation id leaves exactly the proposals not handed back; for a skipped entry: nothing at or below the applied index is applied later |
| C98 | `session.rs` (`DefaultOakSessionFactory`, both `create`), `handshake.rs` (provider), `Actor::get_reference_values` and `get_clock_override`, the part of `process_start_replica` that hands them and the endorsements over; Oak's library is a parameter (`Lib`) with the contract `Attests`; reference values are told apart as far as session.rs and the applications look at them | invariant over all calls of the driver: a replica with a number has a verifier, every session in the record of the channel layer was created with it; established channels (C66, C67) come from such sessions |
| C99 | The replica of C22 and C69 (driver, log store) with processes that the host starts; a specification of what one counter can have answered (`Spec/Rollback`) | `C99_forward_partial`: from the history invariant of C22, for every sequence of calls; `C99_identity_fails`: what any first start request does, for every application and consensus; `C99_restart_fails`: a witness with the counter over the real log store.  Missing: protection across processes, which the code does not give |
| C100 | The replica of C69 with the shipped consensus layer and log store; raft-rs' node is a parameter that uses its store only through the `raft::Storage` trait (`NodeContract`) and not at all when it is told how a snapshot transfer ended (`Quiet`) | `C100_snapshot_recent`, `C100_requests_served`: an invariant over all sequences of calls, shown from the end of each call: the last thing that can move the applied index, the members or the store is followed by the check for a snapshot, and a snapshot that was taken leaves nothing due; the count comes from the start request by a second invariant.  `C100_log_short`: with C01 for consecutive entries |
| C101 | The replica of C69 with the shipped channel layer; what the channel layer was told about the members is read off the trace, what it took for genuine off its log | `C101_leader_partial`, `C101_reported_partial`: the call is cut at the point where the leader's state is compared; the change of the members closes the channels, and only snapshot sending comes after it, which opens channels only with receivers of transfers; with C68 (when a leader reports) and C71 (who the members are).  `C101_cut_off`: induction over the log of the channel layer.  `C101_follower_fails`: an invariant over the leaf operations of a call.  The other failures by running a small replica |
| C102 | The key-value store of C54–C55 on the transaction manager of C88, any number of them, with the tablet store of C41–C45 as the log of the requests it applied | `C102_map_partial`: every history of a store is a history of its manager (`KMan`), with the point at which each response was computed, by which handler call, and the commit and the successful check that followed; requests with updates are those of commits (`CacheRequests`); answers name for every hash the tablet responsible for it, since that is what the tablet store lists (C42) and how the cache splits and merges lists (`CacheOwn`, `KvOwn`); then C88 for the managers gives the contents of the tablet before and after the moment of the commit, and C54's account of a batch what was answered and written; conversely every update in the log comes from a handler call on requests the store accepted (C84, with handlers that panic in any other state, `KvGuard`). `C102_one_map_partial`: the dictionaries of the tablets make up one map per table, since every key has one responsible tablet. In both the moment of a response is that of a request the store sent after it had accepted what it answers, and got the response to before it gave its own; so answers are not older than the requests, and answers of different stores are in real-time order. `C102_rejected_fails`: five concrete stores run by the model, one log; `one_map_keeps` (one map never forgets a key) refutes the map |
| C103 | The stores of C102 on the replicated tablet store of C90, with a network between them | `C103_realtime_partial`: C90's account of a replicated tablet store gives one log to which C102 applies; the place of a response is that of the request C102 names for it; that request had been answered by a replica when the store responded, so it was applied by then, and it was sent after what it answers had been accepted, so at an earlier moment no replica had been handed it and none had applied it (C75). `KvClusterExample`: two stores on two replicas, one of which joins by a snapshot |
| C104 | As C102 | `C104_once_partial`: a transaction holds the requests of its tablets' queries only once they left the queue (`Counted`: accepted = waiting + held by running transactions + handled by finished ones, as counts per request and transaction); one handler state per transaction is what its commit writes; a transaction's commit takes effect at one position of the log at most, because the version it names is then gone; so the counts over the log add up to no more than what was accepted. Also a clause of `C103_realtime_partial` |
| C105 | As C52–C55: coordinator, both caches, manager, store | `C105_distinct`, `C105_takes` for any client of a manager, `C105_shipped` for the store with the counters of main.rs: every function appends to the outgoing requests exactly the ids that follow its counter (`Num`), so all ids ever used are three ranges (`NumberedAll`), which do not meet while fewer requests are made than fit between the counters; the manager remembers errors only for ids it has sent. `C105_requests`, `C105_matching` and `C105_network` use this to replace the assumptions of C102–C104 about ids by ones about the network alone (`KvWire`) |
| C106 | As C52–C55: coordinator, both caches, manager, store | `C106_transactions`, `C106_requests`: an invariant of all histories (`Mem`) relates each table to the events: the keys of the table of transactions are those started, not aborted and not reported; entries of the tables of requests appear with the request and go with its answer. `C106_resolutions_fails`: every history has a record of every resolution made (`Rec`: the records are those of all ids up to the counter), answered or not. `C106_queries_fails`: no step of a store removes an entry for a query (`KeepsAll`) |
| C107 | `Drop` of the service: the thread drains the channel, `drop` waits for it; the place of the drop is a parameter | `C107_shutdown_partial`: an equivalence, from the invariant of C72 (what is pending belongs to a waiting or a cancelled call); `C107_clean`: nothing is lost then; `C107_container_fails`, `C107_cancel_fails`: witnesses |
| C108 | `DefaultClock` of the driver: the driver's instant cast to a signed 64-bit number | `C108_latest_partial`, `C108_monotone_partial`: induction over calls with their readings (`Timed`), from C25; `C108_wrap_fails`, `C108_ahead_fails`, `C108_ticks_fails`: for every state and all that follows |
| C109 | as C25: the driver, with ticks in its trace | `C109_no_ticks`: every elementary step of the driver (`Atom`) keeps the mode and, in it, adds no tick; `C109_leader_fails`: witness |
| C110 | as C22 and C29: the driver with its trace | `C110_one_report`, `C110_only_reports`: which functions of the driver send reports; `C110_true`: with C22, the reported index is the position in the log; `C110_grows`: the position only advances; `C110_size`: for the shipped store, the reported size is that of the snapshot peers are given |
| C111 | as C40 and C61: the tablet store and its clusters; contract: a draw has as many ids as asked for, all different | `C111_owner`: existence and uniqueness on every ring; `C111_listed`: with C40 and C43; `C111_members`: no event adds or removes a tablet, with C61; `C111_count`, `C111_configured_partial`: induction over the configured tables |
| C112 | as C22 and C29: the driver with its trace; the messages passed by the host; contract for clusters: consensus commits only proposed changes | `C112_asked`: what each function of the driver proposes, induction over the calls; `C112_cluster`: with the contract |
| C113 | as C22 and C112: the driver with its trace; the messages passed by the host | `C113_handed`: what each function of the driver hands over, the lifecycle of the driver, induction over successful calls; `C113_never_more`: induction over all calls |
| C114 | as C22, C23 and C113; the three shipped replicated applications; contract for clusters: consensus delivers one log and commits only what was proposed | `C114_events`: C113 and what each recorded call of the application returned; `C114_proposals`, `C114_cluster`: with C23; `C114_counter`, `C114_tablets`, `C114_keys`: case analysis of `on_process_command`; `C114_values`: with C75 and C76, induction over the events; `C114_metadata`: with C78, in the same way; `C114_held`: with C77 |
| C115 | `…/transaction/result.rs`: cells, handles and sources (`Model/EventualResult`) | an invariant ties every cell to the calls of the history; induction over histories |

## Findings (code disagrees with the property)

Each is a theorem, by name; the partial theorems of the same property say what does hold.

Runtime
* C04, C06: the entry at the snapshot index stays in the log store and an append may replace it
  (`C04_term_agrees_fails_for_rewritten_snapshot_entry`, `C06_covered_entries_immutable_fails`).
* C10: chunks are not matched against the id of the snapshot being received; a late chunk of the previous transfer is
  mixed into the new one.
* C64: a duplicated header discards acknowledged chunks, so a transfer reported as finished may never be received.
* C79: kind, delivery id and recipient of a message between replicas are not protected by the encryption
  (`C79_envelope_fails`), and nothing ties a session to the id of the replica at its other end: the host can pass one
  replica off as another (`C79_identity_fails`).
* C81: the binaries are started without a logger of their own, so the log goes to the host in the clear, and in builds
  with debug output the log store prints every entry it appends and every snapshot it installs
  (`C81_entries_fails`, `C81_snapshots_fails`); with willow the host reads private keys from it (`C81_key_fails`).
  `log::set_max_level(Warn)` in the binaries configures another logging crate. Builds with `slog` compiled for `info`
  do not print these lines (`C81_severe_partial`).
* C16: a message that has to open a channel whose session cannot produce its first message is accepted and lost.
* C26: before the start request an application message, or a call without message, crashes the replica; a stopped
  replica drops application messages without an error.
* C27: a stopped replica keeps applying committed entries to the actor it has shut down.
* C28: a message addressed to another replica is stepped into consensus.
* C30: a CheckCluster request is not answered while the consensus state is the initial one (no leader known).
* C67: the sender a consensus message names is not compared with the replica whose session it came over (the code logs a
  warning and goes on), so any member can speak for another one (`C67_sender_fails`).
* C68: a replica that does not lead never answers a CheckCluster request (`C68_silent_fails`); the consensus state is
  filled in by the leader only.
* C70 holds, but only because messages leave at the end of a call and the service ends on an error: the driver hands the
  messages of a batch to the channels before it stores the entries of that batch.
* C73: a client that goes away while its request is handled stops the replica for all clients: the driver thread panics
  when nobody waits for the response (`C73_cancel_fails`).
* C56: a data message without payload, from a peer whose channel is established, crashes the replica.
* C57: crossing opening requests fail the channel on both sides, for every session library.

Applications
* C33: a failed compare-and-swap answers new value 0. C34: loading a snapshot merges instead of replacing.
* C36: keys requested before the previous one was applied get equal generation orders, so a younger key may be
  evicted before an older one (`C36_pipelined_ties`); all replicas evict the same one.
* C37, C38: pipelined commands of the willow decryptor may decrypt twice or hand out a superseded key.
* C92: a replica that was deposed and does not know yet answers a key request from its own state, without the log: clients get a key
  after the decryption with it, and the next key for the same id, were given to others (`C92_stale_fails`).
* C41: without overflow checks a version falls from `u32::MAX` to 0. C42: two updates of one tablet in one transaction.
* C43: the upper bound of a listing is documented exclusive and treated inclusive. C45: Add and Remove reach `todo!()`.
* C44: a refused snapshot may leave earlier tables replaced.
* C59: an undecodable header stops the willow node; a malformed decryption request panics.

Tablet cache
* C47: the last hash of the ring never has a region, for every region size; a query for it crashes.
* C82: a region is asked for once; if the message or its response is lost, the requests waiting for it are never answered
  (`C82_silent_fails`). A request with a handler and two queries in the same region calls the handler twice and loses the
  hashes of the first query (`C82_twice_fails`).
* C48: hashes after the last boundary of a region are dropped from every result; empty listings crash; two queries of one
  request for one region not yet cached crash.
* C49: metadata of rejected transactions stays in the cache.
* C50: a load whose first tablet is cached completes with that tablet alone; tablets with the same uri (all new ones have
  the empty uri) share one entry. C51: blobs are not compared with the committed hash or size.
* C83: when the first tablet of a process request is cached, the handler is called without the contents of the others
  (`C83_missing_fails`). Once one new tablet is cached, a transaction on another new tablet crashes the manager, because both
  have the empty uri (`C83_new_tablets_fails`).
- C85: transactions are not serializable in general. When the tablet store refuses a commit, it still answers the ops that by
  themselves would have been possible as succeeded, and the manager takes the metadata of those for committed
  (`coordinator.rs:582-588`). Listing the tablet again does not repair this, since its version is not newer. The next transaction
  is given the contents of the refused one, and succeeds if another client has meanwhile raised the version by one, overwriting
  what that client committed (`C85_dirty_read_fails`). If two handlers of one transaction set the same tablet, both updates are
  accepted and the first is lost (`C85_lost_update_fails`); the manager's cache then keeps the lost metadata and later
  transactions of that manager read it, and succeed (`C85_stale_read_fails`).
- C87: writing contents the cache has written before for the same tablet and version crashes the manager
  (`data.rs:432-465`, "Cache entry with given cache id already exists"), and the default policy never evicts. So two transactions
  in progress that write the same thing (`C87_concurrent_fails`), or one that is repeated after an abort, crash it
  (`C87_again_fails`, every history). A refused transaction that is repeated is refused again although no other client writes any more,
  because the manager keeps the versions of the refused one, and when repeated once more it crashes (`C87_retry_fails`).
- C89: a new tablet has the empty uri, and the cache asks the storage to load that uri (`data.rs:371-416`). Unless the host answers the
  empty uri with contents, no handler is called for a request whose first tablet is new, in any history (`C89_new_fails`); the
  transaction stays pending. So the first write to a tablet depends on the host inventing contents for it, and the contents
  given to the handler for any new tablet are the host's choice (C88 assumes a fixed answer).
- C93: the receiver of a snapshot compares the sender of a chunk with the sender of the header but not the snapshot ids
  (`snapshot.rs:770-786`), and the channels decrypt messages out of order within a window of 3 (`session.rs:50,313-326`). If a
  chunk of the next transfer overtakes the rest of the current one, the replica installs a snapshot made of parts of both, which
  no replica ever made, and its application continues from there (`C93_order_fails`). Nothing is lost or forged in that run. The test
  `test_snapshot_receiver_rejected_wrong_snapshot` does not cover this: the chunk in it is refused for its size.
- C94: a replica that takes a channel for open never learns that the other side lost it. After a restart under the same id, or after the host
  hands the other side one handshake message of any content, every message the first sends is accepted for sending, encrypted and
  then dropped at the other side (`C94_cut_fails`). Data for a channel that is not open sets it to failed and is answered with nothing, and the
  completed side has no timer. A restarted follower does not speak on its own (it has no configuration), so only an action from outside
  ends this. Two sides that open a channel at the same moment both fail, wait the same time and, if they again open at the same moment, fail
  again, without end (`C94_crossing_fails`); nothing randomizes the wait.
* C95: any client ends a replica of the decryptor or of the tablet cache with a command that does not decode (`C95_undecodable_fails`,
  `C95_cache_undecodable_fails`): their `on_process_command` returns an error for it (apps/willow/decryptor/actor/src/actor.rs:405-412,
  apps/tablet_cache/service/src/actor.rs:129-136), the driver passes it on and service.rs panics.  The counter and the tablet store answer
  such commands instead.
* C95: a leader that is removed from the cluster ends its process with the next command: raft-rs drops its proposal and driver.rs:385-389
  unwraps the result (`C95_dropped_fails`).
* C95: an authentic replica ends another one with a consensus message raft-rs refuses (`C95_refused_fails`, driver.rs:339-383) or with a
  snapshot header that announces contents and carries none (`C95_header_fails`, snapshot.rs:339-345 divides by the length of the first chunk).
* C97: a client is never answered if the replica that proposed its command gets the committed entry inside a snapshot
  (`C97_skipped_fails`): restore_raft_snapshot (driver.rs:544-568) hands the state to the application, which learns nothing of the commands it
  covers, and the driver keeps no list of commands waiting for an answer.  The same holds for proposals consensus loses when leadership
  changes: nothing reports them back.
* C98: attestation protects nothing in the applications as they are (`C98_shipped_fails`): the counter, the decryptor, the tablet store and
  the tablet cache, and the container builds of the first two, give reference values with an insecure root and `Skip` everywhere, so the
  check they ask for accepts evidence of any software on no particular hardware.  Certificates are compared with the time the host tells.
* C99: `docs/key_value_store.md` promises rollback and forking protection, but nothing outlives a process: the log and the vote are kept in `MemoryStorage` only, `initialize_driver` (driver.rs:735-738) takes the id the host asks for (which `endpoint.proto` allows for tests only; no id is ever generated, so without a hint it is 0), and `is_leader` makes the replica found a new cluster at index 1 with the initial state.  A host that starts a second process with the same request, later or at the same time, gets a second cluster with the same attested identity that answers clients from the initial state (`C99_identity_fails`, `C99_restart_fails`).  Protection holds only while processes keep running and clients know which cluster they talk to.
* C98: `DefaultClock` (driver.rs:137-151) reads the `instant` the host sends with a message as Unix milliseconds to check attestation evidence, although `endpoint.proto` says an instant must not be interpreted as wall clock time; so the host chooses the time at which evidence is checked unless the application overrides the clock.
* C100: the limit is on entries that were applied.  Entries that are stored but not committed are not limited by this code (only by raft-rs' configuration), and a request for a snapshot of a replica that never becomes a member is remembered forever (one per replica id).  `snapshot_index + max_snapshot_diff` (storage.rs:246) is computed in 64 bits from a number the host chooses; the model computes it exactly, so a snapshot count close to 2^64 is outside of what was proved.
* C101: `process_cluster_change` (communication.rs:292-309) is called only when the state reported to the host changed (driver.rs:682-705), and that state is the default for every replica that does not lead (consensus.rs:261-279).  So followers never close the channel with a removed member and go on handing its messages to consensus.  A leader closes it, but a handshake message from the removed member opens a new one (channels are made on demand for any attested peer, membership is never checked), and the snapshot sender does not cancel a transfer to a removed member (snapshot.rs:268-317), so the leader itself may open a new channel in the same call.
* C102: that the stores answer as one map needs what C83, C63 and C85 show to fail in general: the tablets of an answer must differ in id or version, at most one new tablet may be known to a store (`orderly`), and a rejected request must have no op that could have been carried out by itself (`rejected`).
  The last one is really needed (`C102_rejected_fails`): a commit that updates one tablet and checks another is rejected because of the check; the op result of
  the update is "succeeded", so the store takes its own rejected contents for those of the new version (C85), and its next commit writes
  them, with the next version, over what another store committed meanwhile. An acknowledged put of that other store is gone: a third store, all of whose requests
  are applied later, does not find the key.
* C52: transactions that only read, that have a failed process request, or that have no ops never report an outcome.
* C53: ops and results are zipped without comparing lengths. C62: a communication error crashes the manager.
* C63: tablets are tracked by id and version only, so tablets of two tables collide.
* C55: the actor never makes the manager progress, so it never sends or answers anything (`C55_silent_fails`, every
  configuration and history). Below that: requests of a rejected transaction are dropped, a batch spanning tablets leaves
  requests behind, a request for a region already known crashes the store (`RefCell` borrowed twice), as does
  `min_pending_before_resolve = 0`. A store that accepts only gets never answers, whoever drives it (`C55_gets_fails`): its
  transactions write nothing, so they never complete (`C52_read_only_fails`).
* C106: memory grows with every request. The metadata cache never removes the record of a resolution
  (`C106_resolutions_fails`), and a key-value store keeps an empty entry for every query (`C106_queries_fails`).
* C107: `Drop` of the service blocks on the runtime, which panics inside a task; both containers drop it inside their `main` task
  (`C107_container_fails`). On any other thread, a request of a client that went away makes it panic (`C107_cancel_fails`).
* C108: the time evidence is checked against is the untrusted host's; a reading of 2^63 ms or more turns it back to before 1970 for
  good (`C108_wrap_fails`), a reading that is ahead is never corrected (`C108_ahead_fails`), and a tick at the largest instant is the last
  (`C108_ticks_fails`).
* C109: entering lameduck mode is not told to consensus; a leader, for instance of a cluster of one, leads on and serves commands
  (`C109_leader_fails`).
* C111: a table may be configured with no tablets; it exists and no tablet is ever responsible for any of its keys
  (`C111_empty_fails`).
