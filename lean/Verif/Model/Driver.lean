import Verif.Lib.Run
import Verif.Model.Actor
import Verif.Model.Snapshot
import Verif.Model.Comm
import Verif.Spec.Actor

/-!
# Model of `runtime/src/driver.rs`: the replica driver

The driver is generic over the actor, the consensus layer with its store, and the communication module, as in the code;
each is a record of functions (`Actor`, `RaftT`, `CommT`), any of which may panic.  The snapshot processor is the default
one (`Model/Snapshot`), the only one the binaries use.

Simplifications: loggers and log messages are dropped, the protobuf encodings are the parameters `Codecs`, `u64` is `Nat`,
the clock given to the communication module and the reference values are dropped.

`Driver.trace` is a ghost: it records, in order, the calls the driver makes on its components with their answers and the messages it
stashes for the host.  No function reads it.
-/

namespace TCP.Drv

open TCP

/-- platform.rs:44-50 `PalError`. -/
inductive PalErr where
  | internal
  | invalidOperation
  | raft
  | actor
deriving Repr, DecidableEq

/-! ## The consensus interface (consensus.rs) -/

/-- consensus.rs:73-79 `RaftState`. -/
structure RaftState where
  leaderId : Nat
  leaderTerm : Nat
  cluster : List Nat
  pending : Bool
deriving Repr, DecidableEq

/-- consensus.rs:81-87 `RaftState::new`. -/
def RaftState.new : RaftState := ⟨0, 0, [], false⟩

/-- `eraftpb::EntryType`. -/
inductive EntryType where
  | normal
  | confChange
  | confChangeV2
deriving Repr, DecidableEq

/-- `eraftpb::Entry`. -/
structure Entry where
  index : Nat
  term : Nat
  type : EntryType
  data : Bytes
deriving Repr, DecidableEq

/-- `eraftpb::MessageType` as far as the driver and the communication module distinguish it. -/
inductive MsgType where
  | snapshot
  | heartbeat
  | other (n : Nat)
deriving Repr, DecidableEq

/-- `eraftpb::Message`; `body` stands for the fields the driver does not look at. -/
structure RaftMsg where
  to : Nat
  from_ : Nat
  type : MsgType
  snapshot : Option Snap.RaftSnapshot
  body : Bytes
deriving Repr, DecidableEq

/-- `eraftpb::ConfChange` as built by util.rs:73-82. -/
structure ConfChange where
  nodeId : Nat
  add : Bool
deriving Repr, DecidableEq

/-- consensus.rs:89-98 `RaftReady`; the snapshot is empty iff its index is 0 (raft-rs `Snapshot::is_empty`). -/
structure Ready where
  messages : List RaftMsg
  persisted : List RaftMsg
  entries : List Entry
  committed : List Entry
  hardState : Option Storage.HardState
  snapshot : Snap.RaftSnapshot
  number : Nat
deriving Repr, DecidableEq

/-- consensus.rs:150-154 `RaftLightReady`. -/
structure LightReady where
  messages : List RaftMsg
  committed : List Entry
deriving Repr, DecidableEq

/-- `raft::Error` as far as the driver distinguishes it. -/
inductive RaftErr where
  | proposalDropped
  | other
deriving Repr, DecidableEq

/-- endpoint.proto:150-183 `RaftConfig`; the snapshot configuration is (count, chunk size, maximal pending chunks). -/
structure RaftConfig where
  tickPeriod : Nat
  electionTick : Nat
  heartbeatTick : Nat
  maxSizePerMsg : Nat
  snapshotConfig : Option (Nat × Nat × Nat)
  handshakeRetryTick : Nat
deriving Repr, DecidableEq

/-- consensus.rs:173-219 `Raft` and, through `mut_store`, consensus.rs:38-71 `Store`. -/
structure RaftT (ρ : Type) where
  initialized : ρ → Bool
  leader : ρ → Bool
  state : ρ → Run RaftState
  init : ρ → (id : Nat) → Option RaftConfig → (snapshot : Bytes) → (leader : Bool) → (snapshotCount : Nat) →
    Run (ρ × Except RaftErr Unit)
  makeStep : ρ → RaftMsg → Run (ρ × Except RaftErr Unit)
  makeProposal : ρ → Bytes → Run (ρ × Except RaftErr Unit)
  makeConfChange : ρ → ConfChange → Run (ρ × Except RaftErr Unit)
  makeTick : ρ → Run ρ
  applyConfChange : ρ → ConfChange → Run (ρ × Except RaftErr Storage.ConfState)
  hasReady : ρ → Run Bool
  getReady : ρ → Run (ρ × Ready)
  advanceReady : ρ → Nat → Run (ρ × LightReady)
  advanceApply : ρ → Run ρ
  reportSnapshot : ρ → Nat → Snap.Status → Run ρ
  setHardState : ρ → Storage.HardState → Run ρ
  appendEntries : ρ → List Entry → Run (ρ × Except RaftErr Unit)
  applySnapshot : ρ → Snap.RaftSnapshot → Run (ρ × Except RaftErr Unit)
  shouldSnapshot : ρ → Nat → Storage.ConfState → Run Bool
  createSnapshot : ρ → Nat → Storage.ConfState → Bytes → Run (ρ × Except RaftErr Unit)
  latestSnapshotSize : ρ → Run Nat

/-- communication.rs:63-122 `CommunicationModule`. -/
structure CommT (κ H : Type) where
  init : κ → (id retry timeout : Nat) → Attest.Clock → Attest.RefVals → (endorsements : Bytes) → κ
  processOut : κ → Comm.Outgoing → Run (κ × Except PalErr Unit)
  processIn : κ → Comm.InMsg H → Run (κ × Except PalErr (Option (Comm.InMsg H)))
  takeOut : κ → Run (κ × List (Comm.OutMsg H))
  clusterChange : κ → List Nat → κ
  tick : κ → κ

/-- endpoint.proto `Entry`: the id is (replica id, entry id); the code unwraps it (driver.rs:477). -/
structure LogEntry where
  id : Option (Nat × Nat)
  contents : Bytes
deriving Repr, DecidableEq

/-- The protobuf encodings the driver uses. -/
structure Codecs where
  encRaft : RaftMsg → Bytes
  decRaft : Bytes → Option RaftMsg
  decConf : Bytes → Option ConfChange
  encEntry : LogEntry → Bytes
  decEntry : Bytes → Option LogEntry
  encContent : Snap.Content → Bytes
  decContent : Bytes → Option Snap.Content
  encAck : Snap.Ack → Bytes
  decAck : Bytes → Option Snap.Ack
  encMeta : Snap.Meta → Bytes
  decMeta : Bytes → Option Snap.Meta

/-- Everything the driver is generic over. -/
structure Sys (σ ρ κ H : Type) where
  A : Actor σ
  R : RaftT ρ
  C : CommT κ H
  E : Codecs

/-! ## Messages -/

/-- endpoint.proto:116-141 `StartReplicaRequest`; the endorsements are kept as bytes. -/
structure StartReq where
  isLeader : Bool
  idHint : Nat
  raftConfig : Option RaftConfig
  appConfig : Bytes
  isEphemeral : Bool
  endorsements : Option Bytes
deriving Repr, DecidableEq

/-- endpoint.proto `InMessage`. -/
inductive InMsg (H : Type) where
  | startReplica (r : StartReq)
  | stopReplica
  | enterLameduck
  /-- `changeType` is the raw enum number (1 add, 2 remove) -/
  | changeCluster (changeId replicaId changeType : Nat)
  | checkCluster
  | systemMessage (recipient sender : Nat) (payload : Option Comm.Payload)
  | snapshotRequest (recipient sender deliveryId : Nat) (payload : Option Comm.Payload)
  | snapshotResponse (recipient sender deliveryId : Nat) (payload : Option Comm.Payload)
  | snapshotFailure (sender deliveryId : Nat)
  | getReplicaState
  | handshake (sender : Nat) (h : H)
  | appMessage (c : ActorCommand)
deriving Repr, DecidableEq

/-- endpoint.proto `ChangeClusterStatus`. -/
inductive ChangeStatus where
  | pending
  | rejected
deriving Repr, DecidableEq

/-- endpoint.proto `OutMessage` (without log messages). -/
inductive OutMsg (H : Type) where
  | startReplica (id : Nat)
  | stopReplica
  | changeCluster (changeId : Nat) (status : ChangeStatus)
  | checkCluster (st : RaftState)
  | appMessage (c : ActorCommand)
  | replicaState (appliedIndex snapshotSize : Nat)
  | comm (m : Comm.OutMsg H)
deriving Repr, DecidableEq

/-! ## The ghost trace -/

/-- One interaction of the driver with its components or the host. -/
inductive Ev (H : Type) where
  | actorInit (ctx : ActorCtx) (res : Except ActorErr Unit)
  | actorShutdown (ctx : ActorCtx)
  | actor (c : ActorSpec.Call)
  | raftInit (id : Nat) (snapshot : Bytes) (leader : Bool) (res : Except RaftErr Unit)
  | tick (instant : Nat)
  | step (m : RaftMsg)
  | propose (b : Bytes)
  | proposeChange (c : ConfChange) (res : Except RaftErr Unit)
  | applyChange (c : ConfChange) (res : Except RaftErr Storage.ConfState)
  | ready (r : Ready)
  | light (l : LightReady)
  | advanceApply
  | report (replica : Nat) (status : Snap.Status)
  | storeHardState (h : Storage.HardState)
  | storeAppend (es : List Entry) (res : Except RaftErr Unit)
  | storeApply (s : Snap.RaftSnapshot) (res : Except RaftErr Unit)
  | storeCreate (index : Nat) (conf : Storage.ConfState) (data : Bytes)
  | commOut (m : Comm.Outgoing)
  | commIn (m : Comm.InMsg H)
  | commTick
  | commCluster (ids : List Nat)
  | out (m : OutMsg H)
deriving Repr, DecidableEq

/-! ## State -/

/-- driver.rs:153-158 `DriverState`. -/
inductive Lifecycle where
  | created
  | started
  | stopped
deriving Repr, DecidableEq

/-- driver.rs:181-203 `Driver` with driver.rs:50-56 `DriverContextCore` (`ctx`, `proposals`), driver.rs:160-163
`DriverConfig` (`tickPeriod`, `snapshotCount`) and driver.rs:165-179 `RaftProgress` (`applied`, `conf`). -/
structure Driver (σ ρ κ H : Type) where
  actor : σ
  raft : ρ
  comm : κ
  snap : Snap.Processor
  ctx : ActorCtx
  proposals : List Bytes
  tickPeriod : Nat
  snapshotCount : Nat
  state : Lifecycle
  messages : List (OutMsg H)
  snapshots : List RaftMsg
  id : Nat
  instant : Nat
  tickInstant : Nat
  raftState : RaftState
  prevRaftState : RaftState
  applied : Nat
  conf : Storage.ConfState
  ephemeral : Bool
  lameduck : Bool
  trace : List (Ev H)

variable {σ ρ κ H α β : Type}

/-- driver.rs:213-256 `Driver::new` (service.rs:89-100 for the snapshot processor). -/
def Driver.new (actor : σ) (raft : ρ) (comm : κ) : Driver σ ρ κ H where
  actor := actor
  raft := raft
  comm := comm
  snap := Snap.Processor.new Snap.Sender.new Snap.Receiver.new
  ctx := ⟨0, 0, [], false⟩
  proposals := []
  tickPeriod := 100
  snapshotCount := 1000
  state := .created
  messages := []
  snapshots := []
  id := 0
  instant := 0
  tickInstant := 0
  raftState := .new
  prevRaftState := .new
  applied := 0
  conf := ⟨[], [], []⟩
  ephemeral := false
  lameduck := false
  trace := []

/-! ## Methods: they may panic, change the driver, and return an error -/

/-- A `&mut self` method of the driver returning `Result<_, PalError>`. -/
def M (D α : Type) : Type := D → Run (D × Except PalErr α)

/-- `Ok(a)`. -/
def M.pure {D : Type} (a : α) : M D α := fun d => .ok (d, .ok a)

/-- `?`. -/
def M.bind {D : Type} (m : M D α) (f : α → M D β) : M D β := fun d =>
  match m d with
  | .panic => .panic
  | .ok (d', .error e) => .ok (d', .error e)
  | .ok (d', .ok a) => f a d'

instance {D : Type} : Monad (M D) where
  pure := M.pure
  bind := M.bind

/-- `Err(e)`. -/
def M.fail {D : Type} (e : PalErr) : M D α := fun d => .ok (d, .error e)

/-- `panic!`. -/
def M.panic {D : Type} : M D α := fun _ => .panic

def M.get {D : Type} : M D D := fun d => .ok (d, .ok d)

def M.modify {D : Type} (f : D → D) : M D Unit := fun d => .ok (f d, .ok ())

/-- `map_err(|_| e)?`. -/
def M.orFail {D ε : Type} (r : Except ε α) (e : PalErr) : M D α :=
  match r with
  | .ok a => M.pure a
  | .error _ => M.fail e

/-- `if b { m }`. -/
def M.when {D : Type} (b : Bool) (m : M D Unit) : M D Unit := if b then m else M.pure ()

/-- `if let Some(x) = o { f(x) }`. -/
def M.opt {D : Type} (o : Option α) (f : α → M D Unit) : M D Unit :=
  match o with
  | some a => f a
  | none => M.pure ()

/-- Call the actor and record the call. -/
def callActor (f : ActorCtx → σ → Run (σ × β)) (ev : ActorCtx → β → Ev H) : M (Driver σ ρ κ H) β := fun d =>
  (f d.ctx d.actor).bind fun r => .ok ({ d with actor := r.1, trace := d.trace ++ [ev d.ctx r.2] }, .ok r.2)

/-- Call the consensus layer and record the call. -/
def callRaft (f : ρ → Run (ρ × β)) (ev : β → Ev H) : M (Driver σ ρ κ H) β := fun d =>
  (f d.raft).bind fun r => .ok ({ d with raft := r.1, trace := d.trace ++ [ev r.2] }, .ok r.2)

/-- Call the consensus layer where nothing is returned. -/
def callRaftU (f : ρ → Run ρ) (ev : Ev H) : M (Driver σ ρ κ H) Unit :=
  callRaft (fun r => (f r).bind fun r' => .ok (r', ())) fun _ => ev

/-- Ask the consensus layer. -/
def askRaft (f : ρ → Run β) : M (Driver σ ρ κ H) β := fun d => (f d.raft).bind fun b => .ok (d, .ok b)

/-- Call the communication module; its error is passed on by `?`. -/
def callComm (f : κ → Run (κ × Except PalErr β)) (ev : Ev H) : M (Driver σ ρ κ H) β := fun d =>
  (f d.comm).bind fun r => .ok ({ d with comm := r.1, trace := d.trace ++ [ev] }, r.2)

/-- A change of the communication module that cannot fail. -/
def changeComm (f : κ → κ) (ev : Ev H) : M (Driver σ ρ κ H) Unit :=
  M.modify fun d => { d with comm := f d.comm, trace := d.trace ++ [ev] }

/-- Call the snapshot processor. -/
def callSnap (f : Snap.Processor → Run (Snap.Processor × β)) : M (Driver σ ρ κ H) β := fun d =>
  (f d.snap).bind fun r => .ok ({ d with snap := r.1 }, .ok r.2)

/-- driver.rs:1253-1255 `stash_message`. -/
def stash (m : OutMsg H) : M (Driver σ ρ κ H) Unit :=
  M.modify fun d => { d with messages := d.messages ++ [m], trace := d.trace ++ [.out m] }

/-- driver.rs:502-508, 1133-1139, 1158-1164: stash replies of the actor. -/
def stashCommands : List ActorCommand → M (Driver σ ρ κ H) Unit
  | [] => pure ()
  | c :: cs => do
    stash (.appMessage c)
    stashCommands cs

variable (S : Sys σ ρ κ H)

/-! ## Consensus -/

/-- driver.rs:330-337 `get_raft_state`. -/
def getRaftState : M (Driver σ ρ κ H) RaftState := do
  let st ← askRaft S.R.state
  let d ← M.get
  pure (if st.leaderId = d.id then { st with cluster := d.conf.voters } else st)

/-- driver.rs:273-283: the driver's part of the configuration. -/
def configure (cfg : Option RaftConfig) (d : Driver σ ρ κ H) : Driver σ ρ κ H :=
  match cfg with
  | none => d
  | some c => { d with
      tickPeriod := c.tickPeriod
      snapshotCount := match c.snapshotConfig with | some s => s.1 | none => d.snapshotCount }

/-- driver.rs:262-324 `initialize_raft_node`. -/
def initializeRaftNode (cfg : Option RaftConfig) (snapshot : Bytes) (leader : Bool) : M (Driver σ ρ κ H) Unit := do
  M.modify (configure cfg)
  let d ← M.get
  let res ← callRaft (fun r => S.R.init r d.id cfg snapshot leader d.snapshotCount) (fun res => .raftInit d.id snapshot leader res)
  M.orFail res .raft
  M.modify fun d => if leader then { d with applied := 1, conf := ⟨[d.id], [], []⟩ } else d
  M.modify fun d => { d with tickInstant := d.instant }
  let st ← getRaftState S
  M.modify fun d => { d with prevRaftState := st }

/-- driver.rs:339-383 `make_raft_step`: both mismatches are only logged. -/
def makeRaftStep (_sender _recipient : Nat) (contents : Bytes) : M (Driver σ ρ κ H) Unit :=
  match S.E.decRaft contents with
  | none => pure ()
  | some m => do
    let res ← callRaft (fun r => S.R.makeStep r m) (fun _ => .step m)
    M.orFail res .raft

/-- driver.rs:385-389 `make_raft_proposal`: the result is unwrapped. -/
def makeRaftProposal (b : Bytes) : M (Driver σ ρ κ H) Unit := do
  let res ← callRaft (fun r => S.R.makeProposal r b) (fun _ => .propose b)
  match res with
  | .ok _ => pure ()
  | .error _ => M.panic

/-- driver.rs:391-413 `make_raft_config_change_proposal`. -/
def makeConfChangeProposal (nodeId : Nat) (add : Bool) : M (Driver σ ρ κ H) ChangeStatus := do
  let res ← callRaft (fun r => S.R.makeConfChange r ⟨nodeId, add⟩) (fun res => .proposeChange ⟨nodeId, add⟩ res)
  match res with
  | .ok _ => pure .pending
  | .error .proposalDropped => pure .rejected
  | .error .other => M.fail .raft

/-- driver.rs:415-423 `trigger_raft_tick` (the subtraction cannot underflow, see `Proofs/Driver`). -/
def triggerRaftTick : M (Driver σ ρ κ H) Unit := do
  let d ← M.get
  if d.instant - d.tickInstant ≥ d.tickPeriod then do
    M.modify fun d => { d with tickInstant := d.instant }
    callRaftU S.R.makeTick (.tick d.instant)
  else pure ()

/-- driver.rs:434-510: one committed entry. -/
def applyEntry (e : Entry) : M (Driver σ ρ κ H) Unit := do
  M.modify fun d => { d with applied := e.index }
  if e.data.isEmpty then pure ()
  else if e.type = .confChange then
    match S.E.decConf e.data with
    | none => M.fail .raft
    | some cc => do
      let res ← callRaft (fun r => S.R.applyConfChange r cc) (fun res => .applyChange cc res)
      let cs ← M.orFail res .raft
      M.modify fun d => { d with conf := cs }
  else
    match S.E.decEntry e.data with
    | none => M.fail .raft
    | some le =>
      match le.id with
      | none => M.panic
      | some id => do
        let d ← M.get
        let ec : ActorEventCtx := ⟨e.index, decide (id.1 = d.id)⟩
        let ev : ActorEvent := ⟨id.2, le.contents⟩
        let res ← callActor (fun ctx s => S.A.onApplyEvent ctx s ec ev) (fun ctx res => .actor (.apply ctx ec ev res))
        let o ← M.orFail res .actor
        stashCommands o.commands

/-- The loop of `apply_raft_committed_entries`. -/
def applyEntries : List Entry → M (Driver σ ρ κ H) Unit
  | [] => pure ()
  | e :: es => do
    applyEntry S e
    applyEntries es

/-- Insert after all entries with an index up to the entry's own. -/
def insertByIndex (e : Entry) : List Entry → List Entry
  | [] => [e]
  | x :: xs => if e.index < x.index then e :: x :: xs else x :: insertByIndex e xs

/-- driver.rs:430 `sort_by` on the index (a stable sort). -/
def sortByIndex (es : List Entry) : List Entry := es.foldl (fun acc e => insertByIndex e acc) []

/-- driver.rs:425-514 `apply_raft_committed_entries`. -/
def applyCommitted (es : List Entry) : M (Driver σ ρ κ H) Unit := applyEntries S (sortByIndex es)

/-- The message a consensus message becomes (driver.rs:526-538). -/
def ofRaft (id : Nat) (m : RaftMsg) : Comm.Outgoing :=
  ⟨⟨.system, m.to, id, some ⟨S.E.encRaft m, []⟩⟩, decide (m.type = .heartbeat)⟩

/-- driver.rs:518-539: one message; snapshots are stashed (1257-1259 `stash_snapshot`). -/
def sendRaftMessage (m : RaftMsg) : M (Driver σ ρ κ H) Unit :=
  if m.type = .snapshot then M.modify fun d => { d with snapshots := d.snapshots ++ [m] }
  else do
    let d ← M.get
    callComm (fun c => S.C.processOut c (ofRaft S d.id m)) (.commOut (ofRaft S d.id m))

/-- driver.rs:516-542 `send_raft_messages`. -/
def sendRaftMessages : List RaftMsg → M (Driver σ ρ κ H) Unit
  | [] => pure ()
  | m :: ms => do
    sendRaftMessage S m
    sendRaftMessages ms

/-- driver.rs:544-581 `restore_raft_snapshot`. -/
def restoreRaftSnapshot (s : Snap.RaftSnapshot) : M (Driver σ ρ κ H) Unit :=
  if s.metadata.index = 0 then pure ()
  else do
    M.modify fun d => { d with conf := s.metadata.conf }
    let res ← callRaft (fun r => S.R.applySnapshot r s) (.storeApply s)
    M.orFail res .raft
    let res ← callActor (fun ctx a => S.A.onLoadSnapshot ctx a s.data) (fun ctx res => .actor (.load ctx s.data res))
    M.orFail res .actor
    M.modify fun d => { d with applied := s.metadata.index }

/-- driver.rs:583-607 `maybe_create_raft_snapshot`. -/
def maybeCreateSnapshot : M (Driver σ ρ κ H) Unit := do
  let d ← M.get
  let should ← askRaft fun r => S.R.shouldSnapshot r d.applied d.conf
  if should then do
    let res ← callActor (fun ctx a => S.A.onSaveSnapshot ctx a) (fun ctx res => .actor (.save ctx res))
    let data ← M.orFail res .actor
    let d ← M.get
    let res ← callRaft (fun r => S.R.createSnapshot r d.applied d.conf data) (fun _ => .storeCreate d.applied d.conf data)
    M.orFail res .actor
  else pure ()

/-- driver.rs:634-672: the part of `advance_raft` after `has_ready`. -/
def processReady : M (Driver σ ρ κ H) Unit := do
  let ready ← callRaft S.R.getReady .ready
  sendRaftMessages S ready.messages
  M.opt ready.hardState fun h => callRaftU (fun r => S.R.setHardState r h) (.storeHardState h)
  restoreRaftSnapshot S ready.snapshot
  applyCommitted S ready.committed
  sendRaftMessages S ready.persisted
  M.when (!ready.entries.isEmpty) do
    let res ← callRaft (fun r => S.R.appendEntries r ready.entries) (.storeAppend ready.entries)
    M.orFail res .actor
  let light ← callRaft (fun r => S.R.advanceReady r ready.number) .light
  sendRaftMessages S light.messages
  applyCommitted S light.committed
  callRaftU S.R.advanceApply .advanceApply

/-- driver.rs:609-672 `advance_raft`. -/
def advanceRaft : M (Driver σ ρ κ H) Unit := do
  let d ← M.get
  M.when (!d.lameduck) (triggerRaftTick S)
  let r ← askRaft S.R.hasReady
  M.when r (processReady S)

/-! ## Snapshot transfers -/

/-- Report the outcome of snapshot transfers to consensus. -/
def reportAll : List (Nat × Snap.Status) → M (Driver σ ρ κ H) Unit
  | [] => pure ()
  | r :: rs => do
    callRaftU (fun x => S.R.reportSnapshot x r.1 r.2) (.report r.1 r.2)
    reportAll rs

/-- driver.rs:921-937 `update_snapshot_cluster_change`. -/
def updateSnapshotClusterChange : M (Driver σ ρ κ H) Unit := do
  let d ← M.get
  if d.state ≠ .started then pure ()
  else do
    let updates ← callSnap fun p => p.clusterChange d.raftState.leaderId d.raftState.leaderTerm d.raftState.cluster
    reportAll S updates

/-- driver.rs:682-705 `stash_leader_state`. -/
def stashLeaderState : M (Driver σ ρ κ H) Unit := do
  let st ← getRaftState S
  M.modify fun d => { d with raftState := st }
  let d ← M.get
  if d.prevRaftState = d.raftState then pure ()
  else do
    M.modify fun d => { d with prevRaftState := d.raftState }
    updateSnapshotClusterChange S
    let d ← M.get
    changeComm (fun c => S.C.clusterChange c d.conf.voters) (.commCluster d.conf.voters)
    stash (.checkCluster d.raftState)

/-- snapshot.rs:319-336 `mut_processor`: `true` = the sender is current. -/
def isSender (p : Snap.Processor) : Run Bool :=
  match p.role with
  | .unknown => .panic
  | .follower => .ok false
  | .leader => .ok true

/-- A decoded snapshot request. -/
def toRequest (recipient sender deliveryId : Nat) (payload : Option Comm.Payload) : Snap.Request :=
  ⟨recipient, sender, deliveryId, payload.map fun p => S.E.decContent p.contents⟩

/-- The message a snapshot request becomes. -/
def ofRequest (r : Snap.Request) : Comm.Outgoing :=
  ⟨⟨.snapshotRequest r.deliveryId, r.recipient, r.sender,
    r.payload.map fun c => ⟨match c with | some c => S.E.encContent c | none => [], []⟩⟩, false⟩

/-- The message a snapshot response becomes. -/
def ofResponse (r : Snap.Response) : Comm.Outgoing :=
  ⟨⟨.snapshotResponse r.deliveryId, r.recipient, r.sender,
    r.payload.map fun a => ⟨match a with | some a => S.E.encAck a | none => [], []⟩⟩, false⟩

/-- driver.rs:1039-1074 `process_snapshot_progress`. -/
def processSnapshotProgress : M (Driver σ ρ κ H) Unit := do
  let d ← M.get
  if d.state ≠ .started then pure ()
  else do
    let snd ← callSnap fun p => (isSender p).bind fun b => .ok (p, b)
    if snd then do
      let r ← callSnap fun p => .ok ({ p with sender := p.sender.tryComplete.1 }, p.sender.tryComplete.2)
      match r with
      | some x => callRaftU (fun y => S.R.reportSnapshot y x.1 x.2) (.report x.1 x.2)
      | none => pure ()
    else do
      let r ← callSnap fun p => (p.receiver.tryComplete S.E.decMeta).bind fun x => .ok ({ p with receiver := x.1 }, x.2)
      match r with
      | some (.ok x) => do
        let m : RaftMsg := ⟨d.id, x.1, .snapshot, some x.2, []⟩
        let _ ← callRaft (fun r => S.R.makeStep r m) (fun _ => .step m)
        pure ()
      | _ => pure ()

/-- driver.rs:1083-1085: start all transfers. -/
def startAll : List RaftMsg → M (Driver σ ρ κ H) Unit
  | [] => pure ()
  | m :: ms => do
    callSnap fun p => (Run.unwrap m.snapshot).bind fun s => (p.sender.start m.to s).bind fun x => .ok ({ p with sender := x }, ())
    startAll ms

/-- driver.rs:1087-1089: `while let Some(request) = sender.next_request()`.  Every request adds a pending chunk, so
`max_pending + 1` rounds suffice. -/
def drainSender (encMeta : Snap.Meta → Bytes) : Nat → Snap.Sender → Run (Snap.Sender × List Snap.Request)
  | 0, s => .ok (s, [])
  | n + 1, s => (s.nextRequest encMeta).bind fun r =>
    match r.2 with
    | none => .ok (r.1, [])
    | some q => (drainSender encMeta n r.1).bind fun x => .ok (x.1, q :: x.2)

/-- driver.rs:1104-1106: hand the messages to the communication module. -/
def sendAll : List Comm.Outgoing → M (Driver σ ρ κ H) Unit
  | [] => pure ()
  | m :: ms => do
    callComm (fun c => S.C.processOut c m) (.commOut m)
    sendAll ms

/-- driver.rs:1076-1109 `process_snapshot_sending`. -/
def processSnapshotSending : M (Driver σ ρ κ H) Unit := do
  let d ← M.get
  let msgs := d.snapshots
  M.modify fun d => { d with snapshots := [] }
  let snd ← callSnap fun p => (isSender p).bind fun b => .ok (p, b)
  if snd then do
    startAll msgs
    let reqs ← callSnap fun p => (drainSender S.E.encMeta (p.sender.maxPending + 1) p.sender).bind fun x =>
      .ok ({ p with sender := x.1 }, x.2)
    sendAll S (reqs.map (ofRequest S))
  else reportAll S (msgs.map fun m => (m.to, Snap.Status.failure))

/-! ## Requests of the host -/

/-- driver.rs:716-726 `check_driver_state`, `check_driver_started`. -/
def checkState (l : Lifecycle) : M (Driver σ ρ κ H) Unit := do
  let d ← M.get
  if d.state ≠ l then M.fail .invalidOperation else pure ()

/-- driver.rs:728-733 `check_non_ephemeral`. -/
def checkNonEphemeral : M (Driver σ ρ κ H) Unit := do
  let d ← M.get
  if d.ephemeral then M.fail .invalidOperation else pure ()

/-- driver.rs:767-792: the part of `process_start_node` for replicas that are not ephemeral. -/
def startConsensus (r : StartReq) : M (Driver σ ρ κ H) Unit := do
  let res ← callActor (fun ctx a => S.A.onSaveSnapshot ctx a) (fun ctx res => .actor (.save ctx res))
  let snapshot ← M.orFail res .actor
  let d ← M.get
  callSnap fun p => (p.init d.id ((r.raftConfig.bind fun c => c.snapshotConfig).map fun s => s.2)).bind fun p' => .ok (p', ())
  initializeRaftNode S r.raftConfig snapshot r.isLeader

/-- driver.rs:814-816: the clock of the actor if it brings one, and else the one of the driver. -/
def clockOf (d : Driver σ ρ κ H) : Attest.Clock :=
  match S.A.clock d.actor with
  | some n => .own n
  | none => .host

/-- driver.rs:740-827 `process_start_node` (with 735-738 `initialize_driver`). -/
def processStart (r : StartReq) : M (Driver σ ρ κ H) Unit := do
  checkState .created
  M.modify fun d => { d with id := r.idHint, ctx := { d.ctx with id := r.idHint, config := r.appConfig } }
  let res ← callActor (fun ctx a => S.A.onInit ctx a) .actorInit
  M.orFail res .actor
  M.modify fun d => { d with ephemeral := r.isEphemeral }
  M.when (!r.isEphemeral) (startConsensus S r)
  M.when r.endorsements.isNone M.panic
  M.modify fun d => { d with
    comm := match r.raftConfig with
      | some c => S.C.init d.comm d.id c.handshakeRetryTick (c.heartbeatTick * 10) (clockOf S d) (S.A.references d.actor)
          (r.endorsements.getD [])
      | none => S.C.init d.comm d.id 1 10 (clockOf S d) (S.A.references d.actor) (r.endorsements.getD []) }
  M.modify fun d => { d with state := .started }
  let d ← M.get
  stash (.startReplica d.id)

/-- driver.rs:829-844 `process_stop_node`. -/
def processStop : M (Driver σ ρ κ H) Unit := do
  let d ← M.get
  if d.state = .stopped then pure ()
  else do
    callActor (fun ctx a => (S.A.onShutdown ctx a).bind fun a' => .ok (a', ())) (fun ctx _ => .actorShutdown ctx)
    M.modify fun d => { d with state := .stopped }
    stash .stopReplica

/-- driver.rs:853-868: propose the change, or reject a change of unknown type. -/
def changeStatus (replicaId changeType : Nat) : M (Driver σ ρ κ H) ChangeStatus :=
  if changeType = 1 then makeConfChangeProposal S replicaId true
  else if changeType = 2 then makeConfChangeProposal S replicaId false
  else pure .rejected

/-- driver.rs:846-876 `process_change_cluster`. -/
def processChangeCluster (changeId replicaId changeType : Nat) : M (Driver σ ρ κ H) Unit := do
  checkState .started
  checkNonEphemeral
  let status ← changeStatus S replicaId changeType
  stash (.changeCluster changeId status)

/-- driver.rs:878-888 `process_check_cluster`, 674-676 `reset_leader_state`. -/
def processCheckCluster : M (Driver σ ρ κ H) Unit := do
  checkState .started
  checkNonEphemeral
  M.modify fun d => { d with prevRaftState := .new }

/-- driver.rs:890-919 `process_deliver_system_message`. -/
def processSystemMessage (recipient sender : Nat) (payload : Option Comm.Payload) : M (Driver σ ρ κ H) Unit := do
  checkState .started
  checkNonEphemeral
  let m : Comm.InMsg H := .data ⟨.system, recipient, sender, payload⟩
  let up ← callComm (fun c => S.C.processIn c m) (.commIn m)
  match up with
  | none => pure ()
  | some (.data ⟨.system, rcp, snd, some p⟩) => makeRaftStep S snd rcp p.contents
  | some (.data ⟨.system, _, _, none⟩) => M.panic
  | some _ => M.fail .internal

/-- driver.rs:939-976 `process_deliver_snapshot_request`. -/
def processSnapshotRequest (recipient sender deliveryId : Nat) (payload : Option Comm.Payload) : M (Driver σ ρ κ H) Unit := do
  checkNonEphemeral
  let m : Comm.InMsg H := .data ⟨.snapshotRequest deliveryId, recipient, sender, payload⟩
  let up ← callComm (fun c => S.C.processIn c m) (.commIn m)
  match up with
  | none => pure ()
  | some (.data ⟨.snapshotRequest did, rcp, snd, pl⟩) => do
    let req := toRequest S rcp snd did pl
    let resp ← callSnap fun p => (isSender p).bind fun b =>
      if b then (Snap.Sender.processUnexpected req).bind fun r => .ok (p, r)
      else (p.receiver.processRequest req).bind fun r => .ok ({ p with receiver := r.1 }, r.2)
    callComm (fun c => S.C.processOut c (ofResponse S resp)) (.commOut (ofResponse S resp))
  | some _ => M.fail .internal

/-- driver.rs:979-1015 `process_deliver_snapshot_response`. -/
def processSnapshotResponse (recipient sender deliveryId : Nat) (payload : Option Comm.Payload) : M (Driver σ ρ κ H) Unit := do
  checkNonEphemeral
  let m : Comm.InMsg H := .data ⟨.snapshotResponse deliveryId, recipient, sender, payload⟩
  let up ← callComm (fun c => S.C.processIn c m) (.commIn m)
  match up with
  | none => pure ()
  | some (.data ⟨.snapshotResponse did, _, snd, pl⟩) =>
    let reply : Option Snap.Reply := pl.map fun p => match S.E.decAck p.contents with | some a => .ack a | none => .undecodable
    callSnap fun p => (isSender p).bind fun b =>
      if b then (p.sender.processResponse snd did reply).bind fun x => .ok ({ p with sender := x }, ())
      else .ok (p, ())
  | some _ => M.fail .internal

/-- driver.rs:1017-1037 `process_deliver_snapshot_failure`. -/
def processSnapshotFailure (sender deliveryId : Nat) : M (Driver σ ρ κ H) Unit := do
  checkNonEphemeral
  callSnap fun p => (isSender p).bind fun b =>
    if b then (p.sender.processResponse sender deliveryId (some .failed)).bind fun x => .ok ({ p with sender := x }, ())
    else .ok (p, ())

/-- driver.rs:1180-1199 `process_get_replica_state`. -/
def processGetReplicaState : M (Driver σ ρ κ H) Unit := do
  checkState .started
  let d ← M.get
  if d.ephemeral then stash (.replicaState 0 0)
  else do
    let size ← askRaft S.R.latestSnapshotSize
    stash (.replicaState d.applied size)

/-- driver.rs:1201-1212 `process_secure_channel_handshake`. -/
def processHandshake (sender : Nat) (h : H) : M (Driver σ ρ κ H) Unit := do
  checkState .started
  let _ ← callComm (fun c => S.C.processIn c (.handshake sender h)) (.commIn (.handshake sender h))
  pure ()

/-- driver.rs:1111-1178 `process_deliver_app_message`. -/
def processAppMessage (c : Option ActorCommand) : M (Driver σ ρ κ H) Unit := do
  checkState .started
  let res ← callActor (fun ctx a => S.A.onProcessCommand ctx a c) (fun ctx res => .actor (.command ctx c res))
  let o ← M.orFail res .actor
  stashCommands o.commands
  match o.event with
  | none => pure ()
  | some ev => do
    let d ← M.get
    if d.ephemeral then do
      let res ← callActor (fun ctx a => S.A.onApplyEvent ctx a ⟨0, true⟩ ev) (fun ctx res => .actor (.apply ctx ⟨0, true⟩ ev res))
      let o ← M.orFail res .actor
      stashCommands o.commands
    else
      M.modify fun d => { d with proposals := d.proposals ++ [S.E.encEntry ⟨some (d.id, ev.correlationId), ev.contents⟩] }

/-- driver.rs:1217-1219: make all proposals. -/
def proposeAll : List Bytes → M (Driver σ ρ κ H) Unit
  | [] => pure ()
  | b :: bs => do
    makeRaftProposal S b
    proposeAll bs

/-- driver.rs:1214-1220 `process_actor_raft_proposals`. -/
def processProposals : M (Driver σ ρ κ H) Unit := do
  let d ← M.get
  M.modify fun d => { d with proposals := [] }
  proposeAll S d.proposals

/-- driver.rs:1222-1235 `process_state_machine`. -/
def processStateMachine : M (Driver σ ρ κ H) Unit := do
  let d ← M.get
  if S.R.initialized d.raft then do
    advanceRaft S
    maybeCreateSnapshot S
    stashLeaderState S
  else pure ()

/-- driver.rs:707-714 `preset_state_machine`. -/
def preset (instant : Nat) : M (Driver σ ρ κ H) Unit :=
  M.modify fun d => { d with
    prevRaftState := d.raftState
    instant := max d.instant instant
    ctx := { d.ctx with instant := max d.instant instant, leader := S.R.leader d.raft } }

/-- driver.rs:1293-1333: dispatch; the result is the application message to process later. -/
def dispatch : InMsg H → M (Driver σ ρ κ H) (Option ActorCommand)
  | .startReplica r => do processStart S r; pure none
  | .stopReplica => do processStop S; pure none
  | .enterLameduck => do M.modify (fun d => { d with lameduck := true }); pure none
  | .changeCluster c r t => do processChangeCluster S c r t; pure none
  | .checkCluster => do processCheckCluster; pure none
  | .systemMessage r s p => do processSystemMessage S r s p; pure none
  | .snapshotRequest r s i p => do processSnapshotRequest S r s i p; pure none
  | .snapshotResponse r s i p => do processSnapshotResponse S r s i p; pure none
  | .snapshotFailure s i => do processSnapshotFailure s i; pure none
  | .getReplicaState => do processGetReplicaState S; pure none
  | .handshake s h => do processHandshake S s h; pure none
  | .appMessage c => pure (some c)

/-- driver.rs:1248-1251 `stash_comms_module_entries`. -/
def stashComm : M (Driver σ ρ κ H) Unit := fun d =>
  (S.C.takeOut d.comm).bind fun r =>
    .ok ({ d with
      comm := r.1
      messages := d.messages ++ r.2.map .comm
      trace := d.trace ++ r.2.map fun m => .out (.comm m) }, .ok ())

/-- driver.rs:1336-1339. -/
def runActor (c : Option ActorCommand) : M (Driver σ ρ κ H) Unit := do
  let d ← M.get
  if d.state = .started then do
    processAppMessage S c
    changeComm S.C.tick .commTick
  else pure ()

/-- driver.rs:1341-1353. -/
def runRaft : M (Driver σ ρ κ H) Unit := do
  let d ← M.get
  if d.ephemeral then pure ()
  else do
    processProposals S
    processSnapshotProgress S
    processStateMachine S
    processSnapshotSending S

/-- driver.rs:1355-1361 with 1237-1240 `take_out_messages`: what is given to the host. -/
def flush : M (Driver σ ρ κ H) (List (OutMsg H)) := do
  stashComm S
  let d ← M.get
  M.modify fun d => { d with messages := [] }
  pure d.messages

/-- driver.rs:1271-1361 `receive_message`.  `msg`: nothing, a message of unknown kind, or a message.  The result is what was given to
`host.send_messages`, if it was called. -/
def receive (instant : Nat) (msg : Option (Option (InMsg H))) : M (Driver σ ρ κ H) (Option (List (OutMsg H))) := do
  preset S instant
  match msg with
  | some none => pure none
  | none => do
    runActor S none
    runRaft S
    let out ← flush S
    pure (some out)
  | some (some m) => do
    let c ← dispatch S m
    runActor S c
    runRaft S
    let out ← flush S
    pure (some out)

/-! ## Histories -/

/-- A sequence of `receive_message` calls, all of which returned `Ok`, with what was sent to the host. -/
inductive Runs : Driver σ ρ κ H → List (Option (List (OutMsg H))) → Driver σ ρ κ H → Prop
  | nil {d} : Runs d [] d
  | snoc {d outs d1 instant msg out d2} (h : Runs d outs d1) (hs : receive S instant msg d1 = .ok (d2, .ok out)) : Runs d (outs ++ [out]) d2

end TCP.Drv
