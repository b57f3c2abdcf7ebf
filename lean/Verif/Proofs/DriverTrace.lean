import Verif.Proofs.DriverSteps

/-! # Which interactions each method of the driver can cause -/

namespace TCP.Drv

open TCP TCP.ActorSpec

variable {σ ρ κ H α β : Type}

/-- Kinds of interactions. -/
inductive K where
  | actorInit | actorShutdown | command | apply | save | load
  | raftInit | tick | step | propose | proposeChange | applyChange | ready | light | advanceApply | report
  | hardState | append | storeApply | create
  | commOut | commIn | commTick | commCluster
  | oStart | oStop | oChange | oCheck | oApp | oState | oComm
deriving DecidableEq

/-- The kind of an interaction. -/
def kind : Ev H → K
  | .actorInit .. => .actorInit
  | .actorShutdown _ => .actorShutdown
  | .actor (.command ..) => .command
  | .actor (.apply ..) => .apply
  | .actor (.save ..) => .save
  | .actor (.load ..) => .load
  | .raftInit .. => .raftInit
  | .tick _ => .tick
  | .step _ => .step
  | .propose _ => .propose
  | .proposeChange .. => .proposeChange
  | .applyChange .. => .applyChange
  | .ready _ => .ready
  | .light _ => .light
  | .advanceApply => .advanceApply
  | .report .. => .report
  | .storeHardState _ => .hardState
  | .storeAppend .. => .append
  | .storeApply .. => .storeApply
  | .storeCreate .. => .create
  | .commOut _ => .commOut
  | .commIn _ => .commIn
  | .commTick => .commTick
  | .commCluster _ => .commCluster
  | .out (.startReplica _) => .oStart
  | .out .stopReplica => .oStop
  | .out (.changeCluster ..) => .oChange
  | .out (.checkCluster _) => .oCheck
  | .out (.appMessage _) => .oApp
  | .out (.replicaState ..) => .oState
  | .out (.comm _) => .oComm

/-- The method only adds interactions of the given kinds to the trace. -/
structure Adds (L : List K) (m : M (Driver σ ρ κ H) α) : Prop where
  run : ∀ d d' r, m d = .ok (d', r) → ∃ delta, d'.trace = d.trace ++ delta ∧ ∀ e ∈ delta, kind e ∈ L

theorem Adds.mono {L L' : List K} {m : M (Driver σ ρ κ H) α} (h : Adds L m) (hL : L ⊆ L') : Adds L' m := ⟨by
  intro d d' r hd
  obtain ⟨δ, h1, h2⟩ := h.run d d' r hd
  exact ⟨δ, h1, fun e he => hL (h2 e he)⟩⟩

variable {L : List K}

theorem adds_pure {a : α} : Adds L (Pure.pure a : M (Driver σ ρ κ H) α) := ⟨by
  intro d d' r h
  simp only [M.pure_def, M.pure, Run.ok.injEq, Prod.mk.injEq] at h
  exact ⟨[], by rw [h.1]; simp, by simp⟩⟩

theorem adds_mpure {a : α} : Adds L (M.pure a : M (Driver σ ρ κ H) α) := adds_pure

theorem adds_fail {e : PalErr} : Adds L (M.fail e : M (Driver σ ρ κ H) α) := ⟨by
  intro d d' r h
  simp only [M.fail, Run.ok.injEq, Prod.mk.injEq] at h
  exact ⟨[], by rw [h.1]; simp, by simp⟩⟩

theorem adds_panic : Adds L (M.panic : M (Driver σ ρ κ H) α) := ⟨by intro d d' r h; simp [M.panic] at h⟩

theorem adds_orFail {ε : Type} {r : Except ε α} {e : PalErr} : Adds L (M.orFail r e : M (Driver σ ρ κ H) α) := by
  unfold M.orFail; split
  · exact adds_mpure
  · exact adds_fail

theorem adds_get : Adds L (M.get : M (Driver σ ρ κ H) _) := ⟨by
  intro d d' r h
  simp only [M.get, Run.ok.injEq, Prod.mk.injEq] at h
  exact ⟨[], by rw [h.1]; simp, by simp⟩⟩

theorem adds_modify {f : Driver σ ρ κ H → Driver σ ρ κ H} (h : ∀ d, (f d).trace = d.trace) : Adds L (M.modify f) := ⟨by
  intro d d' r hd
  simp only [M.modify, Run.ok.injEq, Prod.mk.injEq] at hd
  exact ⟨[], by rw [← hd.1, h]; simp, by simp⟩⟩

theorem adds_bind {m : M (Driver σ ρ κ H) α} {f : α → M (Driver σ ρ κ H) β} (h1 : Adds L m) (h2 : ∀ a, Adds L (f a)) :
    Adds L (m >>= f) := ⟨by
  intro d d' r h
  rcases M.bind_ok h with ⟨e, hm, _⟩ | ⟨d1, a, hm, hf⟩
  · exact h1.run _ _ _ hm
  · obtain ⟨δ1, e1, g1⟩ := h1.run _ _ _ hm
    obtain ⟨δ2, e2, g2⟩ := (h2 a).run _ _ _ hf
    exact ⟨δ1 ++ δ2, by rw [e2, e1, List.append_assoc], fun e he => (List.mem_append.1 he).elim (g1 e) (g2 e)⟩⟩

theorem adds_ask {f : ρ → Run β} : Adds L (askRaft f : M (Driver σ ρ κ H) β) := ⟨by
  intro d d' r h
  simp only [askRaft, Run.bind_eq_ok, Run.ok.injEq, Prod.mk.injEq] at h
  obtain ⟨_, _, h, _⟩ := h
  exact ⟨[], by rw [← h]; simp, by simp⟩⟩

theorem adds_raft {f : ρ → Run (ρ × β)} {ev : β → Ev H} (hev : ∀ b, kind (ev b) ∈ L) : Adds L (callRaft f ev : M (Driver σ ρ κ H) β) := ⟨by
  intro d d' r h
  simp only [callRaft, Run.bind_eq_ok, Run.ok.injEq, Prod.mk.injEq] at h
  obtain ⟨x, _, h, _⟩ := h
  exact ⟨[ev x.2], by rw [← h], by simpa using hev _⟩⟩

theorem adds_raftU {f : ρ → Run ρ} {ev : Ev H} (hev : kind ev ∈ L) : Adds L (callRaftU f ev : M (Driver σ ρ κ H) Unit) :=
  adds_raft fun _ => hev

theorem adds_actor {f : ActorCtx → σ → Run (σ × β)} {ev : ActorCtx → β → Ev H} (hev : ∀ c b, kind (ev c b) ∈ L) :
    Adds L (callActor f ev : M (Driver σ ρ κ H) β) := ⟨by
  intro d d' r h
  simp only [callActor, Run.bind_eq_ok, Run.ok.injEq, Prod.mk.injEq] at h
  obtain ⟨x, _, h, _⟩ := h
  exact ⟨[ev d.ctx x.2], by rw [← h], by simpa using hev _ _⟩⟩

theorem adds_comm {f : κ → Run (κ × Except PalErr β)} {ev : Ev H} (hev : kind ev ∈ L) : Adds L (callComm f ev : M (Driver σ ρ κ H) β) := ⟨by
  intro d d' r h
  simp only [callComm, Run.bind_eq_ok, Run.ok.injEq, Prod.mk.injEq] at h
  obtain ⟨x, _, h, _⟩ := h
  exact ⟨[ev], by rw [← h], by simpa using hev⟩⟩

theorem adds_changeComm {f : κ → κ} {ev : Ev H} (hev : kind ev ∈ L) : Adds L (changeComm f ev : M (Driver σ ρ κ H) Unit) := ⟨by
  intro d d' r h
  simp only [changeComm, M.modify, Run.ok.injEq, Prod.mk.injEq] at h
  exact ⟨[ev], by rw [← h.1], by simpa using hev⟩⟩

theorem adds_stash {m : OutMsg H} (hev : kind (.out m) ∈ L) : Adds L (stash m : M (Driver σ ρ κ H) Unit) := ⟨by
  intro d d' r h
  simp only [stash, M.modify, Run.ok.injEq, Prod.mk.injEq] at h
  exact ⟨[.out m], by rw [← h.1], by simpa using hev⟩⟩

theorem adds_stashCommands (h : K.oApp ∈ L) (cs : List ActorCommand) : Adds L (stashCommands cs : M (Driver σ ρ κ H) Unit) := ⟨by
  intro d d' r hd
  rw [stashCommands_run] at hd
  simp only [Run.ok.injEq, Prod.mk.injEq] at hd
  refine ⟨cs.map fun c => .out (.appMessage c), by rw [← hd.1], ?_⟩
  intro e he
  obtain ⟨c, _, rfl⟩ := List.mem_map.1 he
  exact h⟩

theorem adds_snap {f : Snap.Processor → Run (Snap.Processor × β)} : Adds L (callSnap f : M (Driver σ ρ κ H) β) := ⟨by
  intro d d' r h
  simp only [callSnap, Run.bind_eq_ok, Run.ok.injEq, Prod.mk.injEq] at h
  obtain ⟨_, _, h, _⟩ := h
  exact ⟨[], by rw [← h]; simp, by simp⟩⟩

theorem adds_when {b : Bool} {m : M (Driver σ ρ κ H) Unit} (h : Adds L m) : Adds L (M.when b m) := by
  unfold M.when; split
  · exact h
  · exact adds_pure

theorem adds_opt {o : Option α} {f : α → M (Driver σ ρ κ H) Unit} (h : ∀ a, Adds L (f a)) : Adds L (M.opt o f) := by
  unfold M.opt; split
  · exact h _
  · exact adds_pure

/-- Discharge a goal `Adds L m`. -/
macro "adds" : tactic => `(tactic| repeat (first
  | with_reducible first
    | intro _ | exact adds_pure | exact adds_mpure | exact adds_fail | exact adds_panic | exact adds_orFail | exact adds_get | exact adds_ask
    | exact adds_snap | refine adds_raft ?_ | refine adds_raftU ?_ | refine adds_actor ?_ | refine adds_comm ?_
    | refine adds_changeComm ?_ | refine adds_stash ?_ | refine adds_stashCommands ?_ _ | refine adds_bind ?_ ?_ | refine adds_when ?_
    | refine adds_opt ?_ | split
  | rfl | decide | (simp only [kind]; decide) | exact adds_modify (fun _ => rfl)))

variable {S : Sys σ ρ κ H}

theorem adds_getRaftState : Adds [] (getRaftState S) := by unfold getRaftState; adds

theorem adds_initializeRaftNode (cfg : Option RaftConfig) (b : Bytes) (l : Bool) : Adds [.raftInit] (initializeRaftNode S cfg b l) := by
  unfold initializeRaftNode
  refine adds_bind (adds_modify ?_) fun _ => ?_
  · intro d; cases cfg <;> rfl
  refine adds_bind adds_get fun _ => ?_
  refine adds_bind (adds_raft fun _ => by simp only [kind]; decide) fun _ => ?_
  refine adds_bind adds_orFail fun _ => ?_
  refine adds_bind (adds_modify ?_) fun _ => ?_
  · intro d; cases l <;> rfl
  refine adds_bind (adds_modify fun _ => rfl) fun _ => ?_
  exact adds_bind (adds_getRaftState.mono (by decide)) fun _ => adds_modify fun _ => rfl

theorem adds_makeRaftStep (a b : Nat) (c : Bytes) : Adds [.step] (makeRaftStep S a b c) := by unfold makeRaftStep; adds
theorem adds_makeRaftProposal (b : Bytes) : Adds [.propose] (makeRaftProposal S b) := by unfold makeRaftProposal; adds
theorem adds_makeConfChangeProposal (n : Nat) (a : Bool) : Adds [.proposeChange] (makeConfChangeProposal S n a) := by
  unfold makeConfChangeProposal; adds
theorem adds_triggerRaftTick : Adds [.tick] (triggerRaftTick S) := by unfold triggerRaftTick; adds
theorem adds_applyEntry (e : Entry) : Adds [.applyChange, .apply, .oApp] (applyEntry S e) := by unfold applyEntry; adds

theorem adds_applyEntries (es : List Entry) : Adds [.applyChange, .apply, .oApp] (applyEntries S es) := by
  induction es with
  | nil => exact adds_pure
  | cons e es ih => exact adds_bind (adds_applyEntry e) fun _ => ih

theorem adds_applyCommitted (es : List Entry) : Adds [.applyChange, .apply, .oApp] (applyCommitted S es) := adds_applyEntries _

theorem adds_sendRaftMessage (m : RaftMsg) : Adds [.commOut] (sendRaftMessage S m) := by unfold sendRaftMessage; adds

theorem adds_sendRaftMessages (ms : List RaftMsg) : Adds [.commOut] (sendRaftMessages S ms) := by
  induction ms with
  | nil => exact adds_pure
  | cons m ms ih => exact adds_bind (adds_sendRaftMessage m) fun _ => ih

theorem adds_restoreRaftSnapshot (s : Snap.RaftSnapshot) : Adds [.storeApply, .load] (restoreRaftSnapshot S s) := by
  unfold restoreRaftSnapshot; adds

theorem adds_maybeCreateSnapshot : Adds [.save, .create] (maybeCreateSnapshot S) := by unfold maybeCreateSnapshot; adds

/-- What `processReady` may cause. -/
def readyKinds : List K := [.ready, .light, .advanceApply, .applyChange, .apply, .oApp, .commOut, .storeApply, .load, .hardState, .append]

theorem adds_processReady : Adds readyKinds (processReady S) := by
  unfold processReady
  refine adds_bind (adds_raft fun _ => by simp only [kind]; decide) fun ready => ?_
  refine adds_bind ((adds_sendRaftMessages _).mono (by decide)) fun _ => ?_
  refine adds_bind (adds_opt fun _ => adds_raftU (by simp only [kind]; decide)) fun _ => ?_
  refine adds_bind ((adds_restoreRaftSnapshot _).mono (by decide)) fun _ => ?_
  refine adds_bind ((adds_applyCommitted _).mono (by decide)) fun _ => ?_
  refine adds_bind ((adds_sendRaftMessages _).mono (by decide)) fun _ => ?_
  refine adds_bind (adds_when (by adds)) fun _ => ?_
  refine adds_bind (adds_raft fun _ => by simp only [kind]; decide) fun light => ?_
  refine adds_bind ((adds_sendRaftMessages _).mono (by decide)) fun _ => ?_
  refine adds_bind ((adds_applyCommitted _).mono (by decide)) fun _ => ?_
  exact adds_raftU (by simp only [kind]; decide)

theorem adds_reportAll (rs : List (Nat × Snap.Status)) : Adds [.report] (reportAll S rs) := by
  induction rs with
  | nil => exact adds_pure
  | cons m ms ih => exact adds_bind (adds_raftU (by simp only [kind]; decide)) fun _ => ih

theorem adds_updateSnapshotClusterChange : Adds [.report] (updateSnapshotClusterChange S) := by
  unfold updateSnapshotClusterChange
  refine adds_bind adds_get fun _ => ?_
  split
  · adds
  · exact adds_bind adds_snap fun _ => adds_reportAll _

theorem adds_stashLeaderState : Adds [.report, .commCluster, .oCheck] (stashLeaderState S) := by
  unfold stashLeaderState
  refine adds_bind (adds_getRaftState.mono (by decide)) fun _ => ?_
  refine adds_bind (adds_modify fun _ => rfl) fun _ => ?_
  refine adds_bind adds_get fun _ => ?_
  split
  · adds
  · refine adds_bind (adds_modify fun _ => rfl) fun _ => ?_
    refine adds_bind (adds_updateSnapshotClusterChange.mono (by decide)) fun _ => ?_
    adds

theorem adds_processSnapshotProgress : Adds [.report, .step] (processSnapshotProgress S) := by
  unfold processSnapshotProgress; adds

theorem adds_startAll (ms : List RaftMsg) : Adds [] (startAll ms : M (Driver σ ρ κ H) Unit) := by
  induction ms with
  | nil => exact adds_pure
  | cons m ms ih => exact adds_bind adds_snap fun _ => ih

theorem adds_sendAll (ms : List Comm.Outgoing) : Adds [.commOut] (sendAll S ms) := by
  induction ms with
  | nil => exact adds_pure
  | cons m ms ih => exact adds_bind (adds_comm (by simp only [kind]; decide)) fun _ => ih

theorem adds_processSnapshotSending : Adds [.commOut, .report] (processSnapshotSending S) := by
  unfold processSnapshotSending
  refine adds_bind adds_get fun _ => ?_
  refine adds_bind (adds_modify fun _ => rfl) fun _ => ?_
  refine adds_bind adds_snap fun _ => ?_
  split
  · refine adds_bind ((adds_startAll _).mono (by decide)) fun _ => ?_
    exact adds_bind adds_snap fun _ => (adds_sendAll _).mono (by decide)
  · exact (adds_reportAll _).mono (by decide)

theorem adds_checkState (l : Lifecycle) : Adds [] (checkState l : M (Driver σ ρ κ H) Unit) := by unfold checkState; adds
theorem adds_checkNonEphemeral : Adds [] (checkNonEphemeral : M (Driver σ ρ κ H) Unit) := by unfold checkNonEphemeral; adds

theorem adds_startConsensus (r : StartReq) : Adds [.save, .raftInit] (startConsensus S r) := by
  unfold startConsensus
  refine adds_bind (adds_actor fun _ _ => by simp only [kind]; decide) fun _ => ?_
  refine adds_bind adds_orFail fun _ => ?_
  refine adds_bind adds_get fun _ => ?_
  exact adds_bind adds_snap fun _ => (adds_initializeRaftNode _ _ _).mono (by decide)

theorem adds_processStart (r : StartReq) : Adds [.actorInit, .save, .raftInit, .oStart] (processStart S r) := by
  unfold processStart
  refine adds_bind ((adds_checkState _).mono (by decide)) fun _ => ?_
  refine adds_bind (adds_modify fun _ => rfl) fun _ => ?_
  refine adds_bind (adds_actor fun _ _ => by simp only [kind]; decide) fun _ => ?_
  refine adds_bind adds_orFail fun _ => ?_
  refine adds_bind (adds_modify fun _ => rfl) fun _ => ?_
  refine adds_bind (adds_when ((adds_startConsensus _).mono (by decide))) fun _ => ?_
  refine adds_bind (adds_when adds_panic) fun _ => ?_
  refine adds_bind (adds_modify fun _ => rfl) fun _ => ?_
  refine adds_bind (adds_modify fun _ => rfl) fun _ => ?_
  adds

theorem adds_processStop : Adds [.actorShutdown, .oStop] (processStop S) := by unfold processStop; adds

theorem adds_changeStatus (a b : Nat) : Adds [.proposeChange] (changeStatus S a b) := by
  unfold changeStatus
  split
  · exact adds_makeConfChangeProposal _ _
  · split
    · exact adds_makeConfChangeProposal _ _
    · exact adds_pure

theorem adds_processChangeCluster (a b c : Nat) : Adds [.proposeChange, .oChange] (processChangeCluster S a b c) := by
  unfold processChangeCluster
  refine adds_bind ((adds_checkState _).mono (by decide)) fun _ => ?_
  refine adds_bind (adds_checkNonEphemeral.mono (by decide)) fun _ => ?_
  exact adds_bind ((adds_changeStatus _ _).mono (by decide)) fun _ => adds_stash (by simp only [kind]; decide)

theorem adds_processCheckCluster : Adds [] (processCheckCluster : M (Driver σ ρ κ H) Unit) := by
  unfold processCheckCluster
  refine adds_bind (adds_checkState _) fun _ => ?_
  refine adds_bind adds_checkNonEphemeral fun _ => ?_
  adds

theorem adds_processSystemMessage (a b : Nat) (p : Option Comm.Payload) : Adds [.commIn, .step] (processSystemMessage S a b p) := by
  unfold processSystemMessage
  refine adds_bind ((adds_checkState _).mono (by decide)) fun _ => ?_
  refine adds_bind (adds_checkNonEphemeral.mono (by decide)) fun _ => ?_
  refine adds_bind (adds_comm (by simp only [kind]; decide)) fun up => ?_
  split
  · exact adds_pure
  · exact (adds_makeRaftStep _ _ _).mono (by decide)
  · exact adds_panic
  · exact adds_fail

theorem adds_processSnapshotRequest (a b c : Nat) (p : Option Comm.Payload) :
    Adds [.commIn, .commOut] (processSnapshotRequest S a b c p) := by
  unfold processSnapshotRequest
  refine adds_bind (adds_checkNonEphemeral.mono (by decide)) fun _ => ?_
  adds

theorem adds_processSnapshotResponse (a b c : Nat) (p : Option Comm.Payload) :
    Adds [.commIn] (processSnapshotResponse S a b c p) := by
  unfold processSnapshotResponse
  refine adds_bind (adds_checkNonEphemeral.mono (by decide)) fun _ => ?_
  adds

theorem adds_processSnapshotFailure (a b : Nat) : Adds [] (processSnapshotFailure a b : M (Driver σ ρ κ H) Unit) := by
  unfold processSnapshotFailure
  refine adds_bind adds_checkNonEphemeral fun _ => ?_
  adds

theorem adds_processGetReplicaState : Adds [.oState] (processGetReplicaState S) := by
  unfold processGetReplicaState
  refine adds_bind ((adds_checkState _).mono (by decide)) fun _ => ?_
  adds

theorem adds_processHandshake (a : Nat) (h : H) : Adds [.commIn] (processHandshake S a h) := by
  unfold processHandshake
  refine adds_bind ((adds_checkState _).mono (by decide)) fun _ => ?_
  adds

theorem adds_processAppMessage (c : Option ActorCommand) : Adds [.command, .apply, .oApp] (processAppMessage S c) := by
  unfold processAppMessage
  refine adds_bind ((adds_checkState _).mono (by decide)) fun _ => ?_
  adds

theorem adds_proposeAll (bs : List Bytes) : Adds [.propose] (proposeAll S bs) := by
  induction bs with
  | nil => exact adds_pure
  | cons b bs ih => exact adds_bind (adds_makeRaftProposal b) fun _ => ih

theorem adds_processProposals : Adds [.propose] (processProposals S) := by
  unfold processProposals
  refine adds_bind adds_get fun _ => ?_
  refine adds_bind (adds_modify fun _ => rfl) fun _ => ?_
  exact adds_proposeAll _

theorem adds_runActor (c : Option ActorCommand) : Adds [.command, .apply, .oApp, .commTick] (runActor S c) := by
  unfold runActor
  refine adds_bind adds_get fun _ => ?_
  split
  · exact adds_bind ((adds_processAppMessage _).mono (by decide)) fun _ => adds_changeComm (by simp only [kind]; decide)
  · exact adds_pure

/-- Handling a message never calls the actor's command, event or snapshot loading callbacks and never runs a consensus round. -/
def dispatchKinds : List K :=
  [.actorInit, .actorShutdown, .save, .raftInit, .step, .proposeChange, .commIn, .commOut, .oStart, .oStop, .oChange, .oState]

theorem adds_dispatch (m : InMsg H) : Adds dispatchKinds (dispatch S m) := by
  cases m <;> unfold dispatch
  · exact adds_bind ((adds_processStart _).mono (by decide)) fun _ => adds_pure
  · exact adds_bind (adds_processStop.mono (by decide)) fun _ => adds_pure
  · exact adds_bind (adds_modify fun _ => rfl) fun _ => adds_pure
  · exact adds_bind ((adds_processChangeCluster _ _ _).mono (by decide)) fun _ => adds_pure
  · exact adds_bind (adds_processCheckCluster.mono (by decide)) fun _ => adds_pure
  · exact adds_bind ((adds_processSystemMessage _ _ _).mono (by decide)) fun _ => adds_pure
  · exact adds_bind ((adds_processSnapshotRequest _ _ _ _).mono (by decide)) fun _ => adds_pure
  · exact adds_bind ((adds_processSnapshotResponse _ _ _ _).mono (by decide)) fun _ => adds_pure
  · exact adds_bind ((adds_processSnapshotFailure _ _).mono (by decide)) fun _ => adds_pure
  · exact adds_bind (adds_processGetReplicaState.mono (by decide)) fun _ => adds_pure
  · exact adds_bind ((adds_processHandshake _ _).mono (by decide)) fun _ => adds_pure
  · exact adds_pure

/-- What the consensus part of a call may cause. -/
def raftKinds : List K := readyKinds ++ [.tick, .save, .create, .report, .commCluster, .oCheck, .propose, .step]

theorem adds_advanceRaft : Adds (readyKinds ++ [.tick]) (advanceRaft S) := by
  unfold advanceRaft
  refine adds_bind adds_get fun _ => ?_
  refine adds_bind (adds_when (adds_triggerRaftTick.mono (by decide))) fun _ => ?_
  refine adds_bind adds_ask fun _ => ?_
  exact adds_when (adds_processReady.mono (by decide))

theorem adds_processStateMachine : Adds (readyKinds ++ [.tick, .save, .create, .report, .commCluster, .oCheck]) (processStateMachine S) := by
  unfold processStateMachine
  refine adds_bind adds_get fun _ => ?_
  split
  · refine adds_bind (adds_advanceRaft.mono (by decide)) fun _ => ?_
    exact adds_bind (adds_maybeCreateSnapshot.mono (by decide)) fun _ => adds_stashLeaderState.mono (by decide)
  · exact adds_pure

theorem adds_runRaft : Adds raftKinds (runRaft S) := by
  unfold runRaft
  refine adds_bind adds_get fun _ => ?_
  split
  · exact adds_pure
  · refine adds_bind (adds_processProposals.mono (by decide)) fun _ => ?_
    refine adds_bind (adds_processSnapshotProgress.mono (by decide)) fun _ => ?_
    exact adds_bind (adds_processStateMachine.mono (by decide)) fun _ => adds_processSnapshotSending.mono (by decide)

/-! ## A whole call -/

/-- The driver after `preset_state_machine`. -/
def presetState (S : Sys σ ρ κ H) (instant : Nat) (d : Driver σ ρ κ H) : Driver σ ρ κ H :=
  { d with
    prevRaftState := d.raftState
    instant := max d.instant instant
    ctx := { d.ctx with instant := max d.instant instant, leader := S.R.leader d.raft } }

/-- Dispatching an optional message. -/
def dispatchOpt (S : Sys σ ρ κ H) : Option (InMsg H) → M (Driver σ ρ κ H) (Option ActorCommand)
  | none => pure none
  | some m => dispatch S m

/-- The part of a call between `preset_state_machine` and sending. -/
def body (S : Sys σ ρ κ H) (m : Option (InMsg H)) : M (Driver σ ρ κ H) Unit := do
  let c ← dispatchOpt S m
  runActor S c
  runRaft S

theorem flush_run (d : Driver σ ρ κ H) : flush S d = (S.C.takeOut d.comm).bind fun r =>
    .ok ({ d with comm := r.1, messages := [], trace := d.trace ++ r.2.map fun m => .out (.comm m) },
      .ok (d.messages ++ r.2.map .comm)) := by
  unfold flush
  cases h : S.C.takeOut d.comm with
  | panic => rw [M.bind_run_panic (by simp [stashComm, h])]; rfl
  | ok r =>
    rw [M.bind_run (d1 := { d with
      comm := r.1
      messages := d.messages ++ r.2.map .comm
      trace := d.trace ++ r.2.map fun m => .out (.comm m) }) (a := ()) (by simp [stashComm, h])]
    rfl

theorem bind_assoc {D γ : Type} (m : M D α) (f : α → M D β) (g : β → M D γ) : (m >>= f) >>= g = m >>= fun a => f a >>= g := by
  funext d
  simp only [M.bind_def]
  unfold M.bind
  cases m d with
  | panic => rfl
  | ok x =>
    obtain ⟨d1, x⟩ := x
    cases x <;> rfl

theorem receive_unknown (instant : Nat) (d : Driver σ ρ κ H) :
    receive S instant (some none) d = .ok (presetState S instant d, .ok none) := rfl

theorem receive_known (instant : Nat) (m : Option (InMsg H)) (d : Driver σ ρ κ H) :
    receive S instant (m.map some) d = (body S m >>= fun _ => flush S >>= fun out => pure (some out)) (presetState S instant d) := by
  cases m with
  | none =>
    simp only [body, dispatchOpt, bind_assoc]
    rfl
  | some m =>
    simp only [body, dispatchOpt, bind_assoc]
    rfl

/-- What a call did. -/
inductive Outcome (S : Sys σ ρ κ H) (instant : Nat) (m : Option (Option (InMsg H))) (d : Driver σ ρ κ H) :
    Driver σ ρ κ H → Except PalErr (Option (List (OutMsg H))) → Prop
  | unknown (hm : m = some none) : Outcome S instant m d (presetState S instant d) (.ok none)
  | failed {m' : Option (InMsg H)} {d' e} (hm : m = m'.map some) (h : body S m' (presetState S instant d) = .ok (d', .error e)) :
      Outcome S instant m d d' (.error e)
  | done {m' : Option (InMsg H)} {d2 c' outs} (hm : m = m'.map some) (h : body S m' (presetState S instant d) = .ok (d2, .ok ()))
      (ho : S.C.takeOut d2.comm = .ok (c', outs)) :
      Outcome S instant m d { d2 with comm := c', messages := [], trace := d2.trace ++ outs.map fun m => .out (.comm m) }
        (.ok (some (d2.messages ++ outs.map .comm)))

theorem receive_outcome {instant : Nat} {m : Option (Option (InMsg H))} {d d' : Driver σ ρ κ H}
    {r : Except PalErr (Option (List (OutMsg H)))} (h : receive S instant m d = .ok (d', r)) : Outcome S instant m d d' r := by
  have key : m = some none ∨ ∃ m' : Option (InMsg H), m = m'.map some := by
    match m with
    | none => exact Or.inr ⟨none, rfl⟩
    | some none => exact Or.inl rfl
    | some (some m) => exact Or.inr ⟨some m, rfl⟩
  rcases key with rfl | ⟨m', rfl⟩
  · rw [receive_unknown] at h
    simp only [Run.ok.injEq, Prod.mk.injEq] at h
    rw [← h.1, ← h.2]
    exact .unknown rfl
  · rw [receive_known] at h
    rcases M.bind_ok h with ⟨e, hm, rfl⟩ | ⟨d1, a, hm, hf⟩
    · exact .failed rfl hm
    · rcases M.bind_ok hf with ⟨e, hm2, rfl⟩ | ⟨d2, out, hm2, hf2⟩
      · rw [flush_run] at hm2
        simp [Run.bind_eq_ok] at hm2
      · rw [flush_run] at hm2
        simp only [Run.bind_eq_ok, Run.ok.injEq, Prod.mk.injEq, Except.ok.injEq] at hm2
        obtain ⟨x, hx, rfl, rfl⟩ := hm2
        simp only [M.pure_def, M.pure, Run.ok.injEq, Prod.mk.injEq] at hf2
        rw [← hf2.1, ← hf2.2]
        exact .done rfl hm hx

theorem reaches_body (m : Option (InMsg H)) (d : Driver σ ρ κ H) : Reaches S (body S m) d := by
  unfold body
  refine reaches_bind ?_ fun _ _ _ => reaches_bind (reaches_runActor _ _) fun _ _ _ => reaches_runRaft _
  cases m with
  | none => exact reaches_pure
  | some m => exact reaches_dispatch m d

/-- The elementary steps of a call. -/
theorem receive_star {instant : Nat} {m : Option (Option (InMsg H))} {d d' : Driver σ ρ κ H}
    {r : Except PalErr (Option (List (OutMsg H)))} (h : receive S instant m d = .ok (d', r)) :
    ∃ d2, Star S (presetState S instant d) d2 ∧
      (d' = d2 ∨ ∃ c' outs, S.C.takeOut d2.comm = .ok (c', outs) ∧ r = .ok (some (d2.messages ++ outs.map .comm)) ∧
        d' = { d2 with comm := c', messages := [], trace := d2.trace ++ outs.map fun m => .out (.comm m) }) := by
  cases receive_outcome h with
  | unknown => exact ⟨_, .refl, Or.inl rfl⟩
  | failed _ hb => exact ⟨_, (reaches_body _ _).run _ _ hb, Or.inl rfl⟩
  | done _ hb ho => exact ⟨_, (reaches_body _ _).run _ _ hb, Or.inr ⟨_, _, ho, rfl, rfl⟩⟩

end TCP.Drv
