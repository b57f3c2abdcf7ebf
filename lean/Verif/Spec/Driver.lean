import Verif.Model.Driver

/-!
# Specification vocabulary for the replica driver

Everything here reads the recorded interactions of a driver with its components (`Driver.trace`); it does not mention the
driver's methods.
-/

namespace TCP.DrvSpec

open TCP TCP.Drv TCP.ActorSpec

variable {H : Type}

/-- The time the actor could see during an interaction, if it was called. -/
def actorInstant : Ev H → Option Nat
  | .actorInit ctx _ => some ctx.instant
  | .actorShutdown ctx => some ctx.instant
  | .actor (.command ctx _ _) => some ctx.instant
  | .actor (.apply ctx _ _ _) => some ctx.instant
  | .actor (.save ctx _) => some ctx.instant
  | .actor (.load ctx _ _) => some ctx.instant
  | _ => none

/-- The times at which the actor was called. -/
def actorInstants (t : List (Ev H)) : List Nat := t.filterMap actorInstant

/-- The time of a tick. -/
def tickInstant : Ev H → Option Nat
  | .tick i => some i
  | _ => none

/-- The times at which consensus was given a tick. -/
def ticks (t : List (Ev H)) : List Nat := t.filterMap tickInstant

/-- What happened between two states of a driver. -/
def Since {σ ρ κ : Type} (d d' : Driver σ ρ κ H) (new : List (Ev H)) : Prop := d'.trace = d.trace ++ new

/-- An interaction in which the actor is handed a command. -/
def IsCommand : Ev H → Prop
  | .actor (.command ..) => True
  | _ => False

/-- An interaction in which the actor is handed an event. -/
def IsApply : Ev H → Prop
  | .actor (.apply ..) => True
  | _ => False

/-- Interaction with the actor. -/
def TouchesActor : Ev H → Prop
  | .actor _ | .actorInit .. | .actorShutdown _ => True
  | _ => False

/-- Interaction that changes what consensus knows: a message, a proposal, a change of the store. -/
def TouchesLog : Ev H → Prop
  | .raftInit .. | .step _ | .propose _ | .proposeChange .. | .applyChange .. | .storeHardState _ | .storeAppend .. | .storeApply ..
  | .storeCreate .. => True
  | _ => False

/-- What the actor answered, in the order of its answers. -/
def actorReplies : Ev H → List ActorCommand
  | .actor (.command _ _ (.ok o)) => o.commands
  | .actor (.apply _ _ _ (.ok o)) => o.commands
  | _ => []

/-- The application messages among messages to the host. -/
def appMessages (ms : List (OutMsg H)) : List ActorCommand :=
  ms.filterMap fun m => match m with | .appMessage c => some c | _ => none

/-- The answers to cluster change requests among messages to the host. -/
def changeAnswers (ms : List (OutMsg H)) : List (Nat × ChangeStatus) :=
  ms.filterMap fun m => match m with | .changeCluster i s => some (i, s) | _ => none

/-- The cluster reports among messages to the host. -/
def clusterReports (ms : List (OutMsg H)) : List RaftState :=
  ms.filterMap fun m => match m with | .checkCluster s => some s | _ => none

/-- The state a report is compared with: the last one, or the initial one if a report was requested. -/
def baseline (m : Option (InMsg H)) (prev : RaftState) : RaftState :=
  match m with
  | some .checkCluster => RaftState.new
  | _ => prev

/-- Messages, proposals and reports do not make an initialised consensus layer uninitialised, and a report about a transfer does not
change who leads. -/
structure KeepsNode {ρ : Type} (R : RaftT ρ) : Prop where
  step : ∀ r m r' x, R.initialized r = true → R.makeStep r m = .ok (r', x) → R.initialized r' = true
  proposal : ∀ r b r' x, R.initialized r = true → R.makeProposal r b = .ok (r', x) → R.initialized r' = true
  change : ∀ r c r' x, R.initialized r = true → R.makeConfChange r c = .ok (r', x) → R.initialized r' = true
  report : ∀ r i s r', R.initialized r = true → R.reportSnapshot r i s = .ok r' → R.initialized r' = true
  status : ∀ r i s r', R.reportSnapshot r i s = .ok r' → R.state r' = R.state r

/-- A driver that has just been created. -/
def Fresh {σ ρ κ : Type} (d : Driver σ ρ κ H) : Prop := ∃ a r c, d = Driver.new a r c

/-- A sequence of `receive_message` calls, with any result: nothing was sent, messages were sent, or an error was returned. -/
inductive Calls {σ ρ κ : Type} (S : Sys σ ρ κ H) :
    Driver σ ρ κ H → List (Except PalErr (Option (List (OutMsg H)))) → Driver σ ρ κ H → Prop
  | nil {d} : Calls S d [] d
  | snoc {d rs d1 instant msg r d2} (h : Calls S d rs d1) (hs : receive S instant msg d1 = .ok (d2, r)) : Calls S d (rs ++ [r]) d2

/-- The messages the host got from calls. -/
def sent (rs : List (Except PalErr (Option (List (OutMsg H))))) : List (OutMsg H) :=
  rs.flatMap fun r => match r with | .ok (some ms) => ms | _ => []

/-- The messages for the host among interactions. -/
def outMessages (t : List (Ev H)) : List (OutMsg H) :=
  t.filterMap fun e => match e with | .out m => some m | _ => none

/-- The acknowledgements of start requests. -/
def starts (t : List (Ev H)) : List Nat :=
  t.filterMap fun e => match e with | .out (.startReplica i) => some i | _ => none

/-- Nothing happened between two states, as far as the actor, the log, the host and the lifecycle are concerned. -/
structure Untouched {σ ρ κ : Type} (d d' : Driver σ ρ κ H) : Prop where
  trace : d'.trace = d.trace
  actor : d'.actor = d.actor
  raft : d'.raft = d.raft
  comm : d'.comm = d.comm
  messages : d'.messages = d.messages
  state : d'.state = d.state

/-- Requests that need a started replica. -/
def NeedsStarted : InMsg H → Prop
  | .changeCluster .. | .checkCluster | .systemMessage .. | .getReplicaState | .handshake .. => True
  | _ => False

/-- Requests that need a replica with replication. -/
def NeedsReplication : InMsg H → Prop
  | .changeCluster .. | .checkCluster | .systemMessage .. | .snapshotRequest .. | .snapshotResponse .. | .snapshotFailure .. => True
  | _ => False

/-- The members after an interaction: a founder is alone; otherwise they are what consensus answered to the last change, or what the last
installed snapshot says. -/
def membersAfter (c : Storage.ConfState) : Ev H → Storage.ConfState
  | .raftInit id _ true (.ok _) => ⟨[id], [], []⟩
  | .applyChange _ (.ok c') => c'
  | .storeApply s _ => s.metadata.conf
  | _ => c

/-- The members after all interactions. -/
def membersOf (t : List (Ev H)) : Storage.ConfState := t.foldl membersAfter ⟨[], [], []⟩

/-- Consensus asked the replica to send a message. -/
def Posted {H : Type} (t : List (Ev H)) (m : RaftMsg) : Prop :=
  (∃ r, .ready r ∈ t ∧ (m ∈ r.messages ∨ m ∈ r.persisted)) ∨ ∃ l, .light l ∈ t ∧ m ∈ l.messages

end TCP.DrvSpec
