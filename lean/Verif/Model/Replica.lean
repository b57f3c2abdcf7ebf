import Verif.Model.Driver
import Verif.Model.Storage
import Verif.Spec.Comm

/-!
# Model of a whole replica: `runtime/src/consensus.rs` (`RaftSimple`), `runtime/src/service.rs`

`service.rs:88-107` puts a replica together: the driver over `RaftSimple<MemoryStorage>`, the default snapshot processor, the default
communication module and an actor.  Here the same composition is made of the models of those parts.

The raft-rs `RawNode` stays a parameter (`NodeT`): any node that owns a store.  Its calls may do anything, except that a node only
changes the store it owns by asking it for snapshots (`NodeContract`): this is all the `raft::Storage` trait, storage.rs:395-428,
lets it do.  The handshake session provider and the iteration order of hash maps are parameters as well (`Env`).

Simplifications: loggers are dropped; the entry type is stored as part of the bytes of an entry (`Model/Storage` keeps one byte string
per entry).
-/

namespace TCP.Replica

open TCP TCP.Drv

/-! ## Consensus -/

/-- raft-rs `RawNode<MemoryStorage>`.  `Y` is what remains of raft-rs' `Ready` after its parts were taken out. -/
structure NodeT (ν Y : Type) where
  new : (id : Nat) → Option RaftConfig → Storage.Store → Run (Except RaftErr ν)
  /-- `mut_store` -/
  store : ν → Storage.Store
  setStore : ν → Storage.Store → ν
  /-- `status().ss.raft_state == Leader` -/
  isLeader : ν → Bool
  /-- `status().ss.leader_id` -/
  leaderId : ν → Nat
  /-- `status().hs.term` -/
  term : ν → Nat
  hasPendingConf : ν → Bool
  step : ν → RaftMsg → Run (ν × Except RaftErr Unit)
  propose : ν → Bytes → Run (ν × Except RaftErr Unit)
  proposeConf : ν → ConfChange → Run (ν × Except RaftErr Unit)
  tick : ν → Run ν
  applyConf : ν → ConfChange → Run (ν × Except RaftErr Storage.ConfState)
  hasReady : ν → Run Bool
  ready : ν → Run (ν × Y × Ready)
  advance : ν → Y → Run (ν × LightReady)
  advanceApply : ν → Run ν
  reportSnapshot : ν → Nat → Snap.Status → Run ν

/-- What a node can do to its store: ask for snapshots. -/
inductive Asked : Storage.Store → Storage.Store → Prop
  | refl {s} : Asked s s
  | ask {s s'} (h : Asked s s') (request peer : Nat) : Asked s (Storage.snapshot s' request peer).1

/-- A node owns its store and only changes it through the `raft::Storage` trait. -/
structure NodeContract {ν Y : Type} (N : NodeT ν Y) : Prop where
  store_set : ∀ n s, N.store (N.setStore n s) = s
  new : ∀ {id cfg s n}, N.new id cfg s = .ok (.ok n) → Asked s (N.store n)
  step : ∀ {n m n' x}, N.step n m = .ok (n', x) → Asked (N.store n) (N.store n')
  propose : ∀ {n b n' x}, N.propose n b = .ok (n', x) → Asked (N.store n) (N.store n')
  proposeConf : ∀ {n c n' x}, N.proposeConf n c = .ok (n', x) → Asked (N.store n) (N.store n')
  tick : ∀ {n n'}, N.tick n = .ok n' → Asked (N.store n) (N.store n')
  applyConf : ∀ {n c n' x}, N.applyConf n c = .ok (n', x) → Asked (N.store n) (N.store n')
  ready : ∀ {n n' y r}, N.ready n = .ok (n', y, r) → Asked (N.store n) (N.store n')
  advance : ∀ {n y n' l}, N.advance n y = .ok (n', l) → Asked (N.store n) (N.store n')
  advanceApply : ∀ {n n'}, N.advanceApply n = .ok n' → Asked (N.store n) (N.store n')
  reportSnapshot : ∀ {n i st n'}, N.reportSnapshot n i st = .ok n' → Asked (N.store n) (N.store n')

variable {ν Y : Type}

/-- consensus.rs:222-226 `RaftSimple`. -/
structure Simple (ν Y : Type) where
  node : Option ν
  ready : AMap Nat Y

/-- consensus.rs:228-234 `RaftSimple::new`. -/
def Simple.new : Simple ν Y := ⟨none, []⟩

/-- consensus.rs:236-248 `mut_raft_node`, `raft_node`: panics when there is no node. -/
def Simple.get (r : Simple ν Y) : Run ν := Run.unwrap r.node

/-- An operation of the node that returns something. -/
def Simple.call {β : Type} (r : Simple ν Y) (f : ν → Run (ν × β)) : Run (Simple ν Y × β) :=
  r.get.bind fun n => (f n).bind fun x => .ok ({ r with node := some x.1 }, x.2)

/-- An operation of the node that returns nothing. -/
def Simple.callU (r : Simple ν Y) (f : ν → Run ν) : Run (Simple ν Y) :=
  r.get.bind fun n => (f n).bind fun n' => .ok { r with node := some n' }

/-- The type of an entry as a byte. -/
def typeByte : EntryType → UInt8
  | .normal => 0
  | .confChange => 1
  | .confChangeV2 => 2

/-- An entry as the store sees it. -/
def toStoreEntry (e : Entry) : Storage.Entry := ⟨e.index, e.term, typeByte e.type :: e.data⟩

/-- A snapshot as the store sees it. -/
def toStoreSnapshot (s : Snap.RaftSnapshot) : Storage.Snapshot := ⟨s.metadata.index, s.metadata.term, s.metadata.conf, s.data⟩

/-- An error of the store, `RaftError::Store`. -/
def storeResult {ε α : Type} : Except ε α → Except RaftErr α
  | .ok a => .ok a
  | .error _ => .error .other

/-- An operation of the store through `mut_store`, consensus.rs:282-284. -/
def Simple.onStore (N : NodeT ν Y) (r : Simple ν Y) {α : Type} (f : Storage.Store → Run (Storage.Store × Except Storage.Err α)) :
    Run (Simple ν Y × Except RaftErr α) :=
  r.call fun n => (f (N.store n)).bind fun x => .ok (N.setStore n x.1, storeResult x.2)

/-- consensus.rs:257-260 `leader`. -/
def Simple.leader (N : NodeT ν Y) (r : Simple ν Y) : Bool :=
  match r.node with
  | some n => N.isLeader n
  | none => false

/-- consensus.rs:262-280 `state`: only a leader fills it in, and the member list is never set here. -/
def Simple.state (N : NodeT ν Y) (r : Simple ν Y) : Run RaftState :=
  r.get.bind fun n => .ok (if N.isLeader n then ⟨N.leaderId n, N.term n, [], N.hasPendingConf n⟩ else RaftState.new)

/-- consensus.rs:286-309 `init` with the store made by the factory (driver.rs:291-294, service.rs:93). -/
def Simple.init (N : NodeT ν Y) (r : Simple ν Y) (id : Nat) (cfg : Option RaftConfig) (snapshot : Bytes) (leader : Bool)
    (snapshotCount : Nat) : Run (Simple ν Y × Except RaftErr Unit) :=
  let s0 := Storage.new snapshotCount
  let (s, res) := if leader then Storage.applySnapshot s0 ⟨1, 1, ⟨[id], [], []⟩, snapshot⟩ else (s0, .ok ())
  match res with
  | .error _ => .ok (r, .error .other)
  | .ok _ => (N.new id cfg s).bind fun x =>
      match x with
      | .error e => .ok (r, .error e)
      | .ok n => .ok ({ r with node := some n }, .ok ())

/-- consensus.rs:342-357 `get_ready`: what is left of the `Ready` is kept under its number. -/
def Simple.getReady (N : NodeT ν Y) (r : Simple ν Y) : Run (Simple ν Y × Ready) :=
  r.get.bind fun n => (N.ready n).bind fun x =>
    .ok ({ node := some x.1, ready := r.ready.set x.2.2.number x.2.1 }, x.2.2)

/-- consensus.rs:359-366 `advance_ready`: panics when no `Ready` is kept under the number. -/
def Simple.advanceReady (N : NodeT ν Y) (r : Simple ν Y) (number : Nat) : Run (Simple ν Y × LightReady) :=
  (Run.unwrap (r.ready.get number)).bind fun y => { r with ready := r.ready.erase number }.call fun n => N.advance n y

/-- consensus.rs:250-373 `impl Raft for RaftSimple` with the store of storage.rs:338-393. -/
def raftT (N : NodeT ν Y) : RaftT (Simple ν Y) where
  initialized r := r.node.isSome
  leader := Simple.leader N
  state := Simple.state N
  init := Simple.init N
  makeStep r m := r.call fun n => N.step n m
  makeProposal r b := r.call fun n => N.propose n b
  makeConfChange r c := r.call fun n => N.proposeConf n c
  makeTick r := r.callU N.tick
  applyConfChange r c := r.call fun n => N.applyConf n c
  hasReady r := r.get.bind N.hasReady
  getReady := Simple.getReady N
  advanceReady := Simple.advanceReady N
  advanceApply r := r.callU N.advanceApply
  reportSnapshot r i st := r.callU fun n => N.reportSnapshot n i st
  setHardState r h := r.callU fun n => .ok (N.setStore n (Storage.setHardState (N.store n) h))
  appendEntries r es := r.onStore N fun s => Storage.appendEntries s (es.map toStoreEntry)
  applySnapshot r s := r.onStore N fun st => .ok (Storage.applySnapshot st (toStoreSnapshot s))
  shouldSnapshot r i c := r.get.bind fun n => .ok (Storage.shouldSnapshot (N.store n) i c)
  createSnapshot r i c b := r.onStore N fun s => Storage.createSnapshot s i c b
  latestSnapshotSize r := r.get.bind fun n => .ok (Storage.latestSnapshotSize (N.store n))

/-! ## Communication -/

/-- What surrounds the communication module.  `provide` is handshake.rs:55-60 `HandshakeSessionProvider::get` with the own id, the id of
the peer and whether this replica initiates; `order` is the order in which a `HashMap` is iterated. -/
structure Env (P S E H : Type) where
  provide : P → (self peer : Nat) → (initiator : Bool) → P × Option S
  /-- handshake.rs:99-110 `HandshakeSessionProvider::init`, called by communication.rs:170-176; a provider that needs no set-up does
  nothing. -/
  init : P → Attest.Clock → Attest.RefVals → (endorsements : Bytes) → P := fun p _ _ _ => p
  order : P → AMap Nat (Comm.Peer S E H) → AMap Nat (Comm.Peer S E H)
  order_perm : ∀ p rs, (order p rs).Perm rs

/-- The communication module with the provider it owns.  `log` is a ghost: it records the calls since `init` and their answers, and no
function reads it. -/
structure Channels (P S E H : Type) where
  env : P
  module : Comm.Module S E H
  log : List (Comm.Spec.Ev S H)

variable {P S E H : Type}

/-- communication.rs:136-150. -/
def Channels.new (p : P) : Channels P S E H := ⟨p, Comm.Module.new, []⟩

/-- communication.rs:194-213 and 253-272: the provider is asked when the channel to the peer has no session. -/
def Channels.fresh (V : Env P S E H) (c : Channels P S E H) (peer : Nat) (initiator : Bool) : P × Option S :=
  if c.module.replicaId ≠ 0 ∧ ((c.module.replicas.get peer).map (·.status)).getD .unknown = .unknown then
    V.provide c.env c.module.replicaId peer initiator
  else (c.env, none)

/-- platform.rs:44-50. -/
def palErr : Comm.PalErr → PalErr
  | .internal => .internal
  | .invalidOperation => .invalidOperation

/-- The error type of the driver. -/
def palResult {α : Type} : Except Comm.PalErr α → Except PalErr α
  | .ok a => .ok a
  | .error e => .error (palErr e)

/-- communication.rs:179-224 `process_out_message`. -/
def Channels.processOut (ops : Comm.Ops S E H) (V : Env P S E H) (c : Channels P S E H) (u : Comm.Outgoing) :
    Run (Channels P S E H × Except PalErr Unit) :=
  let f := c.fresh V u.data.recipient true
  (c.module.processOut ops f.2 u).bind fun x => .ok (⟨f.1, x.1, c.log ++ [.out u f.2 x.2]⟩, palResult x.2)

/-- communication.rs:226-282 `process_in_message`. -/
def Channels.processIn (ops : Comm.Ops S E H) (V : Env P S E H) (c : Channels P S E H) (m : Comm.InMsg H) :
    Run (Channels P S E H × Except PalErr (Option (Comm.InMsg H))) :=
  let f := match m.peer with | some peer => c.fresh V peer false | none => (c.env, none)
  (c.module.processIn ops f.2 m).bind fun x => .ok (⟨f.1, x.1, c.log ++ [.inn m f.2 x.2]⟩, palResult x.2)

/-- communication.rs:284-290 `take_out_messages`. -/
def Channels.takeOut (ops : Comm.Ops S E H) (V : Env P S E H) (c : Channels P S E H) :
    Run (Channels P S E H × List (Comm.OutMsg H)) :=
  let m : Comm.Module S E H := { c.module with replicas := V.order c.env c.module.replicas }
  (m.takeOut ops).bind fun x => .ok (⟨c.env, x.1, c.log ++ [.shuffle] ++ [.take x.2]⟩, x.2)

/-- communication.rs:152-321 `impl CommunicationModule for DefaultCommunicationModule`. -/
def commT (ops : Comm.Ops S E H) (V : Env P S E H) : CommT (Channels P S E H) H where
  init c id retry timeout clock refs ends := { c with env := V.init c.env clock refs ends, module := c.module.init id retry timeout, log := [] }
  processOut := Channels.processOut ops V
  processIn := Channels.processIn ops V
  takeOut := Channels.takeOut ops V
  clusterChange c ids := { c with module := c.module.clusterChange ids, log := c.log ++ [.cluster ids] }
  tick c := { c with module := c.module.tick, log := c.log ++ [.tick] }

/-! ## The replica -/

/-- service.rs:80-107 `ApplicationService`: everything a replica consists of. -/
def sys {σ : Type} (A : Actor σ) (N : NodeT ν Y) (ops : Comm.Ops S E H) (V : Env P S E H) (codecs : Codecs) :
    Sys σ (Simple ν Y) (Channels P S E H) H where
  A := A
  R := raftT N
  C := commT ops V
  E := codecs

/-- service.rs:87-107 `ApplicationService::new`. -/
def fresh {σ : Type} (a : σ) (p : P) : Driver σ (Simple ν Y) (Channels P S E H) H :=
  Driver.new a Simple.new (Channels.new p)

/-- service.rs:110-132 `receive_message`: an error of the driver ends the process. -/
def serve {σ ρ κ : Type} (Sy : Sys σ ρ κ H) (instant : Nat) (msg : Option (Option (InMsg H))) (d : Driver σ ρ κ H) :
    Run (Driver σ ρ κ H × List (OutMsg H)) :=
  (receive Sy instant msg d).bind fun x =>
    match x.2 with
    | .error _ => .panic
    | .ok out => .ok (x.1, out.getD [])

/-- The states of the replica a service holds, with everything it has sent. -/
inductive Serves {σ ρ κ : Type} (Sy : Sys σ ρ κ H) (d0 : Driver σ ρ κ H) : List (OutMsg H) → Driver σ ρ κ H → Prop
  | start : Serves Sy d0 [] d0
  | call {sent d instant msg d' out} (h : Serves Sy d0 sent d) (hs : serve Sy instant msg d = .ok (d', out)) :
      Serves Sy d0 (sent ++ out) d'

end TCP.Replica
