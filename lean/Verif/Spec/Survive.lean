import Verif.Model.Replica
import Verif.Model.Counter
import Verif.Model.TabletStore
import Verif.Model.Willow

/-!
# Specification for C95: a running replica keeps running

What the application, consensus and the other replicas have to promise so that a replica gets through every call.  `Terms` are the
predicates the promises are about; nothing here refers to how the driver works, except for the order in which it deals with consensus
(`Stage`), which is the one raft-rs documents.
-/

namespace TCP.Survive

open TCP TCP.Drv TCP.Replica

/-- Where a replica is in its dealings with consensus. -/
inductive Stage where
  /-- between two rounds -/
  | idle
  /-- a `Ready` was taken -/
  | fetched (y : Ready)
  /-- and its hard state was stored -/
  | stated (y : Ready)
  /-- and its snapshot was stored; these of its committed entries are still to be applied -/
  | restored (y : Ready) (todo : List Entry)
  /-- and its entries were stored -/
  | stored (y : Ready)
  /-- consensus was told so; these of the entries it then handed out are still to be applied -/
  | light (l : LightReady) (todo : List Entry)

/-- What the parties rely on. -/
structure Terms (σ ρ : Type) where
  /-- states of the application -/
  actor : σ → Prop
  /-- configurations of the application -/
  config : Bytes → Prop
  /-- commands the application can deal with -/
  command : Option ActorCommand → Prop
  /-- contents of log entries the application can deal with -/
  event : Bytes → Prop
  /-- snapshots the application can load -/
  image : Bytes → Prop
  /-- configurations of consensus -/
  raftConfig : Option RaftConfig → Prop
  /-- states of consensus, given the index the replica has applied and the members it knows -/
  raft : Stage → Nat → Storage.ConfState → ρ → Prop
  /-- messages of other replicas consensus can deal with -/
  message : ρ → RaftMsg → Prop
  /-- snapshots consensus can deal with -/
  snapshot : Snap.RaftSnapshot → Prop
  /-- changes of the members consensus can deal with -/
  change : ConfChange → Prop

variable {σ ρ P S E H : Type}

/-- The application neither fails nor crashes on what it can deal with, and its own events and snapshots are of that kind.  It only asks for
events when it is given a command while it leads. -/
structure ActorSafe (A : Actor σ) (T : Terms σ ρ) (a0 : σ) : Prop where
  empty : T.command none
  init : ∀ {ctx}, T.config ctx.config → ∃ s, A.onInit ctx a0 = .ok (s, .ok ()) ∧ T.actor s
  shutdown : ∀ {ctx s}, T.actor s → ∃ s', A.onShutdown ctx s = .ok s' ∧ T.actor s'
  save : ∀ {ctx s}, T.actor s → ∃ s' b, A.onSaveSnapshot ctx s = .ok (s', .ok b) ∧ T.actor s' ∧ T.image b
  load : ∀ {ctx s b}, T.actor s → T.image b → ∃ s', A.onLoadSnapshot ctx s b = .ok (s', .ok ()) ∧ T.actor s'
  command : ∀ {ctx s c}, T.actor s → T.command c → ∃ s' o, A.onProcessCommand ctx s c = .ok (s', .ok o) ∧ T.actor s' ∧
    ∀ ev, o.event = some ev → T.event ev.contents ∧ ctx.leader = true ∧ c ≠ none
  apply : ∀ {ctx s ec ev}, T.actor s → T.event ev.contents → ∃ s' o, A.onApplyEvent ctx s ec ev = .ok (s', .ok o) ∧ T.actor s'

/-- A committed entry the replica can deal with: empty, a change of the members, or an event with the id of its proposal. -/
def Readable (E : Codecs) (T : Terms σ ρ) (e : Entry) : Prop :=
  e.data = [] ∨ (e.type = .confChange ∧ ∃ c, E.decConf e.data = some c ∧ T.change c) ∨
    (e.type ≠ .confChange ∧ ∃ id b, E.decEntry e.data = some ⟨some id, b⟩ ∧ T.event b)

/-- In the order of their indices. -/
def Ordered (es : List Entry) : Prop := es.Pairwise fun a b => a.index < b.index

/-- Snapshot messages carry a snapshot. -/
def Loaded (ms : List RaftMsg) : Prop := ∀ m ∈ ms, m.type = .snapshot → m.snapshot.isSome

/-- Consensus neither fails nor crashes when it is dealt with in its order, a leader accepts what is proposed to it, and what is handed
out can be read and is in order.  Of the store this asks that it takes what consensus hands out and a snapshot of what was applied. -/
structure ConsensusSafe (R : RaftT ρ) (E : Codecs) (T : Terms σ ρ) (r0 : ρ) : Prop where
  init : ∀ {id cfg b leader n}, T.raftConfig cfg → T.image b → ∃ r, R.init r0 id cfg b leader n = .ok (r, .ok ()) ∧
    T.raft .idle (if leader then 1 else 0) (if leader then ⟨[id], [], []⟩ else ⟨[], [], []⟩) r
  state : ∀ {i c r}, T.raft .idle i c r → ∃ st, R.state r = .ok st
  step : ∀ {i c r m}, T.raft .idle i c r → T.message r m → ∃ r', R.makeStep r m = .ok (r', .ok ()) ∧ T.raft .idle i c r'
  deliver : ∀ {i c r me snd s}, T.raft .idle i c r → T.snapshot s →
    ∃ r' x, R.makeStep r ⟨me, snd, .snapshot, some s, []⟩ = .ok (r', x) ∧ T.raft .idle i c r'
  propose : ∀ {i c r id k b}, T.raft .idle i c r → R.leader r = true → T.event b →
    ∃ r', R.makeProposal r (E.encEntry ⟨some (id, k), b⟩) = .ok (r', .ok ()) ∧ T.raft .idle i c r'
  change : ∀ {i c r k}, T.raft .idle i c r → T.change k → ∃ r' x, R.makeConfChange r k = .ok (r', x) ∧ x ≠ .error .other ∧ T.raft .idle i c r'
  tick : ∀ {i c r}, T.raft .idle i c r → ∃ r', R.makeTick r = .ok r' ∧ T.raft .idle i c r'
  report : ∀ {i c r p s}, T.raft .idle i c r → ∃ r', R.reportSnapshot r p s = .ok r' ∧ T.raft .idle i c r'
  size : ∀ {i c r}, T.raft .idle i c r → ∃ n, R.latestSnapshotSize r = .ok n
  should : ∀ {i c r}, T.raft .idle i c r → ∃ b, R.shouldSnapshot r i c = .ok b
  create : ∀ {i c r b}, T.raft .idle i c r → R.shouldSnapshot r i c = .ok true → T.image b →
    ∃ r', R.createSnapshot r i c b = .ok (r', .ok ()) ∧ T.raft .idle i c r'
  has : ∀ {i c r}, T.raft .idle i c r → ∃ b, R.hasReady r = .ok b
  fetch : ∀ {i c r}, T.raft .idle i c r → R.hasReady r = .ok true → ∃ r' y, R.getReady r = .ok (r', y) ∧ T.raft (.fetched y) i c r' ∧
    Loaded y.messages ∧ Loaded y.persisted ∧ (∀ e ∈ y.committed, Readable E T e) ∧ Ordered y.committed ∧
    (y.snapshot.metadata.index ≠ 0 → T.image y.snapshot.data)
  hardState : ∀ {i c r y h}, T.raft (.fetched y) i c r → y.hardState = some h → ∃ r', R.setHardState r h = .ok r' ∧ T.raft (.stated y) i c r'
  noHardState : ∀ {i c r y}, T.raft (.fetched y) i c r → y.hardState = none → T.raft (.stated y) i c r
  snapshot : ∀ {i c r y}, T.raft (.stated y) i c r → y.snapshot.metadata.index ≠ 0 → ∃ r', R.applySnapshot r y.snapshot = .ok (r', .ok ()) ∧
    T.raft (.restored y y.committed) y.snapshot.metadata.index y.snapshot.metadata.conf r'
  noSnapshot : ∀ {i c r y}, T.raft (.stated y) i c r → y.snapshot.metadata.index = 0 → T.raft (.restored y y.committed) i c r
  append : ∀ {i c r y}, T.raft (.restored y []) i c r → y.entries ≠ [] → ∃ r', R.appendEntries r y.entries = .ok (r', .ok ()) ∧ T.raft (.stored y) i c r'
  noEntries : ∀ {i c r y}, T.raft (.restored y []) i c r → y.entries = [] → T.raft (.stored y) i c r
  advance : ∀ {i c r y}, T.raft (.stored y) i c r → ∃ r' l, R.advanceReady r y.number = .ok (r', l) ∧ T.raft (.light l l.committed) i c r' ∧
    Loaded l.messages ∧ (∀ e ∈ l.committed, Readable E T e) ∧ Ordered l.committed
  done : ∀ {i c r l}, T.raft (.light l []) i c r → ∃ r', R.advanceApply r = .ok r' ∧ T.raft .idle i c r'
  /-- an entry that changes no members was applied -/
  applied : ∀ {i c r e es} {k : List Entry → Stage}, T.raft (k (e :: es)) i c r → (∃ y, k = .restored y) ∨ (∃ l, k = .light l) → (e.data = [] ∨ e.type ≠ .confChange) →
    T.raft (k es) e.index c r
  /-- an entry that changes the members was applied -/
  applyChange : ∀ {i c r e es x} {k : List Entry → Stage}, T.raft (k (e :: es)) i c r → (∃ y, k = .restored y) ∨ (∃ l, k = .light l) →
    e.type = .confChange → e.data ≠ [] → E.decConf e.data = some x → T.change x →
    ∃ r' cs, R.applyConfChange r x = .ok (r', .ok cs) ∧ T.raft (k es) e.index cs r'

/-- The provider hands out sessions, a completed session has an encryptor, and encrypting does not crash. -/
structure ChannelsSafe (ops : Comm.Ops S E H) (V : Env P S E H) : Prop where
  provide : ∀ p me peer initiator, (V.provide p me peer initiator).2.isSome
  completed : ∀ s, ops.completed s = true → (ops.encryptor s).isSome
  encrypt : ∀ e b, ∃ r, ops.encrypt e b = .ok r

/-- The replica of `service.rs` with any consensus. -/
def replica (A : Actor σ) (R : RaftT ρ) (ops : Comm.Ops S E H) (V : Env P S E H) (codecs : Codecs) : Sys σ ρ (Channels P S E H) H :=
  ⟨A, R, commT ops V, codecs⟩

/-- A start request for a replica that takes part in consensus: it has an id, endorsements and configurations the parties can
deal with, and snapshots are cut into pieces of at least a byte. -/
structure GoodStart (T : Terms σ ρ) (q : StartReq) : Prop where
  id : q.idHint ≠ 0
  ephemeral : q.isEphemeral = false
  endorsements : q.endorsements.isSome = true
  config : T.config q.appConfig
  raftConfig : T.raftConfig q.raftConfig
  chunkSize : ∀ c s, q.raftConfig = some c → c.snapshotConfig = some s → 0 < s.2.1

/-- A header announces no contents if it carries none. -/
def Proper (c : Snap.Content) : Prop := ∀ size md, c.it = some (.header size md []) → size = 0

/-- Every snapshot the receiver has put together can be given to consensus. -/
def Held (E : Codecs) (T : Terms σ ρ) (r : Snap.Receiver) : Prop :=
  ∀ r' snd sn, r.tryComplete E.decMeta = .ok (r', some (.ok (snd, sn))) → T.snapshot sn

variable {κ : Type}

/-- What the host gives the replica: no second start, requests about the running replica only while it runs, messages with their payload, commands
the application can deal with, changes of the members consensus can deal with, and what the channels make of the messages is what consensus and the snapshot receiver can deal
with. -/
def Fair (Sy : Sys σ ρ κ H) (T : Terms σ ρ) (d : Driver σ ρ κ H) : Option (Option (InMsg H)) → Prop
  | none => True
  | some none => True
  | some (some (.startReplica _)) => False
  | some (some .stopReplica) => True
  | some (some .enterLameduck) => True
  | some (some (.changeCluster _ r t)) => d.state = .started ∧ (t = 1 → T.change ⟨r, true⟩) ∧ (t = 2 → T.change ⟨r, false⟩)
  | some (some .checkCluster) => d.state = .started
  | some (some .getReplicaState) => d.state = .started
  | some (some (.handshake _ _)) => d.state = .started
  | some (some (.appMessage c)) => T.command (some c)
  | some (some (.systemMessage r s p)) => d.state = .started ∧ p.isSome ∧
      ∀ c' x b m, Sy.C.processIn d.comm (.data ⟨.system, r, s, p⟩) = .ok (c', .ok (some (.data x))) → x.payload = some b →
        Sy.E.decRaft b.contents = some m → T.message d.raft m
  | some (some (.snapshotRequest r s i p)) => p.isSome ∧
      ∀ c' x b, Sy.C.processIn d.comm (.data ⟨.snapshotRequest i, r, s, p⟩) = .ok (c', .ok (some (.data x))) → x.payload = some b →
        (∀ c, Sy.E.decContent b.contents = some c → Proper c) ∧
        ∀ rc resp, d.snap.receiver.processRequest ⟨x.recipient, x.sender, i, some (Sy.E.decContent b.contents)⟩ = .ok (rc, resp) → Held Sy.E T rc
  | some (some (.snapshotResponse _ _ _ p)) => p.isSome
  | some (some (.snapshotFailure _ _)) => True

/-- The states of a replica that was started and given only such messages. -/
inductive Kept (Sy : Sys σ ρ κ H) (T : Terms σ ρ) (d0 : Driver σ ρ κ H) : Driver σ ρ κ H → Prop
  | start {q instant d out} (hq : GoodStart T q) (h : serve Sy instant (some (some (.startReplica q))) d0 = .ok (d, out)) : Kept Sy T d0 d
  | call {d instant msg d' out} (h : Kept Sy T d0 d) (hm : Fair Sy T d msg) (hs : serve Sy instant msg d = .ok (d', out)) : Kept Sy T d0 d'

/-! ## Ephemeral replicas: they do not take part in consensus -/

/-- A start request for an ephemeral replica. -/
structure GoodEphemeralStart (T : Terms σ ρ) (q : StartReq) : Prop where
  id : q.idHint ≠ 0
  ephemeral : q.isEphemeral = true
  endorsements : q.endorsements.isSome = true
  config : T.config q.appConfig

/-- What the host gives an ephemeral replica: no second start, nothing that is about consensus. -/
def FairEphemeral (T : Terms σ ρ) (d : Driver σ ρ κ H) : Option (Option (InMsg H)) → Prop
  | none => True
  | some none => True
  | some (some .stopReplica) => True
  | some (some .enterLameduck) => True
  | some (some .getReplicaState) => d.state = .started
  | some (some (.handshake _ _)) => d.state = .started
  | some (some (.appMessage c)) => T.command (some c)
  | some (some _) => False

/-- The states of an ephemeral replica that was started and given only such messages. -/
inductive KeptEphemeral (Sy : Sys σ ρ κ H) (T : Terms σ ρ) (d0 : Driver σ ρ κ H) : Driver σ ρ κ H → Prop
  | start {q instant d out} (hq : GoodEphemeralStart T q) (h : serve Sy instant (some (some (.startReplica q))) d0 = .ok (d, out)) : KeptEphemeral Sy T d0 d
  | call {d instant msg d' out} (h : KeptEphemeral Sy T d0 d) (hm : FairEphemeral T d msg) (hs : serve Sy instant msg d = .ok (d', out)) :
    KeptEphemeral Sy T d0 d'

/-! ## The applications -/

/-- The counter can deal with every command. -/
def counterTerms (ms : Counter.Msgs) (T : Terms Counter.State ρ) : Terms Counter.State ρ :=
  { T with
    actor := fun s => AMap.WF s.values
    config := fun b => (ms.decConfig b).isSome
    command := fun _ => True
    event := fun b => ∃ r, ms.decReq b = some r ∧ r.op.isSome
    image := fun b => (ms.decSnap b).isSome }

/-- The tablet store with tables `names` can deal with every command that does not ask for tablets to be added or removed, which is not
implemented. -/
def tabletTerms (env : TabletStore.Env) (names : List String) (T : Terms TabletStore.State ρ) : Terms TabletStore.State ρ :=
  let plain (b : Bytes) : Prop := ∀ ops, env.decReq b = some ops → ∀ o ∈ ops, (∀ m, o.op ≠ some (.add m)) ∧ ∀ i j, o.op ≠ some (.remove i j)
  { T with
    actor := fun s => ∀ n, n ∈ s.tables.keys ↔ n ∈ names
    config := fun b => ∃ cs, env.decConfig b = some cs ∧ ∀ n, n ∈ cs.map Prod.fst ↔ n ∈ names
    command := fun c => ∀ x, c = some x → plain x.payload
    event := fun b => (env.decReq b).isSome ∧ plain b
    image := fun b => ∃ l, env.decSnap b = some l ∧ ∀ e ∈ l, e.1 ∈ names }

/-- The decryptor can deal with commands it can decode whose decryption requests are well-formed. -/
def decryptorTerms (env : Willow.Env) (T : Terms Willow.State ρ) : Terms Willow.State ρ :=
  { T with
    actor := fun _ => True
    config := fun _ => True
    command := fun c => ∀ x, c = some x → ∃ r, env.decReq x.header = some r ∧ ∀ k q, r = .decrypt k q → ∀ key n, (env.decrypt k key q n).isSome
    event := fun b => (env.decEv b).isSome
    image := fun b => (env.decSnap b).isSome }

end TCP.Survive
