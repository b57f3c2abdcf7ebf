import Verif.Model.Replica
import Verif.Spec.Driver

/-!
# Specification vocabulary for a whole replica (C66–C70)

`log` is the record of the calls of the secure channel layer and their answers (`Comm.Spec.Ev`).
-/

namespace TCP.Replica.Spec

open TCP TCP.Drv TCP.Comm.Spec

variable {S E H : Type}

/-- `x` carries the encryption, under an established session with its recipient, of a message the replica wanted to send to that same
recipient. -/
def Sealed (ops : Comm.Ops S E H) (log : List (Comm.Spec.Ev S H)) (x : Comm.Data) : Prop :=
  ∃ u e, u ∈ accepted x.recipient log ∧ Established ops log x.recipient e ∧ CipherBy ops e x u

/-- The bytes `b` arrived in a message of the given kind from `sender`, as a payload that decrypts to `b` under an established session
with `sender`. -/
def Authentic (ops : Comm.Ops S E H) (log : List (Comm.Spec.Ev S H)) (kind : Comm.Kind) (sender : Nat) (b : Bytes) : Prop :=
  ∃ d cipher fresh up e, .inn (.data d) fresh (.ok (some up)) ∈ log ∧ d.kind = kind ∧ d.sender = sender ∧ d.payload = some cipher ∧
    Established ops log sender e ∧ (ops.decrypt e cipher).2 = some b

/-- `sender` authentically sent the header of a snapshot, with this metadata and this first chunk. -/
def HeaderFrom (ops : Comm.Ops S E H) (codecs : Codecs) (log : List (Comm.Spec.Ev S H)) (sender : Nat) (metadata first : Bytes) : Prop :=
  ∃ deliveryId b id size, Authentic ops log (.snapshotRequest deliveryId) sender b ∧
    codecs.decContent b = some ⟨id, some (.header size metadata first)⟩

/-- `sender` authentically sent these bytes as chunk number `i` (the first chunk is part of the header). -/
def ChunkFrom (ops : Comm.Ops S E H) (codecs : Codecs) (log : List (Comm.Spec.Ev S H)) (sender i : Nat) (bytes : Bytes) : Prop :=
  (i = 0 ∧ ∃ metadata, HeaderFrom ops codecs log sender metadata bytes) ∨
  (∃ deliveryId b id, Authentic ops log (.snapshotRequest deliveryId) sender b ∧
    codecs.decContent b = some ⟨id, some (.chunk i bytes)⟩)

/-- The snapshot was put together of what `sender` authentically sent: its metadata from a header, its data from chunks in order. -/
def SnapshotFrom (ops : Comm.Ops S E H) (codecs : Codecs) (log : List (Comm.Spec.Ev S H)) (sender : Nat) (s : Snap.RaftSnapshot) : Prop :=
  (∃ metadata first, HeaderFrom ops codecs log sender metadata first ∧ codecs.decMeta metadata = some s.metadata) ∧
  ∃ pieces : List Bytes, s.data = pieces.flatten ∧ ∀ i bytes, pieces[i]? = some bytes → ChunkFrom ops codecs log sender i bytes

/-- Where a message given to consensus comes from. -/
def Genuine (ops : Comm.Ops S E H) (codecs : Codecs) (log : List (Comm.Spec.Ev S H)) (m : RaftMsg) : Prop :=
  (∃ sender b, Authentic ops log .system sender b ∧ codecs.decRaft b = some m) ∨
  (∃ to sender s, m = ⟨to, sender, .snapshot, some s, []⟩ ∧ SnapshotFrom ops codecs log sender s)

/-- The messages consensus was given. -/
def stepped (t : List (Drv.Ev H)) : List RaftMsg := t.filterMap fun e => match e with | .step m => some m | _ => none

/-- The messages for other replicas other than handshakes, among messages for the host. -/
def dataMessages (ms : List (OutMsg H)) : List Comm.Data := ms.filterMap fun m => match m with | .comm (.data x) => some x | _ => none

/-- What the store of the replica was asked to do since its consensus layer was created.  A leader starts from a snapshot of the initial
state of the application at index 1. -/
def storeCalls (t : List (Drv.Ev H)) : List Storage.Op :=
  t.foldl (fun acc e => match e with
    | .raftInit me b leader (.ok _) => if leader then [.apply ⟨1, 1, ⟨[me], [], []⟩, b⟩] else []
    | .storeHardState h => acc ++ [.setHardState h]
    | .storeAppend es _ => acc ++ [.append (es.map toStoreEntry)]
    | .storeApply s _ => acc ++ [.apply (toStoreSnapshot s)]
    | .storeCreate i c b => acc ++ [.create i c b]
    | _ => acc) []

/-- Requests for a snapshot, which consensus makes itself. -/
def isRequest : Storage.Op → Bool
  | .request _ _ => true
  | _ => false

variable {ν Y P σ : Type}

/-- Whether the replica is the leader. -/
def leads (N : NodeT ν Y) (d : Driver σ (Simple ν Y) (Channels P S E H) H) : Bool :=
  match d.raft.node with
  | some n => N.isLeader n
  | none => false

/-- What a leader knows about its cluster; the members are those consensus agreed on. -/
def clusterOf (N : NodeT ν Y) (d : Driver σ (Simple ν Y) (Channels P S E H) H) : Option RaftState :=
  d.raft.node.map fun n => ⟨N.leaderId n, N.term n, if N.leaderId n = d.id then (DrvSpec.membersOf d.trace).voters else [], N.hasPendingConf n⟩

/-- What is assumed of raft-rs here: a report about a transfer changes nothing of the following, and a leader knows who leads. -/
structure LeaderContract (N : NodeT ν Y) : Prop where
  reportLeader : ∀ {n i st n'}, N.reportSnapshot n i st = .ok n' → N.isLeader n' = N.isLeader n
  reportId : ∀ {n i st n'}, N.reportSnapshot n i st = .ok n' → N.leaderId n' = N.leaderId n
  reportTerm : ∀ {n i st n'}, N.reportSnapshot n i st = .ok n' → N.term n' = N.term n
  reportConf : ∀ {n i st n'}, N.reportSnapshot n i st = .ok n' → N.hasPendingConf n' = N.hasPendingConf n
  known : ∀ {n}, N.isLeader n = true → N.leaderId n ≠ 0

end TCP.Replica.Spec
