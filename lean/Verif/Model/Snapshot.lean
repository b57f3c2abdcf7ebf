import Verif.Lib.Run
import Verif.Lib.AMap
import Verif.Model.Storage

/-!
# Model of `runtime/src/snapshot.rs` — chunked snapshot transfer

Simplifications: loggers and `instant` (stored, never read) are dropped; `u32`/`u64` are `Nat`;
`HashMap` is `AMap`; the protobuf payloads `SnapshotContent` / `SnapshotAck` are modelled after
decoding (`none` = bytes that do not decode); the encoded `SnapshotMetadata` stays a byte string and
its codec is the parameter `decodeMeta` (`encodeMeta` on the sender side).
-/

namespace TCP.Snap

open TCP

/-- `eraftpb::SnapshotMetadata`. -/
structure Meta where
  index : Nat
  term : Nat
  conf : Storage.ConfState
deriving Repr, DecidableEq

/-- `eraftpb::Snapshot` (snapshot.rs:32); `metadata` is always present (unwrapped at 367). -/
structure RaftSnapshot where
  metadata : Meta
  data : Bytes
deriving Repr, DecidableEq

/-- `raft::SnapshotStatus`. -/
inductive Status where
  | finish
  | failure
deriving Repr, DecidableEq

/-- `deliver_snapshot_request::snapshot_content::It`, endpoint.proto. -/
inductive It where
  | header (snapshotSize : Nat) (metadata : Bytes) (chunk : Bytes)
  | chunk (index : Nat) (contents : Bytes)
deriving Repr, DecidableEq

/-- `deliver_snapshot_request::SnapshotContent`. -/
structure Content where
  snapshotId : Nat
  it : Option It
deriving Repr, DecidableEq

/-- `DeliverSnapshotRequest`; `payload = none`: field absent (the code unwraps it),
`some none`: bytes that do not decode, `some (some c)`: decoded content. -/
structure Request where
  recipient : Nat
  sender : Nat
  deliveryId : Nat
  payload : Option (Option Content)
deriving Repr, DecidableEq

/-- `DeliverSnapshotStatus`; `unspecified` is the protobuf default. -/
inductive AckStatus where
  | unspecified
  | accepted
  | rejected
deriving Repr, DecidableEq

/-- `deliver_snapshot_response::SnapshotAck`. -/
structure Ack where
  snapshotId : Nat
  chunkIndex : Nat
  status : AckStatus
deriving Repr, DecidableEq

/-- `DeliverSnapshotResponse`, payload as in `Request`. -/
structure Response where
  recipient : Nat
  sender : Nat
  deliveryId : Nat
  payload : Option (Option Ack)
deriving Repr, DecidableEq

/-- snapshot.rs:40-45 `SnapshotError`. -/
inductive SnapErr where
  | failedDelivery
  | corrupted
deriving Repr, DecidableEq

/-- snapshot.rs:339-345 `chunk_count` (division by zero panics). -/
def chunkCount (size chunkSize : Nat) : Run Nat :=
  if 0 < size then
    if chunkSize = 0 then .panic else .ok ((size - 1) / chunkSize + 1)
  else .ok 1

/-! ## Sender -/

/-- snapshot.rs:347-358 `SnapshotSenderState`. -/
structure Transfer where
  snapshotId : Nat
  metadata : Meta
  data : Bytes
  chunkSize : Nat
  chunkCount : Nat
  nextIndex : Nat
  sent : Nat
  /-- delivery id ↦ chunk index -/
  pending : AMap Nat Nat
  status : Option Status
deriving Repr, DecidableEq

/-- snapshot.rs:361-384 `SnapshotSenderState::new`. -/
def Transfer.new (snapshotId : Nat) (snap : RaftSnapshot) (chunkSize : Nat) : Run Transfer :=
  (TCP.Snap.chunkCount snap.data.length chunkSize).bind fun count =>
    .ok ⟨snapshotId, snap.metadata, snap.data, chunkSize, count, 0, 0, [], none⟩

/-- snapshot.rs:386-393 `progress`, as an exact fraction (numerator, denominator).  The code uses
`f64`; simplification: comparisons are on the exact quotients. -/
def Transfer.progress (t : Transfer) : Nat × Nat :=
  match t.status with
  | some _ => (1, 1)
  | none => (t.sent + t.pending.length, t.chunkCount)

/-- `a > b` on fractions with positive denominators. -/
def fracGt (a b : Nat × Nat) : Bool := decide (b.1 * a.2 < a.1 * b.2)

/-- snapshot.rs:399-459 `next_chunk`.  `Bytes::slice(a..b)` panics unless `a ≤ b ≤ len`. -/
def Transfer.nextChunk (encodeMeta : Meta → Bytes) (t : Transfer) (deliveryId : Nat) :
    Run (Transfer × Option Content) :=
  match t.status with
  | some _ => .ok (t, none)
  | none =>
    let pending := t.pending.set deliveryId t.nextIndex
    let start := t.nextIndex * t.chunkSize
    let stop := min t.data.length (start + t.chunkSize)
    if start > stop then .panic
    else
      let chunk := (t.data.take stop).drop start
      let it := if t.nextIndex = 0 then It.header t.data.length (encodeMeta t.metadata) chunk
                else It.chunk t.nextIndex chunk
      .ok ({ t with pending := pending, nextIndex := t.nextIndex + 1 },
           some ⟨t.snapshotId, some it⟩)

/-- What reaches `process_response`: a delivery failure, or a response with a payload that does
(`some`) or does not (`none`) decode. -/
inductive Reply where
  | failed
  | undecodable
  | ack (a : Ack)
deriving Repr, DecidableEq

/-- snapshot.rs:461-510 `SnapshotSenderState::process_response`.  `||` is short-circuit: the
pending entry is removed only when the chunk index is in range.  (An absent payload panics; such a
response is never handed over, see `Sender.processResponse`.) -/
def Transfer.processReply (t : Transfer) (deliveryId : Nat) (r : Reply) : Transfer :=
  match r with
  | .failed => { t with status := some .failure }
  | .undecodable => { t with status := some .failure }
  | .ack a =>
    if t.snapshotId ≠ a.snapshotId then t
    else if t.chunkCount ≤ a.chunkIndex then { t with status := some .failure }
    else
      let removed := t.pending.get deliveryId
      let t := { t with pending := t.pending.erase deliveryId }
      if removed ≠ some a.chunkIndex then { t with status := some .failure }
      else if a.status = .accepted then { t with sent := t.sent + 1 }
      else { t with status := some .failure }

/-- snapshot.rs:512-524 `SnapshotSenderState::try_complete` / `complete_with`. -/
def Transfer.tryComplete (t : Transfer) : Transfer × Option Status :=
  let t := if t.status = none ∧ t.sent = t.chunkCount then
      { t with status := some .finish, data := [] } else t
  (t, t.status)

/-- snapshot.rs:533-541 `DefaultSnapshotSender`. -/
structure Sender where
  chunkSize : Nat
  maxPending : Nat
  replicaId : Nat
  nextSnapshotId : Nat
  nextDeliveryId : Nat
  receivers : AMap Nat Transfer
deriving Repr, DecidableEq

/-- snapshot.rs:544-558 `DefaultSnapshotSender::new`. -/
def Sender.new : Sender := ⟨1024 * 1024, 2, 0, 1, 1, []⟩

/-- snapshot.rs:562-569 `init`; the configuration is `(chunk_size, max_pending_chunks)`. -/
def Sender.init (s : Sender) (replicaId : Nat) (config : Option (Nat × Nat)) : Sender :=
  let s := { s with replicaId := replicaId }
  match config with
  | some (c, m) => { s with chunkSize := c, maxPending := m }
  | none => s

/-- snapshot.rs:575-589 `reset`. -/
def Sender.reset (s : Sender) : Sender × List (Nat × Status) :=
  ({ s with receivers := [] }, s.receivers.keys.map (fun r => (r, Status.failure)))

/-- snapshot.rs:593-613 `start`. -/
def Sender.start (s : Sender) (receiver : Nat) (snap : RaftSnapshot) : Run Sender :=
  (Transfer.new s.nextSnapshotId snap s.chunkSize).bind fun t =>
    .ok { s with receivers := s.receivers.set receiver t, nextSnapshotId := s.nextSnapshotId + 1 }

/-- snapshot.rs:619-628: the selection loop; accumulator = (selected id, least progress, pending). -/
def selectLoop : AMap Nat Transfer → Nat × (Nat × Nat) × Nat → Nat × (Nat × Nat) × Nat
  | [], acc => acc
  | (r, t) :: rest, (sel, best, pend) =>
    let pend := pend + t.pending.length
    if fracGt best t.progress then selectLoop rest (r, t.progress, pend)
    else selectLoop rest (sel, best, pend)

/-- snapshot.rs:615-659 `next_request`. -/
def Sender.nextRequest (encodeMeta : Meta → Bytes) (s : Sender) : Run (Sender × Option Request) :=
  let (sel, _, pend) := selectLoop s.receivers (0, (1, 1), 0)
  if pend ≥ s.maxPending ∨ sel = 0 then .ok (s, none)
  else
    let did := s.nextDeliveryId
    let s := { s with nextDeliveryId := s.nextDeliveryId + 1 }
    match s.receivers.get sel with
    | none => .panic
    | some t =>
      (t.nextChunk encodeMeta did).bind fun (t', content) =>
        .ok ({ s with receivers := s.receivers.set sel t' },
             content.map fun c => ⟨sel, s.replicaId, did, some (some c)⟩)

/-- snapshot.rs:661-675 `process_response` (a response without payload panics at 470, only when the
receiver is known: the reply is then `none`). -/
def Sender.processResponse (s : Sender) (receiver deliveryId : Nat) (r : Option Reply) : Run Sender :=
  match s.receivers.get receiver with
  | none => .ok s
  | some t =>
    match r with
    | none => .panic
    | some r => .ok { s with receivers := s.receivers.set receiver (t.processReply deliveryId r) }

/-- snapshot.rs:677-712 `process_unexpected_request`. -/
def Sender.processUnexpected (req : Request) : Run Response :=
  match req.payload with
  | none => .panic
  | some p =>
    let ack : Ack :=
      match p with
      | some ⟨sid, some (.header _ _ _)⟩ => ⟨sid, 0, .rejected⟩
      | some ⟨sid, some (.chunk i _)⟩ => ⟨sid, i, .rejected⟩
      | _ => ⟨0, 0, .rejected⟩
    .ok ⟨req.sender, req.recipient, req.deliveryId, some (some ack)⟩

/-- snapshot.rs:714-722: the first (in iteration order) transfer that can be completed; the
transfers visited before it are left unchanged by `try_complete` (they report nothing). -/
def findComplete : AMap Nat Transfer → Option (Nat × Status)
  | [] => none
  | (r, t) :: rest =>
    match t.tryComplete.2 with
    | some st => some (r, st)
    | none => findComplete rest

/-- snapshot.rs:714-733 `try_complete`. -/
def Sender.tryComplete (s : Sender) : Sender × Option (Nat × Status) :=
  match findComplete s.receivers with
  | none => (s, none)
  | some (r, st) => ({ s with receivers := s.receivers.erase r }, some (r, st))

/-! ## Receiver -/

/-- snapshot.rs:736-745 `ReceiverState`. -/
structure Incoming where
  sender : Nat
  snapshotId : Nat
  size : Nat
  metadata : Bytes
  chunkSize : Nat
  chunkCount : Nat
  chunks : AMap Nat Bytes
deriving Repr, DecidableEq

/-- snapshot.rs:748-770 `ReceiverState::new`. -/
def Incoming.new (sender snapshotId size : Nat) (metadata first : Bytes) : Run Incoming :=
  (TCP.Snap.chunkCount size first.length).bind fun count =>
    .ok ⟨sender, snapshotId, size, metadata, first.length, count, [(0, first)]⟩

/-- snapshot.rs:772-787 `accept_chunk`.  The snapshot id is not an argument. -/
def Incoming.acceptChunk (s : Incoming) (sender index : Nat) (contents : Bytes) : Incoming × Bool :=
  if sender ≠ s.sender then (s, false)
  else if s.chunkCount ≤ index
      ∨ (index < s.chunkCount - 1 ∧ contents.length ≠ s.chunkSize)
      ∨ (index = s.chunkCount - 1 ∧ contents.length ≠ s.size - (s.chunkCount - 1) * s.chunkSize) then
    (s, false)
  else ({ s with chunks := s.chunks.set index contents }, true)

/-- snapshot.rs:800-802: concatenate chunks `0..count` (`remove(..).unwrap()` panics if missing;
each index is asked for once, so reading is the same as removing). -/
def assemble (chunks : AMap Nat Bytes) : Nat → Run Bytes
  | 0 => .ok []
  | n + 1 => (assemble chunks n).bind fun pre =>
      match chunks.get n with
      | some c => .ok (pre ++ c)
      | none => .panic

/-- snapshot.rs:789-817 `ReceiverState::try_complete`. -/
def Incoming.tryComplete (decodeMeta : Bytes → Option Meta) (s : Incoming) :
    Run (Option (Except SnapErr (Nat × RaftSnapshot))) :=
  if s.chunks.length ≠ s.chunkCount then .ok none
  else
    match decodeMeta s.metadata with
    | none => .ok (some (.error .corrupted))
    | some m => (assemble s.chunks s.chunkCount).bind fun data => .ok (some (.ok (s.sender, ⟨m, data⟩)))

/-- snapshot.rs:820-825 `DefaultSnapshotReceiver`. -/
structure Receiver where
  replicaId : Nat
  state : Option Incoming
deriving Repr, DecidableEq

/-- snapshot.rs:828-835 `new`. -/
def Receiver.new : Receiver := ⟨0, none⟩

/-- snapshot.rs:839-842 `init`. -/
def Receiver.init (r : Receiver) (replicaId : Nat) : Receiver := { r with replicaId := replicaId }

/-- snapshot.rs:848-850 `reset`. -/
def Receiver.reset (r : Receiver) : Receiver := { r with state := none }

/-- snapshot.rs:854-940 `process_request`. -/
def Receiver.processRequest (r : Receiver) (req : Request) : Run (Receiver × Response) :=
  let initial : Ack := ⟨match r.state with | some s => s.snapshotId | none => 0, 0, .unspecified⟩
  let respond (a : Ack) : Response := ⟨req.sender, req.recipient, req.deliveryId, some (some a)⟩
  match req.payload with
  | none => .panic
  | some none => .ok (r, respond { initial with status := .rejected })
  | some (some ⟨_, none⟩) => .ok (r, respond initial)
  | some (some ⟨sid, some (.header size metadata chunk)⟩) =>
    (Incoming.new req.sender sid size metadata chunk).bind fun st =>
      .ok ({ r with state := some st }, respond ⟨sid, 0, .accepted⟩)
  | some (some ⟨sid, some (.chunk index contents)⟩) =>
    match r.state with
    | none => .ok (r, respond ⟨sid, index, .rejected⟩)
    | some st =>
      let (st', ok) := st.acceptChunk req.sender index contents
      .ok ({ r with state := some st' }, respond ⟨sid, index, if ok then .accepted else .rejected⟩)

/-- snapshot.rs:942-950 `try_complete`. -/
def Receiver.tryComplete (decodeMeta : Bytes → Option Meta) (r : Receiver) :
    Run (Receiver × Option (Except SnapErr (Nat × RaftSnapshot))) :=
  match r.state with
  | none => .ok (r, none)
  | some st =>
    (st.tryComplete decodeMeta).bind fun res =>
      match res with
      | none => .ok (r, none)
      | some x => .ok (r.reset, some x)

/-! ## Processor -/

/-- snapshot.rs:206-212 `ReplicaState`. -/
inductive Role where
  | unknown
  | follower
  | leader
deriving Repr, DecidableEq

/-- snapshot.rs:230-237 `DefaultSnapshotProcessor`. -/
structure Processor where
  replicaId : Nat
  leaderId : Nat
  leaderTerm : Nat
  role : Role
  sender : Sender
  receiver : Receiver
deriving Repr, DecidableEq

/-- snapshot.rs:240-253 `new`. -/
def Processor.new (sender : Sender) (receiver : Receiver) : Processor :=
  ⟨0, 0, 0, .unknown, sender, receiver⟩

/-- snapshot.rs:257-266 `init`. -/
def Processor.init (p : Processor) (replicaId : Nat) (config : Option (Nat × Nat)) : Run Processor :=
  if p.role ≠ .unknown then .panic
  else .ok { p with
    replicaId := replicaId
    sender := p.sender.init replicaId config
    receiver := p.receiver.init replicaId
    role := .follower }

/-- snapshot.rs:268-317 `process_cluster_change`. -/
def Processor.clusterChange (p : Processor) (leaderId leaderTerm : Nat) (replicas : List Nat) :
    Run (Processor × List (Nat × Status)) :=
  let needsReset := p.leaderId ≠ leaderId ∨ p.leaderTerm ≠ leaderTerm ∨ p.replicaId ∉ replicas
  let p := { p with leaderId := leaderId, leaderTerm := leaderTerm }
  match p.role with
  | .unknown => .panic
  | .follower =>
    let p := if needsReset then { p with receiver := p.receiver.reset } else p
    let p := if p.replicaId = p.leaderId then { p with role := .leader } else p
    .ok (p, [])
  | .leader =>
    let (snd, cancelled) := if needsReset then p.sender.reset else (p.sender, [])
    let p := { p with sender := snd }
    let p := if p.replicaId ≠ p.leaderId then { p with role := .follower } else p
    .ok (p, cancelled)

end TCP.Snap
