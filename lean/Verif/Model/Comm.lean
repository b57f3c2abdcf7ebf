import Verif.Lib.Run
import Verif.Lib.AMap

/-!
# Model of `runtime/src/communication.rs` — the secure channel layer

Parameters (`Ops`): the handshake session and the encryptor, arbitrary state machines.  What the
handshake session provider would return is an input of each call (`fresh`), so any provider
behaviour is covered.  Simplifications: loggers and clocks are dropped; tick counters are `Nat`; the
deprecated, never set fields `message_contents` / `payload_contents` are dropped; a handshake message
is opaque except for the sender id the module reads.
-/

namespace TCP.Comm

open TCP

/-- endpoint.proto:268-273 `Payload`. -/
structure Payload where
  contents : Bytes
  nonce : Bytes
deriving Repr, DecidableEq

/-- Which replica-to-replica message (endpoint.proto `DeliverSystemMessage`,
`DeliverSnapshotRequest`, `DeliverSnapshotResponse`), with its fields other than ids and payload. -/
inductive Kind where
  | system
  | snapshotRequest (deliveryId : Nat)
  | snapshotResponse (deliveryId : Nat)
deriving Repr, DecidableEq

/-- A replica-to-replica message. -/
structure Data where
  kind : Kind
  recipient : Nat
  sender : Nat
  payload : Option Payload
deriving Repr, DecidableEq

/-- communication.rs:51-58 `OutgoingMessage`; `raftHeartbeat` is `MessageType::MsgHeartbeat` of a
system message (meaningless for the other kinds). -/
structure Outgoing where
  data : Data
  raftHeartbeat : Bool
deriving Repr, DecidableEq

/-- The pattern `DeliverSystemMessage(_, MessageType::MsgHeartbeat)` (communication.rs:418). -/
def Outgoing.isHeartbeat (m : Outgoing) : Bool := decide (m.data.kind = .system) && m.raftHeartbeat

/-- `in_message::Msg`; `other` stands for every kind the module does not support. -/
inductive InMsg (H : Type) where
  | handshake (sender : Nat) (h : H)
  | data (d : Data)
  | other
deriving Repr, DecidableEq

/-- `out_message::Msg` as produced by this module. -/
inductive OutMsg (H : Type) where
  | handshake (h : H)
  | data (d : Data)
deriving Repr, DecidableEq

/-- platform.rs:44-49 `PalError` (the two values used here). -/
inductive PalErr where
  | internal
  | invalidOperation
deriving Repr, DecidableEq

/-- handshake.rs:66-84 `HandshakeSession` and encryptor.rs:28-32 `Encryptor`, as state machines. -/
structure Ops (S E H : Type) where
  takeOut : S → S × Except Unit (Option H)
  process : S → H → S × Except Unit Unit
  completed : S → Bool
  encryptor : S → Option E
  encrypt : E → Bytes → Run (E × Option Payload)
  decrypt : E → Payload → E × Option Bytes

/-- communication.rs:338-350 `HandshakeState`. -/
inductive Status where
  | unknown
  | initialized
  | initiated (ticks : Nat)
  | completed
  | failed (ticks : Nat)
deriving Repr, DecidableEq

/-- communication.rs:324-335 `CommunicationState`. -/
structure Peer (S E H : Type) where
  status : Status
  pending : Option H
  session : Option S
  queue : List Outgoing
  encryptor : Option E
  timeout : Nat
deriving Repr, DecidableEq

variable {S E H : Type}

/-- communication.rs:353-363 `CommunicationState::new`. -/
def Peer.new (timeout : Nat) : Peer S E H := ⟨.unknown, none, none, [], none, timeout⟩

/-- communication.rs:382-399 `make_tick`. -/
def Peer.tick (p : Peer S E H) : Peer S E H :=
  match p.status with
  | .failed t => { p with status := .failed (t + 1) }
  | .initiated t =>
    if t + 1 ≥ p.timeout then { p with status := .failed 0 } else { p with status := .initiated (t + 1) }
  | _ => p

/-- communication.rs:402-408 `reset_state_machine`. -/
def Peer.reset (p : Peer S E H) : Peer S E H :=
  { p with status := .unknown, pending := none, session := none, encryptor := none }

/-- communication.rs:418-427: replace the first queued heartbeat; `none` if there is none. -/
def replaceHeartbeat (m : Outgoing) : List Outgoing → Option (List Outgoing)
  | [] => none
  | x :: xs => if x.isHeartbeat then some (m :: xs) else (replaceHeartbeat m xs).map (x :: ·)

/-- communication.rs:415-429 `push_or_replace_unencrypted_message`. -/
def push (q : List Outgoing) (m : Outgoing) : List Outgoing :=
  if m.isHeartbeat then
    match replaceHeartbeat m q with
    | some q' => q'
    | none => q ++ [m]
  else q ++ [m]

/-- communication.rs:365-376 `init` (only called in `Unknown`, so its error case is unreachable). -/
def Peer.init (p : Peer S E H) (s : S) : Peer S E H := { p with session := some s, status := .initialized }

/-- communication.rs:431-470 `process_out_message`.  The error is only logged by the caller. -/
def Peer.processOut (ops : Ops S E H) (p : Peer S E H) (m : Outgoing) : Run (Peer S E H) :=
  match p.status with
  | .unknown => .ok { p with status := .failed 0 }
  | .initialized =>
    match p.session with
    | none => .panic
    | some s =>
      let (s', r) := ops.takeOut s
      match r with
      | .error _ => .ok { p with session := some s', status := .failed 0 }
      | .ok none => .ok { p with session := some s', pending := none, status := .failed 0 }
      | .ok (some h) =>
        .ok { p with session := some s', pending := some h, queue := push p.queue m, status := .initiated 0 }
  | .initiated _ => .ok { p with queue := push p.queue m }
  | .completed => .ok { p with queue := push p.queue m }
  | .failed _ => .ok { p with queue := push p.queue m }

/-- communication.rs:530-582 `decrypt_message`. -/
def Peer.decrypt (ops : Ops S E H) (p : Peer S E H) (m : InMsg H) : Run (Peer S E H × Option (InMsg H)) :=
  match p.encryptor with
  | none => .panic
  | some e =>
    match m with
    | .data d =>
      match d.payload with
      | none => .panic
      | some pl =>
        let (e', r) := ops.decrypt e pl
        .ok ({ p with encryptor := some e' },
             r.map fun b => .data { d with payload := some ⟨b, []⟩ })
    | .handshake _ _ => .ok ({ p with status := .failed 0 }, none)
    | .other => .ok (p, none)

/-- communication.rs:472-528 `process_in_message`.  An error is logged and turned into `None` by the
caller, so it is `none` here. -/
def Peer.processIn (ops : Ops S E H) (p : Peer S E H) (m : InMsg H) : Run (Peer S E H × Option (InMsg H)) :=
  let handshaking (initial : Bool) : Run (Peer S E H × Option (InMsg H)) :=
    match m with
    | .handshake _ h =>
      match p.session with
      | none => .panic
      | some s =>
        let (s1, r1) := ops.process s h
        match r1 with
        | .error _ => .ok ({ p with session := some s1, status := .failed 0 }, none)
        | .ok _ =>
          let (s2, r2) := ops.takeOut s1
          match r2 with
          | .error _ => .ok ({ p with session := some s2, status := .failed 0 }, none)
          | .ok out =>
            if ops.completed s2 then
              .ok ({ p with session := none, pending := out, encryptor := ops.encryptor s2, status := .completed }, none)
            else
              .ok ({ p with session := some s2, pending := out
                            status := if initial then .initiated 0 else p.status }, none)
    | _ => .ok ({ p with status := .failed 0 }, none)
  match p.status with
  | .unknown => .ok ({ p with status := .failed 0 }, none)
  | .initialized => handshaking true
  | .initiated _ => handshaking false
  | .completed => p.decrypt ops m
  | .failed _ => .ok (p, none)

/-- communication.rs:584-625 `take_encrypted_messages`, the loop. -/
def encryptAll (ops : Ops S E H) (e : E) : List Outgoing → Run (E × List (OutMsg H))
  | [] => .ok (e, [])
  | m :: ms =>
    match m.data.payload with
    | none => .panic
    | some pl =>
      (ops.encrypt e pl.contents).bind fun (e1, r) =>
        (encryptAll ops e1 ms).bind fun (e2, rest) =>
          .ok (e2, match r with
            | some c => .data { m.data with payload := some c } :: rest
            | none => rest)

/-- communication.rs:627-641 `take_out_messages` (one peer). -/
def Peer.takeOut (ops : Ops S E H) (p : Peer S E H) : Run (Peer S E H × List (OutMsg H)) :=
  match p.pending with
  | some h => .ok ({ p with pending := none }, [.handshake h])
  | none =>
    if p.status = .completed then
      match p.encryptor with
      | none => .panic
      | some e => (encryptAll ops e p.queue).bind fun (e', out) =>
          .ok ({ p with encryptor := some e', queue := [] }, out)
    else .ok (p, [])

/-- communication.rs:125-133 `DefaultCommunicationModule`. -/
structure Module (S E H : Type) where
  replicas : AMap Nat (Peer S E H)
  replicaId : Nat
  retry : Nat
  timeout : Nat
deriving Repr, DecidableEq

/-- communication.rs:136-150 `new`. -/
def Module.new : Module S E H := ⟨[], 0, 1, 10⟩

/-- communication.rs:161-177 `init`. -/
def Module.init (m : Module S E H) (id retry timeout : Nat) : Module S E H :=
  { m with replicaId := id, retry := retry, timeout := timeout }

/-- communication.rs:194-213 and 253-272: find or create the peer state and give it a session if it
has none; `fresh` is the provider's answer (`none` = error, which becomes `PalError::Internal`). -/
def Module.channel (m : Module S E H) (peer : Nat) (fresh : Option S) :
    Module S E H × Option (Peer S E H) :=
  let p := (m.replicas.get peer).getD (Peer.new m.timeout)
  let m := { m with replicas := m.replicas.set peer p }
  if p.status = .unknown then
    match fresh with
    | none => (m, none)
    | some s => (m, some (p.init s))
  else (m, some p)

/-- communication.rs:179-224 `process_out_message`. -/
def Module.processOut (ops : Ops S E H) (m : Module S E H) (fresh : Option S) (msg : Outgoing) :
    Run (Module S E H × Except PalErr Unit) :=
  if m.replicaId = 0 then .ok (m, .error .invalidOperation)
  else
    match m.channel msg.data.recipient fresh with
    | (m, none) => .ok (m, .error .internal)
    | (m, some p) =>
      (p.processOut ops msg).bind fun p' =>
        .ok ({ m with replicas := m.replicas.set msg.data.recipient p' }, .ok ())

/-- communication.rs:232-249: the peer a supported incoming message comes from. -/
def InMsg.peer : InMsg H → Option Nat
  | .handshake s _ => some s
  | .data d => some d.sender
  | .other => none

/-- communication.rs:226-282 `process_in_message`. -/
def Module.processIn (ops : Ops S E H) (m : Module S E H) (fresh : Option S) (msg : InMsg H) :
    Run (Module S E H × Except PalErr (Option (InMsg H))) :=
  if m.replicaId = 0 then .ok (m, .error .invalidOperation)
  else
    match msg.peer with
    | none => .ok (m, .error .invalidOperation)
    | some peer =>
      match m.channel peer fresh with
      | (m, none) => .ok (m, .error .internal)
      | (m, some p) =>
        (p.processIn ops msg).bind fun (p', up) =>
          .ok ({ m with replicas := m.replicas.set peer p' }, .ok up)

/-- communication.rs:284-290 `take_out_messages`, over the peers in iteration order. -/
def takeAll (ops : Ops S E H) : AMap Nat (Peer S E H) → Run (AMap Nat (Peer S E H) × List (OutMsg H))
  | [] => .ok ([], [])
  | (k, p) :: rest =>
    (p.takeOut ops).bind fun (p', out) =>
      (takeAll ops rest).bind fun (rest', outs) => .ok ((k, p') :: rest', out ++ outs)

/-- communication.rs:284-290 `take_out_messages`. -/
def Module.takeOut (ops : Ops S E H) (m : Module S E H) : Run (Module S E H × List (OutMsg H)) :=
  (takeAll ops m.replicas).bind fun (rs, out) => .ok ({ m with replicas := rs }, out)

/-- communication.rs:292-309 `process_cluster_change`. -/
def Module.clusterChange (m : Module S E H) (ids : List Nat) : Module S E H :=
  if m.replicaId ∈ ids then
    { m with replicas := m.replicas.filter fun e => decide (e.1 ∈ ids) }
  else { m with replicas := [] }

/-- communication.rs:312-319: what one tick of the module does to one peer. -/
def Peer.moduleTick (retry : Nat) (p : Peer S E H) : Peer S E H :=
  let p := p.tick
  match p.status with
  | .failed t => if t ≥ retry then p.reset else p
  | _ => p

/-- communication.rs:311-320 `make_tick`. -/
def Module.tick (m : Module S E H) : Module S E H :=
  { m with replicas := m.replicas.mapVals fun _ p => p.moduleTick m.retry }

end TCP.Comm
