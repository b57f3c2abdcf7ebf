import Verif.Model.Actor
import Verif.Lib.SMap
import Verif.Lib.Codec

/-!
# Model of `apps/willow/decryptor/actor/src/actor.rs`

Parameters (`Env`): the message encodings, the key capacity (the constant `MAX_NUMBER_OF_KEY_PAIRS`, 1000 in the
code) and the cryptography.  Key generation and decryption draw randomness; the state counts the draws
(`draws`), and the parameter functions may depend on that number in any way.  Error texts are dropped, only
their status codes are kept.  `i32` generation orders are integers (no overflow).
-/

namespace TCP.Willow

open TCP

/-- `DecryptorRequest` (secure_aggregation proto): generate key, decrypt, or nothing. -/
inductive Request where
  | generateKey (keyId : Bytes)
  | decrypt (keyId : Bytes) (request : Bytes)
  | empty
deriving Repr, DecidableEq

/-- `micro_rpc::StatusCode` values used. -/
inductive Code where
  | failedPrecondition
  | invalidArgument
deriving Repr, DecidableEq

/-- `DecryptorResponse`. -/
inductive Response where
  | generateKey (keyId publicKey : Bytes)
  | decrypt (result : Bytes)
  | error (c : Code)
deriving Repr, DecidableEq

/-- willow_decryptor.proto `GenerateKeyEvent`. -/
structure GenerateKey where
  publicKey : Bytes
  privateKey : Bytes
  keyId : Bytes
  order : Int
deriving Repr, DecidableEq

/-- willow_decryptor.proto `DecryptorEvent`. -/
inductive Event where
  | generateKey (g : GenerateKey)
  | decrypt (keyId result : Bytes)
  | empty
deriving Repr, DecidableEq

/-- actor.rs:54-59 `KeyPair`. -/
structure KeyPair where
  publicKey : Bytes
  privateKey : Bytes
  order : Int
deriving Repr, DecidableEq

/-- What the actor depends on. -/
structure Env where
  capacity : Nat
  decReq : Bytes → Option Request
  encResp : Response → Bytes
  encEv : Event → Bytes
  decEv : Bytes → Option Event
  encSnap : List (Bytes × KeyPair) → Bytes
  decSnap : Bytes → Option (List (Bytes × KeyPair))
  /-- a fresh key pair (public, private) for a key id -/
  gen : Bytes → Nat → Bytes × Bytes
  /-- partial decryption: key id, private state, request; `none` where the code panics on malformed input -/
  decrypt : Bytes → Bytes → Bytes → Nat → Option Bytes

/-- actor.rs:61-65 `DecryptorActor`. -/
structure State where
  keys : SMap Bytes KeyPair
  draws : Nat
deriving Repr, DecidableEq

/-- actor.rs:110-112 `new_with_reference_values`, with any random source. -/
def State.Fresh (s : State) : Prop := s.keys = []

variable (env : Env)

/-- actor.rs:139-140: the highest generation order in use, 0 if there is none. -/
def highestOrder : SMap Bytes KeyPair → Int
  | [] => 0
  | (_, k) :: rest => rest.foldl (fun m e => max m e.2.order) k.order

/-- actor.rs:118-155 `process_generate_key_command`, 270-286 `create_public_key_share`. -/
def generateCommand (s : State) (corr : Nat) (keyId : Bytes) : State × CommandOutcome :=
  match SMap.get s.keys keyId with
  | some k => (s, ⟨[.withHeader corr (env.encResp (.generateKey keyId k.publicKey))], none⟩)
  | none =>
    let kp := env.gen keyId s.draws
    ({ s with draws := s.draws + 1 },
     ⟨[], some ⟨corr, env.encEv (.generateKey ⟨kp.1, kp.2, keyId, highestOrder s.keys + 1⟩)⟩⟩)

/-- actor.rs:157-196 `process_decrypt_command`, 292-312 `decrypt` (which never returns `Err`). -/
def decryptCommand (s : State) (corr : Nat) (keyId request : Bytes) : Run (State × CommandOutcome) :=
  match SMap.get s.keys keyId with
  | none => .ok (s, ⟨[.withHeader corr (env.encResp (.error .failedPrecondition))], none⟩)
  | some k =>
    match env.decrypt keyId k.privateKey request s.draws with
    | none => .panic
    | some r => .ok ({ s with draws := s.draws + 1 }, ⟨[], some ⟨corr, env.encEv (.decrypt keyId r)⟩⟩)

/-- actor.rs:213-217: the key `min_by_key` finds: the first, in key order, with the smallest generation order. -/
def oldest : SMap Bytes KeyPair → Option Bytes
  | [] => none
  | (i, k) :: rest => some (rest.foldl (fun m e => if e.2.order < m.2.order then e else m) (i, k)).1

/-- actor.rs:212-229 `process_generate_key_event`: the keys afterwards. -/
def afterGenerate (keys : SMap Bytes KeyPair) (g : GenerateKey) : SMap Bytes KeyPair :=
  let keys := if keys.length = env.capacity then
      match oldest keys with
      | some k => SMap.remove keys k
      | none => keys
    else keys
  SMap.insert keys g.keyId ⟨g.publicKey, g.privateKey, g.order⟩

/-- actor.rs:198-246 `process_generate_key_event`, 248-268 `process_decrypt_event`, 456-498 `on_apply_event`. -/
def onApplyEvent (_ : ActorCtx) (s : State) (ec : ActorEventCtx) (ev : ActorEvent) :
    Run (State × Except ActorErr EventOutcome) :=
  let respond (r : Response) : EventOutcome :=
    ⟨if ec.owned then [.withHeader ev.correlationId (env.encResp r)] else []⟩
  match env.decEv ev.contents with
  | none => .ok (s, .error .internal)
  | some (.generateKey g) =>
    .ok ({ s with keys := afterGenerate env s.keys g }, .ok (respond (.generateKey g.keyId g.publicKey)))
  | some (.decrypt k r) => .ok ({ s with keys := SMap.remove s.keys k }, .ok (respond (.decrypt r)))
  | some .empty => .ok (s, .ok ⟨[.withHeader ev.correlationId (env.encResp (.error .invalidArgument))]⟩)

/-- actor.rs:396-454 `on_process_command`. -/
def onProcessCommand (ctx : ActorCtx) (s : State) :
    Option ActorCommand → Run (State × Except ActorErr CommandOutcome)
  | none => .ok (s, .ok ⟨[], none⟩)
  | some c =>
    match env.decReq c.header with
    | none => .ok (s, .error .internal)
    | some r =>
      if ctx.leader = false then
        .ok (s, .ok ⟨[.withHeader c.correlationId (env.encResp (.error .failedPrecondition))], none⟩)
      else
        match r with
        | .generateKey k =>
          let r := generateCommand env s c.correlationId k
          .ok (r.1, .ok r.2)
        | .decrypt k q => (decryptCommand env s c.correlationId k q).bind fun (s', o) => .ok (s', .ok o)
        | .empty => .ok (s, .ok ⟨[.withHeader c.correlationId (env.encResp (.error .invalidArgument))], none⟩)

/-- actor.rs:360-373 `on_save_snapshot`. -/
def onSaveSnapshot (_ : ActorCtx) (s : State) : Run (State × Except ActorErr Bytes) := .ok (s, .ok (env.encSnap s.keys))

/-- actor.rs:375-394 `on_load_snapshot`. -/
def onLoadSnapshot (_ : ActorCtx) (s : State) (b : Bytes) : Run (State × Except ActorErr Unit) :=
  match env.decSnap b with
  | none => .ok (s, .error .snapshotLoading)
  | some l => .ok ({ s with keys := SMap.insertAll [] l }, .ok ())

/-- The decryptor actor (actor.rs:351-498); `on_init` keeps the keys, `on_shutdown` does nothing. -/
def actor : Actor State where
  onInit _ s := .ok (s, .ok ())
  onShutdown _ s := .ok s
  onSaveSnapshot := onSaveSnapshot env
  onLoadSnapshot := onLoadSnapshot env
  onProcessCommand := onProcessCommand env
  onApplyEvent := onApplyEvent env
  -- apps/willow/decryptor/actor/src/actor.rs:500-502 after `DecryptorActor::new`; the container build passes `skipContainers`
  references _ := Attest.skipRestrictedKernel

end TCP.Willow
