import Verif.Model.Comm

/-!
# Model of `runtime/src/handshake.rs` and `runtime/src/encryptor.rs`

Parameter (`Oak`): the attested session library behind the trait `OakSession` (session.rs:74-90), an
arbitrary state machine.  A session message (`SessionRequest` / `SessionResponse`) is either an
encrypted message or something opaque.  Loggers are dropped.
-/

namespace TCP.Handshake

open TCP

/-- `SessionRequest` / `SessionResponse` of the Oak session protocol: `EncryptedMessage` or any other. -/
inductive SessMsg where
  | encrypted (ciphertext : Bytes) (nonce : Option Bytes)
  | other (b : Bytes)
deriving Repr, DecidableEq

/-- session.rs:74-90 `OakSession`.  A call returns the new state and the result (`none`/`error` = `Err`). -/
structure Oak (Q : Type) where
  put : Q → SessMsg → Q × Except Unit Unit
  get : Q → Q × Except Unit (Option SessMsg)
  isOpen : Q → Bool
  write : Q → Bytes → Q × Except Unit Unit
  read : Q → Q × Except Unit (Option Bytes)

/-- endpoint.proto `SecureChannelHandshake.encryption`: the two directions of the Noise protocol with
the wrapped session message (absent when the field is not set), or nothing recognisable. -/
inductive Body where
  | initiatorRequest (m : Option SessMsg)
  | recipientResponse (m : Option SessMsg)
  | empty
deriving Repr, DecidableEq

/-- endpoint.proto `SecureChannelHandshake`. -/
structure HMsg where
  recipient : Nat
  sender : Nat
  body : Body
deriving Repr, DecidableEq

/-- handshake.rs:136-147 `State`. -/
inductive State where
  | unknown
  | initiated
  | completed
  | failed
deriving Repr, DecidableEq

/-- handshake.rs `Role`. -/
inductive Role where
  | initiator
  | recipient
deriving Repr, DecidableEq

/-- handshake.rs:149-155 `ClientHandshakeSession`, 334-340 `ServerHandshakeSession`; the role tells
which. -/
structure HS (Q : Type) where
  role : Role
  self : Nat
  peer : Nat
  session : Q
  state : State
deriving Repr, DecidableEq

variable {Q : Type}

/-- handshake.rs:112-132 `DefaultHandshakeSessionProvider::get` for a session the factory made;
158-171 and 343-356 `new`. -/
def HS.new (role : Role) (self peer : Nat) (q : Q) : HS Q := ⟨role, self, peer, q, .unknown⟩

/-- handshake.rs:173-184, 191-205 and 358-369, 376-390 `create_secure_channel_handshake`. -/
def HS.wrap (s : HS Q) (m : SessMsg) : HMsg :=
  ⟨s.peer, s.self, match s.role with
    | .initiator => .initiatorRequest (some m)
    | .recipient => .recipientResponse (some m)⟩

/-- The session message a role accepts out of a handshake message (handshake.rs:220-231, 397-408). -/
def HS.accepts (s : HS Q) (m : HMsg) : Option SessMsg :=
  match s.role, m.body with
  | .initiator, .recipientResponse (some x) => some x
  | .recipient, .initiatorRequest (some x) => some x
  | _, _ => none

/-- handshake.rs:209-264 (client) and 394-444 (server) `process_message`. -/
def HS.process (oak : Oak Q) (s : HS Q) (m : HMsg) : HS Q × Except Unit Unit :=
  match s.state with
  | .completed => (s, .ok ())
  | .failed => (s, .ok ())
  | .unknown =>
    match s.role with
    | .initiator => ({ s with state := .failed }, .error ())
    | .recipient => handle s
  | .initiated => handle s
where
  handle (s : HS Q) : HS Q × Except Unit Unit :=
    match s.accepts m with
    | some x =>
      let (q, r) := oak.put s.session x
      match r with
      | .error _ => ({ s with session := q, state := .failed }, .error ())
      | .ok _ => ({ s with session := q, state := .initiated }, .ok ())
    | none => ({ s with state := .failed }, .error ())

/-- handshake.rs:266-319 (client) and 446-485 (server) `take_out_message`. -/
def HS.takeOut (oak : Oak Q) (s : HS Q) : HS Q × Except Unit (Option HMsg) :=
  match s.state with
  | .completed => (s, .ok none)
  | .failed => (s, .ok none)
  | .unknown =>
    match s.role with
    | .initiator =>
      let (q, r) := oak.get s.session
      match r with
      | .error _ => ({ s with session := q, state := .failed }, .error ())
      | .ok x => ({ s with session := q, state := .initiated }, .ok (x.map s.wrap))
    | .recipient => (s, .ok none)
  | .initiated =>
    let (q, r) := oak.get s.session
    match r with
    | .error _ => ({ s with session := q, state := .failed }, .error ())
    | .ok x =>
      ({ s with session := q, state := if oak.isOpen q then .completed else .initiated }, .ok (x.map s.wrap))

/-- handshake.rs:321-323 and 487-489 `is_completed`. -/
def HS.completed (s : HS Q) : Bool := decide (s.state = .completed)

/-- encryptor.rs:35-43 and 77-85: an encryptor is the session it took over. -/
abbrev Enc (Q : Type) := Q

/-- handshake.rs:325-331 and 491-497 `get_encryptor`. -/
def HS.encryptor (s : HS Q) : Option (Enc Q) := if s.state = .completed then some s.session else none

/-- encryptor.rs:46-58 and 88-101 `encrypt`; a missing nonce hits `unwrap`. -/
def encrypt (oak : Oak Q) (q : Enc Q) (b : Bytes) : Run (Enc Q × Option Comm.Payload) :=
  let (q1, r1) := oak.write q b
  match r1 with
  | .error _ => .ok (q1, none)
  | .ok _ =>
    let (q2, r2) := oak.get q1
    match r2 with
    | .ok (some (.encrypted c (some n))) => .ok (q2, some ⟨c, n⟩)
    | .ok (some (.encrypted _ none)) => .panic
    | _ => .ok (q2, none)

/-- encryptor.rs:60-74 and 103-117 `decrypt`. -/
def decrypt (oak : Oak Q) (q : Enc Q) (pl : Comm.Payload) : Enc Q × Option Bytes :=
  let (q1, r1) := oak.put q (.encrypted pl.contents (some pl.nonce))
  match r1 with
  | .error _ => (q1, none)
  | .ok _ =>
    let (q2, r2) := oak.read q1
    match r2 with
    | .ok (some b) => (q2, some b)
    | _ => (q2, none)

/-- The handshake sessions and encryptors as the channel layer uses them. -/
def ops (oak : Oak Q) : Comm.Ops (HS Q) (Enc Q) HMsg where
  takeOut := HS.takeOut oak
  process := HS.process oak
  completed := HS.completed
  encryptor := HS.encryptor
  encrypt := encrypt oak
  decrypt := decrypt oak

/-! ## Verifier selection -/

/-- The parts of `ReferenceValues` session.rs:208-266 looks at: Oak Containers values with presence of
root layer (its `insecure` and `amd_sev`/`stage0` fields) and of the three upper layers; or other. -/
inductive RefValues where
  | oakContainers (root : Option (Bool × Option Bool)) (kernel system container : Bool)
  | other
deriving Repr, DecidableEq

/-- Which verifier checks the evidence of peers. -/
inductive Verifier where
  | insecure
  | sevSnp
  | dice
deriving Repr, DecidableEq

/-- session.rs:202-272: the match in `init`.  `root = some (insecure, amd)`: `insecure` is whether that
field is set, `amd = some stage0` whether `amd_sev` is set and whether it has `stage0`. -/
def selectVerifier : RefValues → Verifier
  | .oakContainers (some (true, _)) true true true => .insecure
  | .oakContainers (some (false, some true)) true true true => .sevSnp
  | _ => .dice

end TCP.Handshake
