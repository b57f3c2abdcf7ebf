import Verif.Model.Replica
import Verif.Model.Handshake

/-!
# Model of `runtime/src/session.rs` and of the session provider of `runtime/src/handshake.rs`

How the attested sessions of a replica are set up.  Parameter (`Lib`): Oak's session library with the sources of the replica's own
evidence, behind the traits `OakAttesterFactory` and `OakSessionBinderFactory` (session.rs:97-164) and `ClientSession::create` /
`ServerSession::create`.  Loggers are dropped.
-/

namespace TCP.Sessions

open TCP TCP.Attest TCP.Handshake

/-! ## Configuration of a session -/

/-- session.rs:202-266: the three verifiers with what they are given.  `insecure`: `InsecureAttestationVerifier` with the policies of the
kernel, system and container layers; `sevSnp`: `AmdSevSnpDiceAttestationVerifier` with the policies of the hardware, the firmware and the
three layers; `dice`: `DiceAttestationVerifier` with all reference values. -/
inductive PeerVerifier where
  | insecure (clock : Clock) (kernel : KernelLayer) (system : Option Check) (container : AppLayer)
  | sevSnp (amd : AmdSev) (firmware : Bytes) (kernel : KernelLayer) (system : Option Check) (container : AppLayer) (clock : Clock)
  | dice (refs : RefVals) (clock : Clock)
deriving Repr, DecidableEq

/-- oak_session `DefaultBindingKeyExtractor` and `DefaultSigningKeyExtractor`: which key of the evidence the session must be bound to. -/
inductive KeyExtractor where
  | binding
  | signing
deriving Repr, DecidableEq

/-- oak_session `AttestationType`: who has to show evidence. -/
inductive AttestationType where
  | bidirectional
  | selfUnidirectional
  | peerUnidirectional
  | unattested
deriving Repr, DecidableEq

/-- oak_session `HandshakeType`. -/
inductive HandshakeType where
  | noiseKK
  | noiseKN
  | noiseNK
  | noiseNN
deriving Repr, DecidableEq

/-- oak_session `EndorsedEvidenceBindableAssertionGenerator` (session.rs:275-281, 295-301): what the replica shows of itself. -/
structure Generator (Att Bnd : Type) where
  attester : Att
  endorsements : Bytes
  binder : Bnd
deriving Repr, DecidableEq

/-- oak_session `EndorsedEvidenceBoundAssertionVerifier` (session.rs:282-287, 302-307): how the peer is checked. -/
structure AssertionVerifier where
  verifier : PeerVerifier
  extractor : KeyExtractor
deriving Repr, DecidableEq

/-- oak_session `SessionConfig` as built in session.rs:338-352 and 392-406.  The aggregator is always `PassThrough` and the encryptor
always the one for unordered channels (session.rs:313-326) with this window. -/
structure Config (Att Bnd : Type) where
  attestation : AttestationType
  handshake : HandshakeType
  generators : List (String × Generator Att Bnd)
  verifiers : List (String × AssertionVerifier)
  window : Nat
deriving Repr, DecidableEq

/-- Oak's session library, and the sources of evidence of this replica.  `L` is whatever state these have, `Q` that of a session. -/
structure Lib (L Att Bnd Q : Type) where
  /-- session.rs:103-106 `OakAttesterFactory::get` -/
  attester : L → L × Option Att
  /-- session.rs:98-101 `OakSessionBinderFactory::get` -/
  binder : L → L × Option Bnd
  /-- `ClientSession::create` for the initiator and `ServerSession::create` for the recipient -/
  create : L → Role → Config Att Bnd → L × Option Q
  oak : Oak Q

variable {L Att Bnd Q : Type}

/-! ## The factory -/

/-- session.rs:177-183 `DefaultOakSessionFactory`; the two factories it owns are part of `Lib`. -/
structure Factory where
  verifier : Option PeerVerifier
  extractor : Option KeyExtractor
  endorsements : Bytes
deriving Repr, DecidableEq

/-- session.rs:185-198 `new`. -/
def Factory.new : Factory := ⟨none, none, []⟩

/-- session.rs:208-267: the match in `init`. -/
def select (clock : Clock) (refs : RefVals) : PeerVerifier × KeyExtractor :=
  match refs with
  | .containers (some ⟨true, _, _⟩) (some k) (some s) (some c) => (.insecure clock k s c, .binding)
  | .containers (some ⟨false, some ⟨some fw, rest⟩, _⟩) (some k) (some s) (some c) => (.sevSnp ⟨some fw, rest⟩ fw k s c clock, .binding)
  | refs => (.dice refs clock, .signing)

/-- session.rs:201-272 `init`. -/
def Factory.init (_ : Factory) (clock : Clock) (refs : RefVals) (endorsements : Bytes) : Factory :=
  ⟨some (select clock refs).1, some (select clock refs).2, endorsements⟩

/-- session.rs:51 `TCP_ASSERTION_ID`. -/
def assertionId : String := "tcp_assertion_id"

/-- session.rs:50 `UNORDERED_CHANNEL_ENCRYPTOR_WINDOW_SIZE`. -/
def encryptorWindow : Nat := 3

/-- session.rs:334-354 `DefaultOakClientSession::create` and 388-408 `DefaultOakServerSession::create`: the configuration is the same. -/
def config (g : Generator Att Bnd) (v : AssertionVerifier) : Config Att Bnd :=
  ⟨.bidirectional, .noiseNN, [(assertionId, g)], [(assertionId, v)], encryptorWindow⟩

/-- session.rs:274-291 `get_oak_client_session` and 293-310 `get_oak_server_session`: the attester and the binder may be missing (`?`), an
unset verifier is unwrapped. -/
def Factory.session (lib : Lib L Att Bnd Q) (f : Factory) (role : Role) (l : L) : Run (L × Option Q) :=
  let a := lib.attester l
  match a.2 with
  | none => .ok (a.1, none)
  | some att =>
    let b := lib.binder a.1
    match b.2 with
    | none => .ok (b.1, none)
    | some bnd =>
      (Run.unwrap f.verifier).bind fun v => (Run.unwrap f.extractor).bind fun k =>
        .ok (lib.create b.1 role (config ⟨att, f.endorsements, bnd⟩ ⟨v, k⟩))

/-! ## The provider -/

/-- handshake.rs:86-89 `DefaultHandshakeSessionProvider`, with the state of the library. -/
structure Provider (L : Type) where
  factory : Factory
  lib : L
deriving Repr, DecidableEq

/-- handshake.rs:112-133 `get`. -/
def Provider.get (lib : Lib L Att Bnd Q) (p : Provider L) (me peer : Nat) (role : Role) : Run (Provider L × Option (HS Q)) :=
  (p.factory.session lib role p.lib).bind fun x => .ok (⟨p.factory, x.1⟩, x.2.map (HS.new role me peer))

/-- The role of a replica that opens a channel, or not: communication.rs:204 and 263. -/
def roleOf (initiator : Bool) : Role := if initiator then .initiator else .recipient

/-- What surrounds the communication module of a service (service.rs:98-103): the provider above, and hash maps iterated in any order.
`Env.provide` cannot panic; that `get` never does when the module calls it is `C98_ready`. -/
def env (lib : Lib L Att Bnd Q) (order : L → AMap Nat (Comm.Peer (HS Q) (Enc Q) HMsg) → AMap Nat (Comm.Peer (HS Q) (Enc Q) HMsg))
    (hp : ∀ l rs, (order l rs).Perm rs) : Replica.Env (Provider L) (HS Q) (Enc Q) HMsg where
  provide p me peer initiator :=
    match p.get lib me peer (roleOf initiator) with
    | .ok x => x
    | .panic => (p, none)
  -- handshake.rs:100-110 `init`
  init p clock refs endorsements := ⟨p.factory.init clock refs endorsements, p.lib⟩
  order p rs := order p.lib rs
  order_perm p rs := hp p.lib rs

end TCP.Sessions
