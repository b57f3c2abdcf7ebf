import Verif.Model.Sessions
import Verif.Spec.Replica

/-!
# Specification vocabulary for attested sessions (C98)
-/

namespace TCP.Sessions.Spec

open TCP TCP.Attest TCP.Handshake TCP.Sessions TCP.Comm.Spec

variable {L Att Bnd Q : Type}

/-- The check of peers that reference values ask for, and the key of the evidence a session has to be bound to. -/
inductive Demanded (clock : Clock) : RefVals → PeerVerifier → KeyExtractor → Prop
  /-- Values for Oak Containers that are complete and allow insecure hardware: the three layers of software are compared. -/
  | insecure {root k s c} (hi : root.insecure = true) :
      Demanded clock (.containers (some root) (some k) (some s) (some c)) (.insecure clock k s c) .binding
  /-- Complete values that do not, with values for AMD SEV-SNP and its firmware: hardware, firmware and the three layers are compared. -/
  | sevSnp {root amd fw k s c} (hi : root.insecure = false) (ha : root.amdSev = some amd) (hf : amd.stage0 = some fw) :
      Demanded clock (.containers (some root) (some k) (some s) (some c)) (.sevSnp amd fw k s c clock) .binding
  /-- Anything else is left to the general verifier, with all the values. -/
  | dice {refs}
      (hn : ∀ root k s c, refs = .containers (some root) (some k) (some s) (some c) →
        root.insecure = false ∧ ∀ amd, root.amdSev = some amd → amd.stage0 = none) :
      Demanded clock refs (.dice refs clock) .signing

/-- The session shows the replica's own evidence `att` with the endorsements, bound by `bnd`; it asks the same of the peer, with one check,
under the same name; and nothing else. -/
structure Mutual (cfg : Config Att Bnd) (att : Att) (bnd : Bnd) (endorsements : Bytes) (v : PeerVerifier) (k : KeyExtractor) : Prop where
  both : cfg.attestation = .bidirectional
  shown : ∃ id, cfg.generators = [(id, ⟨att, endorsements, bnd⟩)] ∧ cfg.verifiers = [(id, ⟨v, k⟩)]

/-- `q` was just created by Oak's library for this role, with the evidence the library had for the replica and this check of the peer. -/
def Made (lib : Lib L Att Bnd Q) (role : Role) (endorsements : Bytes) (v : PeerVerifier) (k : KeyExtractor) (q : Q) : Prop :=
  ∃ l l1 l2 l3 att bnd cfg, lib.attester l = (l1, some att) ∧ lib.binder l1 = (l2, some bnd) ∧ lib.create l2 role cfg = (l3, some q) ∧
    Mutual cfg att bnd endorsements v k

/-- The session `s` was opened in this role for this peer: as initiator by a message to the peer, as recipient by one from it. -/
def Opened {S H : Type} (log : List (Comm.Spec.Ev S H)) (role : Role) (peer : Nat) (s : S) : Prop :=
  match role with
  | .initiator => ∃ m res, .out m (some s) res ∈ log ∧ m.data.recipient = peer
  | .recipient => ∃ m res, .inn m (some s) res ∈ log ∧ m.peer = some peer

/-- The states a session can get into when used from `q0`. -/
inductive From (oak : Oak Q) (q0 : Q) : Q → Prop
  | refl : From oak q0 q0
  | put {q} (h : From oak q0 q) (m : SessMsg) : From oak q0 (oak.put q m).1
  | get {q} (h : From oak q0 q) : From oak q0 (oak.get q).1
  | write {q} (h : From oak q0 q) (b : Bytes) : From oak q0 (oak.write q b).1
  | read {q} (h : From oak q0 q) : From oak q0 (oak.read q).1

/-- What Oak's library promises.  `Passed q v k` means that the peer of session `q` has shown evidence which `v` accepts and has proved to
hold the key `k` extracts from it.  A session that was told to have the peer attested, with a single check, only opens once the peer passed
it; and what was shown remains shown. -/
structure Attests (lib : Lib L Att Bnd Q) (Passed : Q → PeerVerifier → KeyExtractor → Prop) : Prop where
  opens : ∀ {l role cfg l' q0 q id v}, lib.create l role cfg = (l', some q0) →
    cfg.attestation = .bidirectional ∨ cfg.attestation = .peerUnidirectional → cfg.verifiers = [(id, v)] →
    From lib.oak q0 q → lib.oak.isOpen q = true → Passed q v.verifier v.extractor
  keeps : ∀ {q q' v k}, From lib.oak q q' → Passed q v k → Passed q' v k

/-- The layers of software are not compared with anything. -/
def skipped : KernelLayer → AppLayer → Prop
  | k, c => k = ⟨some .skip, some .skip, some .skip, some .skip, some .skip, []⟩ ∧ c = ⟨some .skip, some .skip⟩

/-- The check accepts evidence that is not rooted in any hardware, of any software. -/
inductive ChecksNothing : PeerVerifier → Prop
  | insecure {clock k c} (h : skipped k c) : ChecksNothing (.insecure clock k (some .skip) c)
  | dice {clock root k c} (hi : root = ⟨true, none, []⟩) (h : skipped k c) :
      ChecksNothing (.dice (.restrictedKernel (some root) (some k) (some c)) clock)

end TCP.Sessions.Spec
