import Verif.Model.Willow
import Verif.Spec.Actor

/-!
# Specification vocabulary for the willow decryptor (C36–C39, C59)
-/

namespace TCP.Willow.Spec

open TCP Willow ActorSpec

/-- Contract of the encodings: what was encoded decodes to itself, and every request has an encoding. -/
structure Lawful (env : Env) : Prop where
  req : ∀ r, ∃ b, env.decReq b = some r
  ev : ∀ e, env.decEv (env.encEv e) = some e
  snap : ∀ l, env.decSnap (env.encSnap l) = some l

/-- The key pair stored for an id. -/
def stored (s : State) (k : Bytes) : Option KeyPair := SMap.get s.keys k

/-- At most `n` different ids have a key. -/
def HoldsAtMost (s : State) (n : Nat) : Prop :=
  ∀ ks : List Bytes, ks.Nodup → (∀ k ∈ ks, stored s k ≠ none) → ks.length ≤ n

/-- Exactly `n` different ids have a key. -/
def Holds (s : State) (n : Nat) : Prop :=
  HoldsAtMost s n ∧ ∃ ks : List Bytes, ks.Nodup ∧ (∀ k ∈ ks, stored s k ≠ none) ∧ ks.length = n

/-- Replicas of one cluster. -/
abbrev Replica (env : Env) (cfg : Bytes) : List ActorEvent → State → Prop := ActorSpec.Replica (actor env) State.Fresh cfg

/-- The event generates a key. -/
def Generates (env : Env) (ev : ActorEvent) (g : GenerateKey) : Prop := env.decEv ev.contents = some (.generateKey g)

/-- The event releases a decryption result of key `k`. -/
def Decrypts (env : Env) (ev : ActorEvent) (k r : Bytes) : Prop := env.decEv ev.contents = some (.decrypt k r)

/-- The key pair of an id after some events: the last one generated for it, if it was not used since. -/
def Current (env : Env) (evs : List ActorEvent) (k : Bytes) (g : GenerateKey) : Prop :=
  ∃ p ev q, evs = p ++ ev :: q ∧ Generates env ev g ∧ g.keyId = k ∧
    (∀ e ∈ q, ∀ g', Generates env e g' → g'.keyId ≠ k) ∧ ∀ e ∈ q, ∀ r, ¬ Decrypts env e k r

/-- The log of a cluster in which no command is handled before the event of the previous one was applied: each
event was proposed by a replica that reflects all earlier events. -/
inductive OneAtATime (env : Env) (cfg : Bytes) : List ActorEvent → Prop
  | nil : OneAtATime env cfg []
  | snoc {evs s ctx c s' out ev} (h : OneAtATime env cfg evs) (r : Replica env cfg evs s)
      (hc : (actor env).onProcessCommand ctx s (some c) = .ok (s', .ok out)) (he : out.event = some ev) :
      OneAtATime env cfg (evs ++ [ev])

/-- The command asks for a key. -/
def AsksKey (env : Env) (c : ActorCommand) (k : Bytes) : Prop := env.decReq c.header = some (.generateKey k)

/-- The command asks for a decryption. -/
def AsksDecrypt (env : Env) (c : ActorCommand) (k q : Bytes) : Prop := env.decReq c.header = some (.decrypt k q)

/-- An encoding of responses. -/
def exResp : Codec Response :=
  ((Codec.bytes.pair Codec.bytes).sum (Codec.bytes.sum Codec.bool)).map
    (fun | .inl (k, p) => .generateKey k p | .inr (.inl r) => .decrypt r
         | .inr (.inr true) => .error .failedPrecondition | .inr (.inr false) => .error .invalidArgument)
    (fun | .generateKey k p => .inl (k, p) | .decrypt r => .inr (.inl r)
         | .error .failedPrecondition => .inr (.inr true) | .error .invalidArgument => .inr (.inr false))
    (fun r => by rcases r with _ | _ | c <;> try rfl
                 cases c <;> rfl)

/-- An environment meeting the contract: two keys; a public key is the id and the draw number, the private one
adds a byte; decryption returns private key, request and draw number, and panics on an empty request. -/
def exEnv : Env :=
  let kp : Codec KeyPair := (Codec.bytes.pair (Codec.bytes.pair Codec.int)).map (fun x => ⟨x.1, x.2.1, x.2.2⟩)
    (fun k => (k.publicKey, k.privateKey, k.order)) (fun _ => rfl)
  let req : Codec Request := ((Codec.bytes.sum (Codec.bytes.pair Codec.bytes)).option).map
    (fun | none => .empty | some (.inl k) => .generateKey k | some (.inr (k, q)) => .decrypt k q)
    (fun | .empty => none | .generateKey k => some (.inl k) | .decrypt k q => some (.inr (k, q)))
    (fun r => by cases r <;> rfl)
  let ev : Codec Event := (((kp.pair Codec.bytes).sum (Codec.bytes.pair Codec.bytes)).option).map
    (fun | none => .empty | some (.inl (p, k)) => .generateKey ⟨p.publicKey, p.privateKey, k, p.order⟩
         | some (.inr (k, r)) => .decrypt k r)
    (fun | .empty => none | .generateKey g => some (.inl (⟨g.publicKey, g.privateKey, g.order⟩, g.keyId))
         | .decrypt k r => some (.inr (k, r)))
    (fun r => by cases r <;> rfl)
  let snap : Codec (List (Bytes × KeyPair)) := (Codec.bytes.pair kp).list
  { capacity := 2, decReq := req.decode, encResp := exResp.enc, encEv := ev.enc, decEv := ev.decode
    encSnap := snap.enc, decSnap := snap.decode
    gen := fun k n => (UInt8.ofNat n :: k, 9 :: UInt8.ofNat n :: k)
    decrypt := fun _ p q n => if q = [] then none else some (UInt8.ofNat n :: p ++ q) }

theorem exEnv_lawful : Lawful exEnv where
  req r := ⟨_, Codec.decode_enc _ r⟩
  ev e := Codec.decode_enc _ e
  snap l := Codec.decode_enc _ l

end TCP.Willow.Spec
