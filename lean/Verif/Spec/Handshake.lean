import Verif.Model.Handshake
import Verif.Spec.Comm

/-!
# Specification vocabulary for handshake sessions and the encrypted round trip (C20, C21, C57, C58)
-/

namespace TCP.Handshake.Spec

open TCP Comm Comm.Spec

variable {Q S E H : Type}

/-- One call on a handshake session with its answer. -/
inductive Call where
  | take (res : Except Unit (Option HMsg))
  | process (m : HMsg) (res : Except Unit Unit)

/-- A session driven by a sequence of calls. -/
inductive Trace (oak : Oak Q) (s0 : HS Q) : List Call → HS Q → Prop
  | nil : Trace oak s0 [] s0
  | take {cs s s' r} (h : Trace oak s0 cs s) (hc : s.takeOut oak = (s', r)) :
      Trace oak s0 (cs ++ [.take r]) s'
  | process {cs s s' m r} (h : Trace oak s0 cs s) (hc : s.process oak m = (s', r)) :
      Trace oak s0 (cs ++ [.process m r]) s'

/-- The kind of handshake message meant for a role: responses for the initiator, requests for the
recipient. -/
def FromOtherRole : Role → HMsg → Prop
  | .initiator, m => ∃ x, m.body = .recipientResponse (some x)
  | .recipient, m => ∃ x, m.body = .initiatorRequest (some x)

/-- Session library contract: without any message from the peer a session does not open. -/
def NotOpenAlone (oak : Oak Q) (q0 : Q) : Prop :=
  ∀ n, oak.isOpen (Nat.repeat (fun q => (oak.get q).1) n q0) = false

/-- Encryption contract: `L e f xs ys` — the encryptors `e` and `f` belong to one completed handshake,
`xs` (plaintext, payload) is on its way from `e` to `f` and `ys` from `f` to `e`.  Whatever either side
encrypts, the other recovers when payloads arrive in order. -/
structure Linked (ops : Ops S E H) (L : E → E → List (Bytes × Payload) → List (Bytes × Payload) → Prop) :
    Prop where
  symm : ∀ {e f xs ys}, L e f xs ys → L f e ys xs
  enc : ∀ {e f xs ys} b, L e f xs ys → ∃ e' pl, ops.encrypt e b = .ok (e', some pl) ∧ L e' f (xs ++ [(b, pl)]) ys
  dec : ∀ {e f b pl xs ys}, L e f ((b, pl) :: xs) ys → ∃ f', ops.decrypt f pl = (f', some b) ∧ L e f' xs ys

/-- The same contract at the level of the session library: `write` then `get` yields an encrypted
message with a nonce, and feeding it to the other side and reading yields the plaintext. -/
structure OakLinked (oak : Oak Q) (L : Q → Q → List (Bytes × Payload) → List (Bytes × Payload) → Prop) : Prop where
  symm : ∀ {e f xs ys}, L e f xs ys → L f e ys xs
  send : ∀ {e f xs ys} b, L e f xs ys → ∃ e1 e2 c n, oak.write e b = (e1, .ok ()) ∧
    oak.get e1 = (e2, .ok (some (.encrypted c (some n)))) ∧ L e2 f (xs ++ [(b, ⟨c, n⟩)]) ys
  recv : ∀ {e f b pl xs ys}, L e f ((b, pl) :: xs) ys → ∃ f1 f2,
    oak.put f (.encrypted pl.contents (some pl.nonce)) = (f1, .ok ()) ∧
    oak.read f1 = (f2, .ok (some b)) ∧ L e f2 xs ys

/-- Two replicas and the network between them. -/
structure World (S E H : Type) where
  a : Module S E H
  b : Module S E H
  /-- in flight, oldest first -/
  netAB : List Data
  netBA : List Data
  /-- accepted by one side for the other -/
  accAB : List Outgoing
  accBA : List Outgoing
  /-- passed up by the receiving side -/
  upA : List (InMsg H)
  upB : List (InMsg H)

/-- The same world seen from the other side. -/
def World.swap (w : World S E H) : World S E H :=
  ⟨w.b, w.a, w.netBA, w.netAB, w.accBA, w.accAB, w.upB, w.upA⟩

/-- What a receive call passed up. -/
def passed : Except PalErr (Option (InMsg H)) → List (InMsg H)
  | .ok (some x) => [x]
  | _ => []

/-- The first replica (id `ia`) does anything that is not a message from the second and keeps it in the
cluster; or the oldest message in flight from first to second is delivered. -/
inductive Act (ops : Ops S E H) (ia ib : Nat) : World S E H → World S E H → Prop
  | act {w a' ev} (h : Step ops w.a ev a') (hs : SilentFrom ib [ev]) (hk : KeepsPeer ia ib [ev])
      (hp : ∀ u ∈ accepted ib [ev], u.data.sender = ia ∧ u.data.payload.isSome) :
      Act ops ia ib w { w with a := a', netAB := w.netAB ++ emitted ib [ev], accAB := w.accAB ++ accepted ib [ev] }
  | deliver {w d rest fresh b' r} (hn : w.netAB = d :: rest)
      (h : w.b.processIn ops fresh (.data d) = .ok (b', r)) :
      Act ops ia ib w { w with b := b', netAB := rest, upB := w.upB ++ passed r }

/-- Either side acts, or a message is delivered in either direction, in order. -/
inductive Reach (ops : Ops S E H) (ia ib : Nat) : World S E H → World S E H → Prop
  | refl {w} : Reach ops ia ib w w
  | fst {w w1 w2} (h : Reach ops ia ib w w1) (ha : Act ops ia ib w1 w2) : Reach ops ia ib w w2
  | snd {w w1 w2} (h : Reach ops ia ib w w1) (ha : Act ops ib ia w1.swap w2.swap) : Reach ops ia ib w w2

/-- The plaintext of a message. -/
def plain (u : Outgoing) : Bytes := (u.data.payload.map (·.contents)).getD []

/-- `u` as it should arrive. -/
def arrived (u : Outgoing) : InMsg H := .data { u.data with payload := some ⟨plain u, []⟩ }

/-- A message in flight: what was accepted, and the payload it was encrypted to. -/
abbrev Way := List (Outgoing × Payload)

def Way.net (w : Way) : List Data := w.map fun x => { x.1.data with payload := some x.2 }
def Way.crypto (w : Way) : List (Bytes × Payload) := w.map fun x => (plain x.1, x.2)

/-- The channel from `m` to `peer` is up: handshake completed and its last message taken; queued
messages are addressed to the peer by `self` and have payloads. -/
def Up (m : Module S E H) (self peer : Nat) (e : E) (q : List Outgoing) : Prop :=
  ∃ c, m.replicas.get peer = some c ∧ c.status = .completed ∧ c.pending = none ∧ c.encryptor = some e ∧
    c.queue = q ∧ (∀ u ∈ q, u.data.recipient = peer ∧ u.data.sender = self ∧ u.data.payload.isSome) ∧
    (heartbeats q).length ≤ 1

/-- Both sides completed their handshake with each other; messages may already be in flight. -/
def Ready (ops : Ops S E H) (L : E → E → List (Bytes × Payload) → List (Bytes × Payload) → Prop) (ia ib : Nat) (w : World S E H) :
    Prop :=
  ∃ e f qa qb, ∃ wayAB wayBA : Way, Up w.a ia ib e qa ∧ Up w.b ib ia f qb ∧
    L e f wayAB.crypto wayBA.crypto ∧
    w.netAB = wayAB.net ∧ w.netBA = wayBA.net ∧
    (∀ x ∈ wayAB, x.1.data.recipient = ib ∧ x.1.data.sender = ia) ∧
    (∀ x ∈ wayBA, x.1.data.recipient = ia ∧ x.1.data.sender = ib) ∧
    w.accAB = wayAB.map Prod.fst ++ qa ∧ w.accBA = wayBA.map Prod.fst ++ qb ∧ w.upA = [] ∧ w.upB = [] ∧
    ia ≠ 0 ∧ ib ≠ 0 ∧ (∃ R T evs, History ops ia R T evs w.a) ∧ (∃ R T evs, History ops ib R T evs w.b)

/-- How the messages accepted by one side for the other, those recovered and those still in flight or
queued relate: apart from heartbeats, which may be superseded by newer ones while queued, exactly the
accepted messages, in order; of the heartbeats a subsequence that ends with the newest. -/
def Recovered (accepted recovered inFlight queued : List Outgoing) : Prop :=
  others accepted = others recovered ++ others inFlight ++ others queued ∧
  (heartbeats recovered ++ heartbeats inFlight ++ heartbeats queued).Sublist (heartbeats accepted) ∧
  (heartbeats recovered ++ heartbeats inFlight ++ heartbeats queued).getLast? = (heartbeats accepted).getLast?

/-- A message without its payload: kind and addresses. -/
def header (d : Data) : Data := { d with payload := none }

end TCP.Handshake.Spec
