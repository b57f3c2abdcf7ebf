import Verif.Spec.Handshake

/-!
# Specification vocabulary for channels that broke (C94)
-/

namespace TCP.Handshake.Spec

open TCP Comm Comm.Spec

variable {S E H : Type}

/-- The channel to `p` is not up, it is not being opened, and nothing is waiting to be sent to open it. -/
def Idle (m : Module S E H) (p : Nat) : Prop :=
  (statusOf m p = .unknown ∨ ∃ t, statusOf m p = .failed t) ∧ ∀ c, m.replicas.get p = some c → c.pending = none

/-- Two replicas, the messages the first has sent to the second so far, and what the second passed up of them. -/
structure Cut (S E H : Type) where
  a : Module S E H
  b : Module S E H
  sent : List Data
  up : List (InMsg H)

/-- The first replica does anything but get messages from the second, and keeps it in the cluster.  The second does anything but send
messages to the first or get others than the first has sent.  What the first sent is delivered, in any order, any number of times. -/
inductive Flow (ops : Ops S E H) (ia ib : Nat) : Cut S E H → Cut S E H → Prop
  | refl {w} : Flow ops ia ib w w
  | first {w w1 : Cut S E H} {ev a'} (h : Flow ops ia ib w w1) (hs : Step ops w1.a ev a') (hsil : SilentFrom ib [ev])
      (hk : KeepsPeer ia ib [ev]) : Flow ops ia ib w { w1 with a := a', sent := w1.sent ++ emitted ib [ev] }
  | second {w w1 : Cut S E H} {ev b'} (h : Flow ops ia ib w w1) (hs : Step ops w1.b ev b') (hsil : SilentFrom ia [ev])
      (hq : ∀ u f r, ev = .out u f r → u.data.recipient ≠ ia) : Flow ops ia ib w { w1 with b := b' }
  | deliver {w w1 : Cut S E H} {d fresh b' r} (h : Flow ops ia ib w w1) (hd : d ∈ w1.sent) (hs : d.sender = ia)
      (hb : w1.b.processIn ops fresh (.data d) = .ok (b', r)) : Flow ops ia ib w { w1 with b := b', up := w1.up ++ passed r }

/-- Nothing is sent to `p`, nothing arrives from it, and it stays in the cluster. -/
def Quiet (me p : Nat) (evs : List (Ev S H)) : Prop :=
  KeepsPeer me p evs ∧ SilentFrom p evs ∧ ∀ u f r, .out u f r ∈ evs → u.data.recipient ≠ p

/-- The messages accepted for `p` carry the sender's id and contents. -/
def Proper (me p : Nat) (evs : List (Ev S H)) : Prop := ∀ u ∈ accepted p evs, u.data.sender = me ∧ u.data.payload.isSome

/-- A replica sends a message to a peer to which it has no channel, its opening message `mine` is taken, the peer's opening message
`theirs` arrives, and then time passes until the next attempt is due. -/
def attempt (retry peer : Nat) (u : Outgoing) (s : S) (mine theirs : H) : List (Ev S H) :=
  [.out u (some s) (.ok ()), .take [.handshake mine], .inn (.handshake peer theirs) none (.ok none)] ++ List.replicate (max retry 1) .tick

end TCP.Handshake.Spec
