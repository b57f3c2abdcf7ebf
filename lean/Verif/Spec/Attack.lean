import Verif.Spec.Handshake

/-!
# Specification vocabulary for channels under attack (C79)

The host carries all traffic between replicas.  It may drop, delay, repeat, reorder, alter and invent messages.
-/

namespace TCP.Comm.Spec

open TCP Handshake.Spec

variable {S E H : Type}

/-- One end of an established channel. -/
structure End (S E H : Type) where
  /-- the secure channel layer of the replica -/
  mod : Module S E H
  /-- the replica the channel is kept for, as far as this end knows -/
  name : Nat
  /-- the channel has been up all the time -/
  up : Bool
  /-- the contents of the messages this end was given to send -/
  handed : List Bytes
  /-- the payloads this end put on the wire -/
  sent : List Payload
  /-- the contents of the messages this end passed up -/
  got : List Bytes

/-- The payloads of messages from `p` that were opened in a call, with the contents passed up. -/
def openedIn (p : Nat) : Ev S H → List (Bytes × Payload)
  | .inn (.data d) _ (.ok (some (.data d'))) =>
    if d.sender = p then
      match d.payload, d'.payload with
      | some c, some b => [(b.contents, c)]
      | _, _ => []
    else []
  | _ => []

/-- What a call adds to the record of an end. -/
def End.after (x : End S E H) (ev : Ev S H) (m' : Module S E H) : End S E H where
  mod := m'
  name := x.name
  up := x.up && decide (statusOf m' x.name = .completed)
  handed := x.handed ++ (accepted x.name [ev]).map plain
  sent := x.sent ++ (if x.up then (emitted x.name [ev]).filterMap (·.payload) else [])
  got := x.got ++ (if x.up then (openedIn x.name ev).map Prod.fst else [])

/-- Any call is made on one of the ends, with any message.  The host cannot forge: a payload that an end opens was put on the wire by the
other end. -/
inductive Attack (ops : Ops S E H) : End S E H × End S E H → End S E H × End S E H → Prop
  | fst {x y : End S E H} {ev m'} (h : Step ops x.mod ev m') (hf : x.up = true → ∀ o ∈ openedIn x.name ev, o.2 ∈ y.sent) :
      Attack ops (x, y) (x.after ev m', y)
  | snd {x y : End S E H} {ev m'} (h : Step ops y.mod ev m') (hf : y.up = true → ∀ o ∈ openedIn y.name ev, o.2 ∈ x.sent) :
      Attack ops (x, y) (x, y.after ev m')

inductive Attacked (ops : Ops S E H) (w : End S E H × End S E H) : End S E H × End S E H → Prop
  | refl : Attacked ops w w
  | step {w1 w2} (h : Attacked ops w w1) (hs : Attack ops w1 w2) : Attacked ops w w2

/-- What is assumed of sessions: `L e f xs ys` — `e` and `f` are the ends of one session; `e` encrypted `xs` (contents, payload) so far and
`f` encrypted `ys`.  A payload of the other end is opened to the contents that were encrypted or not at all, and
no payload is opened twice.  Payloads may be opened in any order. -/
structure Ideal (ops : Ops S E H) (L : E → E → List (Bytes × Payload) → List (Bytes × Payload) → Prop) : Prop where
  symm : ∀ {e f xs ys}, L e f xs ys → L f e ys xs
  enc : ∀ {e f xs ys b e' pl}, L e f xs ys → ops.encrypt e b = .ok (e', some pl) → L e' f (xs ++ [(b, pl)]) ys
  refused : ∀ {e f xs ys b e'}, L e f xs ys → ops.encrypt e b = .ok (e', none) → L e' f xs ys
  dec : ∀ {e f xs ys} pl, L e f xs ys → L (ops.decrypt e pl).1 f xs ys
  correct : ∀ {e f xs ys b b' pl}, L e f xs ys → (b, pl) ∈ ys → (ops.decrypt e pl).2 = some b' → b' = b
  replay : ∀ {e f xs ys b pl e'}, L e f xs ys → (ops.decrypt e pl).2 = some b → EncryptorFrom ops (ops.decrypt e pl).1 e' →
    (ops.decrypt e' pl).2 = none

/-- A channel that was just established at this end, with encryptor `e`. -/
structure Opened (ops : Ops S E H) (x : End S E H) (e : E) : Prop where
  status : statusOf x.mod x.name = .completed
  encryptor : ∀ c, x.mod.replicas.get x.name = some c → c.encryptor = some e
  up : x.up = true
  handed : x.handed = (queueOf x.mod x.name).map plain
  sent : x.sent = []
  got : x.got = []
  history : ∃ me retry timeout evs, History ops me retry timeout evs x.mod

end TCP.Comm.Spec
