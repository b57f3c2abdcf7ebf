import Verif.Model.Comm

/-!
# Specification vocabulary for the secure channel layer (C15–C19)

Histories record the calls made and what they returned; everything below is defined on them.
-/

namespace TCP.Comm.Spec

open TCP

variable {S E H : Type}

/-- One call with its answer.  `fresh` is what the session provider would answer during the call. -/
inductive Ev (S H : Type) where
  | out (m : Outgoing) (fresh : Option S) (res : Except PalErr Unit)
  | inn (m : InMsg H) (fresh : Option S) (res : Except PalErr (Option (InMsg H)))
  | take (out : List (OutMsg H))
  | tick
  | cluster (ids : List Nat)
  | shuffle

/-- One call.  `shuffle` lets the `HashMap` change its iteration order between calls. -/
inductive Step (ops : Ops S E H) : Module S E H → Ev S H → Module S E H → Prop
  | out {m m' fresh msg res} (h : m.processOut ops fresh msg = .ok (m', res)) :
      Step ops m (.out msg fresh res) m'
  | inn {m m' fresh msg res} (h : m.processIn ops fresh msg = .ok (m', res)) :
      Step ops m (.inn msg fresh res) m'
  | take {m m' out} (h : m.takeOut ops = .ok (m', out)) : Step ops m (.take out) m'
  | tick {m} : Step ops m .tick m.tick
  | cluster {m ids} : Step ops m (.cluster ids) (m.clusterChange ids)
  | shuffle {m : Module S E H} {rs} (h : rs.Perm m.replicas) : Step ops m .shuffle { m with replicas := rs }

/-- A history of calls on a module initialised as replica `self` with the given configuration. -/
inductive History (ops : Ops S E H) (self retry timeout : Nat) : List (Ev S H) → Module S E H → Prop
  | init : History ops self retry timeout [] (Module.new.init self retry timeout)
  | step {evs m ev m'} (h : History ops self retry timeout evs m) (hs : Step ops m ev m') :
      History ops self retry timeout (evs ++ [ev]) m'

/-- Any continuation of a history. -/
inductive Steps (ops : Ops S E H) : Module S E H → List (Ev S H) → Module S E H → Prop
  | refl {m} : Steps ops m [] m
  | step {m ev m1 evs m'} (h : Step ops m ev m1) (hs : Steps ops m1 evs m') : Steps ops m (ev :: evs) m'

/-- States a handshake session can get into when driven from `s0`. -/
inductive SessionFrom (ops : Ops S E H) (s0 : S) : S → Prop
  | refl : SessionFrom ops s0 s0
  | takeOut {s} (h : SessionFrom ops s0 s) : SessionFrom ops s0 (ops.takeOut s).1
  | process {s} (h : SessionFrom ops s0 s) (m : H) : SessionFrom ops s0 (ops.process s m).1

/-- States an encryptor can get into when driven from `e0`. -/
inductive EncryptorFrom (ops : Ops S E H) (e0 : E) : E → Prop
  | refl : EncryptorFrom ops e0 e0
  | encrypt {e b e' r} (h : EncryptorFrom ops e0 e) (he : ops.encrypt e b = .ok (e', r)) :
      EncryptorFrom ops e0 e'
  | decrypt {e} (h : EncryptorFrom ops e0 e) (pl : Payload) : EncryptorFrom ops e0 (ops.decrypt e pl).1

/-- The provider handed out session `s` for peer `p` during the history. -/
def Provided (evs : List (Ev S H)) (p : Nat) (s : S) : Prop :=
  (∃ m res, .out m (some s) res ∈ evs ∧ m.data.recipient = p) ∨
  (∃ m res, .inn m (some s) res ∈ evs ∧ m.peer = some p)

/-- `e` is the (current state of the) encryptor of a handshake with peer `p` that completed. -/
def Established (ops : Ops S E H) (evs : List (Ev S H)) (p : Nat) (e : E) : Prop :=
  ∃ s0 s e0, Provided evs p s0 ∧ SessionFrom ops s0 s ∧ ops.completed s = true ∧
    ops.encryptor s = some e0 ∧ EncryptorFrom ops e0 e

/-- `d` is the outgoing message `u` with its payload encrypted by `e`. -/
def CipherBy (ops : Ops S E H) (e : E) (d : Data) (u : Outgoing) : Prop :=
  ∃ pl c e', u.data.payload = some pl ∧ ops.encrypt e pl.contents = .ok (e', some c) ∧
    d = { u.data with payload := some c }

/-- The messages accepted for peer `p` (the call returned `Ok`), oldest first. -/
def accepted (p : Nat) (evs : List (Ev S H)) : List Outgoing :=
  evs.filterMap fun
    | .out m _ (.ok _) => if m.data.recipient = p then some m else none
    | _ => none

/-- The non-handshake messages in a batch that are addressed to `p`. -/
def dataTo (p : Nat) (out : List (OutMsg H)) : List Data :=
  out.filterMap fun
    | .data d => if d.recipient = p then some d else none
    | .handshake _ => none

/-- The non-handshake messages emitted for peer `p`, oldest first. -/
def emitted (p : Nat) (evs : List (Ev S H)) : List Data :=
  evs.flatMap fun
    | .take out => dataTo p out
    | _ => []

/-- The queue of messages waiting for peer `p`. -/
def queueOf (m : Module S E H) (p : Nat) : List Outgoing := ((m.replicas.get p).map (·.queue)).getD []

/-- The messages that are / are not heartbeats. -/
def heartbeats (l : List Outgoing) : List Outgoing := l.filter (·.isHeartbeat)
def others (l : List Outgoing) : List Outgoing := l.filter (fun m => !m.isHeartbeat)

/-- The peer's channel status; a peer never seen is `unknown`. -/
def statusOf (m : Module S E H) (p : Nat) : Status := ((m.replicas.get p).map (·.status)).getD .unknown

/-- How many ticks the events contain. -/
def tickCount (evs : List (Ev S H)) : Nat := (evs.filter fun | .tick => true | _ => false).length

/-- The cluster changes among the events keep both this replica and peer `p`. -/
def KeepsPeer (me p : Nat) (evs : List (Ev S H)) : Prop := ∀ ids, .cluster ids ∈ evs → me ∈ ids ∧ p ∈ ids

/-- Every session provided to talk to `p` first is able to produce its opening message. -/
def CanOpen (ops : Ops S E H) (p : Nat) (evs : List (Ev S H)) : Prop :=
  ∀ u s res, .out u (some s) res ∈ evs → u.data.recipient = p → ∃ h, (ops.takeOut s).2 = .ok (some h)

/-- No message from `p` arrives. -/
def SilentFrom (p : Nat) (evs : List (Ev S H)) : Prop := ∀ u f res, .inn u f res ∈ evs → u.peer ≠ some p

/-- Encryption never refuses a message. -/
def EncryptionTotal (ops : Ops S E H) : Prop := ∀ e b e' r, ops.encrypt e b = .ok (e', r) → r.isSome = true

end TCP.Comm.Spec
