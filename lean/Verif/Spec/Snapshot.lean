import Verif.Model.Snapshot
import Verif.Lib.ListExtra

/-!
# Specification vocabulary for snapshot transfer (C08–C14)

Observable objects only: what was asked of the sender, the requests it handed out, the replies it
was given, the requests handed to the receiver and the snapshots it reported.
-/

namespace TCP.Snap.Spec

open TCP

/-- The `k`-th piece of `data` when it is cut every `size` bytes. -/
def piece (data : Bytes) (size k : Nat) : Bytes := (data.drop (k * size)).take size

/-- How many pieces a snapshot of `len` bytes has (at least one): the least `n ≥ 1` with
`len ≤ n * size`. -/
def IsPieceCount (len size n : Nat) : Prop :=
  1 ≤ n ∧ len ≤ n * size ∧ ∀ m, 1 ≤ m → len ≤ m * size → n ≤ m

/-- The request contents a transfer of `snap` under id `id` consists of: a header carrying total
size, metadata and piece 0, then piece `k` under index `k`. -/
def expected (encodeMeta : Meta → Bytes) (id : Nat) (snap : RaftSnapshot) (size k : Nat) : Content :=
  ⟨id, some (if k = 0 then .header snap.data.length (encodeMeta snap.metadata) (piece snap.data size 0)
             else .chunk k (piece snap.data size k))⟩

/-- What happened to one transfer, in order. -/
inductive Ev where
  | sent (deliveryId : Nat) (content : Content)
  | reply (deliveryId : Nat) (r : Reply)
deriving Repr, DecidableEq

/-- The history of one transfer: what was started, under which snapshot id, and what happened. -/
structure Log where
  id : Nat
  snap : RaftSnapshot
  evs : List Ev
deriving Repr, DecidableEq

/-- The chunk index a request content carries (a header is chunk 0). -/
def Content.index (c : Content) : Nat :=
  match c.it with
  | some (.chunk i _) => i
  | _ => 0

/-- The requests handed out, oldest first. -/
def sents (evs : List Ev) : List (Nat × Content) :=
  evs.filterMap fun | .sent d c => some (d, c) | _ => none

/-- The same as pairs (delivery id, chunk index). -/
def sentIdx (evs : List Ev) : List (Nat × Nat) := (sents evs).map fun p => (p.1, Content.index p.2)

/-- The acknowledgements naming snapshot `id`, as (delivery id, acknowledgement). -/
def acks (id : Nat) (evs : List Ev) : List (Nat × Ack) :=
  evs.filterMap fun
    | .reply d (.ack a) => if a.snapshotId = id then some (d, a) else none
    | _ => none

/-- A reply is harmless after the events `before`: it acknowledges another snapshot (ignored), or it
is the first, positive acknowledgement of a chunk request that was handed out before. -/
def Harmless (id : Nat) (before : List Ev) (d : Nat) : Reply → Prop
  | .failed => False
  | .undecodable => False
  | .ack a => a.snapshotId ≠ id ∨
      (a.status = .accepted ∧ (d, a.chunkIndex) ∈ sentIdx before ∧ d ∉ (acks id before).map Prod.fst)

/-- Some reply of the history was not harmless when it arrived. -/
def Disturbed (id : Nat) (evs : List Ev) : Prop :=
  ∃ before d r after, evs = before ++ .reply d r :: after ∧ ¬ Harmless id before d r

/-- Requests handed out for which no reply at all has come back. -/
def outstanding (evs : List Ev) : List Nat :=
  ((sents evs).map Prod.fst).filter fun d => !(evs.any fun | .reply d' _ => decide (d' = d) | _ => false)

/-- The state of the world: the sender and, per receiver with a live transfer, that transfer's log. -/
abbrev World := Sender × AMap Nat Log

/-- What a call made visible. -/
inductive Obs where
  | none
  | started (receiver : Nat)
  | request (r : Request)
  | completed (receiver : Nat) (st : Status)
  | cancelled (l : List (Nat × Status))
deriving Repr, DecidableEq

/-- Append an event to a receiver's log. -/
def note (L : AMap Nat Log) (r : Nat) (e : Ev) : AMap Nat Log :=
  match L.get r with
  | some l => L.set r { l with evs := l.evs ++ [e] }
  | none => L

/-- One call on the sender together with its effect on the logs.  `shuffle` lets the `HashMap`
iterate in a different order from one call to the next. -/
inductive SStep (encodeMeta : Meta → Bytes) : World → Obs → World → Prop
  | start {s s' : Sender} {L r snap} (h : s.start r snap = .ok s') :
      SStep encodeMeta (s, L) (.started r) (s', L.set r ⟨s.nextSnapshotId, snap, []⟩)
  | nextNone {s s' : Sender} {L} (h : s.nextRequest encodeMeta = .ok (s', none)) :
      SStep encodeMeta (s, L) .none (s', L)
  | nextSome {s s' : Sender} {L} {to frm d : Nat} {c : Content}
      (h : s.nextRequest encodeMeta = .ok (s', some ⟨to, frm, d, some (some c)⟩)) :
      SStep encodeMeta (s, L) (.request ⟨to, frm, d, some (some c)⟩) (s', note L to (.sent d c))
  | response {s s' : Sender} {L r d rep} (h : s.processResponse r d (some rep) = .ok s') :
      SStep encodeMeta (s, L) .none (s', note L r (.reply d rep))
  | completeNone {s s' : Sender} {L} (h : s.tryComplete = (s', none)) :
      SStep encodeMeta (s, L) .none (s', L)
  | completeSome {s s' : Sender} {L r st} (h : s.tryComplete = (s', some (r, st))) :
      SStep encodeMeta (s, L) (.completed r st) (s', L.erase r)
  | reset {s s' : Sender} {L l} (h : s.reset = (s', l)) :
      SStep encodeMeta (s, L) (.cancelled l) (s', [])
  | shuffle {s : Sender} {L rs} (h : rs.Perm s.receivers) :
      SStep encodeMeta (s, L) .none ({ s with receivers := rs }, L)

/-- A history from a freshly initialised sender: the visible effects, oldest first. -/
inductive History (encodeMeta : Meta → Bytes) (chunkSize maxPending replica : Nat) :
    List Obs → World → Prop
  | init : History encodeMeta chunkSize maxPending replica []
      (Sender.new.init replica (some (chunkSize, maxPending)), [])
  | step {os w o w'} (h : History encodeMeta chunkSize maxPending replica os w)
      (hs : SStep encodeMeta w o w') : History encodeMeta chunkSize maxPending replica (os ++ [o]) w'

/-- Any continuation of a history. -/
inductive Steps (encodeMeta : Meta → Bytes) : World → List Obs → World → Prop
  | refl {w} : Steps encodeMeta w [] w
  | step {w o w1 os w'} (h : SStep encodeMeta w o w1) (hs : Steps encodeMeta w1 os w') :
      Steps encodeMeta w (o :: os) w'

/-- The snapshot bytes a request content carries. -/
def Content.bytes (c : Content) : Bytes :=
  match c.it with
  | some (.header _ _ b) => b
  | some (.chunk _ b) => b
  | none => []

/-- Ask for one request and acknowledge it positively at once; `panic` if there was none. -/
def promptRound (encodeMeta : Meta → Bytes) (s : Sender) : Run Sender :=
  (s.nextRequest encodeMeta).bind fun
    | (s1, some ⟨to, _, d, some (some c)⟩) =>
      s1.processResponse to d (some (.ack ⟨c.snapshotId, Content.index c, .accepted⟩))
    | _ => .panic

/-- `n` such rounds. -/
def promptRounds (encodeMeta : Meta → Bytes) : Nat → Sender → Run Sender
  | 0, s => .ok s
  | n + 1, s => (promptRound encodeMeta s).bind (promptRounds encodeMeta n)

/-- The delivery ids of the requests handed out in a history. -/
def deliveryIds (os : List Obs) : List Nat :=
  os.filterMap fun | .request r => some r.deliveryId | _ => none

/-- One call a leader makes on the sender. -/
inductive SCall (encodeMeta : Meta → Bytes) : Sender → Sender → Prop
  | start {s s' r snap} (h : s.start r snap = .ok s') : SCall encodeMeta s s'
  | next {s s' o} (h : s.nextRequest encodeMeta = .ok (s', o)) : SCall encodeMeta s s'
  | response {s s' r d rep} (h : s.processResponse r d rep = .ok s') : SCall encodeMeta s s'
  | complete {s s' o} (h : s.tryComplete = (s', o)) : SCall encodeMeta s s'

/-- One call a follower makes on the receiver. -/
inductive RCall (decodeMeta : Bytes → Option Meta) : Receiver → Receiver → Prop
  | request {r r' q resp} (h : r.processRequest q = .ok (r', resp)) : RCall decodeMeta r r'
  | complete {r r' o} (h : r.tryComplete decodeMeta = .ok (r', o)) : RCall decodeMeta r r'

/-- The life of a snapshot processor after `init`: cluster changes, and in between calls on the
object `mut_processor` hands out — the sender for a leader, the receiver for a follower
(snapshot.rs:319-335). -/
inductive PReach (encodeMeta : Meta → Bytes) (decodeMeta : Bytes → Option Meta) (replica : Nat) :
    Processor → Prop
  | init {cfg p} (h : (Processor.new Sender.new Receiver.new).init replica cfg = .ok p) :
      PReach encodeMeta decodeMeta replica p
  | change {p l t rs p' c} (h : PReach encodeMeta decodeMeta replica p)
      (hc : p.clusterChange l t rs = .ok (p', c)) : PReach encodeMeta decodeMeta replica p'
  | sender {p s'} (h : PReach encodeMeta decodeMeta replica p) (hr : p.role = .leader)
      (hs : SCall encodeMeta p.sender s') : PReach encodeMeta decodeMeta replica { p with sender := s' }
  | receiver {p r'} (h : PReach encodeMeta decodeMeta replica p) (hr : p.role = .follower)
      (hs : RCall decodeMeta p.receiver r') : PReach encodeMeta decodeMeta replica { p with receiver := r' }

/-- Everything received for which a follower is asked: deliver a request, or poll for completion. -/
inductive RIn where
  | deliver (r : Request)
  | poll
deriving Repr, DecidableEq

/-- Run a receiver over a delivery sequence, collecting what each poll reported. -/
def receive (decodeMeta : Bytes → Option Meta) :
    Receiver → List RIn → Run (Receiver × List (Except SnapErr (Nat × RaftSnapshot)))
  | r, [] => .ok (r, [])
  | r, .deliver q :: ins =>
    (r.processRequest q).bind fun x => receive decodeMeta x.1 ins
  | r, .poll :: ins =>
    (r.tryComplete decodeMeta).bind fun x =>
      (receive decodeMeta x.1 ins).bind fun y => .ok (y.1, x.2.toList ++ y.2)

/-- The delivered requests of a delivery sequence. -/
def delivered (ins : List RIn) : List Request :=
  ins.filterMap fun | .deliver q => some q | .poll => none

/-- What a receiver answers while run over a delivery sequence: each delivered request with its
response. -/
def answers (decodeMeta : Bytes → Option Meta) : Receiver → List RIn → List (Request × Response)
  | _, [] => []
  | r, .deliver q :: ins =>
    match r.processRequest q with
    | .ok (r', resp) => (q, resp) :: answers decodeMeta r' ins
    | .panic => []
  | r, .poll :: ins =>
    match r.tryComplete decodeMeta with
    | .ok (r', _) => answers decodeMeta r' ins
    | .panic => []

/-- Piece `k` with contents `c` is part of what a receiver holds of the transfer from `frm`. -/
def Holds (r : Receiver) (frm k : Nat) (c : Bytes) : Prop :=
  ∃ st, r.state = some st ∧ st.sender = frm ∧ st.chunks.get k = some c

/-- Piece `k` with contents `c` fits the transfer a receiver is assembling: same sender, index in
range, and of the size of the header's piece or, for the last, of what is left. -/
def Fits (r : Receiver) (frm k : Nat) (c : Bytes) : Prop :=
  ∃ st, r.state = some st ∧ st.sender = frm ∧
    ((k + 1 < st.chunkCount ∧ c.length = st.chunkSize) ∨
     (k + 1 = st.chunkCount ∧ c.length = st.size - k * st.chunkSize))

end TCP.Snap.Spec
