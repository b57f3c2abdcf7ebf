import Verif.Spec.Survive
import Verif.Spec.Storage

/-!
# Specification for C96: the log store takes what raft-rs hands out

What raft-rs has to promise so that a replica with the shipped consensus layer (`RaftSimple` over the in-memory log store) gets through every
call.  The promises are about raft-rs' `RawNode` alone; its store is the model of the real one, and nothing is asked of it.
-/

namespace TCP.Survive

open TCP TCP.Drv TCP.Replica

/-- What raft-rs relies on. -/
structure NodeTerms (ν Y : Type) where
  /-- states of the node, given the index the replica has applied and the members it knows -/
  node : Stage → Nat → Storage.ConfState → ν → Prop
  /-- what remains of a `Ready` after its parts were taken out -/
  rest : Ready → Y → Prop
  /-- messages of other replicas the node can deal with -/
  message : ν → RaftMsg → Prop

/-- Entries to be stored by a replica that has applied `i` and whose log ends at `last`: they follow each other, leave no gap, and
replace nothing that was applied. -/
def Extends (i last : Nat) (es : List Entry) : Prop :=
  Storage.Spec.Batch (es.map toStoreEntry) ∧ ∀ e, es.head? = some e → i < e.index ∧ e.index ≤ last + 1

variable {σ ν Y : Type}

/-- raft-rs neither fails nor crashes when it is dealt with in its order, a leader accepts what is proposed to it, and what is handed out can be
read.  Entries to be stored extend the log (`Extends`), a snapshot to be installed is newer than what was applied, and the entries to be applied
are newer than those that were and are in the store. -/
structure NodeSafe (N : NodeT ν Y) (E : Codecs) (T : Terms σ (Simple ν Y)) (K : NodeTerms ν Y) : Prop where
  /-- a node that joins -/
  join : ∀ {id cfg n}, T.raftConfig cfg → ∃ x, N.new id cfg (Storage.new n) = .ok (.ok x) ∧ K.node .idle 0 ⟨[], [], []⟩ x
  /-- a node that starts the cluster, with the first snapshot stored -/
  found : ∀ {id cfg n b s}, T.raftConfig cfg → T.image b → Storage.applySnapshot (Storage.new n) ⟨1, 1, ⟨[id], [], []⟩, b⟩ = (s, .ok ()) →
    ∃ x, N.new id cfg s = .ok (.ok x) ∧ K.node .idle 1 ⟨[id], [], []⟩ x
  step : ∀ {i c n m}, K.node .idle i c n → K.message n m → ∃ n', N.step n m = .ok (n', .ok ()) ∧ K.node .idle i c n'
  deliver : ∀ {i c n me snd s}, K.node .idle i c n → T.snapshot s →
    ∃ n' x, N.step n ⟨me, snd, .snapshot, some s, []⟩ = .ok (n', x) ∧ K.node .idle i c n'
  propose : ∀ {i c n id k b}, K.node .idle i c n → N.isLeader n = true → T.event b →
    ∃ n', N.propose n (E.encEntry ⟨some (id, k), b⟩) = .ok (n', .ok ()) ∧ K.node .idle i c n'
  change : ∀ {i c n k}, K.node .idle i c n → T.change k → ∃ n' x, N.proposeConf n k = .ok (n', x) ∧ x ≠ .error .other ∧ K.node .idle i c n'
  tick : ∀ {i c n}, K.node .idle i c n → ∃ n', N.tick n = .ok n' ∧ K.node .idle i c n'
  report : ∀ {i c n p s}, K.node .idle i c n → ∃ n', N.reportSnapshot n p s = .ok n' ∧ K.node .idle i c n'
  /-- the replica took a snapshot of what it has applied -/
  create : ∀ {i c n b s}, K.node .idle i c n → T.image b → Storage.shouldSnapshot (N.store n) i c = true →
    Storage.createSnapshot (N.store n) i c b = .ok (s, .ok ()) → K.node .idle i c (N.setStore n s)
  has : ∀ {i c n}, K.node .idle i c n → ∃ b, N.hasReady n = .ok b
  fetch : ∀ {i c n}, K.node .idle i c n → N.hasReady n = .ok true → ∃ n' w y, N.ready n = .ok (n', w, y) ∧ K.node (.fetched y) i c n' ∧ K.rest y w ∧
    Loaded y.messages ∧ Loaded y.persisted ∧ (∀ e ∈ y.committed, Readable E T e) ∧ Ordered y.committed ∧
    (y.snapshot.metadata.index ≠ 0 → T.image y.snapshot.data)
  hardState : ∀ {i c n y h}, K.node (.fetched y) i c n → y.hardState = some h → K.node (.stated y) i c (N.setStore n (Storage.setHardState (N.store n) h))
  noHardState : ∀ {i c n y}, K.node (.fetched y) i c n → y.hardState = none → K.node (.stated y) i c n
  newer : ∀ {i c n y}, K.node (.stated y) i c n → y.snapshot.metadata.index ≠ 0 → i < y.snapshot.metadata.index
  snapshot : ∀ {i c n y s}, K.node (.stated y) i c n → y.snapshot.metadata.index ≠ 0 →
    Storage.applySnapshot (N.store n) (toStoreSnapshot y.snapshot) = (s, .ok ()) →
    K.node (.restored y y.committed) y.snapshot.metadata.index y.snapshot.metadata.conf (N.setStore n s)
  noSnapshot : ∀ {i c n y}, K.node (.stated y) i c n → y.snapshot.metadata.index = 0 → K.node (.restored y y.committed) i c n
  extends_ : ∀ {i c n y}, K.node (.restored y []) i c n → Extends i (Storage.lastIndex (N.store n)) y.entries
  append : ∀ {i c n y s}, K.node (.restored y []) i c n → y.entries ≠ [] →
    Storage.appendEntries (N.store n) (y.entries.map toStoreEntry) = .ok (s, .ok ()) → K.node (.stored y) i c (N.setStore n s)
  noEntries : ∀ {i c n y}, K.node (.restored y []) i c n → y.entries = [] → K.node (.stored y) i c n
  advance : ∀ {i c n y w}, K.node (.stored y) i c n → K.rest y w → ∃ n' l, N.advance n w = .ok (n', l) ∧ K.node (.light l l.committed) i c n' ∧
    Loaded l.messages ∧ (∀ e ∈ l.committed, Readable E T e) ∧ Ordered l.committed
  done : ∀ {i c n l}, K.node (.light l []) i c n → ∃ n', N.advanceApply n = .ok n' ∧ K.node .idle i c n'
  /-- the next entry to be applied is newer and is in the store -/
  stored : ∀ {i c n e es} {k : List Entry → Stage}, K.node (k (e :: es)) i c n → (∃ y, k = .restored y) ∨ (∃ l, k = .light l) →
    i < e.index ∧ e.index ≤ Storage.lastIndex (N.store n)
  applied : ∀ {i c n e es} {k : List Entry → Stage}, K.node (k (e :: es)) i c n → (∃ y, k = .restored y) ∨ (∃ l, k = .light l) →
    (e.data = [] ∨ e.type ≠ .confChange) → K.node (k es) e.index c n
  applyChange : ∀ {i c n e es x} {k : List Entry → Stage}, K.node (k (e :: es)) i c n → (∃ y, k = .restored y) ∨ (∃ l, k = .light l) →
    e.type = .confChange → e.data ≠ [] → E.decConf e.data = some x → T.change x →
    ∃ n' cs, N.applyConf n x = .ok (n', .ok cs) ∧ K.node (k es) e.index cs n'

/-- The `Ready` the replica is dealing with. -/
def Stage.ready : Stage → Option Ready
  | .idle => none
  | .fetched y => some y
  | .stated y => some y
  | .restored y _ => some y
  | .stored y => some y
  | .light _ _ => none

/-- The log holds what was applied: the snapshot is not ahead of it, and if it is at the same index it has the same members; nothing
beyond the end of the log was applied; every entry after the snapshot is there. -/
structure LogOk (i : Nat) (c : Storage.ConfState) (s : Storage.Store) : Prop where
  reachable : Storage.Spec.Reachable s
  behind : s.snap.index ≤ i
  members : i = s.snap.index → c = s.snap.conf
  within : i ≤ Storage.lastIndex s

/-- The terms of the shipped consensus layer. -/
def overStore (N : NodeT ν Y) (K : NodeTerms ν Y) (T : Terms σ (Simple ν Y)) : Terms σ (Simple ν Y) :=
  { T with
    raft := fun st i c r => ∃ n, r.node = some n ∧ K.node st i c n ∧ LogOk i c (N.store n) ∧
      ∀ y, st.ready = some y → ∃ w, r.ready.get y.number = some w ∧ K.rest y w
    message := fun r m => ∀ n, r.node = some n → K.message n m }

end TCP.Survive
