import Verif.Lib.Run
import Verif.Lib.AMap

/-!
# Model of `runtime/src/storage.rs` — the in-memory Raft log store

`MemoryStorage` (storage.rs:338-428) is a `RefCell` around `MemoryStorageCore`; every method of the
public API borrows the cell and forwards, so the model is the core itself.
Simplifications: log messages are dropped; `u64` is `Nat`; an entry's `data`/`context`/`entry_type`
are one byte string; `RaftSnapshot.metadata` and its `conf_state` are always present (the code
unwraps them, util.rs:85-91, and every snapshot built by the code has them).
-/

namespace TCP.Storage

/-- `eraftpb::Entry` restricted to what the storage looks at (index, term) plus its payload. -/
structure Entry where
  index : Nat
  term : Nat
  data : Bytes
deriving Repr, DecidableEq

/-- `eraftpb::ConfState` (the three member lists read by util.rs:169-176). -/
structure ConfState where
  voters : List Nat
  learners : List Nat
  votersOutgoing : List Nat
deriving Repr, DecidableEq

/-- util.rs:169-176 `config_state_contains_node`. -/
def ConfState.containsNode (c : ConfState) (id : Nat) : Bool :=
  (c.voters ++ c.learners ++ c.votersOutgoing).any (fun x => x == id)

/-- `eraftpb::Snapshot` with its metadata flattened (util.rs:93-110). -/
structure Snapshot where
  index : Nat
  term : Nat
  conf : ConfState
  data : Bytes
deriving Repr, DecidableEq

/-- `eraftpb::HardState`. -/
structure HardState where
  term : Nat
  vote : Nat
  commit : Nat
deriving Repr, DecidableEq

/-- The `raft::StorageError`s this file returns. -/
inductive Err where
  | compacted
  | unavailable
  | snapshotOutOfDate
  | snapshotTemporarilyUnavailable
deriving Repr, DecidableEq

/-- storage.rs:45-52 `MemoryStorageCore` (without the logger). -/
structure Store where
  state : HardState
  entries : List Entry
  maxSnapshotDiff : Nat
  snap : Snapshot
  /-- `snapshot_peer_requests`: peer id ↦ requested index. -/
  requests : AMap Nat Nat
deriving Repr, DecidableEq

/-- storage.rs:36-43 `statisfies_snapshot_request`. -/
def satisfies (snapIndex : Nat) (conf : ConfState) (peer request : Nat) : Bool :=
  decide (snapIndex ≥ request) && conf.containsNode peer

/-- storage.rs:55-67 `new`. -/
def new (maxSnapshotDiff : Nat) : Store where
  state := ⟨0, 0, 0⟩
  entries := []
  maxSnapshotDiff := maxSnapshotDiff
  snap := ⟨0, 0, ⟨[], [], []⟩, []⟩
  requests := []

/-- storage.rs:81-86 `first_entry_index`, the API's `first_index` (storage.rs:417-419). -/
def firstIndex (s : Store) : Nat :=
  match s.entries.head? with
  | some e => e.index
  | none => s.snap.index + 1

/-- storage.rs:88-93 `last_entry_index`, the API's `last_index` (storage.rs:421-423). -/
def lastIndex (s : Store) : Nat :=
  match s.entries.getLast? with
  | some e => e.index
  | none => s.snap.index

/-- storage.rs:95-97 `set_hard_state`. -/
def setHardState (s : Store) (h : HardState) : Store := { s with state := h }

/-- storage.rs:99-133 `append_entries`.  `Vec::drain(n..)` panics when `n` exceeds the length. -/
def appendEntries (s : Store) (batch : List Entry) : Run (Store × Except Err Unit) :=
  match batch with
  | [] => .ok (s, .ok ())
  | e :: _ =>
    let firstAppend := e.index
    if firstIndex s > firstAppend then .panic
    else if lastIndex s + 1 < firstAppend then .panic
    else
      let overwritten := firstAppend - firstIndex s
      if overwritten > s.entries.length then .panic
      else .ok ({ s with entries := s.entries.take overwritten ++ batch }, .ok ())

/-- storage.rs:135-157 `compact_entries`.  `Vec::drain(..n)` panics when `n` exceeds the length. -/
def compactEntries (s : Store) (compactIndex : Nat) : Run (Store × Except Err Unit) :=
  if compactIndex ≤ firstIndex s then .ok (s, .ok ())
  else if compactIndex > lastIndex s + 1 then .panic
  else
    match s.entries.head? with
    | none => .ok (s, .ok ())
    | some e =>
      let offset := compactIndex - e.index
      if offset > s.entries.length then .panic
      else .ok ({ s with entries := s.entries.drop offset }, .ok ())

/-- storage.rs:232-242 `set_snapshot` (drops the peer requests the new snapshot satisfies). -/
def setSnapshot (s : Store) (snap : Snapshot) : Store :=
  { s with
    snap := snap
    requests := s.requests.filter (fun r => !satisfies snap.index snap.conf r.1 r.2) }

/-- storage.rs:159-176 `apply_snapshot`. -/
def applySnapshot (s : Store) (snap : Snapshot) : Store × Except Err Unit :=
  if firstIndex s > snap.index then (s, .error .snapshotOutOfDate)
  else
    let s := { s with state := { s.state with commit := snap.index, term := max s.state.term snap.term } }
    let s := { s with entries := [] }
    (setSnapshot s snap, .ok ())

/-- storage.rs:304-321 `entry_term`, the API's `term` (storage.rs:413-415). -/
def entryTerm (s : Store) (index : Nat) : Run (Except Err Nat) :=
  if index = s.snap.index then .ok (.ok s.snap.term)
  else
    let offset := firstIndex s
    if index < offset then .ok (.error .compacted)
    else if index > lastIndex s then .ok (.error .unavailable)
    else
      match s.entries[index - offset]? with
      | some e => .ok (.ok e.term)
      | none => .panic

/-- storage.rs:178-213 `create_snapshot`. -/
def createSnapshot (s : Store) (applied : Nat) (conf : ConfState) (data : Bytes) :
    Run (Store × Except Err Unit) :=
  if applied > lastIndex s then .panic
  else if firstIndex s > applied then .ok (s, .error .snapshotOutOfDate)
  else
    match entryTerm s applied with
    | .panic => .panic
    | .ok (.error e) => .ok (s, .error e)
    | .ok (.ok t) => compactEntries (setSnapshot s ⟨applied, t, conf, data⟩) applied

/-- storage.rs:215-230 `try_satisfy_request` and 323-335 `snapshot`. -/
def snapshot (s : Store) (request peer : Nat) : Store × Except Err Snapshot :=
  if satisfies s.snap.index s.snap.conf peer request then (s, .ok s.snap)
  else ({ s with requests := s.requests.set peer request }, .error .snapshotTemporarilyUnavailable)

/-- storage.rs:244-256 `should_snapshot`. -/
def shouldSnapshot (s : Store) (applied : Nat) (conf : ConfState) : Bool :=
  decide (s.snap.index + s.maxSnapshotDiff < applied) ||
    s.requests.any (fun r => satisfies applied conf r.1 r.2)

/-- storage.rs:258-263 `initial_state`. -/
def initialState (s : Store) : HardState × ConfState := (s.state, s.snap.conf)

/-- storage.rs:391-393 `latest_snapshot_size`. -/
def latestSnapshotSize (s : Store) : Nat := s.snap.data.length

/-- storage.rs:265-302 `entries`.  `limit` is raft-rs' `util::limit_size` (external): the theorems
hold for every function meeting `LimitContract` below.  Slicing `[lo..hi]` panics when `lo > hi`
or `hi > len`; `high_index - offset` underflows (panics or wraps to a slice panic) when
`high_index < offset`, which the `low ≥ first` check reduces to `lo > hi`. -/
def entries (limit : List Entry → Option Nat → List Entry) (s : Store) (low high : Nat)
    (maxSize : Option Nat) : Run (Except Err (List Entry)) :=
  if s.entries.isEmpty then .ok (.error .unavailable)
  else if low < firstIndex s then .ok (.error .compacted)
  else if high > lastIndex s + 1 then .panic
  else
    let offset := firstIndex s
    if high < low then .panic
    else
      let lo := low - offset
      let hi := high - offset
      if hi > s.entries.length then .panic
      else .ok (.ok (limit ((s.entries.take hi).drop lo) maxSize))

/-- The documented contract of raft-rs `util::limit_size`: it keeps a prefix, never empties a
non-empty list, and does nothing without a limit. -/
structure LimitContract (limit : List Entry → Option Nat → List Entry) : Prop where
  prefix_ : ∀ es m, limit es m <+: es
  nonempty : ∀ es m, es ≠ [] → limit es m ≠ []
  noLimit : ∀ es, limit es none = es

/-! ## Histories -/

/-- One call of the storage API that may change its state. -/
inductive Op where
  | setHardState (h : HardState)
  | append (batch : List Entry)
  | apply (snap : Snapshot)
  | create (applied : Nat) (conf : ConfState) (data : Bytes)
  | request (index peer : Nat)
deriving Repr, DecidableEq

/-- Perform one call; `none`-like outcome is `Run.panic`. -/
def step (s : Store) : Op → Run Store
  | .setHardState h => .ok (setHardState s h)
  | .append b => (appendEntries s b).bind (fun r => .ok r.1)
  | .apply sn => .ok (applySnapshot s sn).1
  | .create a c d => (createSnapshot s a c d).bind (fun r => .ok r.1)
  | .request i p => .ok (snapshot s i p).1

/-- Perform a sequence of calls; stops at the first panic. -/
def run (s : Store) : List Op → Run Store
  | [] => .ok s
  | op :: ops => (step s op).bind (fun s' => run s' ops)

end TCP.Storage
