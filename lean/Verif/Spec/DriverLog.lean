import Verif.Spec.Driver

/-!
# Specification: how the log reaches the actor

Reads the recorded interactions of a driver only.
-/

namespace TCP.DrvSpec

open TCP TCP.Drv TCP.ActorSpec

variable {H s : Type}

/-- Reading interactions one after the other. -/
def Trail (R : Ev H → s → s → Prop) : List (Ev H) → s → s → Prop
  | [], x, y => x = y
  | e :: t, x, z => ∃ y, R e x y ∧ Trail R t y z

/-- What the actor gets to see of the replicated log. -/
inductive Obs where
  | load (data : Bytes)
  | apply (index : Nat) (owned : Bool) (ev : ActorEvent)
deriving Repr, DecidableEq

/-- What the actor saw in an interaction. -/
def observation : Ev H → Option Obs
  | .actor (.apply _ ec ev _) => some (.apply ec.index ec.owned ev)
  | .actor (.load _ b _) => some (.load b)
  | _ => none

/-- What the actor saw, in order. -/
def observed (t : List (Ev H)) : List Obs := t.filterMap observation

/-- What a log entry is to the actor of a replica: nothing if it is empty or changes the members, else an event of the replica that
proposed it; `none` if it is malformed. -/
def payload (dec : Bytes → Option LogEntry) (id : Nat) (e : Entry) : Option (List Obs) :=
  if e.data = [] then some []
  else if e.type = .confChange then some []
  else match dec e.data with
    | some ⟨some (replica, corr), contents⟩ => some [.apply e.index (decide (replica = id)) ⟨corr, contents⟩]
    | _ => none

/-- What entries are to the actor. -/
def payloads (dec : Bytes → Option LogEntry) (id : Nat) : List Entry → Option (List Obs)
  | [] => some []
  | e :: es => match payload dec id e, payloads dec id es with
    | some a, some b => some (a ++ b)
    | _, _ => none

/-- The entries of a batch in the order of their indices. -/
def InOrder (es batch : List Entry) : Prop := es.Perm batch ∧ es.Pairwise fun a b => a.index ≤ b.index

/-- The index of the last entry, or `a` if there is none. -/
def lastIndex (a : Nat) (es : List Entry) : Nat := es.foldl (fun _ e => e.index) a

/-- The snapshot of a batch, if there is one. -/
def loads (sn : Snap.RaftSnapshot) : List Obs := if sn.metadata.index = 0 then [] else [.load sn.data]

/-- Where the log continues after the snapshot of a batch. -/
def loadIndex (sn : Snap.RaftSnapshot) (a : Nat) : Nat := if sn.metadata.index = 0 then a else sn.metadata.index

/-- What consensus delivers: a batch is a snapshot, if any, and committed entries; a replica that founds a cluster starts at
index 1.  The state is what the actor has to see, and the index reached. -/
def Feed (dec : Bytes → Option LogEntry) (id : Nat) : Ev H → List Obs × Nat → List Obs × Nat → Prop
  | .raftInit _ _ true (.ok _), x, y => y = (x.1, 1)
  | .ready r, x, y => ∃ es ps, InOrder es r.committed ∧ payloads dec id es = some ps ∧
      y = (x.1 ++ loads r.snapshot ++ ps, lastIndex (loadIndex r.snapshot x.2) es)
  | .light l, x, y => ∃ es ps, InOrder es l.committed ∧ payloads dec id es = some ps ∧ y = (x.1 ++ ps, lastIndex x.2 es)
  | _, x, y => y = x

/-- The entries of a log after index `b`, `k` of them. -/
def segment (log : Nat → Entry) (b k : Nat) : List Entry := (List.range k).map fun i => log (b + 1 + i)

/-- Consensus delivers a log without gaps or repetitions: every batch is the next part of it (in any order), and a snapshot moves to
its index.  The state is the index the log continued from (the start, or the last snapshot) and the index reached. -/
def Follows (log : Nat → Entry) : Ev H → Nat × Nat → Nat × Nat → Prop
  | .raftInit _ _ true (.ok _), _, y => y = (1, 1)
  | .ready r, x, y => ∃ k, r.committed.Perm (segment log (loadIndex r.snapshot x.2) k) ∧
      y = (if r.snapshot.metadata.index = 0 then x.1 else r.snapshot.metadata.index, loadIndex r.snapshot x.2 + k)
  | .light l, x, y => ∃ k, l.committed.Perm (segment log x.2 k) ∧ y = (x.1, x.2 + k)
  | _, x, y => y = x

/-- Consensus delivers the log and does not go back in it: an installed snapshot is not older than what was delivered. -/
def Advances (log : Nat → Entry) (e : Ev H) (x y : Nat × Nat) : Prop :=
  Follows log e x y ∧ x.2 ≤ match e with | .ready r => loadIndex r.snapshot x.2 | _ => y.2

/-- The indices of the events the actor saw. -/
def applyIndices (os : List Obs) : List Nat := os.filterMap fun o => match o with | .apply i _ _ => some i | .load _ => none

/-- What was seen since the last snapshot was loaded. -/
def sinceLoad (os : List Obs) : List Obs :=
  os.foldl (fun acc o => match o with | .load _ => [] | o => acc ++ [o]) []

/-- The events the actor asked to replicate. -/
def requested : Ev H → Option ActorEvent
  | .actor (.command _ _ (.ok o)) => o.event
  | _ => none

/-- The proposals made. -/
def proposal : Ev H → Option Bytes
  | .propose b => some b
  | _ => none

/-- The committed entries consensus delivered. -/
def delivered : Ev H → List Entry
  | .ready r => r.committed
  | .light l => l.committed
  | _ => []

/-! ## Clusters -/

variable {σ ρ κ V : Type}

/-- What an application has to guarantee for clients to be answered once: answers and events carry the correlation id of the command they
belong to, and an event is answered only where it is owned. -/
structure Answers (A : Actor σ) : Prop where
  command : ∀ {ctx s c s' o}, A.onProcessCommand ctx s c = .ok (s', .ok o) → ∀ r ∈ o.commands, ∃ q, c = some q ∧ r.correlationId = q.correlationId
  event : ∀ {ctx s c s' o ev}, A.onProcessCommand ctx s c = .ok (s', .ok o) → o.event = some ev → ∃ q, c = some q ∧ ev.correlationId = q.correlationId
  apply : ∀ {ctx s ec ev s' o}, A.onApplyEvent ctx s ec ev = .ok (s', .ok o) → ∀ r ∈ o.commands, ec.owned = true ∧ r.correlationId = ev.correlationId

/-- The commands an actor was handed. -/
def handed : Ev H → Option ActorCommand
  | .actor (.command _ c _) => c
  | _ => none

/-- What an application has to guarantee for its replicas to agree.  `view` is the part of its state that is replicated: applying an event
changes it in a way that depends on nothing else, commands, saving and shutting down leave it alone, and loading a saved snapshot
restores it, whatever the state before. -/
structure Deterministic (A : Actor σ) (view : σ → V) (step : V → Nat → ActorEvent → V) : Prop where
  apply : ∀ {ctx s ec ev s' o}, A.onApplyEvent ctx s ec ev = .ok (s', .ok o) → view s' = step (view s) ec.index ev
  command : ∀ {ctx s c s' o}, A.onProcessCommand ctx s c = .ok (s', .ok o) → view s' = view s
  save : ∀ {ctx s s' b}, A.onSaveSnapshot ctx s = .ok (s', .ok b) → view s' = view s
  shutdown : ∀ {ctx s s'}, A.onShutdown ctx s = .ok s' → view s' = view s
  load : ∀ {ctx s s' b ctx' t t'}, A.onSaveSnapshot ctx s = .ok (s', .ok b) → A.onLoadSnapshot ctx' t b = .ok (t', .ok ()) → view t' = view s

/-- The events of observations. -/
def events (os : List Obs) : List (Nat × ActorEvent) := os.filterMap fun o => match o with | .apply i _ ev => some (i, ev) | .load _ => none

/-- The replicated state after events. -/
def replay (step : V → Nat → ActorEvent → V) (v : V) (es : List (Nat × ActorEvent)) : V := es.foldl (fun v e => step v e.1 e.2) v

/-- A snapshot of index `i` some replica created: the one that founded the cluster, for index 1, or any replica later. -/
def Created (ds : Nat → Driver σ ρ κ H) (i : Nat) (b : Bytes) : Prop :=
  ∃ p, (∃ c, .storeCreate i c b ∈ (ds p).trace) ∨ (i = 1 ∧ ∃ id, .raftInit id b true (.ok ()) ∈ (ds p).trace)

/-- The state after one replica moved. -/
def update (ds : Nat → Driver σ ρ κ H) (p : Nat) (d : Driver σ ρ κ H) : Nat → Driver σ ρ κ H := fun q => if q = p then d else ds q

/-- The states of a cluster whose replicas, in any order, handle any messages.  Consensus is assumed to do its job: it delivers the same log
to all of them, starting at index 2, and installs only snapshots replicas created before.  Replica `founder` is the only one started as
the leader of a new cluster, and none is ephemeral. -/
inductive Cluster (S : Sys σ ρ κ H) (log : Nat → Entry) (founder : Nat) : (Nat → Driver σ ρ κ H) → Prop
  | init {ds} (h : ∀ p, Fresh (ds p)) : Cluster S log founder ds
  | call {ds p instant m d out} (h : Cluster S log founder ds) (hs : receive S instant m (ds p) = .ok (d, .ok out)) (he : d.ephemeral = false)
      (hlog : ∃ y, Trail (Follows log) d.trace (0, 0) y)
      (hfirst : ∀ e ∈ d.trace.flatMap delivered, 2 ≤ e.index)
      (hsnap : ∀ r, .ready r ∈ d.trace → r.snapshot.metadata.index ≠ 0 → .ready r ∈ (ds p).trace ∨ Created ds r.snapshot.metadata.index r.snapshot.data)
      (hfound : ∀ id b, .raftInit id b true (.ok ()) ∈ d.trace → p = founder) : Cluster S log founder (update ds p d)

end TCP.DrvSpec
