import Verif.Model.Storage

/-!
# Specification vocabulary for the Raft log store (C01–C07)

Everything here is phrased in terms of what a caller can observe: `first_index`, `last_index`,
`entries`, `term`, `snapshot`.
-/

namespace TCP.Storage.Spec

/-- Consecutive indices starting at `i`. -/
def ConsecutiveFrom (i : Nat) : List Entry → Prop
  | [] => True
  | e :: es => e.index = i ∧ ConsecutiveFrom (i + 1) es

/-- A batch of entries as produced by Raft: consecutive indices, starting anywhere. -/
def Batch (b : List Entry) : Prop :=
  match b with
  | [] => True
  | e :: es => ConsecutiveFrom e.index (e :: es)

/-- A history in which every appended batch is one Raft could produce. -/
def RaftHistory (ops : List Op) : Prop := ∀ b, Op.append b ∈ ops → Batch b

/-- `s` is a state of a store that was created by `new` and then used through the API by Raft,
without a panic. -/
def Reachable (s : Store) : Prop :=
  ∃ d ops, RaftHistory ops ∧ run (new d) ops = .ok s

/-- The entry a reader gets at index `i`: ask for the range `[i, i+1)` without a size limit. -/
def read (s : Store) (i : Nat) : Option Entry :=
  match entries (fun es _ => es) s i (i + 1) none with
  | .ok (.ok [e]) => some e
  | _ => none

/-- The history never appends at or below the index of the snapshot the store holds at that moment.
This is what Raft guarantees (a snapshot only covers committed entries, and committed entries are
never rewritten); the store itself does not enforce it (see `C06_covered_entries_immutable_fails`). -/
def AboveSnapshot (s : Store) : List Op → Prop
  | [] => True
  | op :: ops =>
    (∀ b e, op = .append b → b.head? = some e → s.snap.index < e.index) ∧
    ∀ s', step s op = .ok s' → AboveSnapshot s' ops

/-- States reachable by histories that respect Raft's commit rule. -/
def ReachableRaft (s : Store) : Prop :=
  ∃ d ops, RaftHistory ops ∧ AboveSnapshot (new d) ops ∧ run (new d) ops = .ok s

/-- `p` is a voter, a learner or an outgoing voter of `c`. -/
def Knows (c : ConfState) (p : Nat) : Prop := p ∈ c.voters ∨ p ∈ c.learners ∨ p ∈ c.votersOutgoing

end TCP.Storage.Spec
