import Verif.Model.Replica
import Verif.Spec.Storage

/-!
# Specification vocabulary for the length of the log (C100)
-/

namespace TCP.Short

open TCP TCP.Drv TCP.Replica

/-- The number of entries after which a replica is asked to take a snapshot: what the start request says, or else 1000. -/
def snapshotCount (q : StartReq) : Nat :=
  match q.raftConfig with
  | some ⟨_, _, _, _, some (count, _), _⟩ => count
  | _ => 1000

/-- The entries in the store that the application has been given. -/
def done (s : Storage.Store) (applied : Nat) : List Storage.Entry := s.entries.filter fun e => e.index ≤ applied

/-- Telling raft-rs how a snapshot transfer ended does not make it use its store. -/
def Quiet {ν Y : Type} (N : NodeT ν Y) : Prop := ∀ n peer st n', N.reportSnapshot n peer st = .ok n' → N.store n' = N.store n

end TCP.Short
