import Verif.Spec.Driver

/-!
# Requests for changes of the members (C112)
-/

namespace TCP.DrvSpec

open TCP TCP.Drv

variable {σ ρ κ H : Type}

/-- Calls of `receive_message`, with any results, in which the host passed the messages `ms`. -/
inductive Asked (S : Sys σ ρ κ H) : Driver σ ρ κ H → List (Option (Option (InMsg H))) → Driver σ ρ κ H → Prop
  | nil {d} : Asked S d [] d
  | snoc {d ms d1 t msg r d2} (h : Asked S d ms d1) (hs : receive S t msg d1 = .ok (d2, r)) : Asked S d (ms ++ [msg]) d2

/-- The change of the members a message asks for: adding (1) or removing (2) a replica. -/
def askedChange : Option (Option (InMsg H)) → Option ConfChange
  | some (some (.changeCluster _ replica 1)) => some ⟨replica, true⟩
  | some (some (.changeCluster _ replica 2)) => some ⟨replica, false⟩
  | _ => none

/-- The changes of the members that were proposed to consensus, in order. -/
def proposedChanges (t : List (Ev H)) : List ConfChange := t.filterMap fun
  | .proposeChange c _ => some c
  | _ => none

/-- Consensus commits only changes that were proposed by some replica. -/
def ChangesProposed {ι : Type} (ds : ι → Driver σ ρ κ H) : Prop :=
  ∀ p c res, .applyChange c res ∈ (ds p).trace → ∃ q, c ∈ proposedChanges (ds q).trace

end TCP.DrvSpec
