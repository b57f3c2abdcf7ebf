import Verif.Model.Shutdown
import Verif.Spec.Service

/-!
# When a service is shut down
-/

namespace TCP.ServiceSpec

open TCP TCP.Service

variable {δ Q A : Type}

/-- Every call of the service has an outcome, or its client went away. -/
def Quiet (s : State δ Q A) : Prop := ∀ (i : Nat) (c : Call Q A), s.calls[i]? = some c → Done c

/-- A request was handed over, its client went away, and the replica has not handled it to the end. -/
def Abandoned (s : State δ Q A) (i : Nat) (q : Q) : Prop :=
  (s.busy = some (q, i) ∨ (q, i) ∈ s.queue) ∧ s.calls[i]? = some .cancelled

end TCP.ServiceSpec
