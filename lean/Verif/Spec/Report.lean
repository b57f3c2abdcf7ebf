import Verif.Spec.DriverLog

/-!
# Reports about the state of a replica
-/

namespace TCP.DrvSpec

open TCP TCP.Drv

/-- The reports among messages to the host: the applied index and the size of the latest snapshot. -/
def stateReports {H : Type} (ms : List (OutMsg H)) : List (Nat × Nat) :=
  ms.filterMap fun m => match m with | .replicaState i n => some (i, n) | _ => none

end TCP.DrvSpec
