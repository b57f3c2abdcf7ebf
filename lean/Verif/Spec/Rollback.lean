import Verif.Spec.Driver

/-!
# Specification vocabulary for rollback and forking (C99)

Says what the clients of a counter may be told, without mentioning replicas.
-/

namespace TCP.Rollback

open TCP TCP.Drv

/-- Successful swaps of one counter that starts at `v`, one after the other: each finds the value the one before it left.  A swap is the value
it expected and the value it wrote. -/
def OneAfterTheOther : Int → List (Int × Int) → Prop
  | _, [] => True
  | v, (expected, new) :: rest => v = expected ∧ OneAfterTheOther new rest

/-- Successful swaps, in whatever order they were reported, that one counter starting at 0 could have made. -/
def Possible (swaps : List (Int × Int)) : Prop := ∃ order, order.Perm swaps ∧ OneAfterTheOther 0 order

/-- The ids replicas were given when they were started. -/
def startedIds {H : Type} (ms : List (OutMsg H)) : List Nat := ms.filterMap fun m => match m with | .startReplica id => some id | _ => none

end TCP.Rollback
