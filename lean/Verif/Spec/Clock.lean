import Verif.Model.Clock
import Verif.Spec.Driver

/-!
# Calls with the readings of the host's clock
-/

namespace TCP.DrvSpec

open TCP TCP.Drv

variable {σ ρ κ H : Type}

/-- Calls of `receive_message`, with any messages and results, in which the host's clock showed `ts`. -/
inductive Timed (S : Sys σ ρ κ H) : Driver σ ρ κ H → List Nat → Driver σ ρ κ H → Prop
  | nil {d} : Timed S d [] d
  | snoc {d ts d1 t msg r d2} (h : Timed S d ts d1) (hs : receive S t msg d1 = .ok (d2, r)) : Timed S d (ts ++ [t]) d2

/-- The latest of some readings, 0 (the year 1970) if there are none. -/
def latest (ts : List Nat) : Nat := ts.foldl max 0

end TCP.DrvSpec
