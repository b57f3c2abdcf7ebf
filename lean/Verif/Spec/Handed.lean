import Verif.Spec.Asked
import Verif.Spec.DriverLog

/-!
# Commands of clients on their way to the application (C113)
-/

namespace TCP.DrvSpec

open TCP TCP.Drv

variable {σ ρ κ H : Type}

/-- Calls of `receive_message` that all succeeded, in which the host passed the messages `ms`. -/
inductive Served (S : Sys σ ρ κ H) : Driver σ ρ κ H → List (Option (Option (InMsg H))) → Driver σ ρ κ H → Prop
  | nil {d} : Served S d [] d
  | snoc {d ms d1 t msg out d2} (h : Served S d ms d1) (hs : receive S t msg d1 = .ok (d2, .ok out)) : Served S d (ms ++ [msg]) d2

/-- The command in a message. -/
def askedCommand : Option (Option (InMsg H)) → Option ActorCommand
  | some (some (.appMessage c)) => some c
  | _ => none

end TCP.DrvSpec
