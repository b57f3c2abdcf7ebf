import Verif.Spec.Comm
import Verif.Spec.Replica

/-!
# Specification vocabulary for removed members (C101)
-/

namespace TCP.Removed

open TCP TCP.Drv TCP.Replica

variable {S E H P ν Y σ : Type}

/-- The handshake messages of peer `p` that reached the channel layer. -/
def greetings (p : Nat) (log : List (Comm.Spec.Ev S H)) : List H :=
  log.filterMap fun
    | .inn (.handshake q h) _ _ => if q = p then some h else none
    | _ => none

/-- The messages of peer `p` the channel layer took for genuine and passed up. -/
def heard (p : Nat) (log : List (Comm.Spec.Ev S H)) : List (Comm.InMsg H) :=
  log.filterMap fun
    | .inn m _ (.ok (some up)) => if m.peer = some p then some up else none
    | _ => none

/-- The replica keeps a channel with `p`: a session, a handshake or messages that wait for one. -/
def HasChannel (d : Driver σ (Simple ν Y) (Channels P S E H) H) (p : Nat) : Prop := d.comm.module.replicas.get p ≠ none

/-- The replica has a session with `p`: the handshake completed. -/
def HasSession (d : Driver σ (Simple ν Y) (Channels P S E H) H) (p : Nat) : Prop := Comm.Spec.statusOf d.comm.module p = .completed

/-- The replica is sending a snapshot to `p`. -/
def SendsSnapshot (d : Driver σ (Simple ν Y) (Channels P S E H) H) (p : Nat) : Prop := d.snap.sender.receivers.get p ≠ none

/-- What the channel layer was told about the members of the cluster. -/
def toldMembers (t : List (Ev H)) : List (List Nat) :=
  t.filterMap fun
    | .commCluster ids => some ids
    | _ => none

end TCP.Removed
