import Verif.Spec.Handed
import Verif.Model.Counter
import Verif.Model.TabletStore
import Verif.Model.Willow

/-!
# Where replicated data comes from (C114)
-/

namespace TCP.DrvSpec

open TCP TCP.Drv

variable {σ ρ κ H : Type}

/-- Every event stems from a command: in the order of the commands, at most one event for each. -/
inductive Led (leads : ActorCommand → ActorEvent → Prop) : List ActorCommand → List ActorEvent → Prop
  | nil : Led leads [] []
  | without {c cs evs} (h : Led leads cs evs) : Led leads (c :: cs) evs
  | event {c cs ev evs} (hc : leads c ev) (h : Led leads cs evs) : Led leads (c :: cs) (ev :: evs)

/-- An application that asks for an event only when it is handed a command, and then for one the command leads to. -/
def EventsFrom (A : Actor σ) (leads : ActorCommand → ActorEvent → Prop) : Prop :=
  ∀ {ctx s c s' o ev}, A.onProcessCommand ctx s c = .ok (s', .ok o) → o.event = some ev → ∃ q, c = some q ∧ leads q ev

/-- Counters: the event is the request in the command, without the context of the client, and the request has an operation. -/
def counterLeads (ms : Counter.Msgs) (c : ActorCommand) (ev : ActorEvent) : Prop :=
  ∃ r, ms.decIn c.header = some (some r) ∧ r.op.isSome ∧ ev = ⟨c.correlationId, ms.encReq { r with context := [] }⟩

/-- The tablet store: the event is the payload of the command, which is a request. -/
def tabletLeads (env : TabletStore.Env) (c : ActorCommand) (ev : ActorEvent) : Prop :=
  env.decIn c.header = some true ∧ (env.decReq c.payload).isSome ∧ ev = ⟨c.correlationId, c.payload⟩

/-- The decryptor: a key is generated under the id the command names, and a key is used up by a command that asks for a decryption with it. -/
def willowLeads (env : Willow.Env) (c : ActorCommand) (ev : ActorEvent) : Prop :=
  (∃ k g, env.decReq c.header = some (.generateKey k) ∧ g.keyId = k ∧ ev = ⟨c.correlationId, env.encEv (.generateKey g)⟩) ∨
  (∃ k q r, env.decReq c.header = some (.decrypt k q) ∧ ev = ⟨c.correlationId, env.encEv (.decrypt k r)⟩)

/-- Consensus commits only what was proposed: every event applied by a replica is in an entry proposed by a replica. -/
def EventsProposed {ι : Type} (log : Nat → Entry) (ds : ι → Driver σ ρ κ H) : Prop :=
  ∀ q i owned ev, .apply i owned ev ∈ observed (ds q).trace → ∃ p, .propose (log i).data ∈ (ds p).trace

end TCP.DrvSpec
