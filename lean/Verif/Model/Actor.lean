import Verif.Model.Attest

/-!
# Model of `runtime/src/model.rs`: the actor interface

An actor is a state machine over its own state type.  Loggers are dropped.  The actor context handed over at initialisation is a shared reference to values the
driver updates, so every callback takes the current values.
-/

namespace TCP

/-- model.rs:32-39 `ActorError`. -/
inductive ActorErr where
  | internal
  | configLoading
  | snapshotLoading
deriving Repr, DecidableEq

/-- model.rs:59-82 `ActorContext`: what an actor can ask the driver. -/
structure ActorCtx where
  id : Nat
  instant : Nat
  config : Bytes
  leader : Bool
deriving Repr, DecidableEq

/-- model.rs:88-97 `ActorCommand`. -/
structure ActorCommand where
  correlationId : Nat
  header : Bytes
  payload : Bytes
deriving Repr, DecidableEq

/-- model.rs:101-107 `ActorCommand::with_header` on an encoded header. -/
def ActorCommand.withHeader (correlationId : Nat) (header : Bytes) : ActorCommand := ⟨correlationId, header, []⟩

/-- model.rs:124-129 `ActorEvent`. -/
structure ActorEvent where
  correlationId : Nat
  contents : Bytes
deriving Repr, DecidableEq

/-- model.rs:150-157 `ActorEventContext`. -/
structure ActorEventCtx where
  index : Nat
  owned : Bool
deriving Repr, DecidableEq

/-- model.rs:163-168 `CommandOutcome`. -/
structure CommandOutcome where
  commands : List ActorCommand
  event : Option ActorEvent
deriving Repr, DecidableEq

/-- model.rs:212-215 `EventOutcome`. -/
structure EventOutcome where
  commands : List ActorCommand
deriving Repr, DecidableEq

/-- model.rs:237-284 `Actor`: each callback returns the new state and its result, or panics. -/
structure Actor (σ : Type) where
  onInit : ActorCtx → σ → Run (σ × Except ActorErr Unit)
  onShutdown : ActorCtx → σ → Run σ
  onSaveSnapshot : ActorCtx → σ → Run (σ × Except ActorErr Bytes)
  onLoadSnapshot : ActorCtx → σ → Bytes → Run (σ × Except ActorErr Unit)
  onProcessCommand : ActorCtx → σ → Option ActorCommand → Run (σ × Except ActorErr CommandOutcome)
  onApplyEvent : ActorCtx → σ → ActorEventCtx → ActorEvent → Run (σ × Except ActorErr EventOutcome)
  /-- model.rs:274-277 `get_reference_values` -/
  references : σ → Attest.RefVals := fun _ => .other []
  /-- model.rs:279-283 `get_clock_override`: which clock of its own the actor brings, if any; by default none -/
  clock : σ → Option Nat := fun _ => none

end TCP
