import Verif.Model.Service

/-!
# Model of `runtime/src/service.rs` `Drop` of `TonicApplicationService`

The gRPC server owns the service and every call borrows it, so the service is dropped when no call is in progress.  Requests of clients
that went away may still be in the channel or in the hands of the thread.
-/

namespace TCP.Service

open TCP

/-- Where the service is dropped.  `Handle::current()` panics on a thread without a runtime, and `Handle::block_on` panics inside an
asynchronous task (documented behaviour of tokio). -/
inductive Place where
  /-- a thread that knows of no runtime -/
  | outside
  /-- inside an asynchronous task: apps/atomic_counter/container/src/main.rs:67-95 `main` -/
  | task
  /-- a thread that knows of a runtime but runs no task of it -/
  | thread
deriving Repr, DecidableEq

variable {δ Q A : Type}

/-- service.rs:192-200 `run_driver_loop` once the sender is gone: the thread takes out what is left in the channel, one request at a time,
until the channel is empty or it panics. -/
def State.drain (handle : Q → δ → Run (δ × A)) : List (Q × Nat) → State δ Q A → State δ Q A
  | [], s => s
  | (q, i) :: rest, s => if s.alive = true then State.drain handle rest ((s.receive q i rest).work handle q i) else s

/-- service.rs:192-200 the thread from the moment the sender is gone, first finishing the request it works on. -/
def State.finish (handle : Q → δ → Run (δ × A)) (s : State δ Q A) : State δ Q A :=
  match s.busy with
  | some (q, i) => State.drain handle (s.work handle q i).queue (s.work handle q i)
  | none => State.drain handle s.queue s

/-- service.rs:235-245 `drop`: closes the channel, waits for the thread and panics if the thread had panicked. -/
def State.drop (handle : Q → δ → Run (δ × A)) (place : Place) (s : State δ Q A) : Run (State δ Q A) :=
  match place with
  | .thread => if (s.finish handle).alive = true then .ok { s.finish handle with alive := false } else .panic
  | _ => .panic

end TCP.Service
