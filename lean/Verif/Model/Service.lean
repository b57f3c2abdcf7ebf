import Verif.Lib.Run

/-!
# Model of `runtime/src/service.rs` `TonicApplicationService`

Concurrent calls of the gRPC endpoint are put into a channel with one slot; one thread takes them out, one at a time, lets the driver
handle them and answers through a one-shot channel that travelled with the request.

Tokio's channels are modelled by their documented behaviour: `mpsc::channel(1)` holds one request; a sender waits until the slot is
free, in any order; when the receiving thread panics both channels are dropped, so that waiting senders and waiting callers get an
error; sending into a one-shot channel whose receiver was dropped is an error.  The gRPC server drops the future of a call whose
client went away (`Step.cancel`).

The driver is a parameter: `handle q d` answers request `q` in state `d`, or panics; `Model/Replica.serve` is an instance.
Shutting the service down (service.rs:235-245 `drop`) is in `Model/Shutdown`.
-/

namespace TCP.Service

open TCP

/-- The state of one call of `receive_message`, service.rs:246-262. -/
inductive Call (Q A : Type) where
  /-- in `sender.send((request, tx)).await` -/
  | sending (q : Q)
  /-- in `rx.await` -/
  | waiting (q : Q)
  /-- the response is in the one-shot channel -/
  | answered (a : A)
  /-- the response was returned to the client -/
  | returned (a : A)
  /-- an internal error was returned to the client -/
  | refused
  /-- the client went away and the future was dropped -/
  | cancelled
deriving Repr, DecidableEq

/-- What happens, for the specification. -/
inductive Event (Q A : Type) where
  | invoke (i : Nat) (q : Q)
  | handled (i : Nat) (q : Q) (a : A)
  | return (i : Nat) (a : A)
  | refuse (i : Nat)
  | cancel (i : Nat)
deriving Repr, DecidableEq

/-- service.rs:137-151 `TonicApplicationService` together with its thread; calls are numbered in the order they arrive. -/
structure State (δ Q A : Type) where
  driver : δ
  /-- the thread runs -/
  alive : Bool
  /-- the slot of the channel: a request and the call that has the other end of its one-shot channel -/
  queue : List (Q × Nat)
  /-- the request the thread works on -/
  busy : Option (Q × Nat)
  calls : List (Call Q A)
  history : List (Event Q A)

variable {δ Q A : Type}

/-- service.rs:156-179 `new`. -/
def State.new (d : δ) : State δ Q A := ⟨d, true, [], none, [], []⟩

/-- service.rs:246-247 a new call of `receive_message`. -/
def State.call (s : State δ Q A) (q : Q) : State δ Q A :=
  { s with calls := s.calls ++ [.sending q], history := s.history ++ [.invoke s.calls.length q] }

/-- service.rs:251-255 the slot is free, so that the request is put into the channel. -/
def State.send (s : State δ Q A) (i : Nat) (q : Q) : State δ Q A :=
  { s with calls := s.calls.set i (.waiting q), queue := s.queue ++ [(q, i)] }

/-- service.rs:256, 258-259 an error of one of the channels is returned. -/
def State.refuse (s : State δ Q A) (i : Nat) : State δ Q A :=
  { s with calls := s.calls.set i .refused, history := s.history ++ [.refuse i] }

/-- service.rs:261 the response is returned. -/
def State.return (s : State δ Q A) (i : Nat) (a : A) : State δ Q A :=
  { s with calls := s.calls.set i (.returned a), history := s.history ++ [.return i a] }

/-- The client goes away: the server drops the future of the call, with the receiving end of its one-shot channel. -/
def State.cancel (s : State δ Q A) (i : Nat) : State δ Q A :=
  { s with calls := s.calls.set i .cancelled, history := s.history ++ [.cancel i] }

/-- service.rs:192 `rx.blocking_recv`. -/
def State.receive (s : State δ Q A) (q : Q) (i : Nat) (rest : List (Q × Nat)) : State δ Q A := { s with queue := rest, busy := some (q, i) }

/-- The thread panics: both ends of its channels are dropped. -/
def State.die (s : State δ Q A) : State δ Q A := { s with alive := false, queue := [], busy := none }

/-- service.rs:193-200 the body of `run_driver_loop`: handle the request; `expect` panics if the driver returns an error, and also if
nobody waits for the response. -/
def State.work (handle : Q → δ → Run (δ × A)) (s : State δ Q A) (q : Q) (i : Nat) : State δ Q A :=
  match handle q s.driver with
  | .panic => s.die
  | .ok (d', a) =>
    match s.calls[i]? with
    | some (.waiting _) =>
      { s with driver := d', busy := none, calls := s.calls.set i (.answered a), history := s.history ++ [.handled i q a] }
    | _ => { s.die with driver := d', history := s.history ++ [.handled i q a] }

/-- What clients do. -/
inductive Client : State δ Q A → State δ Q A → Prop
  | call {s} (q : Q) : Client s (s.call q)
  | cancel {s : State δ Q A} {i : Nat} (h : ∃ q, s.calls[i]? = some (.sending q) ∨ s.calls[i]? = some (.waiting q) ∨
      ∃ a, s.calls[i]? = some (.answered a)) : Client s (s.cancel i)

/-- What the service does, in any order. -/
inductive Server (handle : Q → δ → Run (δ × A)) : State δ Q A → State δ Q A → Prop
  | send {s : State δ Q A} {i q} (h : s.calls[i]? = some (.sending q)) (ha : s.alive = true) (hq : s.queue.length < 1) : Server handle s (s.send i q)
  | unsent {s : State δ Q A} {i q} (h : s.calls[i]? = some (.sending q)) (ha : s.alive = false) : Server handle s (s.refuse i)
  | receive {s : State δ Q A} {q i rest} (ha : s.alive = true) (hb : s.busy = none) (hq : s.queue = (q, i) :: rest) :
      Server handle s (s.receive q i rest)
  | work {s : State δ Q A} {q i} (hb : s.busy = some (q, i)) : Server handle s (s.work handle q i)
  | unanswered {s : State δ Q A} {i q} (h : s.calls[i]? = some (.waiting q)) (ha : s.alive = false) : Server handle s (s.refuse i)
  | return {s : State δ Q A} {i a} (h : s.calls[i]? = some (.answered a)) : Server handle s (s.return i a)

/-- Every state a service can get into. -/
inductive Reachable (handle : Q → δ → Run (δ × A)) (d0 : δ) : State δ Q A → Prop
  | new : Reachable handle d0 (.new d0)
  | client {s s'} (h : Reachable handle d0 s) (hs : Client s s') : Reachable handle d0 s'
  | server {s s'} (h : Reachable handle d0 s) (hs : Server handle s s') : Reachable handle d0 s'

end TCP.Service
