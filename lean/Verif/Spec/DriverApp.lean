import Verif.Spec.DriverLog

/-!
# Specification: an application on a cluster

What the log says, without reference to how replicas read it, and the histories of a cluster that runs one application.
-/

namespace TCP.DrvSpec

open TCP TCP.Drv TCP.ActorSpec

variable {σ ρ κ H : Type}

/-- The event in a log entry: none if it is empty, changes the members or is malformed. -/
def eventOf (dec : Bytes → Option LogEntry) (e : Entry) : Option ActorEvent :=
  if e.data = [] then none
  else if e.type = .confChange then none
  else match dec e.data with
    | some ⟨some (_, corr), contents⟩ => some ⟨corr, contents⟩
    | _ => none

/-- The replica that proposed the event in a log entry. -/
def proposerOf (dec : Bytes → Option LogEntry) (e : Entry) : Option Nat :=
  if e.data = [] then none
  else if e.type = .confChange then none
  else match dec e.data with
    | some ⟨some (replica, _), _⟩ => some replica
    | _ => none

/-- The events of a log up to index `n` (the log starts at index 2). -/
def eventsUpTo (dec : Bytes → Option LogEntry) (log : Nat → Entry) (n : Nat) : List ActorEvent :=
  (segment log 1 (n - 1)).filterMap (eventOf dec)

/-- An application that neither changes its state when it saves a snapshot nor when it is told to shut down. -/
structure Inert (A : Actor σ) : Prop where
  save : ∀ {ctx s s' b}, A.onSaveSnapshot ctx s = .ok (s', .ok b) → s' = s
  shutdown : ∀ {ctx s s'}, A.onShutdown ctx s = .ok s' → s' = s

/-- The states of a cluster whose replicas, in any order, handle any messages, all of them started with the same configuration of the
application.  About consensus the same is assumed as in `Cluster`, and that it does not go back: a snapshot it installs is not older than
what it delivered. -/
inductive Deployed (S : Sys σ ρ κ H) (log : Nat → Entry) (founder : Nat) (fresh : σ → Prop) (cfg : Bytes) : (Nat → Driver σ ρ κ H) → Prop
  | init {ds} (h : ∀ p, ∃ a r c, fresh a ∧ ds p = Driver.new a r c) : Deployed S log founder fresh cfg ds
  | call {ds p instant m d out} (h : Deployed S log founder fresh cfg ds) (hs : receive S instant m (ds p) = .ok (d, .ok out))
      (he : d.ephemeral = false)
      (hlog : ∃ y, Trail (Advances log) d.trace (0, 0) y)
      (hfirst : ∀ e ∈ d.trace.flatMap delivered, 2 ≤ e.index)
      (hsnap : ∀ r, .ready r ∈ d.trace → r.snapshot.metadata.index ≠ 0 → .ready r ∈ (ds p).trace ∨ Created ds r.snapshot.metadata.index r.snapshot.data)
      (hfound : ∀ id b, .raftInit id b true (.ok ()) ∈ d.trace → p = founder)
      (hcfg : ∀ ctx res, .actorInit ctx res ∈ d.trace → ctx.config = cfg) : Deployed S log founder fresh cfg (update ds p d)

/-- An actor reflects the log up to an index: its state is one a replica can be in that was configured with `cfg` and applied the events of
the log up to there, itself or by way of a snapshot; and, once it has joined, its state stems from the state `f` the founder started in. -/
def Reflects (S : Sys σ ρ κ H) (log : Nat → Entry) (fresh : σ → Prop) (cfg : Bytes) (f : σ) (n : Nat) (s : σ) : Prop :=
  Replica S.A fresh cfg (eventsUpTo S.E.decEntry log n) s ∧ (1 ≤ n → Member S.A fresh cfg f (eventsUpTo S.E.decEntry log n) s)

/-- Consensus only commits what was proposed: every event in the part of the log some replica has applied was proposed by some replica
before. -/
def Causal (dec : Bytes → Option LogEntry) (log : Nat → Entry) (ds : Nat → Driver σ ρ κ H) : Prop :=
  ∀ p i ev, 2 ≤ i → i ≤ (ds p).applied → eventOf dec (log i) = some ev → ∃ q, .propose (log i).data ∈ (ds q).trace

/-- An application that marks the events it asks for with the correlation id of the command. -/
def Correlates (A : Actor σ) : Prop :=
  ∀ {ctx s c s' o ev}, A.onProcessCommand ctx s c = .ok (s', .ok o) → o.event = some ev → ∃ q, c = some q ∧ ev.correlationId = q.correlationId

end TCP.DrvSpec
