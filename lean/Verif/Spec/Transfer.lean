import Verif.Spec.Replica
import Verif.Spec.Snapshot
import Verif.Spec.DriverApp

/-!
# Specification: snapshots that travel between replicas (C93)

What a replica gave its channel layer and what its channel layer passed up are read off the record of the calls of that layer.
-/

namespace TCP.Replica.Spec

open TCP TCP.Drv TCP.Comm.Spec

variable {ν Y P S E H σ : Type}

/-- The messages from `q` that the channel layer passed up, oldest first. -/
def received (q : Nat) (log : List (Comm.Spec.Ev S H)) : List Comm.Data :=
  log.filterMap fun
    | .inn _ _ (.ok (some (.data x))) => if x.sender = q then some x else none
    | _ => none

/-- The messages for `p` that the channel layer was given and took, oldest first. -/
def given (p : Nat) (log : List (Comm.Spec.Ev S H)) : List Comm.Data := (accepted p log).map fun u => u.data

/-- What a message says about a snapshot transfer, if it is a request of one. -/
def pieceOf (codecs : Codecs) (x : Comm.Data) : Option Snap.Content :=
  match x.kind, x.payload with
  | .snapshotRequest _, some b => codecs.decContent b.contents
  | _, _ => none

/-- The requests of snapshot transfers among messages. -/
def pieces (codecs : Codecs) (xs : List Comm.Data) : List Snap.Content := xs.filterMap (pieceOf codecs)

/-- The encodings lose nothing. -/
structure Faithful (codecs : Codecs) : Prop where
  raft : ∀ m, codecs.decRaft (codecs.encRaft m) = some m
  content : ∀ c, codecs.decContent (codecs.encContent c) = some c
  metadata : ∀ m, codecs.decMeta (codecs.encMeta m) = some m

/-- Whether a request opens a transfer. -/
def opens (c : Snap.Content) : Bool :=
  match c.it with
  | some (.header ..) => true
  | _ => false

/-- Every request that does not open a transfer belongs to the transfer that was opened last. -/
def Unmixed (cs : List Snap.Content) : Prop :=
  ∀ a h b c rest, cs = a ++ h :: b ++ c :: rest → opens h = true → (∀ x ∈ b ++ [c], opens x = false) → c.it ≠ none → c.snapshotId = h.snapshotId

/-- The channel between replicas `q` and `p` invents nothing: what `p` is passed up as a message from `q` was given by `q` for `p`. -/
def Carried (q p : Nat) (logq logp : List (Comm.Spec.Ev S H)) : Prop :=
  ∀ x ∈ received q logp, ∃ y ∈ given p logq, y.kind = x.kind ∧ y.payload = x.payload

/-- No message was refused by the channel layer. -/
def Smooth (log : List (Comm.Spec.Ev S H)) : Prop := ∀ u f e, .out u f (.error e) ∉ log

/-- Consensus of a replica asked for a snapshot to be sent to `p`. -/
def Offers (t : List (Drv.Ev H)) (p : Nat) (s : Snap.RaftSnapshot) : Prop :=
  ∃ m, DrvSpec.Posted t m ∧ m.type = .snapshot ∧ m.to = p ∧ m.snapshot = some s

/-- The store of a replica was given a snapshot: it founded the cluster, the application of the replica made it, or it was installed. -/
def Stocked (t : List (Drv.Ev H)) (s : Snap.RaftSnapshot) : Prop :=
  (s.metadata.index = 1 ∧ ∃ id, .raftInit id s.data true (.ok ()) ∈ t) ∨ (∃ c, .storeCreate s.metadata.index c s.data ∈ t) ∨ ∃ x, .storeApply s x ∈ t

/-- The states of a cluster whose replicas, in any order, handle any messages, all of them started with the same configuration of the
application.  Snapshots come to a replica in messages of others, in pieces:
* the channels between replicas invent nothing (`Carried`) and do not mix transfers (`Unmixed`),
* consensus wants only snapshots sent that are in its store,
* consensus installs only snapshots it was handed.
Otherwise as in `Deployed`. -/
inductive Networked (A : Actor σ) (N : NodeT ν Y) (ops : Comm.Ops S E H) (V : Env P S E H) (codecs : Codecs) (log : Nat → Drv.Entry)
    (founder : Nat) (new : σ → Prop) (cfg : Bytes) : (Nat → Driver σ (Simple ν Y) (Channels P S E H) H) → Prop
  | init {ds} (h : ∀ p, ∃ a e, new a ∧ ds p = fresh a e) : Networked A N ops V codecs log founder new cfg ds
  | call {ds p instant m d out} (h : Networked A N ops V codecs log founder new cfg ds)
      (hs : receive (sys A N ops V codecs) instant m (ds p) = .ok (d, .ok out)) (he : d.ephemeral = false)
      (hid : d.state ≠ .created → d.id = p ∧ p ≠ 0)
      (hcarried : ∀ q, Carried q p (ds q).comm.log d.comm.log)
      (hunmixed : ∀ q, Unmixed (pieces codecs (received q d.comm.log)))
      (hwants : ∀ s q, Offers d.trace q s → Stocked d.trace s)
      (hinstalls : ∀ r, .ready r ∈ d.trace → r.snapshot.metadata.index ≠ 0 → ∃ m ∈ stepped d.trace, m.type = .snapshot ∧ m.snapshot = some r.snapshot)
      (hlog : ∃ y, DrvSpec.Trail (DrvSpec.Advances log) d.trace (0, 0) y)
      (hfirst : ∀ e ∈ d.trace.flatMap DrvSpec.delivered, 2 ≤ e.index)
      (hfound : ∀ id b, .raftInit id b true (.ok ()) ∈ d.trace → p = founder)
      (hcfg : ∀ ctx res, .actorInit ctx res ∈ d.trace → ctx.config = cfg) :
      Networked A N ops V codecs log founder new cfg (DrvSpec.update ds p d)

end TCP.Replica.Spec
