import Verif.Spec.KvMap
import Verif.Spec.CacheCluster

/-!
# Specification vocabulary for key-value stores on a replicated tablet store (C103)
-/

namespace TCP.Cache.Spec

open TCP TCP.Cache TCP.TabletStore ActorSpec Drv DrvSpec

/-- The store has sent this request to the tablet store. -/
def Sent (evs : List KEvent) (corr : Nat) (ops : List TabletOp) : Prop := ∃ outs, .take outs ∈ evs ∧ .ops corr ops ∈ outs

/-- The network between key-value stores and replicas of the tablet store: the request that store `p` sends under correlation id `corr` is handed to
the replicas, any number of times or never, as a command with correlation id `tag p corr`, and what the store gets as a response is a message some
replica sent with that correlation id.  Nothing is said about when, how often or in which order anything arrives. -/
structure KvNetwork {ι ρ κ H : Type} (senv : TabletStore.Env) (ds : Nat → Driver State ρ κ H) (tag : ι → Nat → Nat) (evs : ι → List KEvent) (s : ι → Sys) : Prop where
  response : ∀ p corr r, .input (.response corr r) ∈ evs p →
    ∃ q, ⟨tag p corr, senv.encOut .response, senv.encResp r⟩ ∈ appMessages (outMessages (ds q).trace)
  /-- A command with the correlation id of a request carries its ops, -/
  request : ∀ q, ∀ m ∈ (ds q).trace.filterMap handed, ∀ p corr ops, (corr, ops) ∈ krequests (evs p) (s p) → m.correlationId = tag p corr → senv.decReq m.payload = some ops
  /-- and was sent. -/
  sent : ∀ q, ∀ m ∈ (ds q).trace.filterMap handed, ∀ p corr, m.correlationId = tag p corr → ∃ ops, Sent (evs p) corr ops
  /-- Nobody but the stores writes tablets. -/
  writes : ∀ q, ∀ m ∈ (ds q).trace.filterMap handed, ∀ ops, senv.decReq m.payload = some ops → ∀ table u, ⟨table, some (.update (some u))⟩ ∈ ops →
    ∃ p corr, (corr, ops) ∈ krequests (evs p) (s p)

/-- The network as a deployer would describe it: what arrives at the replicas under the correlation id of a store is a message that store sent, and what
arrives at a store is a message of a replica.  It says nothing about whether a store sends two messages under the same id. -/
structure KvWire {ι ρ κ H : Type} (senv : TabletStore.Env) (ds : Nat → Driver State ρ κ H) (tag : ι → Nat → Nat) (evs : ι → List KEvent) : Prop where
  response : ∀ p corr r, .input (.response corr r) ∈ evs p →
    ∃ q, ⟨tag p corr, senv.encOut .response, senv.encResp r⟩ ∈ appMessages (outMessages (ds q).trace)
  request : ∀ q, ∀ m ∈ (ds q).trace.filterMap handed, ∀ p corr, m.correlationId = tag p corr → ∃ ops, Sent (evs p) corr ops ∧ senv.decReq m.payload = some ops
  /-- Nobody but the stores writes tablets. -/
  writes : ∀ q, ∀ m ∈ (ds q).trace.filterMap handed, ∀ ops, senv.decReq m.payload = some ops → ∀ table u, ⟨table, some (.update (some u))⟩ ∈ ops →
    ∃ p corr, Sent (evs p) corr ops

/-- `ds0`, `evs0` is an earlier moment: the replicas and the stores went on from there to `ds` and `evs`, and by then the stores had been told only what the
replicas had said, and the replicas had been handed only what the stores had sent. -/
structure KvEarlier {ι ρ κ H : Type} (senv : TabletStore.Env) (ds0 ds : Nat → Driver State ρ κ H) (tag : ι → Nat → Nat) (evs0 evs : ι → List KEvent) : Prop where
  replicas : ∀ q, (ds0 q).trace <+: (ds q).trace
  stores : ∀ p, evs0 p <+: evs p
  response : ∀ p corr r, .input (.response corr r) ∈ evs0 p →
    ∃ q, ⟨tag p corr, senv.encOut .response, senv.encResp r⟩ ∈ appMessages (outMessages (ds0 q).trace)
  sent : ∀ q, ∀ m ∈ (ds0 q).trace.filterMap handed, ∀ p corr, m.correlationId = tag p corr → ∃ ops, Sent (evs0 p) corr ops

/-- The configuration of the tablet store has the tables of the requests. -/
def KvTables (senv : TabletStore.Env) (scfg : Bytes) (reqs : List (Nat × List TabletOp)) : Prop :=
  ∀ corr ops, (corr, ops) ∈ reqs → ∀ o ∈ ops, ∃ cs n, senv.decConfig scfg = some cs ∧ (o.table, n) ∈ cs

/-- After the events `k1` the store gives the response `r` to its client. -/
def Responds (evs k1 : List KEvent) (r : KvResponse) : Prop := ∃ rs k2, evs = k1 ++ .responses rs :: k2 ∧ r ∈ rs

end TCP.Cache.Spec
