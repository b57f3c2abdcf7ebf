import Verif.Spec.CacheMany
import Verif.Spec.DriverApp

/-!
# Specification vocabulary for transaction managers on a replicated tablet store (C90)
-/

namespace TCP.Cache.Spec

open TCP TCP.Cache TCP.TabletStore ActorSpec Drv DrvSpec

variable {α η ω : Type}

/-- The requests to the tablet store in a list of events. -/
def requestsIn (senv : TabletStore.Env) (evs : List ActorEvent) : List (List TabletOp) := evs.filterMap fun ev => senv.decReq ev.contents

/-- The encodings of the tablet store can be told apart and decoded. -/
structure Encodings (senv : TabletStore.Env) : Prop where
  lawful : TabletStore.Spec.Lawful senv
  response : ∀ r r', senv.encResp r = senv.encResp r' → r = r'
  error : ∀ st, senv.encOut (.error st) ≠ senv.encOut .response

/-- The network between managers and replicas: the request manager `p` makes under correlation id `corr` is handed to the replicas, any number of
times or never, as a command with correlation id `tag p corr`, and what the manager gets as a response is a message some replica sent with that
correlation id.  Nothing is said about when, how often or in which order anything arrives. -/
structure Network {ι ρ κ H : Type} (senv : TabletStore.Env) (ds : Nat → Driver State ρ κ H) (tag : ι → Nat → Nat) (evs : ι → List (MEvent η)) : Prop where
  response : ∀ p corr r, .input (.response corr r) ∈ evs p →
    ∃ q, ⟨tag p corr, senv.encOut .response, senv.encResp r⟩ ∈ appMessages (outMessages (ds q).trace)
  /-- A command with the correlation id of a commit carries its ops. -/
  commit : ∀ q, ∀ m ∈ (ds q).trace.filterMap handed, ∀ p i corr ops, .commit i [(corr, ops)] ∈ evs p → m.correlationId = tag p corr →
    senv.decReq m.payload = some ops
  /-- Nobody but the managers writes tablets. -/
  writes : ∀ q, ∀ m ∈ (ds q).trace.filterMap handed, ∀ ops, senv.decReq m.payload = some ops → ∀ table u, ⟨table, some (.update (some u))⟩ ∈ ops →
    ∃ p i corr, .commit i [(corr, ops)] ∈ evs p

/-- `ds0`, `evs0` is an earlier moment: the replicas and the managers went on from there to `ds` and `evs`, and what the managers had been told was
what the replicas had said. -/
structure EarlierMoment {ι ρ κ H : Type} (senv : TabletStore.Env) (ds0 ds : Nat → Driver State ρ κ H) (tag : ι → Nat → Nat) (evs0 evs : ι → List (MEvent η)) : Prop where
  replicas : ∀ q, (ds0 q).trace <+: (ds q).trace
  managers : ∀ p, evs0 p <+: evs p
  response : ∀ p corr r, .input (.response corr r) ∈ evs0 p →
    ∃ q, ⟨tag p corr, senv.encOut .response, senv.encResp r⟩ ∈ appMessages (outMessages (ds0 q).trace)

/-- No replica has been handed the request of manager `p` under the correlation id `corr`. -/
def Unsent {ι ρ κ H : Type} (ds : Nat → Driver State ρ κ H) (tag : ι → Nat → Nat) (p : ι) (corr : Nat) : Prop :=
  ∀ q, ∀ m ∈ (ds q).trace.filterMap handed, m.correlationId ≠ tag p corr

/-- The managers, and the storage they share: as in `Deployment`, without the tablet store. -/
structure Managers {ι : Type} (env : TxnEnv α η ω) (blank : Bytes) (cfg : ι → List (String × UInt32)) (evs : ι → List (MEvent η)) (c : ι → Client α η ω) : Prop where
  uris : env.data.uri = formatBlobUri
  history : ∀ p, MHistory env (evs p) (c p)
  configured : ∀ p, Configured (cfg p) (evs p)
  rejected : ∀ p, AllRejected (evs p)
  once : ∀ p, UpdatedOnce (evs p)
  storage : ∀ p corr k b, .load corr k ∈ mrequests (evs p) (c p).m → .input (.data (.load corr .succeeded b)) ∈ evs p →
    if k = "" then b = blank else ∃ q corr', .store corr' k b ∈ mrequests (evs q) (c q).m
  hashes : ∀ p q corr corr' k k' b b', .store corr k b ∈ mrequests (evs p) (c p).m → .store corr' k' b' ∈ mrequests (evs q) (c q).m →
    env.data.hash b = env.data.hash b' → b = b'
  codec : ∀ v b, env.data.ser v = some b → env.data.deser b = some v

/-- The configuration of the tablet store has the tables of the transactions. -/
def TablesConfigured (senv : TabletStore.Env) (scfg : Bytes) (evs : List (MEvent η)) : Prop :=
  ∀ i corr ops, .commit i [(corr, ops)] ∈ evs → ∀ o ∈ ops, ∃ cs n, senv.decConfig scfg = some cs ∧ (o.table, n) ∈ cs

end TCP.Cache.Spec
