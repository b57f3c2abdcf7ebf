import Verif.Spec.CacheMany
import Verif.Spec.CacheStore

/-!
# Specification vocabulary for key-value stores that share a tablet store and a blob storage (C102)
-/

namespace TCP.Cache.Spec

open TCP TCP.Cache TCP.TabletStore

/-- The requests a store has made to the tablet store, taken or not, with their correlation ids. -/
def krequests (evs : List KEvent) (s : Sys) : List (Nat × List TabletOp) :=
  (evs.flatMap fun e => match e with
    | .take outs => outs.filterMap fun o => match o with | .ops corr ops => some (corr, ops) | .data _ => none
    | _ => []) ++ (s.coord.out ++ s.world.md.out)

/-- The requests a store has made to the blob storage, taken or not. -/
def kblobs (evs : List KEvent) (s : Sys) : List DataOut :=
  (evs.flatMap fun e => match e with
    | .take outs => outs.filterMap fun o => match o with | .data r => some r | .ops _ _ => none
    | _ => []) ++ s.world.data.out

/-- The store is initialised with the tables `cfg`, once, before everything else. -/
def KConfigured (cfg : List (String × UInt32)) (evs : List KEvent) : Prop :=
  ∃ table a b rest, evs = .init table a b cfg :: rest ∧ ∀ table a b cs, .init table a b cs ∉ rest

/-- What the store knows about tablets: those with which a query was answered differ in id or version, and at most one is new. -/
def Orderly (md : MetaCache) : Prop :=
  (∀ id res, md.cells.get id = some res → (res.map fun x => (x.2.tabletId, x.2.version)).Nodup) ∧ OneNew md

/-- Tablet `id` of the table is the one responsible for hash `h`. -/
def Responsible (t : Tables) (table : String) (h id : UInt32) : Prop :=
  ∃ m, m.tabletId = id ∧ TabletStore.Spec.Owns (stored t table) m h

/-- When this had happened to the store, it had not sent the request to the tablet store yet. -/
def NotYetSent (evs : List KEvent) (corr : Nat) (ops : List TabletOp) : Prop := ∀ outs, .take outs ∈ evs → .ops corr ops ∉ outs

/-- Any number of key-value stores `p`, each with a history `evs p` of its own, share a blob storage that has `blank` for the empty uri of new tablets. -/
structure KvStores {ι : Type} (env : KvEnv) (data : DataEnv Bytes) (evict : AMap String (Entry Bytes) → List String) (blank : Bytes)
    (cfg : ι → List (String × UInt32)) (evs : ι → List KEvent) (s : ι → Sys) : Prop where
  uris : data.uri = formatBlobUri
  history : ∀ p, KHistory env data evict (evs p) (s p)
  configured : ∀ p, KConfigured (cfg p) (evs p)
  /-- No request updates a tablet twice, to different metadata. -/
  once : ∀ p corr ops, (corr, ops) ∈ krequests (evs p) (s p) → ∀ table m m', ⟨table, some (.update (some m))⟩ ∈ ops → ⟨table, some (.update (some m'))⟩ ∈ ops →
    m.tabletId = m'.tabletId → m = m'
  /-- What the storage returns for a uri, some store asked it to store there; if the uri is empty, it is blank. -/
  storage : ∀ p corr k b, .load corr k ∈ kblobs (evs p) (s p) → .input (.data (.load corr .succeeded b)) ∈ evs p →
    if k = "" then b = blank else ∃ q corr', .store corr' k b ∈ kblobs (evs q) (s q)
  /-- The hash function does not collide on what was stored. -/
  hashes : ∀ p q corr corr' k k' b b', .store corr k b ∈ kblobs (evs p) (s p) → .store corr' k' b' ∈ kblobs (evs q) (s q) → data.hash b = data.hash b' → b = b'
  /-- Contents and dictionaries can be read back. -/
  codec : ∀ v b, data.ser v = some b → data.deser b = some v
  dicts : ∀ d, ∃ d', env.dec (env.enc d) = some d' ∧ d'.get = d.get

/-- The stores share a tablet store that started with the tables of `s0` and applied the requests of `log`, in this order. -/
structure KvShared {ι : Type} (env : KvEnv) (data : DataEnv Bytes) (evict : AMap String (Entry Bytes) → List String) (senv : TabletStore.Env) (s0 : State)
    (log : List (List TabletOp × Response)) (t : Tables) (blank : Bytes) (cfg : ι → List (String × UInt32)) (evs : ι → List KEvent) (s : ι → Sys) : Prop
    extends KvStores env data evict blank cfg evs s where
  applied : Log senv s0.tables log t
  /-- Responses are those in the log to a request the store made, -/
  responses : ∀ p corr r, .input (.response corr r) ∈ evs p → ∃ ops, (corr, ops) ∈ krequests (evs p) (s p) ∧ (ops, r) ∈ log
  /-- and to every such request with the correlation id of the response.  Nothing is said about when, how often or in which order they arrive. -/
  matching : ∀ p corr ops r, (corr, ops) ∈ krequests (evs p) (s p) → .input (.response corr r) ∈ evs p → (ops, r) ∈ log
  /-- The tablet store has the tables of the requests. -/
  tables : ∀ p corr ops, (corr, ops) ∈ krequests (evs p) (s p) → ∀ o ∈ ops, (s0.tables.get o.table).isSome
  /-- The tablets the tablet store starts with are new. -/
  new : ∀ table id m, stored s0.tables table id = some m → m.uri = ""
  /-- Nobody but the key-value stores writes tablets. -/
  writes : ∀ ops r, (ops, r) ∈ log → ∀ table m, ⟨table, some (.update (some m))⟩ ∈ ops → ∃ p corr, (corr, ops) ∈ krequests (evs p) (s p)

/-- What the code relies on besides. -/
structure KvSpared {ι : Type} (evs : ι → List KEvent) (s : ι → Sys) : Prop where
  /-- A rejected request had no op that could have been carried out by itself. -/
  rejected : ∀ p corr ops r, (corr, ops) ∈ krequests (evs p) (s p) → .input (.response corr r) ∈ evs p → r.succeeded = false → ∀ x ∈ r.results, x.status ≠ .succeeded
  /-- What the stores were told about tablets, in all answers they ever got, is orderly. -/
  orderly : ∀ p, Orderly (s p).world.md

structure KvDeployment {ι : Type} (env : KvEnv) (data : DataEnv Bytes) (evict : AMap String (Entry Bytes) → List String) (senv : TabletStore.Env) (s0 : State)
    (log : List (List TabletOp × Response)) (t : Tables) (blank : Bytes) (cfg : ι → List (String × UInt32)) (evs : ι → List KEvent) (s : ι → Sys) : Prop
    extends KvShared env data evict senv s0 log t blank cfg evs s, KvSpared evs s

/-- The tablets of all stores make up one map `M` per table.  It starts with the blank contents, a request to the tablet store changes it, if at all, by
requests that the store that made the request had accepted before it was sent, and every response `r` to a client is what the map answers, at a moment between
the request of the client and the response, to a batch of requests accepted by the store, whose puts take effect at that moment. -/
def OneMap {ι : Type} (env : KvEnv) (data : DataEnv Bytes) (senv : TabletStore.Env) (s0 : State) (log : List (List TabletOp × Response)) (blank : Bytes)
    (evs : ι → List KEvent) (s : ι → Sys) : Prop :=
  ∃ M : Tables → String → Dict,
    (∀ table k v, M s0.tables table k = some v → ∃ d, (data.deser blank).bind env.dec = some d ∧ d.get k = some v) ∧
    (∀ pre ops r post before after, log = pre ++ (ops, r) :: post → Log senv s0.tables pre before → applyRequest senv before ops = .ok (after, r) →
      M after = M before ∨ ∃ p corr ka kb, (corr, ops) ∈ krequests (evs p) (s p) ∧ evs p = ka ++ kb ∧ NotYetSent ka corr ops ∧
        ∀ table, M after table = M before table ∨ (∃ a b cs, .init table a b cs ∈ evs p) ∧
        ∃ done, (∀ q ∈ done, .accept q ∈ ka) ∧ M after table = (execReqs (M before table) done).1) ∧
    ∀ p k1 rs k2 r, evs p = k1 ++ .responses rs :: k2 → r ∈ rs →
      ∃ ka kb corr ops rr table batch, k1 = ka ++ kb ∧ (corr, ops) ∈ krequests (evs p) (s p) ∧ NotYetSent ka corr ops ∧
        .input (.response corr rr) ∈ kb ∧ (ops, rr) ∈ log ∧ rr.succeeded = true ∧
        (∃ a b cs, .init table a b cs ∈ evs p) ∧ (∀ q ∈ batch, .accept q ∈ ka) ∧
        ∀ pre before after, AppliedAt senv s0.tables log ops pre before after → r ∈ (execReqs (M before table) batch).2 ∧
          ∀ q ∈ batch, q.isPut = true → M after table q.key = (execReqs (M before table) batch).1 q.key

/-- As `OneMap`, and `done p n` are the requests that the `n`-th request to the tablet store carries out on the map for store `p`: over the whole log, no more
often any of them than the store accepted it. -/
def OneMapOnce {ι : Type} (env : KvEnv) (data : DataEnv Bytes) (senv : TabletStore.Env) (s0 : State) (log : List (List TabletOp × Response)) (blank : Bytes)
    (evs : ι → List KEvent) (s : ι → Sys) : Prop :=
  ∃ M : Tables → String → Dict, ∃ done : ι → Nat → List KvRequest,
    (∀ table k v, M s0.tables table k = some v → ∃ d, (data.deser blank).bind env.dec = some d ∧ d.get k = some v) ∧
    (∀ pre ops r post before after, log = pre ++ (ops, r) :: post → Log senv s0.tables pre before → applyRequest senv before ops = .ok (after, r) →
      (M after = M before ∧ ∀ p, done p pre.length = []) ∨
      ∃ p corr ka kb, (corr, ops) ∈ krequests (evs p) (s p) ∧ evs p = ka ++ kb ∧ NotYetSent ka corr ops ∧ (∀ q ∈ done p pre.length, .accept q ∈ ka) ∧
        (∀ p', p' ≠ p → done p' pre.length = []) ∧
        ∀ table, ((∃ a b cs, .init table a b cs ∈ evs p) → M after table = (execReqs (M before table) (done p pre.length)).1) ∧
          ((¬ ∃ a b cs, .init table a b cs ∈ evs p) → M after table = M before table)) ∧
    (∀ p q, ((List.range log.length).map fun n => (done p n).count q).sum ≤ (evs p).count (.accept q)) ∧
    ∀ p k1 rs k2 r, evs p = k1 ++ .responses rs :: k2 → r ∈ rs →
      ∃ ka kb corr ops rr table batch, k1 = ka ++ kb ∧ (corr, ops) ∈ krequests (evs p) (s p) ∧ NotYetSent ka corr ops ∧
        .input (.response corr rr) ∈ kb ∧ (ops, rr) ∈ log ∧ rr.succeeded = true ∧
        (∃ a b cs, .init table a b cs ∈ evs p) ∧ (∀ q ∈ batch, .accept q ∈ ka) ∧
        ∀ pre before after, AppliedAt senv s0.tables log ops pre before after → r ∈ (execReqs (M before table) batch).2 ∧
          ∀ q ∈ batch, q.isPut = true → M after table q.key = (execReqs (M before table) batch).1 q.key

end TCP.Cache.Spec
