import Verif.Spec.CacheSerial
import Verif.Model.BlobUri

/-!
# Specification vocabulary for several transaction managers that share a tablet store and a blob storage (C88)
-/

namespace TCP.Cache.Spec

open TCP TCP.Cache TCP.TabletStore

variable {α η ω : Type}

/-- Any number of transaction managers `p`, each with a history `evs p` of its own, share a tablet store that started with the tables of `s0`
and applied the requests of `log`, in this order, and a blob storage that has `blank` for the empty uri of new tablets.  The managers use the
uris of the code. -/
structure Deployment {ι : Type} (env : TxnEnv α η ω) (senv : TabletStore.Env) (s0 : State) (log : List (List TabletOp × Response)) (t : Tables)
    (blank : Bytes) (cfg : ι → List (String × UInt32)) (evs : ι → List (MEvent η)) (c : ι → Client α η ω) : Prop where
  uris : env.data.uri = formatBlobUri
  history : ∀ p, MHistory env (evs p) (c p)
  configured : ∀ p, Configured (cfg p) (evs p)
  applied : Log senv s0.tables log t
  fromLog : ∀ p, FromLog (evs p) log
  tables : ∀ p, TablesKnown (evs p) s0.tables
  rejected : ∀ p, AllRejected (evs p)
  once : ∀ p, UpdatedOnce (evs p)
  /-- The tablets the store starts with are new. -/
  new : ∀ table id m, stored s0.tables table id = some m → m.uri = ""
  /-- Nobody but the managers writes tablets. -/
  writes : ∀ ops r, (ops, r) ∈ log → ∀ table m, ⟨table, some (.update (some m))⟩ ∈ ops → ∃ p i corr, .commit i [(corr, ops)] ∈ evs p
  /-- What the storage returns for a uri, some manager asked it to store there; if the uri is empty, it is blank. -/
  storage : ∀ p corr k b, .load corr k ∈ mrequests (evs p) (c p).m → .input (.data (.load corr .succeeded b)) ∈ evs p →
    if k = "" then b = blank else ∃ q corr', .store corr' k b ∈ mrequests (evs q) (c q).m
  /-- The hash function does not collide on what was stored. -/
  hashes : ∀ p q corr corr' k k' b b', .store corr k b ∈ mrequests (evs p) (c p).m → .store corr' k' b' ∈ mrequests (evs q) (c q).m →
    env.data.hash b = env.data.hash b' → b = b'
  /-- Contents can be read back. -/
  codec : ∀ v b, env.data.ser v = some b → env.data.deser b = some v

/-- At most one of the tablets the manager was told about is new. -/
def OneNew (md : MetaCache) : Prop :=
  ∀ id res id' res', md.cells.get id = some res → md.cells.get id' = some res' → ∀ m ∈ res.map Prod.snd, ∀ m' ∈ res'.map Prod.snd,
    m.uri = "" → m'.uri = "" → m.tabletId = m'.tabletId ∧ m.version = m'.version

/-- Transaction `i` of a manager was committed with `ops` after the history `a`, and reported as succeeded.  (`answers` and `new` exclude the
defects C83 and C63 are about.) -/
structure Succeeded (env : TxnEnv α η ω) (cfg : List (String × UInt32)) (evs : List (MEvent η)) (c : Client α η ω) (i corr : Nat) (ops : List TabletOp)
    (a b : List (MEvent η)) (c1 : Client α η ω) : Prop where
  events : evs = a ++ .commit i [(corr, ops)] :: b
  before : MHistory env a c1
  after : MSteps env c1 (.commit i [(corr, ops)] :: b) c
  success : .check i (some .succeeded) ∈ b
  some : ops ≠ []
  answers : AnswersDiffer cfg a c1.m.world.md
  new : OneNew c1.m.world.md

/-- A handler of transaction `i` was given the contents `v` of the tablet. -/
def Read [DecidableEq α] [DecidableEq η] [DecidableEq ω] (env : TxnEnv α η ω) (a : List (MEvent η)) (c1 : Client α η ω) (i : Nat) (table : String)
    (id : UInt32) (v : α) : Prop :=
  ∃ x w vs w' sets, ∃ (j : Nat) (q : Query), CalledIn env a c1 x w i vs ∧ env.handle x w i vs = .ok (w', sets) ∧ vs[j]? = some (q, id, some v) ∧ q.table = table

/-- A handler of transaction `i` set the contents of the tablet to `v`. -/
def Wrote [DecidableEq α] [DecidableEq η] [DecidableEq ω] (env : TxnEnv α η ω) (a : List (MEvent η)) (c1 : Client α η ω) (i : Nat) (table : String)
    (id : UInt32) (v : α) : Prop :=
  ∃ x w vs w' sets, ∃ (j : Nat) (q : Query) (old : Option α), CalledIn env a c1 x w i vs ∧ env.handle x w i vs = .ok (w', sets) ∧ vs[j]? = some (q, id, old) ∧ q.table = table ∧
    sets[j]? = some (some v)

/-- The store applied the request `ops` after the requests `pre`, successfully, going from the tables `t` to `t'`. -/
def AppliedAt (senv : TabletStore.Env) (t0 : Tables) (log : List (List TabletOp × Response)) (ops : List TabletOp)
    (pre : List (List TabletOp × Response)) (t t' : Tables) : Prop :=
  ∃ r post, log = pre ++ (ops, r) :: post ∧ Log senv t0 pre t ∧ applyRequest senv t ops = .ok (t', r) ∧ r.succeeded = true

/-- No successful request among these updates the tablet. -/
def Untouched (l : List (List TabletOp × Response)) (table : String) (id : UInt32) : Prop :=
  ∀ ops r, (ops, r) ∈ l → r.succeeded = true → ∀ m, ⟨table, some (.update (some m))⟩ ∈ ops → m.tabletId ≠ id

end TCP.Cache.Spec
