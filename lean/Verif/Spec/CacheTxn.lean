import Verif.Spec.CacheCoordinator
import Verif.Spec.CacheResolve

/-!
# Specification vocabulary for what process handlers see and what transactions write (C83, C84)
-/

namespace TCP.Cache.Spec

open TCP TCP.Cache TCP.TabletStore

variable {α η ω : Type}

/-- The same environment, except that handler `h` panics when it is called with shared state `w`, for transaction `i`, with the
tablets `vs`. -/
def without [DecidableEq α] [DecidableEq η] [DecidableEq ω] (env : TxnEnv α η ω) (h : η) (w : ω) (i : Nat) (vs : List (Query × UInt32 × Option α)) :
    TxnEnv α η ω :=
  { env with handle := fun h' w' i' vs' => if h' = h ∧ w' = w ∧ i' = i ∧ vs' = vs then .panic else env.handle h' w' i' vs' }

/-- Making progress calls handler `h` with shared state `w`, for transaction `i`, with the tablets `vs` (query, tablet id, contents): it
would panic if that call did. -/
def Calls [DecidableEq α] [DecidableEq η] [DecidableEq ω] (env : TxnEnv α η ω) (m m' : Manager α η ω) (h : η) (w : ω) (i : Nat)
    (vs : List (Query × UInt32 × Option α)) : Prop :=
  m.makeProgress env = .ok m' ∧ m.makeProgress (without env h w i vs) = .panic

/-- The manager is initialised with `cfg`, once, before everything else. -/
def Configured (cfg : List (String × UInt32)) (evs : List (MEvent η)) : Prop :=
  ∃ rest, evs = .init cfg :: rest ∧ ∀ t, .init t ∉ rest

/-- The requests made to the storage, taken or not. -/
def mrequests (evs : List (MEvent η)) (m : Manager α η ω) : List DataOut :=
  (evs.flatMap fun e => match e with
    | .take outs => outs.filterMap fun o => match o with | .data r => some r | .ops _ _ => none
    | _ => []) ++ m.world.data.out

/-- The storage confirmed that it stored the bytes under the uri. -/
def MStored (evs : List (MEvent η)) (m : Manager α η ω) (uri : String) (b : Bytes) : Prop :=
  ∃ corr, .store corr uri b ∈ mrequests evs m ∧ .input (.data (.store corr .succeeded)) ∈ evs

/-- `v` is what the storage returned for the uri, or what it confirmed to have stored under it. -/
def MCame (env : TxnEnv α η ω) (evs : List (MEvent η)) (m : Manager α η ω) (uri : String) (v : α) : Prop :=
  (∃ corr b, .load corr uri ∈ mrequests evs m ∧ .input (.data (.load corr .succeeded b)) ∈ evs ∧ env.data.deser b = some v) ∨
  (∃ b, env.data.ser v = some b ∧ MStored evs m uri b)

/-- The uri is the one the cache gives to what it writes. -/
def Named (env : DataEnv α) (m : Metadata) : Prop := m.uri = env.uri m.tabletId m.version m.hash

/-- Metadata the manager has to do with: the tablet store returned it for a query, or the cache wrote it. -/
def KnownMeta (env : DataEnv α) (md : MetaCache) (m : Metadata) : Prop :=
  (∃ id res, md.cells.get id = some res ∧ m ∈ res.map Prod.snd) ∨ Named env m

/-- Uris tell tablets and versions apart.  (New tablets have the empty uri: this allows for one of them.) -/
def UrisDiffer (env : DataEnv α) (md : MetaCache) : Prop :=
  ∀ m m', KnownMeta env md m → KnownMeta env md m' → m.uri = m'.uri → m.tabletId = m'.tabletId ∧ m.version = m'.version

/-- What the metadata cache was told comes from the tablet store: the tablets listed, the tablets it returned for ops that failed, and the
tablets it accepted. -/
structure Sourced (evs : List (MEvent η)) (ins : List Input) : Prop where
  lists : ∀ rs, .list rs ∈ ins → ∀ x ∈ rs, (∃ corr r, .input (.response corr r) ∈ evs ∧ x ∈ r.results) ∨ x.status = .failed
  updates : ∀ t m b, .update t m b ∈ ins → ∃ (i corr : Nat) (ops : List TabletOp) (k : Nat) (o : TabletOp) (r : Response)
    (x : TabletOpResult), .commit i [(corr, ops)] ∈ evs ∧ ops[k]? = some o ∧ o.table = t ∧
    .input (.response corr r) ∈ evs ∧ (answers r)[k]? = some x ∧
    (if b then x.status ≠ .succeeded ∧ (x.result = some (.check (some m)) ∨ x.result = some (.update (some m)))
     else x.status = .succeeded ∧ o.op = some (.update (some m)))

/-- The metadata cache, initialised with `cfg`, answered the queries of a process request with `res`.  (C82 says what the answers are.) -/
def Answered (cfg : List (String × UInt32)) (evs : List (MEvent η)) (md : MetaCache) (qs : List Query) (res : List (Query × Metadata)) : Prop :=
  ∃ c0 ins k, Started cfg c0 ∧ feedAll c0 ins = .ok md ∧ Sourced evs ins ∧ (requestsOf ins)[k]? = some (.source, qs) ∧
    md.cells.get (requestId k) = some res

/-- At some point of the history `evs` that ends in `c`, making progress called the handler. -/
def CalledIn [DecidableEq α] [DecidableEq η] [DecidableEq ω] (env : TxnEnv α η ω) (evs : List (MEvent η)) (c : Client α η ω)
    (h : η) (w : ω) (i : Nat) (vs : List (Query × UInt32 × Option α)) : Prop :=
  ∃ a b c1 m, evs = a ++ .progress :: b ∧ MHistory env a c1 ∧ Calls env c1.m m h w i vs ∧ MSteps env { c1 with m := m } b c

end TCP.Cache.Spec
