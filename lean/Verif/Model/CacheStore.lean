import Verif.Model.CacheCoordinator
import Verif.Model.Actor

/-!
# Model of apps/tablet_cache/service/src/store.rs (the key-value store) and actor.rs (the tablet cache actor)

* The store is the state `ω` its process handlers share, so a manager with its store is a `Manager Bytes Unit KvCore`; the only
  process handler is `handle_query_process`.
* The hash of a key and the encoding of tablet contents (a map from keys to values) are parameters.
* A `RefCell` borrowed twice panics: that happens exactly if a resolve handler is called while the store makes progress.
* Where a hash map is iterated, the order is that of the list that represents it.
-/

namespace TCP.Cache

open TCP TCP.TabletStore

/-- store.rs:38-43 `KeyValueRequest`. -/
inductive KvRequest where
  | put (corr : Nat) (key : String) (value : Bytes)
  | get (corr : Nat) (key : String)
deriving Repr, DecidableEq

/-- store.rs:47-52 `KeyValueResponse`. -/
inductive KvResponse where
  | put (corr : Nat) (existed : Bool)
  | get (corr : Nat) (existed : Bool) (value : Bytes)
deriving Repr, DecidableEq

/-- The key of a request. -/
def KvRequest.key : KvRequest → String
  | .put _ k _ => k
  | .get _ k => k

/-- The correlation id of a request. -/
def KvRequest.corr : KvRequest → Nat
  | .put c _ _ => c
  | .get c _ => c

/-- The correlation id of a response. -/
def KvResponse.corr : KvResponse → Nat
  | .put c _ => c
  | .get c _ _ => c

/-- The parameters of the store. -/
structure KvEnv where
  /-- store.rs:349-353 `TableAccessor::hash_key` -/
  hash : String → UInt32
  /-- `TabletContents::decode`: the dictionary -/
  dec : Bytes → Option (AMap String Bytes)
  /-- `TabletContents::encode_to_vec` -/
  enc : AMap String Bytes → Bytes

/-- store.rs:411-423 `TabletTracker`. -/
structure TabletTracker where
  minPending : Nat
  hasTxn : Bool
  pending : List KvRequest
  waiting : AMap Nat (List KvRequest)
deriving Repr, DecidableEq

/-- store.rs:426-433 `TabletTracker::create`. -/
def TabletTracker.create (minPending : Nat) : TabletTracker := ⟨minPending, false, [], []⟩

/-- store.rs:572-578 `TransactionTracker`; a transaction is named by its id. -/
structure TxnTracker where
  tabletIds : List UInt32
  requests : List KvRequest
  responses : List KvResponse
  txn : Option Nat
  commit : Option Commit
deriving Repr, DecidableEq

/-- store.rs:161-169 `SimpleKeyValueStoreCore`, with `TableAccessor` (332-335) and `RequestTracker` (363-367) inlined. -/
structure KvCore where
  table : String
  queryCounter : Nat
  minResolve : Nat
  pending : List KvRequest
  resolving : AMap Nat (List KvRequest)
  tablets : AMap UInt32 TabletTracker
  txns : AMap Nat TxnTracker
  responses : List KvResponse
  /-- `config.min_pending_before_process` -/
  minProcess : Nat
deriving Repr, DecidableEq

/-- store.rs:172-182 `SimpleKeyValueStoreCore::new`. -/
def KvCore.new : KvCore := ⟨"", 0, 0, [], [], [], [], [], 0⟩

/-- store.rs:188-193 `SimpleKeyValueStoreCore::init`.  The configuration itself is not kept, so `minProcess` stays 0. -/
def KvCore.init (c : KvCore) (table : String) (minResolve : Nat) (_minProcess : Nat) : KvCore :=
  { c with table := table, queryCounter := 0, minResolve := minResolve, pending := [], resolving := [] }

variable (env : KvEnv)

/-- store.rs:642-662 `create_table_query`. -/
def createQuery (c : KvCore) (rs : List KvRequest) : KvCore × Query :=
  ({ c with queryCounter := c.queryCounter + 1 }, .create (c.queryCounter + 1) c.table (rs.map fun r => env.hash r.key))

/-- store.rs:195-214 `handle_query_resolve`, 402-407 `take_resolved_requests`. -/
def KvCore.handleResolve (c : KvCore) : List (Query × UInt32) → KvCore
  | [] => c
  | (q, t) :: rest =>
    let tr := (c.tablets.get t).getD (.create c.minProcess)
    let rs := (c.resolving.get q.id).getD []
    KvCore.handleResolve { c with tablets := c.tablets.set t { tr with pending := tr.pending ++ rs }, resolving := c.resolving.erase q.id } rest

/-- store.rs:521-564 `process_put_request`, `process_get_request`: `none` if the key is not covered by the query. -/
def processRequest (q : Query) (d : AMap String Bytes) : KvRequest → Option (KvResponse × AMap String Bytes)
  | .put corr k v => if env.hash k ∈ q.hashes then some (.put corr (d.get k).isSome, d.set k v) else none
  | .get corr k => if env.hash k ∈ q.hashes then some (.get corr (d.get k).isSome ((d.get k).getD []), d) else none

/-- Whether a request is a put. -/
def KvRequest.isPut : KvRequest → Bool
  | .put _ _ _ => true
  | .get _ _ => false

/-- store.rs:481-511: the loop over the requests: the results, the requests left, the dictionary and whether it was updated. -/
def processLoop (q : Query) : List KvRequest → AMap String Bytes → List (KvRequest × KvResponse) × List KvRequest × AMap String Bytes × Bool
  | [], d => ([], [], d, false)
  | r :: rest, d =>
    match processRequest env q d r with
    | some (x, d') =>
      let y := processLoop q rest d'
      ((r, x) :: y.1, y.2.1, y.2.2.1, r.isPut || y.2.2.2)
    | none =>
      let y := processLoop q rest d
      (y.1, r :: y.2.1, y.2.2.1, y.2.2.2)

/-- store.rs:461-519 `process_table_query`: the tracker, the results, and the new contents if they were set. -/
def TabletTracker.processQuery (t : TabletTracker) (q : Query) (contents : Option Bytes) :
    Run (TabletTracker × List (KvRequest × KvResponse) × Option Bytes) :=
  (Run.unwrap contents).bind fun b => (Run.unwrap (env.dec b)).bind fun d =>
  match t.waiting.get q.id with
  | none => .ok (t, [], none)
  | some rs =>
    let x := processLoop env q rs d
    .ok ({ t with waiting := t.waiting.set q.id x.2.1 }, x.1, if x.2.2.2 then some (env.enc x.2.2.1) else none)

/-- store.rs:222-235: the loop over the tablets of a process request. -/
def KvCore.processTablets (c : KvCore) (txn : Nat) : List (Query × UInt32 × Option Bytes) → Run (KvCore × List (Option Bytes))
  | [] => .ok (c, [])
  | (q, t, b) :: rest =>
    match c.txns.get txn, c.tablets.get t with
    | some x, some tr => (tr.processQuery env q b).bind fun y =>
      (KvCore.processTablets { c with
          tablets := c.tablets.set t y.1,
          txns := c.txns.set txn { x with requests := x.requests ++ y.2.1.map Prod.fst, responses := x.responses ++ y.2.1.map Prod.snd } } txn rest).bind
        fun z => .ok (z.1, y.2.2 :: z.2)
    | _, _ => (KvCore.processTablets c txn rest).bind fun z => .ok (z.1, none :: z.2)

/-- The environment of a manager whose transactions are those of the store: store.rs:216-237 `handle_query_process`. -/
def txnEnv (data : DataEnv Bytes) (evict : AMap String (Entry Bytes) → List String) : TxnEnv Bytes Unit KvCore :=
  ⟨data, fun _ c txn vs => c.processTablets env txn vs, evict⟩

/-- The manager together with the store. -/
abbrev Sys := Manager Bytes Unit KvCore

/-- Replacing the state of the store. -/
def Manager.withCore (s : Sys) (c : KvCore) : Sys := { s with world := { s.world with shared := c } }

/-- store.rs:239-252 `maybe_resolve_tablets`, 383-400 `collect_resolve_queries`.  A resolve handler called right away finds the
store borrowed. -/
def Manager.maybeResolve (s : Sys) : Run Sys :=
  let c := s.world.shared
  if c.minResolve ≤ c.pending.length then
    let x := createQuery env c c.pending
    ((s.withCore { x.1 with resolving := c.resolving.set x.2.id c.pending, pending := [] }).resolve [x.2]).bind fun s' =>
    if s'.world.md.calls = s.world.md.calls then .ok s' else .panic
  else .ok s

/-- store.rs:263-267, 441-459 `collect_process_queries` of all tablets: the core (its trackers aside), the trackers, the queries
and the tablet ids. -/
def collectProcess (c : KvCore) : AMap UInt32 TabletTracker → KvCore × AMap UInt32 TabletTracker × List Query × List UInt32
  | [] => (c, [], [], [])
  | (t, tr) :: rest =>
    if tr.minPending ≤ tr.pending.length ∧ tr.hasTxn = false then
      let x := createQuery env c tr.pending
      let y := collectProcess x.1 rest
      (y.1, (t, { tr with hasTxn := true, waiting := tr.waiting.set x.2.id tr.pending, pending := [] }) :: y.2.1, x.2 :: y.2.2.1, t :: y.2.2.2)
    else
      let y := collectProcess c rest
      (y.1, (t, tr) :: y.2.1, y.2.2)

/-- store.rs:254-281 `maybe_start_transaction`. -/
def Manager.maybeStart (s : Sys) : Run Sys :=
  let x := collectProcess env s.world.shared s.world.shared.tablets
  let c := { x.1 with tablets := x.2.1 }
  if x.2.2.1 = [] then .ok (s.withCore c)
  else
    let y := s.coord.createTxn
    (y.1.process y.2 x.2.2.1 ()).bind fun co =>
    .ok ({ s with coord := co }.withCore { c with txns := c.txns.set y.2 ⟨x.2.2.2, [], [], some y.2, none⟩ })

/-- store.rs:283-288 `maybe_commit_transactions`, 602-613 `maybe_commit_transaction`. -/
def commitTxns (co : Coordinator Bytes Unit) : AMap Nat TxnTracker → Run (Coordinator Bytes Unit × AMap Nat TxnTracker)
  | [] => .ok (co, [])
  | (i, t) :: rest =>
    match t.commit, t.txn with
    | none, some j => (co.hasPending j).bind fun b =>
      if b then (commitTxns co rest).bind fun y => .ok (y.1, (i, t) :: y.2)
      else (co.commit j).bind fun co' => (commitTxns co' rest).bind fun y =>
        .ok (y.1, (i, { t with txn := none, commit := some ⟨j, none⟩ }) :: y.2)
    | _, _ => (commitTxns co rest).bind fun y => .ok (y.1, (i, t) :: y.2)

/-- store.rs:290-303, 615-639 `maybe_finalize_transaction`: the manager, the trackers, the tablets and the responses of completed
transactions.  Completed transactions are removed (314-316); the requests of failed ones are collected and dropped. -/
def finalizeTxns (s : Sys) : AMap Nat TxnTracker → Run (Sys × AMap Nat TxnTracker × List UInt32 × List KvResponse)
  | [] => .ok (s, [], [], [])
  | (i, t) :: rest =>
    match t.commit with
    | none => (finalizeTxns s rest).bind fun y => .ok (y.1, (i, t) :: y.2.1, y.2.2)
    | some h => (h.check s).bind fun x =>
      match x.1.outcome with
      | none => (finalizeTxns x.2 rest).bind fun y => .ok (y.1, (i, { t with commit := some x.1 }) :: y.2.1, y.2.2)
      | some o => (finalizeTxns x.2 rest).bind fun y =>
        .ok (y.1, y.2.1, t.tabletIds ++ y.2.2.1, (match o with | .succeeded => t.responses | .failed => []) ++ y.2.2.2)

/-- store.rs:305-312, 566-568 `complete_transaction` of the affected tablets. -/
def completeTablets : AMap UInt32 TabletTracker → List UInt32 → AMap UInt32 TabletTracker
  | ts, [] => ts
  | ts, t :: rest =>
    match ts.get t with
    | some tr => completeTablets (ts.set t { tr with hasTxn := false }) rest
    | none => completeTablets ts rest

/-- store.rs:112-147 `SimpleKeyValueStore::make_progress`. -/
def Manager.storeProgress (s : Sys) : Run Sys :=
  (s.maybeResolve env).bind fun s => (s.maybeStart env).bind fun s =>
  (commitTxns s.coord s.world.shared.txns).bind fun x =>
  let s := { s with coord := x.1 }.withCore { s.world.shared with txns := x.2 }
  (finalizeTxns s s.world.shared.txns).bind fun y =>
  let c := y.1.world.shared
  .ok (y.1.withCore { c with txns := y.2.1, tablets := completeTablets c.tablets y.2.2.1, responses := c.responses ++ y.2.2.2 })

/-- store.rs:149-152, 319-322 `process_request`. -/
def Manager.accept (s : Sys) (r : KvRequest) : Sys :=
  s.withCore { s.world.shared with pending := s.world.shared.pending ++ [r] }

/-- store.rs:154-157, 324-326 `take_responses`. -/
def Manager.takeResponses (s : Sys) : Sys × List KvResponse :=
  (s.withCore { s.world.shared with responses := [] }, s.world.shared.responses)

/-- The calls of the resolve handler of the store (store.rs:123-126). -/
def handleCalls (c : KvCore) : List (Nat × List (Query × UInt32)) → KvCore
  | [] => c
  | x :: rest => handleCalls (c.handleResolve x.2) rest

/-- manager.rs:257-287 `process_in_message`, then the calls of the resolve handler it made.  (The handler only touches the
store, which the manager does not look at.) -/
def Manager.input (tenv : TxnEnv Bytes Unit KvCore) (s : Sys) (i : MgrIn) : Run Sys :=
  (s.processIn tenv i).bind fun s' =>
  .ok (s'.withCore (handleCalls s'.world.shared (s'.world.md.calls.drop s.world.md.calls.length)))

/-! ## The actor -/

/-- tablet_cache.proto: `TabletCacheInMessage`. -/
inductive CacheIn where
  | put (key : String) (value : Bytes)
  | get (key : String)
  | load (st : StorageStatus)
  | store (st : StorageStatus)
  | ops
  | opsError
deriving Repr, DecidableEq

/-- tablet_cache.proto: `TabletCacheOutMessage`. -/
inductive CacheOut where
  | put (existed : Bool)
  | get (existed : Bool) (value : Bytes)
  | load (uri : String)
  | store (uri : String)
  | ops
deriving Repr, DecidableEq

/-- What the actor depends on. -/
structure CacheEnv where
  kv : KvEnv
  data : DataEnv Bytes
  evict : AMap String (Entry Bytes) → List String
  /-- `TabletCacheInMessage`: `none` undecodable, `some none` no message -/
  decIn : Bytes → Option (Option CacheIn)
  encOut : CacheOut → Bytes
  decResp : Bytes → Option Response
  encOps : List TabletOp → Bytes
  /-- `TabletCacheConfig`: the table name and the two limits of the store; the tables of the metadata cache.  Missing parts of
  the latter, on which `init` panics, count as a missing manager configuration. -/
  decConfig : Bytes → Option (Option (String × Nat × Nat) × Option (List (String × UInt32)))

variable (cenv : CacheEnv)

/-- The environment of the manager. -/
def CacheEnv.txn : TxnEnv Bytes Unit KvCore := txnEnv cenv.kv cenv.data cenv.evict

/-- app/src/main.rs:46-75: the state the actor starts from. -/
def cacheInit : Sys := .create (2 ^ 56) (3 * 2 ^ 56) (2 * 2 ^ 56) .new

/-- actor.rs:94-113 `on_init`. -/
def cacheOnInit (ctx : ActorCtx) (s : Sys) : Run (Sys × Except ActorErr Unit) :=
  match cenv.decConfig ctx.config with
  | none => .ok (s, .error .configLoading)
  | some (sc, mc) => (Run.unwrap sc).bind fun sc => (Run.unwrap mc).bind fun mc =>
    ((s.withCore (s.world.shared.init sc.1 sc.2.1 sc.2.2)).init mc).bind fun s' => .ok (s', .ok ())

/-- actor.rs:129-180: a message is handed to the store or the manager; `none` if it is rejected. -/
def cacheMessage (s : Sys) (c : ActorCommand) : Run (Option Sys) :=
  match cenv.decIn c.header with
  | none => .ok none
  | some none => .ok none
  | some (some (.put k v)) => .ok (some (s.accept (.put c.correlationId k v)))
  | some (some (.get k)) => .ok (some (s.accept (.get c.correlationId k)))
  | some (some (.load st)) => (s.input cenv.txn (.data (.load c.correlationId st c.payload))).bind fun s' => .ok (some s')
  | some (some (.store st)) => (s.input cenv.txn (.data (.store c.correlationId st))).bind fun s' => .ok (some s')
  | some (some .ops) => (Run.unwrap (cenv.decResp c.payload)).bind fun r =>
    (s.input cenv.txn (.response c.correlationId r)).bind fun s' => .ok (some s')
  | some (some .opsError) => (s.input cenv.txn (.error c.correlationId)).bind fun s' => .ok (some s')

/-- actor.rs:186-216: the command for a message of the manager. -/
def outCommand : MgrOut → ActorCommand
  | .data (.load corr u) => ⟨corr, cenv.encOut (.load u), []⟩
  | .data (.store corr u b) => ⟨corr, cenv.encOut (.store u), b⟩
  | .ops corr ops => ⟨corr, cenv.encOut .ops, cenv.encOps ops⟩

/-- actor.rs:218-243: the command for a response of the store. -/
def respCommand : KvResponse → ActorCommand
  | .put corr e => ⟨corr, cenv.encOut (.put e), []⟩
  | .get corr e v => ⟨corr, cenv.encOut (.get e v), []⟩

/-- actor.rs:182-249: what happens after a message was handled.  Nobody calls `make_progress` of the manager. -/
def cacheProgress (s : Sys) : Run (Sys × CommandOutcome) :=
  (s.storeProgress cenv.kv).bind fun s => s.takeOut.bind fun x =>
  .ok (x.1.takeResponses.1, ⟨x.2.map (outCommand cenv) ++ x.1.takeResponses.2.map (respCommand cenv), none⟩)

/-- actor.rs:125-249 `on_process_command`. -/
def cacheOnProcess (_ : ActorCtx) (s : Sys) : Option ActorCommand → Run (Sys × Except ActorErr CommandOutcome)
  | none => (cacheProgress cenv s).bind fun x => .ok (x.1, .ok x.2)
  | some c => (cacheMessage cenv s c).bind fun o =>
    match o with
    | none => .ok (s, .error .internal)
    | some s' => (cacheProgress cenv s').bind fun x => .ok (x.1, .ok x.2)

/-- The tablet cache actor (actor.rs:91-257). -/
def cacheActor : Actor Sys where
  onInit := cacheOnInit cenv
  onShutdown _ s := .ok s
  onSaveSnapshot _ s := .ok (s, .ok [])
  onLoadSnapshot _ s _ := .ok (s, .ok ())
  onProcessCommand := cacheOnProcess cenv
  onApplyEvent _ s _ _ := .ok (s, .ok ⟨[]⟩)
  -- apps/tablet_cache/service/src/actor.rs:259-294
  references _ := Attest.skipRestrictedKernel

end TCP.Cache
