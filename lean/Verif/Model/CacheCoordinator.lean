import Verif.Model.CacheMetadata
import Verif.Model.CacheData

/-!
# Model of apps/tablet_cache/service/src/transaction/coordinator.rs, manager.rs and transaction.rs

* `α` is the type of tablet contents.  `η` is the type of process handlers; what a handler does is a parameter: it may
  change the state `ω` it shares with its creator, and it calls `set_contents` on some of the tablets it is given, or panics.
  (A handler could also call `take_updated_contents`; no handler does.)
* Result handles (result.rs) are named by the id of the request; the results live in the caches.
* The time passed to `make_progress` is not used by any of the three components, and is left out.
* Where a hash map is iterated, the order is that of the list that represents it.
* A response status that is not in the enumeration counts as `invalid`.
-/

namespace TCP.Cache

open TCP TCP.TabletStore

/-- transaction.rs:121-126 `Tablet`. -/
structure Tablet (α : Type) where
  metadata : Metadata
  contents : Option α
  updated : Option α
  dirty : Bool
deriving Repr, DecidableEq

/-- transaction.rs:129-136 `Tablet::create`. -/
def Tablet.create {α : Type} (m : Metadata) : Tablet α := ⟨m, none, none, false⟩

/-- transaction.rs:166-169 `Tablet::set_contents`. -/
def Tablet.setContents {α : Type} (t : Tablet α) (v : α) : Tablet α := { t with dirty := true, updated := some v }

/-- coordinator.rs:607-622 `TabletState`. -/
structure TabletState (α : Type) where
  query : Query
  tablet : Tablet α
deriving Repr, DecidableEq

/-- The parameters of a transaction manager. -/
structure TxnEnv (α η ω : Type) where
  data : DataEnv α
  /-- transaction.rs:250 `ProcessHandler`: the transaction id and, for every tablet, the query, the tablet id and the contents.
  The result says, for the tablets in the same order, which new contents were set. -/
  handle : η → ω → Nat → List (Query × UInt32 × Option α) → Run (ω × List (Option α))
  /-- the keys the eviction policy of the data cache returns -/
  evict : AMap String (Entry α) → List String

/-- coordinator.rs:676-693 `TabletProcessStatus`.  A store whose serialization failed has a handle without id. -/
inductive ProcStatus where
  | pending (qs : List Query)
  | resolving (id : Nat)
  | loading (id : Nat)
  | storing (id : Option Nat)
  | completed
  | failed
deriving Repr, DecidableEq

/-- coordinator.rs:668-674 `TabletProcessState`. -/
structure Proc (α η : Type) where
  status : ProcStatus
  handler : η
  tablets : AMap Nat (TabletState α)
deriving Repr, DecidableEq

/-- transaction.rs:290-296 `TabletTransactionOutcome`. -/
inductive Outcome where
  | succeeded
  | failed
deriving Repr, DecidableEq

/-- coordinator.rs:331-341 `TabletTransactionState`. -/
inductive TxnState (α η : Type) where
  | preparing (procs : List (Proc α η))
  | committing (ops : List TabletOp)
  | completed (o : Outcome)
deriving Repr, DecidableEq

/-- coordinator.rs:109-123 `DefaultTabletTransactionCoordinator`. -/
structure Coordinator (α η : Type) where
  correlation : Nat
  txnCounter : Nat
  txns : AMap Nat (TxnState α η)
  correlations : AMap Nat Nat
  out : List (Nat × List TabletOp)
deriving Repr, DecidableEq

variable {α η ω : Type}

/-- coordinator.rs:126-135 `create`. -/
def Coordinator.create (correlation : Nat) : Coordinator α η := ⟨correlation, 1, [], [], []⟩

/-- coordinator.rs:601-603 `create_tablet_key`. -/
def tabletKey (m : Metadata) : Nat := m.tabletId.toNat * 2 ^ 32 + m.version.toNat

/-- coordinator.rs:387-399: tracking the resolved tablets. -/
def trackTablets : AMap Nat (TabletState α) → List (Query × Metadata) → AMap Nat (TabletState α)
  | ts, [] => ts
  | ts, (q, m) :: rest => trackTablets (ts.set (tabletKey m) ⟨q, .create m⟩) rest

/-- coordinator.rs:422-430: the loaded contents. -/
def initTablets : AMap Nat (TabletState α) → List (Metadata × α) → Run (AMap Nat (TabletState α))
  | ts, [] => .ok ts
  | ts, (m, v) :: rest => (Run.unwrap (ts.get (tabletKey m))).bind fun s =>
    initTablets (ts.set (tabletKey m) { s with tablet := { s.tablet with contents := some v } }) rest

/-- coordinator.rs:432-438, 624-626: what the handler is given. -/
def views (ts : AMap Nat (TabletState α)) : List (Query × UInt32 × Option α) :=
  ts.map fun e => (e.2.query, e.2.tablet.metadata.tabletId, e.2.tablet.contents)

/-- The effect of the handler on the tablets. -/
def applySets : AMap Nat (TabletState α) → List (Option α) → AMap Nat (TabletState α)
  | [], _ => []
  | ts, [] => ts
  | (k, s) :: rest, some v :: vs => (k, { s with tablet := s.tablet.setContents v }) :: applySets rest vs
  | (k, s) :: rest, none :: vs => (k, s) :: applySets rest vs

/-- coordinator.rs:440-447, 636-642: the tablets to write, and the tablets without their updates. -/
def takeWrites (ts : AMap Nat (TabletState α)) : List (Metadata × α) :=
  ts.filterMap fun e => e.2.tablet.updated.map fun v => (e.2.tablet.metadata, v)

/-- coordinator.rs:636-642, data.rs:421-430: the data cache replaces the metadata of the written tablets. -/
def putMetadata : AMap Nat (TabletState α) → List Metadata → AMap Nat (TabletState α)
  | [], _ => []
  | (k, s) :: rest, ms =>
    match s.tablet.updated, ms with
    | some _, m :: ms => (k, { s with tablet := { s.tablet with updated := none, metadata := m } }) :: putMetadata rest ms
    | some _, [] => (k, { s with tablet := { s.tablet with updated := none } }) :: putMetadata rest []
    | none, ms => (k, s) :: putMetadata rest ms

/-- What a process request works on: the caches and the shared state of the handlers. -/
structure World (α ω : Type) where
  md : MetaCache
  data : DataCache α
  shared : ω
deriving Repr, DecidableEq

/-- coordinator.rs:375-484: one process request attempts to advance. -/
def Proc.step (env : TxnEnv α η ω) (txn : Nat) (p : Proc α η) (w : World α ω) : Run (Proc α η × World α ω) :=
  match p.status with
  | .pending qs => (w.md.resolve .source qs).bind fun c => .ok ({ p with status := .resolving c.resolveCounter }, { w with md := c })
  | .resolving id =>
    match w.md.cells.get id with
    | none => .ok (p, w)
    | some res => (w.data.load (res.map Prod.snd)).bind fun d =>
      .ok ({ p with status := .loading d.batchCounter, tablets := trackTablets p.tablets res }, { w with data := d })
  | .loading id =>
    match w.data.cells.loads.get id with
    | none => .ok (p, w)
    | some none => .ok ({ p with status := .failed }, w)
    | some (some res) => (initTablets p.tablets res).bind fun ts =>
      (env.handle p.handler w.shared txn (views ts)).bind fun x =>
      (w.data.store env.data (takeWrites (applySets ts x.2))).bind fun y =>
      .ok ({ p with status := .storing (if y.2.2 then some y.1.batchCounter else none), tablets := putMetadata (applySets ts x.2) y.2.1 },
        { w with data := y.1, shared := x.1 })
  | .storing none => .ok ({ p with status := .failed }, w)
  | .storing (some id) =>
    match w.data.cells.stores.get id with
    | none => .ok (p, w)
    | some (some _) => .ok ({ p with status := .completed }, w)
    | some none => .ok ({ p with status := .failed }, w)
  | .completed => .ok (p, w)
  | .failed => .ok (p, w)

/-- coordinator.rs:367-486: all process requests of a transaction. -/
def stepProcs (env : TxnEnv α η ω) (txn : Nat) : List (Proc α η) → World α ω → Run (List (Proc α η) × World α ω)
  | [], w => .ok ([], w)
  | p :: rest, w => (p.step env txn w).bind fun x => (stepProcs env txn rest x.2).bind fun y => .ok (x.1 :: y.1, y.2)

/-- coordinator.rs:158-174: all transactions. -/
def stepTxns (env : TxnEnv α η ω) : AMap Nat (TxnState α η) → World α ω → Run (AMap Nat (TxnState α η) × World α ω)
  | [], w => .ok ([], w)
  | (i, .preparing ps) :: rest, w => (stepProcs env i ps w).bind fun x => (stepTxns env rest x.2).bind fun y =>
    .ok ((i, .preparing x.1) :: y.1, y.2)
  | (i, s) :: rest, w => (stepTxns env rest w).bind fun y => .ok ((i, s) :: y.1, y.2)

/-- coordinator.rs:496-503 `is_active`. -/
def isActive (ps : List (Proc α η)) : Bool := ps.any fun p => decide (p.status ≠ .completed)

/-- coordinator.rs:645-665 `get_tablet_op`. -/
def TabletState.op (s : TabletState α) : TabletOp :=
  ⟨s.query.table, some (if s.tablet.dirty then .update (some s.tablet.metadata)
    else .check s.tablet.metadata.tabletId s.tablet.metadata.version)⟩

/-- coordinator.rs:505-522 `PreparingTabletTransactionState::complete`: `none` if a process request failed. -/
def prepareOps : List (Proc α η) → Option (List TabletOp)
  | [] => some []
  | p :: rest => if p.status = .failed then none
    else (prepareOps rest).map (p.tablets.map (fun e => e.2.op) ++ ·)

/-- coordinator.rs:210-225 `create_transaction`. -/
def Coordinator.createTxn (c : Coordinator α η) : Coordinator α η × Nat :=
  ({ c with txnCounter := c.txnCounter + 1, txns := c.txns.set (c.txnCounter + 1) (.preparing []) }, c.txnCounter + 1)

/-- coordinator.rs:227-243 `process_transaction`, 488-494. -/
def Coordinator.process (c : Coordinator α η) (i : Nat) (qs : List Query) (h : η) : Run (Coordinator α η) :=
  match c.txns.get i with
  | some (.preparing ps) => .ok { c with txns := c.txns.set i (.preparing (ps ++ [⟨.pending qs, h, []⟩])) }
  | _ => .panic

/-- coordinator.rs:245-258 `has_transaction_pending_process`. -/
def Coordinator.hasPending (c : Coordinator α η) (i : Nat) : Run Bool :=
  match c.txns.get i with
  | none => .panic
  | some (.preparing ps) => .ok (isActive ps)
  | some _ => .ok false

/-- coordinator.rs:260-294 `commit_transaction`, 137-151 `transaction_stash_request`. -/
def Coordinator.commit (c : Coordinator α η) (i : Nat) : Run (Coordinator α η) :=
  match c.txns.get i with
  | some (.preparing ps) =>
    if isActive ps then .panic
    else match prepareOps ps with
      | some ops =>
        .ok { c with correlation := c.correlation + 1, out := c.out ++ [(c.correlation + 1, ops)],
                     correlations := c.correlations.set (c.correlation + 1) i, txns := c.txns.set i (.committing ops) }
      | none => .ok { c with txns := c.txns.set i (.completed .failed) }
  | _ => .panic

/-- coordinator.rs:296-300 `abort_transaction`. -/
def Coordinator.abort (c : Coordinator α η) (i : Nat) : Coordinator α η := { c with txns := c.txns.erase i }

/-- coordinator.rs:302-327 `check_transaction_result`. -/
def Coordinator.check (c : Coordinator α η) (i : Nat) : Run (Coordinator α η × Option Outcome) :=
  match c.txns.get i with
  | none => .panic
  | some (.preparing _) => .panic
  | some (.committing _) => .ok (c, none)
  | some (.completed o) => .ok ({ c with txns := c.txns.erase i }, some o)

/-- coordinator.rs:535-597 `CommittingTabletTransactionState::complete`: the ops zipped with the results.  Returns whether all
the results looked at succeeded, and the tablets to tell the metadata cache about. -/
def completeOps : List TabletOp → List TabletOpResult → Run (Bool × List (String × Metadata × Bool))
  | [], _ => .ok (true, [])
  | _, [] => .ok (true, [])
  | o :: ops, r :: rs =>
    let ok := decide (r.status = .succeeded)
    let here : Run (List (String × Metadata × Bool)) :=
      match o.op, r.result with
      | some (.check _ _), some (.check existing) =>
        if ok then .ok [] else (Run.unwrap existing).bind fun m => .ok [(o.table, m, true)]
      | some (.update u), some (.update existing) =>
        if ok then (Run.unwrap u).bind fun m => .ok [(o.table, m, false)]
        else (Run.unwrap existing).bind fun m => .ok [(o.table, m, true)]
      | _, _ => .panic
    here.bind fun x => (completeOps ops rs).bind fun y => .ok (ok && y.1, x ++ y.2)

/-- coordinator.rs:196-200: telling the metadata cache. -/
def updateTablets (md : MetaCache) : List (String × Metadata × Bool) → Run MetaCache
  | [] => .ok md
  | (t, m, conflict) :: rest => (md.updateTablet t m conflict).bind fun md' => updateTablets md' rest

/-- coordinator.rs:176-204 `process_in_message`. -/
def Coordinator.processIn (c : Coordinator α η) (md : MetaCache) (corr : Nat) (rs : List TabletOpResult) :
    Run (Coordinator α η × MetaCache) :=
  match c.correlations.get corr with
  | none => .ok (c, md)
  | some i =>
    let c := { c with correlations := c.correlations.erase corr }
    match c.txns.get i with
    | some (.committing ops) => (completeOps ops rs).bind fun x => (updateTablets md x.2).bind fun md' =>
      .ok ({ c with txns := c.txns.set i (.completed (if x.1 then .succeeded else .failed)) }, md')
    | _ => .ok (c, md)

/-- manager.rs:160-170 `TabletTransactionManagerCore`. -/
structure Manager (α η ω : Type) where
  coord : Coordinator α η
  world : World α ω
  errors : AMap Nat Response
deriving Repr, DecidableEq

/-- manager.rs:52-65, 174-187 `create`, with the initial correlation ids of the three components. -/
def Manager.create (coord md data : Nat) (shared : ω) : Manager α η ω :=
  ⟨.create coord, ⟨.create md, .create data, shared⟩, []⟩

/-- manager.rs:189-203 `init` (the limits of the data cache concern only the policy). -/
def Manager.init (m : Manager α η ω) (tables : List (String × UInt32)) : Run (Manager α η ω) :=
  (m.world.md.init tables).bind fun md => .ok { m with world := { m.world with md := md } }

/-- manager.rs:205-213 `make_progress`. -/
def Manager.makeProgress (env : TxnEnv α η ω) (m : Manager α η ω) : Run (Manager α η ω) :=
  m.world.md.makeProgress.bind fun md => (m.world.data.makeProgress env.evict).bind fun d =>
  (stepTxns env m.coord.txns { m.world with md := md, data := d }).bind fun x =>
  .ok { m with coord := { m.coord with txns := x.1 }, world := x.2 }

/-- manager.rs:215-218 `resolve` with a handler (its calls are recorded by the metadata cache). -/
def Manager.resolve (m : Manager α η ω) (qs : List Query) : Run (Manager α η ω) :=
  (m.world.md.resolve .handler qs).bind fun md => .ok { m with world := { m.world with md := md } }

/-- transaction.rs:47-56 `InMessage`. -/
inductive MgrIn where
  | data (r : DataIn)
  | response (corr : Nat) (r : Response)
  | error (corr : Nat)
deriving Repr, DecidableEq

/-- transaction.rs:60-67 `OutMessage`. -/
inductive MgrOut where
  | data (r : DataOut)
  | ops (corr : Nat) (ops : List TabletOp)
deriving Repr, DecidableEq

/-- manager.rs:378-389: the result is of a list op; results without value are skipped by both filters. -/
def TabletOpResult.isList (r : TabletOpResult) : Bool :=
  match r.result with
  | some (.list _ _ _) => true
  | _ => false

/-- manager.rs:378-389: the result is of another op. -/
def TabletOpResult.isExec (r : TabletOpResult) : Bool :=
  match r.result with
  | some (.check _) => true
  | some (.update _) => true
  | _ => false

/-- manager.rs:373-408 `process_in_tablets_op_response`.  (Processing an empty list of list results does nothing.) -/
def Manager.opsResponse (m : Manager α η ω) (corr : Nat) (r : Response) : Run (Manager α η ω) :=
  (m.world.md.processIn (r.results.filter TabletOpResult.isList)).bind fun md =>
  if r.results.filter TabletOpResult.isExec = [] then .ok { m with world := { m.world with md := md } }
  else (m.coord.processIn md corr (r.results.filter TabletOpResult.isExec)).bind fun x =>
    .ok { m with coord := x.1, world := { m.world with md := x.2 } }

/-- manager.rs:257-287 `process_in_message`. -/
def Manager.processIn (env : TxnEnv α η ω) (m : Manager α η ω) : MgrIn → Run (Manager α η ω)
  | .data r => (m.world.data.processIn env.data r).bind fun d => .ok { m with world := { m.world with data := d } }
  | .response corr r => { m with errors := m.errors.erase corr }.opsResponse corr r
  | .error corr =>
    match m.errors.get corr with
    | some r => { m with errors := m.errors.erase corr }.opsResponse corr r
    | none => .ok m

/-- manager.rs:411-429 `create_failed_op_result`.  (The cache sends no add or remove ops; their results are left out.) -/
def failedResult (o : TabletOp) : TabletOpResult :=
  ⟨o.table, .failed, match o.op with
    | some (.list a b) => some (.list a b [])
    | some (.check _ _) => some (.check none)
    | some (.update _) => some (.update none)
    | _ => none⟩

/-- manager.rs:292-318, 321-347: remembering the error response of every request; a repeated correlation id panics. -/
def rememberErrors : AMap Nat Response → List (Nat × List TabletOp) → Run (AMap Nat Response)
  | es, [] => .ok es
  | es, (corr, ops) :: rest =>
    if (es.get corr).isSome then .panic else rememberErrors (es.set corr ⟨false, ops.map failedResult⟩) rest

/-- manager.rs:289-371 `take_out_messages`. -/
def Manager.takeOut (m : Manager α η ω) : Run (Manager α η ω × List MgrOut) :=
  (rememberErrors m.errors (m.coord.out ++ m.world.md.out)).bind fun es =>
  .ok (⟨{ m.coord with out := [] }, { m.world with md := m.world.md.takeOut.1, data := m.world.data.takeOut.1 }, es⟩,
    (m.coord.out ++ m.world.md.out).map (fun x => MgrOut.ops x.1 x.2) ++ m.world.data.out.map MgrOut.data)

/-- manager.rs:99-103, 132-137 `DefaultTabletTransaction` after `commit`: the transaction and the outcome already seen. -/
structure Commit where
  txn : Nat
  outcome : Option Outcome
deriving Repr, DecidableEq

/-- manager.rs:147-155 `check_result`. -/
def Commit.check (h : Commit) (m : Manager α η ω) : Run (Commit × Manager α η ω) :=
  match h.outcome with
  | some _ => .ok (h, m)
  | none => (m.coord.check h.txn).bind fun x => .ok ({ h with outcome := x.2 }, { m with coord := x.1 })

end TCP.Cache
