import Verif.Model.Actor
import Verif.Lib.AMap
import Verif.Lib.SMap
import Verif.Lib.Codec

/-!
# Model of `apps/tablet_store/service/src/actor.rs`

Parameters (`Env`): the message encodings, the random tablet configurator (a function of the number of
draws made so far) and whether the build checks `u32` overflow (debug builds panic, release builds wrap).
Diagnostic texts are dropped, only status codes are kept.
-/

namespace TCP.TabletStore

open TCP

/-- tablet_store.proto:258-287 `TabletMetadata`. -/
structure Metadata where
  tabletId : UInt32
  version : UInt32
  deleted : Bool
  key : Bytes
  size : UInt32
  hash : Bytes
  uri : String
deriving Repr, DecidableEq

/-- actor.rs:61-64: a tablet with this id and default values. -/
def Metadata.new (tabletId : UInt32) : Metadata := ⟨tabletId, 0, false, [], 0, [], ""⟩

/-- tablet_store.proto:100-111, the `op` of a `TabletOp`. -/
inductive Op where
  | list (from_ to : UInt32)
  | check (tabletId version : UInt32)
  | add (m : Option Metadata)
  | update (m : Option Metadata)
  | remove (tabletId version : UInt32)
deriving Repr, DecidableEq

/-- tablet_store.proto:96-112 `TabletOp`. -/
structure TabletOp where
  table : String
  op : Option Op
deriving Repr, DecidableEq

/-- tablet_store.proto:175-185 `TabletOpStatus` (the values used). -/
inductive OpStatus where
  | succeeded
  | failed
  | invalid
deriving Repr, DecidableEq

/-- tablet_store.proto:165-171, the `op_result` of a `TabletOpResult` (the values used). -/
inductive OpResult where
  | list (from_ to : UInt32) (tablets : List Metadata)
  | check (existing : Option Metadata)
  | update (existing : Option Metadata)
deriving Repr, DecidableEq

/-- tablet_store.proto:157-172 `TabletOpResult`. -/
structure TabletOpResult where
  table : String
  status : OpStatus
  result : Option OpResult
deriving Repr, DecidableEq

/-- tablet_store.proto:75-82 `TabletsResponse` (statuses used: succeeded or failed). -/
structure Response where
  succeeded : Bool
  results : List TabletOpResult
deriving Repr, DecidableEq

/-- tablet_store.proto:57-63 `ExecuteTabletOpsStatus` (the values used). -/
inductive ErrStatus where
  | rejected
  | invalidOperation
deriving Repr, DecidableEq

/-- tablet_store.proto:31-39 `TabletStoreOutMessage`. -/
inductive OutMsg where
  | response
  | error (s : ErrStatus)
deriving Repr, DecidableEq

/-- What the actor depends on. -/
structure Env where
  /-- `TabletStoreInMessage`: `none` undecodable, `some false` no message, `some true` a request -/
  decIn : Bytes → Option Bool
  encOut : OutMsg → Bytes
  encReq : List TabletOp → Bytes
  decReq : Bytes → Option (List TabletOp)
  encResp : Response → Bytes
  /-- table snapshots: names and tablets -/
  encSnap : List (String × List Metadata) → Bytes
  decSnap : Bytes → Option (List (String × List Metadata))
  /-- table configurations: names and initial tablet counts -/
  decConfig : Bytes → Option (List (String × Nat))
  /-- the tablet configurator: draw number and count -/
  generate : Nat → Nat → List UInt32
  /-- arithmetic overflow panics -/
  overflowChecks : Bool

/-- actor.rs:49-52 `TableMetadata::tablets`. -/
abbrev Tablets := SMap UInt32 Metadata

/-- actor.rs:239-244 `TabletStoreActor`; the table's name is its key. -/
structure State where
  tables : AMap String Tablets
  draws : Nat
deriving Repr, DecidableEq

/-- actor.rs:55-72 `TableMetadata::create`. -/
def createTable (ids : List UInt32) : Tablets := ids.foldl (fun m i => SMap.insert m i (.new i)) []

/-- actor.rs:74-79 `TableMetadata::load_snapshot`. -/
def loadTable (l : List Metadata) : Tablets := SMap.insertAll [] (l.map fun t => (t.tabletId, t))

/-- Put a tablet before the first one whose id is not smaller. -/
def insertById (t : Metadata) : List Metadata → List Metadata
  | [] => [t]
  | u :: rest => if t.tabletId ≤ u.tabletId then t :: u :: rest else u :: insertById t rest

/-- Stable sort by tablet id (`sort_by`), as an insertion sort. -/
def sortById : List Metadata → List Metadata
  | [] => []
  | t :: rest => insertById t (sortById rest)

/-- actor.rs:81-92 `TableMetadata::save_snapshot`: the values sorted by tablet id. -/
def saveTable (m : Tablets) : List Metadata := sortById (m.map Prod.snd)

/-- actor.rs:117-119, 134-136: list a tablet unless its id has been seen. -/
def pushUnseen (acc : List UInt32 × List Metadata) (e : UInt32 × Metadata) : List UInt32 × List Metadata :=
  if e.1 ∈ acc.1 then acc else (e.1 :: acc.1, acc.2 ++ [e.2])

/-- actor.rs:114-126: the loop over the tablets not before the start; also returns `found_last`. -/
def scanLoop (to : UInt32) : Tablets → List UInt32 × List Metadata → (List UInt32 × List Metadata) × Bool
  | [], acc => (acc, false)
  | e :: rest, acc => if to ≤ e.1 then (pushUnseen acc e, true) else scanLoop to rest (pushUnseen acc e)

/-- actor.rs:112-138: one interval. -/
def scanInterval (m : Tablets) (acc : List UInt32 × List Metadata) (from_ to : UInt32) : List UInt32 × List Metadata :=
  let r := scanLoop to (m.filter fun e => decide (from_ ≤ e.1)) acc
  if r.2 then r.1
  else match m with
    | e :: _ => pushUnseen r.1 e
    | [] => r.1

/-- actor.rs:94-142 `find_tablets`. -/
def findTablets (m : Tablets) (from_ to : UInt32) : List Metadata :=
  if from_ < to then (scanInterval m ([], []) from_ to).2
  else (scanInterval m (scanInterval m ([], []) from_ 0xffffffff) 0 to).2

variable (env : Env)

/-- actor.rs:182: `existing_tablet.tablet_version + 1`. -/
def nextVersion (v : UInt32) : Run UInt32 := if env.overflowChecks ∧ v = 0xffffffff then .panic else .ok (v + 1)

/-- actor.rs:144-195 `TableMetadata::prepare_tablet_op`. -/
def prepareOp (m : Tablets) (table : String) : Op → Run TabletOpResult
  | .list a b => .ok ⟨table, .succeeded, some (.list a b (findTablets m a b))⟩
  | .check i v =>
    match SMap.get m i with
    | some t => .ok (if t.version = v then ⟨table, .succeeded, some (.check none)⟩ else ⟨table, .failed, some (.check (some t))⟩)
    | none => .ok ⟨table, .failed, some (.check none)⟩
  | .update (some u) =>
    match SMap.get m u.tabletId with
    | some t => (nextVersion env t.version).bind fun v =>
      .ok ⟨table, if u.version = v then .succeeded else .failed, some (.update (some t))⟩
    | none => .ok ⟨table, .failed, some (.update none)⟩
  | .update none => .ok ⟨table, .failed, some (.update none)⟩
  | .add _ => .panic
  | .remove _ _ => .panic

/-- actor.rs:341-353 `TabletStoreActor::prepare_tablet_op`. -/
def prepare (tables : AMap String Tablets) (o : TabletOp) : Run TabletOpResult :=
  match tables.get o.table, o.op with
  | some m, some op => prepareOp env m o.table op
  | _, _ => .ok ⟨o.table, .invalid, none⟩

/-- actor.rs:303-309: preparing every op on the state before the transaction. -/
def prepareAll (tables : AMap String Tablets) : List TabletOp → Run (List TabletOpResult)
  | [] => .ok []
  | o :: rest => (prepare env tables o).bind fun r => (prepareAll tables rest).bind fun rs => .ok (r :: rs)

/-- actor.rs:355-362, 197-219 `commit_tablet_op` (the result is the prepared one). -/
def commit (tables : AMap String Tablets) (o : TabletOp) : Run (AMap String Tablets) :=
  (Run.unwrap (tables.get o.table)).bind fun m =>
  (Run.unwrap o.op).bind fun op =>
  match op with
  | .list _ _ => .ok tables
  | .check _ _ => .ok tables
  | .update u => (Run.unwrap u).bind fun u => .ok (tables.set o.table (SMap.insert m u.tabletId u))
  | .add _ => .panic
  | .remove _ _ => .panic

/-- actor.rs:312-319: committing in order. -/
def commitAll (tables : AMap String Tablets) : List TabletOp → Run (AMap String Tablets)
  | [] => .ok tables
  | o :: rest => (commit tables o).bind fun t => commitAll t rest

/-- actor.rs:302-339 `on_apply_tablets_request`. -/
def applyRequest (tables : AMap String Tablets) (ops : List TabletOp) : Run (AMap String Tablets × Response) :=
  (prepareAll env tables ops).bind fun rs =>
  if rs.all (fun r => r.status == .succeeded) then
    (commitAll tables ops).bind fun t => .ok (t, ⟨true, rs⟩)
  else .ok (tables, ⟨false, rs⟩)

/-- actor.rs:472-483 `on_apply_event`, 282-300 `create_success_outcome`. -/
def onApplyEvent (_ : ActorCtx) (s : State) (ec : ActorEventCtx) (ev : ActorEvent) :
    Run (State × Except ActorErr EventOutcome) :=
  match env.decReq ev.contents with
  | none => .ok (s, .error .internal)
  | some ops => (applyRequest env s.tables ops).bind fun r =>
    .ok ({ s with tables := r.1 },
      .ok ⟨if ec.owned then [⟨ev.correlationId, env.encOut .response, env.encResp r.2⟩] else []⟩)

/-- actor.rs:414-470 `on_process_command`. -/
def onProcessCommand (ctx : ActorCtx) (s : State) : Option ActorCommand → Run (State × Except ActorErr CommandOutcome)
  | none => .ok (s, .ok ⟨[], none⟩)
  | some c =>
    let error (st : ErrStatus) : CommandOutcome := ⟨[.withHeader c.correlationId (env.encOut (.error st))], none⟩
    if ctx.leader = false then .ok (s, .ok (error .rejected))
    else match env.decIn c.header with
      | some true =>
        match env.decReq c.payload with
        | some _ => .ok (s, .ok ⟨[], some ⟨c.correlationId, c.payload⟩⟩)
        | none => .ok (s, .ok (error .invalidOperation))
      | _ => .ok (s, .ok (error .invalidOperation))

/-- actor.rs:385-395 `on_save_snapshot`, in the iteration order of the tables. -/
def onSaveSnapshot (_ : ActorCtx) (s : State) : Run (State × Except ActorErr Bytes) :=
  .ok (s, .ok (env.encSnap (s.tables.map fun e => (e.1, saveTable e.2))))

/-- actor.rs:403-409: loading table by table; stops at an unknown table. -/
def loadTables (tables : AMap String Tablets) : List (String × List Metadata) → AMap String Tablets × Except ActorErr Unit
  | [] => (tables, .ok ())
  | (n, l) :: rest =>
    match tables.get n with
    | none => (tables, .error .snapshotLoading)
    | some _ => loadTables (tables.set n (loadTable l)) rest

/-- actor.rs:397-412 `on_load_snapshot`. -/
def onLoadSnapshot (_ : ActorCtx) (s : State) (b : Bytes) : Run (State × Except ActorErr Unit) :=
  match env.decSnap b with
  | none => .ok (s, .error .snapshotLoading)
  | some l => .ok ({ s with tables := (loadTables s.tables l).1 }, (loadTables s.tables l).2)

/-- actor.rs:371-376: creating the configured tables, each with a fresh draw. -/
def initTables (s : State) : List (String × Nat) → State
  | [] => s
  | (n, count) :: rest =>
    initTables { tables := s.tables.set n (createTable (env.generate s.draws count)), draws := s.draws + 1 } rest

/-- actor.rs:366-381 `on_init`. -/
def onInit (ctx : ActorCtx) (s : State) : Run (State × Except ActorErr Unit) :=
  match env.decConfig ctx.config with
  | none => .ok (s, .error .configLoading)
  | some cs => .ok (initTables env s cs, .ok ())

/-- The tablet store actor (actor.rs:365-483). -/
def actor : Actor State where
  onInit := onInit env
  onShutdown _ s := .ok s
  onSaveSnapshot := onSaveSnapshot env
  onLoadSnapshot := onLoadSnapshot env
  onProcessCommand := onProcessCommand env
  onApplyEvent := onApplyEvent env
  -- apps/tablet_store/service/src/actor.rs:485-520
  references _ := Attest.skipRestrictedKernel

end TCP.TabletStore
