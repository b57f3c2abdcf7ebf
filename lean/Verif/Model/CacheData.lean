import Verif.Lib.AMap
import Verif.Model.TabletStore

/-!
# Model of apps/tablet_cache/service/src/transaction/data.rs (the tablet data cache)

* `α` is the type of tablet contents; the serializer, the hash (SHA-256) and the formatting of blob uris are parameters.
* A cache key is the blob uri (data.rs:566-577).
* Result cells (result.rs) are kept in the cache state under the id of the batch that owns them.
* The eviction policy is a parameter of each `make_progress`: the list of keys it returns.
* Incrementing a tablet version at `u32::MAX` panics, as in builds with overflow checks.
-/

namespace TCP.Cache

open TCP TCP.TabletStore

/-- The parameters of a data cache. -/
structure DataEnv (α : Type) where
  /-- data.rs:127-133 `TabletDataSerializer`. -/
  ser : α → Option Bytes
  deser : Bytes → Option α
  /-- data.rs:300 `Sha256::digest`. -/
  hash : Bytes → Bytes
  /-- data.rs:154-161 `format_blob_uri`. -/
  uri : UInt32 → UInt32 → Bytes → String

/-- tablet_cache.proto `TabletDataStorageStatus`, as decoded by `from_i32`: `other` stands for unknown or missing values. -/
inductive StorageStatus where
  | succeeded
  | failed
  | other
deriving Repr, DecidableEq

/-- data.rs:49-53 `TabletDataCacheOutMessage`. -/
inductive DataOut where
  | load (corr : Nat) (uri : String)
  | store (corr : Nat) (uri : String) (contents : Bytes)
deriving Repr, DecidableEq

/-- data.rs:43-47 `TabletDataCacheInMessage`. -/
inductive DataIn where
  | load (corr : Nat) (status : StorageStatus) (contents : Bytes)
  | store (corr : Nat) (status : StorageStatus)
deriving Repr, DecidableEq

/-- data.rs:583-588 `TabletCacheEntryState`. -/
inductive EntryState (α : Type) where
  | load
  | store (v : α)
  | cache (v : α)
  | error
deriving Repr, DecidableEq

/-- data.rs:592-601 `TabletCacheEntry`. -/
structure Entry (α : Type) where
  metadata : Metadata
  state : EntryState α
  waiting : List Nat
deriving Repr, DecidableEq

/-- data.rs:721-729 `TabletBatchState`; the result source is the cell of the batch. -/
inductive BatchState (α : Type) where
  | load (loaded : List (Metadata × α))
  | store
  | error
  | completed
deriving Repr, DecidableEq

/-- data.rs:735-739 `TabletBatch`. -/
structure Batch (α : Type) where
  state : BatchState α
  remaining : Nat
deriving Repr, DecidableEq

/-- The result cells that have been set: those of loads and those of stores.  `none` is the error `Failed`. -/
structure Cells (α : Type) where
  loads : AMap Nat (Option (List (Metadata × α)))
  stores : AMap Nat (Option Unit)
deriving Repr, DecidableEq

/-- data.rs:239-250 `DefaultTabletDataCache`. -/
structure DataCache (α : Type) where
  correlation : Nat
  batchCounter : Nat
  entries : AMap String (Entry α)
  batches : AMap Nat (Batch α)
  ops : AMap Nat String
  out : List DataOut
  cells : Cells α
deriving Repr, DecidableEq

variable {α : Type}

/-- data.rs:255-272 `DefaultTabletDataCache::create`. -/
def DataCache.create (correlation : Nat) : DataCache α := ⟨correlation, 0, [], [], [], [], ⟨[], []⟩⟩

/-- result.rs:69-79: a cell is set at most once. -/
def Cells.setLoad (c : Cells α) (id : Nat) (x : Option (List (Metadata × α))) : Run (Cells α) :=
  if (c.loads.get id).isSome then .panic else .ok { c with loads := c.loads.set id x }

/-- result.rs:69-79. -/
def Cells.setStore (c : Cells α) (id : Nat) (x : Option Unit) : Run (Cells α) :=
  if (c.stores.get id).isSome then .panic else .ok { c with stores := c.stores.set id x }

/-- data.rs:790-834 `TabletBatch::resolve_pending_cache_entry`.  `remaining` is a `usize`. -/
def resolveEntry (id : Nat) (b : Batch α) (e : Entry α) (cells : Cells α) : Run (Batch α × Cells α) :=
  if b.remaining = 0 then .panic
  else
    let rem := b.remaining - 1
    match e.state, b.state with
    | .cache v, .load loaded =>
      if rem = 0 then (cells.setLoad id (some (loaded ++ [(e.metadata, v)]))).bind fun c => .ok (⟨.completed, rem⟩, c)
      else .ok (⟨.load (loaded ++ [(e.metadata, v)]), rem⟩, cells)
    | .error, .load _ => (cells.setLoad id none).bind fun c => .ok (⟨.error, rem⟩, c)
    | .cache _, .store =>
      if rem = 0 then (cells.setStore id (some ())).bind fun c => .ok (⟨.completed, rem⟩, c)
      else .ok (⟨.store, rem⟩, cells)
    | .error, .store => (cells.setStore id none).bind fun c => .ok (⟨.error, rem⟩, c)
    | _, s => .ok (⟨s, rem⟩, cells)

/-- data.rs:778-788 `TabletBatch::add_pending_cache_entry`: the batch, the entry and the cells afterwards. -/
def addPending (id : Nat) (b : Batch α) (e : Entry α) (cells : Cells α) : Run (Batch α × Entry α × Cells α) :=
  let b := { b with remaining := b.remaining + 1 }
  match e.state with
  | .load => .ok (b, { e with waiting := e.waiting ++ [id] }, cells)
  | .store _ => .ok (b, { e with waiting := e.waiting ++ [id] }, cells)
  | _ => (resolveEntry id b e cells).bind fun x => .ok (x.1, e, x.2)

/-- data.rs:276-289 `register_pending_cache_entries`. -/
def registerAll (id : Nat) : AMap String (Entry α) → Batch α → Cells α → List String →
    Run (AMap String (Entry α) × Batch α × Cells α)
  | es, b, cells, [] => .ok (es, b, cells)
  | es, b, cells, k :: rest =>
    match es.get k with
    | none => registerAll id es b cells rest
    | some e => (addPending id b e cells).bind fun x => registerAll id (es.set k x.2.1) x.1 x.2.2 rest

/-- data.rs:397-415, 466-481: the batch is created, registered, and recorded unless it is ready. -/
def DataCache.batch (c : DataCache α) (s : BatchState α) (keys : List String) : Run (DataCache α) :=
  (registerAll (c.batchCounter + 1) c.entries ⟨s, 0⟩ c.cells keys).bind fun x =>
  .ok { c with batchCounter := c.batchCounter + 1, entries := x.1, cells := x.2.2,
               batches := if x.2.1.remaining = 0 then c.batches else c.batches.set (c.batchCounter + 1) x.2.1 }

/-- data.rs:375-395: an entry and a load request for every tablet not in the cache. -/
def DataCache.loadEntries (c : DataCache α) : List Metadata → DataCache α
  | [] => c
  | m :: rest =>
    match c.entries.get m.uri with
    | some _ => c.loadEntries rest
    | none =>
      { c with correlation := c.correlation + 1, ops := c.ops.set (c.correlation + 1) m.uri,
               entries := c.entries.set m.uri ⟨m, .load, []⟩,
               out := c.out ++ [DataOut.load (c.correlation + 1) m.uri] }.loadEntries rest

/-- data.rs:371-415 `load_tablets`.  The batch id, the value of the counter afterwards, names the result handle. -/
def DataCache.load (c : DataCache α) (ms : List Metadata) : Run (DataCache α) :=
  (c.loadEntries ms).batch (.load []) (ms.map Metadata.uri)

/-- data.rs:291-310 `prepare_tablet_write`: the new metadata and the contents; `none` if serializing fails. -/
def prepareWrite (env : DataEnv α) (m : Metadata) (v : α) : Run (Option (Metadata × Bytes)) :=
  match env.ser v with
  | none => .ok none
  | some b =>
    if m.version = 0xffffffff then .panic
    else .ok (some ({ m with version := m.version + 1, size := UInt32.ofNat b.length, hash := env.hash b,
                             uri := env.uri m.tabletId (m.version + 1) (env.hash b) }, b))

/-- data.rs:421-430: preparing all writes.  The metadata of the tablets prepared before a failure is updated all the same. -/
def prepareWrites (env : DataEnv α) : List (Metadata × α) → Run (List Metadata × Option (List Bytes))
  | [] => .ok ([], some [])
  | (m, v) :: rest => (prepareWrite env m v).bind fun x =>
    match x with
    | none => .ok (m :: rest.map Prod.fst, none)
    | some (m', b) => (prepareWrites env rest).bind fun y => .ok (m' :: y.1, y.2.map (b :: ·))

/-- data.rs:432-465: an entry and a store request for every tablet; an existing entry panics. -/
def DataCache.storeEntries (c : DataCache α) : List (Metadata × α × Bytes) → Run (DataCache α)
  | [] => .ok c
  | (m, v, b) :: rest =>
    match c.entries.get m.uri with
    | some _ => .panic
    | none =>
      { c with correlation := c.correlation + 1, ops := c.ops.set (c.correlation + 1) m.uri,
               entries := c.entries.set m.uri ⟨m, .store v, []⟩,
               out := c.out ++ [DataOut.store (c.correlation + 1) m.uri b] }.storeEntries rest

/-- data.rs:417-481 `store_tablets`: the cache, the updated metadata, and whether a result handle of the new batch was
returned (else the handle carries the error). -/
def DataCache.store (env : DataEnv α) (c : DataCache α) (data : List (Metadata × α)) : Run (DataCache α × List Metadata × Bool) :=
  (prepareWrites env data).bind fun x =>
  match x.2 with
  | none => .ok (c, x.1, false)
  | some bs =>
    (c.storeEntries (x.1.zip ((data.map Prod.snd).zip bs))).bind fun c' =>
    (c'.batch .store (x.1.map Metadata.uri)).bind fun c'' => .ok (c'', x.1, true)

/-- data.rs:668-693 `process_load_response`; `v` is the deserialized contents. -/
def Entry.loadResponse (e : Entry α) (st : StorageStatus) (v : Option α) : Run (Entry α) :=
  match e.state with
  | .load =>
    match st with
    | .succeeded => match v with
      | some v => .ok { e with state := .cache v }
      | none => .ok { e with state := .error }
    | .failed => .ok { e with state := .error }
    | .other => .panic
  | _ => .panic

/-- data.rs:695-713 `process_store_response`. -/
def Entry.storeResponse (e : Entry α) (st : StorageStatus) : Run (Entry α) :=
  match e.state with
  | .store v =>
    match st with
    | .succeeded => .ok { e with state := .cache v }
    | .failed => .ok { e with state := .error }
    | .other => .panic
  | _ => .panic

/-- data.rs:483-519 `process_in_message`, 312-324 `prepare_tablet_read` (the metadata is not used). -/
def DataCache.processIn (env : DataEnv α) (c : DataCache α) : DataIn → Run (DataCache α)
  | .load corr st b =>
    match c.ops.get corr with
    | none => .ok c
    | some k => (Run.unwrap (c.entries.get k)).bind fun e => (e.loadResponse st (env.deser b)).bind fun e' =>
      .ok { c with ops := c.ops.erase corr, entries := c.entries.set k e' }
  | .store corr st =>
    match c.ops.get corr with
    | none => .ok c
    | some k => (Run.unwrap (c.entries.get k)).bind fun e => (e.storeResponse st).bind fun e' =>
      .ok { c with ops := c.ops.erase corr, entries := c.entries.set k e' }

/-- data.rs:339-344: notifying the batches waiting for one entry. -/
def notifyBatches (e : Entry α) : List Nat → AMap Nat (Batch α) → Cells α → Run (AMap Nat (Batch α) × Cells α)
  | [], bs, cells => .ok (bs, cells)
  | id :: rest, bs, cells =>
    (Run.unwrap (bs.get id)).bind fun b => (resolveEntry id b e cells).bind fun x =>
    notifyBatches e rest (bs.set id x.1) x.2

/-- data.rs:659-666 `take_waiting_batches`: the entry is ready. -/
def Entry.ready (e : Entry α) : Bool :=
  match e.state with
  | .cache _ => true
  | .error => true
  | _ => false

/-- data.rs:336-349: notifying the batches of all ready entries. -/
def notifyEntries : AMap String (Entry α) → AMap Nat (Batch α) → Cells α → Run (AMap String (Entry α) × AMap Nat (Batch α) × Cells α)
  | [], bs, cells => .ok ([], bs, cells)
  | (k, e) :: rest, bs, cells =>
    if e.ready then
      (notifyBatches e e.waiting bs cells).bind fun x => (notifyEntries rest x.1 x.2).bind fun y =>
      .ok ((k, { e with waiting := [] }) :: y.1, y.2)
    else (notifyEntries rest bs cells).bind fun y => .ok ((k, e) :: y.1, y.2)

/-- The entry failed. -/
def Entry.failed (e : Entry α) : Bool :=
  match e.state with
  | .error => true
  | _ => false

/-- data.rs:333-369 `make_progress`; `evicted` are the keys the policy returns (`policy` in the environment of the call). -/
def DataCache.makeProgress (c : DataCache α) (evicted : AMap String (Entry α) → List String) : Run (DataCache α) :=
  (notifyEntries c.entries c.batches c.cells).bind fun x =>
  let es := x.1.filter fun e => !e.2.failed
  .ok { c with entries := (evicted es).foldl AMap.erase es, cells := x.2.2,
               batches := x.2.1.filter fun b => b.2.remaining ≠ 0 }

/-- data.rs:521-523 `take_out_messages`. -/
def DataCache.takeOut (c : DataCache α) : DataCache α × List DataOut := ({ c with out := [] }, c.out)

end TCP.Cache
