import Verif.Lib.AMap
import Verif.Model.TabletStore

/-!
# Model of apps/tablet_cache/service/src/transaction/metadata.rs (the tablet metadata cache)

* `u32` hashes, tablet ids and versions are `UInt32`; region indices are `Nat`, and the `u32` arithmetic on them is
  checked: an overflow is `Run.panic`.
* `BTreeSet<u32>` is an ascending `List UInt32`; `HashMap` is `AMap`.
* Result cells (result.rs) are kept in the cache state under the id of the resolve request that owns them; calls of
  resolve handlers are appended to a list of calls.  Handlers only touch the caller's state, never the cache.
* Log messages are not modelled.
-/

namespace TCP.Cache

open TCP TCP.TabletStore

/-- `u32::MAX`. -/
def u32Max : Nat := 0xffffffff

/-- `BTreeSet::insert`. -/
def setInsert : List UInt32 → UInt32 → List UInt32
  | [], h => [h]
  | x :: xs, h => if h < x then h :: x :: xs else if h = x then x :: xs else x :: setInsert xs h

/-- `BTreeSet::from_iter`. -/
def setOf (l : List UInt32) : List UInt32 := l.foldl setInsert []

/-- transaction.rs:211-215 `TableQuery`. -/
structure Query where
  id : Nat
  table : String
  hashes : List UInt32
deriving Repr, DecidableEq

/-- transaction.rs:218-228 `TableQuery::create`. -/
def Query.create (id : Nat) (table : String) (hashes : List UInt32) : Query := ⟨id, table, setOf hashes⟩

/-- transaction.rs:230-232 `TableQuery::create_from`. -/
def Query.createFrom (q : Query) (hashes : List UInt32) : Query := .create q.id q.table hashes

/-- metadata.rs:255-258 `TableRegionState`. -/
inductive RegionState where
  | stale (requests : List Nat) (prepared : Bool)
  | fresh
deriving Repr, DecidableEq

/-- metadata.rs:262-267 `TableRegion`. -/
structure Region where
  state : RegionState
  ids : List UInt32
deriving Repr, DecidableEq

/-- metadata.rs:270-275 `TableRegion::create`. -/
def Region.create : Region := ⟨.stale [] false, []⟩

/-- metadata.rs:280-291 `TableRegion::maybe_prepare_list_op`: the region afterwards and whether an op was prepared. -/
def Region.maybePrepare (r : Region) : Region × Bool :=
  match r.state with
  | .stale reqs p => if p = false ∧ reqs ≠ [] then ({ r with state := .stale reqs true }, true) else (r, false)
  | .fresh => (r, false)

/-- metadata.rs:295-300 `TableRegion::maybe_fresh_tablet_ids`. -/
def Region.freshIds (r : Region) : Option (List UInt32) :=
  match r.state with
  | .stale _ _ => none
  | .fresh => some r.ids

/-- metadata.rs:305-314 `TableRegion::mark_stale`. -/
def Region.markStale (r : Region) : Region :=
  ⟨.stale (match r.state with | .stale reqs _ => reqs | .fresh => []) false, []⟩

/-- metadata.rs:318-326 `TableRegion::mark_fresh`: the region afterwards and the requests to notify. -/
def Region.markFresh (r : Region) (ids : List UInt32) : Region × List Nat :=
  (⟨.fresh, setOf ids⟩, match r.state with | .stale reqs _ => reqs | .fresh => [])

/-- metadata.rs:329-338 `TableRegion::register_pending_query`. -/
def Region.register (r : Region) (id : Nat) : Run Region :=
  match r.state with
  | .stale reqs p => .ok { r with state := .stale (reqs ++ [id]) p }
  | .fresh => .panic

/-- metadata.rs:342-352 `TableMetadata`. -/
structure Table where
  name : String
  size : UInt32
  regions : AMap Nat Region
  tablets : AMap UInt32 Metadata
deriving Repr, DecidableEq

/-- metadata.rs:356-369 `TableMetadata::create`.  Division by zero panics. -/
def Table.create (name : String) (size : UInt32) : Run Table :=
  if size = 0 then .panic
  else .ok ⟨name, size, (List.range (u32Max / size.toNat)).map fun i => (i, Region.create), []⟩

/-- metadata.rs:527-529 `TableMetadata::map_table_region`. -/
def mapRegion (size : UInt32) (h : UInt32) : Run Nat :=
  if size = 0 then .panic else .ok (h.toNat / size.toNat)

/-- metadata.rs:532-542 `TableMetadata::compute_table_region_bounds`.  The product is checked. -/
def regionBounds (size : UInt32) (idx : Nat) : Run (Nat × Nat) :=
  if idx * size.toNat > u32Max then .panic
  else if idx * size.toNat > u32Max - size.toNat then .ok (idx * size.toNat, u32Max)
  else if idx * size.toNat + size.toNat = 0 then .panic
  else .ok (idx * size.toNat, idx * size.toNat + size.toNat - 1)

/-- metadata.rs:371-384 `TableMetadata::prepare_list_op`, over the given regions. -/
def prepareListOps (name : String) (size : UInt32) : AMap Nat Region → Run (AMap Nat Region × List TabletOp)
  | [] => .ok ([], [])
  | (i, r) :: rest => (regionBounds size i).bind fun b =>
    (prepareListOps name size rest).bind fun x =>
    .ok ((i, r.maybePrepare.1) :: x.1,
      if r.maybePrepare.2 then ⟨name, some (.list (UInt32.ofNat b.1) (UInt32.ofNat b.2))⟩ :: x.2 else x.2)

/-- metadata.rs:386-401 `TableMetadata::insert_latest_tablet`. -/
def insertLatest (tablets : AMap UInt32 Metadata) (m : Metadata) : AMap UInt32 Metadata :=
  match tablets.get m.tabletId with
  | some l => if l.version < m.version then tablets.set m.tabletId m else tablets
  | none => tablets.set m.tabletId m

/-- metadata.rs:403-413 `TableMetadata::update_tablet`. -/
def Table.updateTablet (t : Table) (m : Metadata) (conflict : Bool) : Run Table :=
  (mapRegion t.size m.tabletId).bind fun i =>
  let t := { t with tablets := insertLatest t.tablets m }
  match t.regions.get i with
  | some r => .ok (if conflict then { t with regions := t.regions.set i r.markStale } else t)
  | none => .ok t

/-- metadata.rs:415-439 `TableMetadata::update_region`: the table afterwards, the region index and the requests to
notify. -/
def Table.updateRegion (t : Table) (start : UInt32) (tablets : Option (List Metadata)) : Run (Table × Nat × List Nat) :=
  (mapRegion t.size start).bind fun i =>
  match t.regions.get i with
  | none => .ok (t, i, [])
  | some r =>
    match tablets with
    | some ts =>
      .ok ({ t with tablets := ts.foldl insertLatest t.tablets,
                    regions := t.regions.set i (r.markFresh (ts.map Metadata.tabletId)).1 },
        i, (r.markFresh (ts.map Metadata.tabletId)).2)
    | none => .ok ({ t with regions := t.regions.set i r.markStale }, i, [])

/-- metadata.rs:441-445 `TableMetadata::register_pending_query`. -/
def Table.registerPending (t : Table) (id : Nat) (idx : Nat) : Run Table :=
  match t.regions.get idx with
  | some r => (r.register id).bind fun r' => .ok { t with regions := t.regions.set idx r' }
  | none => .ok t

/-- metadata.rs:464-470, 476-481: the collected hashes are handed out with the current tablet, if there are any. -/
def flush (tablets : AMap UInt32 Metadata) (q : Query) (cur : UInt32) (hs : List UInt32) : Run (List (Query × Metadata)) :=
  if hs = [] then .ok []
  else (Run.unwrap (tablets.get cur)).bind fun m => .ok [(q.createFrom hs, m)]

/-- metadata.rs:462-475: the merge loop.  `pos` is the position of the cyclic iterator over the tablet ids. -/
def mergeLoop (ids : List UInt32) (tablets : AMap UInt32 Metadata) (q : Query) :
    List UInt32 → (pos : Nat) → (cur : UInt32) → (hs : List UInt32) → (out : List (Query × Metadata)) → Run (List (Query × Metadata))
  | [], _, cur, hs, out => (flush tablets q cur hs).bind fun x => .ok (out ++ x)
  | h :: rest, pos, cur, hs, out =>
    if h > cur then
      (flush tablets q cur hs).bind fun x =>
      (Run.unwrap ids[pos % ids.length]?).bind fun next =>
      mergeLoop ids tablets q rest (pos + 1) next [] (out ++ x)
    else mergeLoop ids tablets q rest pos cur (hs ++ [h]) out

/-- metadata.rs:447-489 `TableMetadata::try_resolve_pending_query`. -/
def Table.tryResolve (t : Table) (idx : Nat) (q : Query) : Run (Option (List (Query × Metadata))) :=
  match t.regions.get idx with
  | none => .panic
  | some r =>
    match r.freshIds with
    | none => .ok none
    | some ids => (Run.unwrap ids[0]?).bind fun first =>
      (mergeLoop ids t.tablets q q.hashes 1 first [] []).bind fun x => .ok (some x)

/-- metadata.rs:508-518: going from region to region until `h` is not after the end of the region.  The loop terminates
because the end grows; the fuel `h + 1` is enough. -/
def advance (size : UInt32) (q : Query) (h : Nat) :
    (fuel : Nat) → (idx hi : Nat) → (hs : List UInt32) → (out : List (Query × Nat)) →
    Run (Nat × Nat × List UInt32 × List (Query × Nat))
  | 0, _, _, _, _ => .panic
  | fuel + 1, idx, hi, hs, out =>
    if h > hi then
      (regionBounds size (idx + 1)).bind fun b =>
      advance size q h fuel (idx + 1) b.2 [] (if hs = [] then out else out ++ [(q.createFrom hs, idx)])
    else .ok (idx, hi, hs, out)

/-- metadata.rs:507-525: the loop over the hashes and the last region. -/
def splitLoop (size : UInt32) (q : Query) :
    List UInt32 → (idx hi : Nat) → (hs : List UInt32) → (out : List (Query × Nat)) → Run (List (Query × Nat))
  | [], idx, _, hs, out => .ok (if hs = [] then out else out ++ [(q.createFrom hs, idx)])
  | h :: rest, idx, hi, hs, out =>
    (advance size q h.toNat (h.toNat + 1) idx hi hs out).bind fun x =>
    splitLoop size q rest x.1 x.2.1 (x.2.2.1 ++ [h]) x.2.2.2

/-- metadata.rs:493-525 `TableMetadata::split_and_map_query`: what is appended to the result. -/
def split (size : UInt32) (q : Query) : Run (List (Query × Nat)) :=
  match q.hashes with
  | [] => .ok []
  | h :: _ => (mapRegion size h).bind fun idx => (regionBounds size idx).bind fun b => splitLoop size q q.hashes idx b.2 [] []

/-- metadata.rs:545-548 `TableResolveNotification`. -/
inductive Notification where
  | source
  | handler
deriving Repr, DecidableEq

/-- metadata.rs:678-683 `TabletResolveResult`. -/
structure ResolveResult where
  queryId : Nat
  table : String
  metadata : Metadata
  hashes : List UInt32
deriving Repr, DecidableEq

/-- metadata.rs:701-706 `TabletResolveResult::take_result`. -/
def ResolveResult.take (r : ResolveResult) : Query × Metadata := (.create r.queryId r.table r.hashes, r.metadata)

/-- metadata.rs:551-557 `TabletResolve`. -/
structure Resolve where
  notification : Notification
  pending : AMap (String × Nat) Query
  results : AMap (String × UInt32) ResolveResult
deriving Repr, DecidableEq

/-- metadata.rs:607-622 `TabletResolve::append_results`, 685-699. -/
def appendResults (rs : AMap (String × UInt32) ResolveResult) : List (Query × Metadata) → AMap (String × UInt32) ResolveResult
  | [] => rs
  | (q, m) :: rest =>
    let r := (rs.get (q.table, m.tabletId)).getD ⟨q.id, q.table, m, []⟩
    appendResults (rs.set (q.table, m.tabletId) { r with hashes := r.hashes ++ q.hashes }) rest

/-- metadata.rs:99-107 `DefaultTabletMetadataCache`.  `cells` are the result cells handed out by `resolve_tablets` that have
been set, `calls` the calls of handlers, both with the id of the resolve request. -/
structure MetaCache where
  correlation : Nat
  resolveCounter : Nat
  tables : AMap String Table
  resolves : AMap Nat Resolve
  out : List (Nat × List TabletOp)
  cells : AMap Nat (List (Query × Metadata))
  calls : List (Nat × List (Query × UInt32))
deriving Repr, DecidableEq

/-- metadata.rs:110-120 `DefaultTabletMetadataCache::create`. -/
def MetaCache.create (correlation : Nat) : MetaCache := ⟨correlation, 1, [], [], [], [], []⟩

/-- metadata.rs:140-153 `init`; the configuration lists table names and region sizes. -/
def MetaCache.init (c : MetaCache) : List (String × UInt32) → Run MetaCache
  | [] => .ok c
  | (n, size) :: rest => (Table.create n size).bind fun t => MetaCache.init { c with tables := c.tables.set n t } rest

/-- metadata.rs:155-169: the list ops of all tables. -/
def prepareAllTables : AMap String Table → Run (AMap String Table × List TabletOp)
  | [] => .ok ([], [])
  | (n, t) :: rest => (prepareListOps t.name t.size t.regions).bind fun x =>
    (prepareAllTables rest).bind fun y => .ok ((n, { t with regions := x.1 }) :: y.1, x.2 ++ y.2)

/-- metadata.rs:155-169 `make_progress`. -/
def MetaCache.makeProgress (c : MetaCache) : Run MetaCache :=
  (prepareAllTables c.tables).bind fun x =>
  .ok (if x.2 = [] then { c with tables := x.1 }
    else { c with tables := x.1, correlation := c.correlation + 1, out := c.out ++ [(c.correlation + 1, x.2)] })

/-- metadata.rs:624-647 `TabletResolve::maybe_resolve_results` of request `id`; result.rs:69-73: a result cell is set at most
once. -/
def MetaCache.maybeResolve (c : MetaCache) (id : Nat) (r : Resolve) : Run (MetaCache × Resolve) :=
  if r.pending = [] then
    let results := r.results.map fun e => e.2.take
    let r' := { r with results := [] }
    match r.notification with
    | .source => if (c.cells.get id).isSome then .panic else .ok ({ c with cells := c.cells.set id results }, r')
    | .handler => .ok ({ c with calls := c.calls ++ [(id, results.map fun e => (e.1, e.2.tabletId))] }, r')
  else .ok (c, r)

/-- metadata.rs:575-581: splitting all queries. -/
def splitAll (tables : AMap String Table) : List Query → Run (List (Query × Nat))
  | [] => .ok []
  | q :: rest => (Run.unwrap (tables.get q.table)).bind fun t => (split t.size q).bind fun x =>
    (splitAll tables rest).bind fun y => .ok (x ++ y)

/-- metadata.rs:585-602: resolving every part or registering it as pending. -/
def resolveParts (id : Nat) : AMap String Table → Resolve → List (Query × Nat) → Run (AMap String Table × Resolve)
  | tables, r, [] => .ok (tables, r)
  | tables, r, (q, idx) :: rest =>
    (Run.unwrap (tables.get q.table)).bind fun t =>
    (t.tryResolve idx q).bind fun x =>
    match x with
    | some res => resolveParts id tables { r with results := appendResults r.results res } rest
    | none => (t.registerPending id idx).bind fun t' =>
      resolveParts id (tables.set q.table t') { r with pending := r.pending.set (q.table, idx) q } rest

/-- metadata.rs:122-136 `resolve_tablets_with_notification`, 561-605 `TabletResolve::create`.  The id of the new request is
the value of the counter afterwards. -/
def MetaCache.resolve (c : MetaCache) (n : Notification) (qs : List Query) : Run MetaCache :=
  let id := c.resolveCounter + 1
  (splitAll c.tables qs).bind fun parts =>
  (resolveParts id c.tables ⟨n, [], []⟩ parts).bind fun x =>
  ({ c with resolveCounter := id, tables := x.1 }.maybeResolve id x.2).bind fun y =>
  .ok { y.1 with resolves := y.1.resolves.set id y.2 }

/-- metadata.rs:194-203 `update_tablet`. -/
def MetaCache.updateTablet (c : MetaCache) (table : String) (m : Metadata) (conflict : Bool) : Run MetaCache :=
  match c.tables.get table with
  | some t => (t.updateTablet m conflict).bind fun t' => .ok { c with tables := c.tables.set table t' }
  | none => .ok c

/-- metadata.rs:649-675 `process_results_fresh` of request `id`. -/
def MetaCache.processFresh (c : MetaCache) (table : String) (idx : Nat) (t : Table) (id : Nat) : Run MetaCache :=
  match c.resolves.get id with
  | none => .ok c
  | some r =>
    let r' : Run Resolve :=
      match r.pending.get (table, idx) with
      | none => .ok r
      | some q => (t.tryResolve idx q).bind fun x =>
        match x with
        | some res => .ok { r with pending := r.pending.erase (table, idx), results := appendResults r.results res }
        | none => .panic
    r'.bind fun r' => (c.maybeResolve id r').bind fun y => .ok { y.1 with resolves := y.1.resolves.set id y.2 }

/-- metadata.rs:229-239: notifying the requests one by one. -/
def MetaCache.notifyAll (c : MetaCache) (table : String) (idx : Nat) (t : Table) : List Nat → Run MetaCache
  | [] => .ok c
  | id :: rest => (c.processFresh table idx t id).bind fun c' => c'.notifyAll table idx t rest

/-- metadata.rs:208-245: one list result. -/
def MetaCache.processResult (c : MetaCache) (x : TabletOpResult) : Run MetaCache :=
  match x.result with
  | some (.list start _ tablets) =>
    match c.tables.get x.table with
    | some t => (t.updateRegion start (if x.status = .succeeded then some tablets else none)).bind fun y =>
      { c with tables := c.tables.set x.table y.1 }.notifyAll x.table y.2.1 y.1 y.2.2
    | none => .ok c
  | _ => .panic

/-- metadata.rs:205-247 `process_in_message`. -/
def MetaCache.processIn (c : MetaCache) : List TabletOpResult → Run MetaCache
  | [] => .ok c
  | x :: rest => (c.processResult x).bind fun c' => c'.processIn rest

/-- metadata.rs:249-251 `take_out_messages`. -/
def MetaCache.takeOut (c : MetaCache) : MetaCache × List (Nat × List TabletOp) := ({ c with out := [] }, c.out)

end TCP.Cache
