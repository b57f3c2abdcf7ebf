import Verif.Props.CacheMetadata
import Verif.Spec.CacheResolve

/-!
# Proofs about whole resolve requests (C82)
-/

namespace TCP.Cache

open TCP TCP.Cache.Spec TCP.TabletStore

/-- The cached region with this table and index. -/
def regionOf (tables : AMap String Table) (key : String × Nat) : Option Region := (tables.get key.1).bind fun t => t.regions.get key.2

/-- The requests waiting for a region. -/
def Region.reqs (r : Region) : List Nat :=
  match r.state with
  | .stale reqs _ => reqs
  | .fresh => []

/-- The requests waiting for the region with this table and index. -/
def waiting (tables : AMap String Table) (key : String × Nat) : List Nat :=
  match regionOf tables key with
  | some r => r.reqs
  | none => []

theorem regionOf_set {tables : AMap String Table} {n : String} {t t' : Table} (ht : tables.get n = some t) {i : Nat} {r' : Region}
    (hr : t'.regions = t.regions.set i r') (key : String × Nat) :
    regionOf (tables.set n t') key = if (n, i) = key then some r' else regionOf tables key := by
  obtain ⟨k, j⟩ := key
  simp only [regionOf, AMap.get_set, Prod.mk.injEq]
  by_cases h : n = k
  · subst h
    simp only [if_true, Option.bind_some, hr, AMap.get_set, true_and, ht]
  · simp [h]

theorem regionOf_same {tables : AMap String Table} {n : String} {t t' : Table} (ht : tables.get n = some t)
    (hr : t'.regions = t.regions) (key : String × Nat) : regionOf (tables.set n t') key = regionOf tables key := by
  obtain ⟨k, j⟩ := key
  simp only [regionOf, AMap.get_set]
  by_cases h : n = k
  · subst h
    simp only [if_true, Option.bind_some, hr, ht]
  · simp [h]

theorem markStale_reqs (r : Region) : r.markStale.reqs = r.reqs := by
  unfold Region.markStale Region.reqs; rfl

theorem maybePrepare_reqs (r : Region) : r.maybePrepare.1.reqs = r.reqs := by
  unfold Region.maybePrepare Region.reqs
  cases h : r.state with
  | stale reqs p =>
    simp only
    by_cases hc : p = false ∧ reqs ≠ []
    · simp only [if_pos hc]
    · simp only [if_neg hc, h]
  | fresh => simp only [h]

/-! ### What happens to regions -/

theorem updateTablet_waiting {c c' : MetaCache} {n : String} {m : Metadata} {b : Bool} (h : c.updateTablet n m b = .ok c') (key : String × Nat) :
    waiting c'.tables key = waiting c.tables key := by
  unfold MetaCache.updateTablet at h
  cases ht : c.tables.get n with
  | none => simp only [ht, Run.ok.injEq] at h; subst h; rfl
  | some t =>
    simp only [ht] at h
    obtain ⟨t', h1, h2⟩ := Run.bind_eq_ok.mp h
    simp only [Run.ok.injEq] at h2
    subst h2
    obtain ⟨i, h3, h4⟩ := Run.bind_eq_ok.mp h1
    cases hr : t.regions.get i with
    | none =>
      simp only [hr, Run.ok.injEq] at h4
      subst h4
      simp only [waiting, regionOf_same (t' := { t with tablets := insertLatest t.tablets m }) ht rfl]
    | some r =>
      simp only [hr, Run.ok.injEq] at h4
      subst h4
      split
      · simp only [waiting]
        rw [regionOf_set (t' := { t with tablets := insertLatest t.tablets m, regions := t.regions.set i r.markStale }) ht rfl]
        by_cases e : (n, i) = key
        · subst e
          simp only [if_true, markStale_reqs, regionOf, ht, Option.bind_some, hr]
        · simp only [if_neg e]
      · simp only [waiting, regionOf_same (t' := { t with tablets := insertLatest t.tablets m }) ht rfl]

theorem prepareAll_region : ∀ {a b : AMap String Table} {ops : List TabletOp}, prepareAllTables a = .ok (b, ops) → ∀ key,
    regionOf b key = (regionOf a key).map fun r => r.maybePrepare.1 := by
  intro a
  induction a with
  | nil => intro b ops h key; simp only [prepareAllTables, Run.ok.injEq, Prod.mk.injEq] at h; obtain ⟨rfl, rfl⟩ := h; rfl
  | cons e rest ih =>
    obtain ⟨n, t⟩ := e
    intro b ops h key
    obtain ⟨⟨x1, x2⟩, h1, h2⟩ := Run.bind_eq_ok.mp h
    obtain ⟨⟨y1, y2⟩, h3, h4⟩ := Run.bind_eq_ok.mp h2
    simp only [Run.ok.injEq, Prod.mk.injEq] at h4
    rw [← h4.1]
    have := ih h3 key
    unfold regionOf at this ⊢
    simp only [AMap.get_cons]
    split
    · simp only [Option.bind_some]
      rw [prepareListOps_spec h1, AMap.get_mapVals]
    · exact this

theorem progress_region {c c' : MetaCache} (h : c.makeProgress = .ok c') (key : String × Nat) :
    regionOf c'.tables key = (regionOf c.tables key).map fun r => r.maybePrepare.1 := by
  obtain ⟨⟨x1, x2⟩, h1, h2⟩ := Run.bind_eq_ok.mp h
  simp only [Run.ok.injEq] at h2
  have : c'.tables = x1 := by subst h2; split <;> rfl
  rw [this]
  exact prepareAll_region h1 key

theorem progress_waiting {c c' : MetaCache} (h : c.makeProgress = .ok c') (key : String × Nat) :
    waiting c'.tables key = waiting c.tables key := by
  simp only [waiting, progress_region h]
  cases regionOf c.tables key with
  | none => rfl
  | some r => simp [maybePrepare_reqs]

/-- What a list result does to the waiting requests: either nothing, or those of its region are notified. -/
theorem updateRegion_waiting {tables : AMap String Table} {n : String} {t t' : Table} (ht : tables.get n = some t) {start : UInt32}
    {o : Option (List Metadata)} {i : Nat} {ns : List Nat} (h : t.updateRegion start o = .ok (t', i, ns)) (key : String × Nat) :
    waiting (tables.set n t') key = (if (n, i) = key ∧ o.isSome then [] else waiting tables key) ∧
    (ns = if o.isSome then waiting tables (n, i) else []) := by
  unfold Table.updateRegion at h
  obtain ⟨j, h1, h2⟩ := Run.bind_eq_ok.mp h
  cases hr : t.regions.get j with
  | none =>
    simp only [hr, Run.ok.injEq, Prod.mk.injEq] at h2
    obtain ⟨rfl, rfl, rfl⟩ := h2
    have hw : waiting tables (n, j) = [] := by simp [waiting, regionOf, ht, hr]
    refine ⟨?_, by rw [hw]; split <;> rfl⟩
    have : waiting (tables.set n t) key = waiting tables key := by simp only [waiting, regionOf_same ht rfl]
    rw [this]
    split
    · rename_i e; rw [← e.1, hw]
    · rfl
  | some r =>
    have hw : waiting tables (n, j) = r.reqs := by simp [waiting, regionOf, ht, hr]
    simp only [hr] at h2
    cases o with
    | some ts =>
      simp only [Run.ok.injEq, Prod.mk.injEq] at h2
      obtain ⟨rfl, rfl, rfl⟩ := h2
      refine ⟨?_, by rw [hw]; rfl⟩
      simp only [waiting]
      rw [regionOf_set (t' := { t with tablets := ts.foldl insertLatest t.tablets, regions := t.regions.set j _ }) ht rfl]
      by_cases e : (n, j) = key
      · simp [e, Region.markFresh, Region.reqs]
      · simp [e]
    | none =>
      simp only [Run.ok.injEq, Prod.mk.injEq] at h2
      obtain ⟨rfl, rfl, rfl⟩ := h2
      refine ⟨?_, rfl⟩
      simp only [Option.isSome_none, and_false, Bool.false_eq_true, if_false]
      simp only [waiting]
      rw [regionOf_set (t' := { t with regions := t.regions.set j _ }) ht rfl]
      by_cases e : (n, j) = key
      · subst e; simp [markStale_reqs, regionOf, ht, hr]
      · simp only [if_neg e]

theorem registerPending_region {tables : AMap String Table} {n : String} {t t' : Table} (ht : tables.get n = some t) {id idx : Nat}
    (h : t.registerPending id idx = .ok t') {q : Query} (hx : t.tryResolve idx q = .ok none) : ∃ r reqs b,
    t.regions.get idx = some r ∧ r.state = .stale reqs b ∧ t' = { t with regions := t.regions.set idx { r with state := .stale (reqs ++ [id]) b } } := by
  unfold Table.registerPending at h
  cases hr : t.regions.get idx with
  | none => simp [Table.tryResolve, hr] at hx
  | some r =>
    simp only [hr] at h
    obtain ⟨r', h1, h2⟩ := Run.bind_eq_ok.mp h
    simp only [Run.ok.injEq] at h2
    unfold Region.register at h1
    cases hs : r.state with
    | fresh => simp [hs] at h1
    | stale reqs b =>
      simp only [hs, Run.ok.injEq] at h1
      subst h1
      exact ⟨r, reqs, b, rfl, hs, h2.symm⟩

/-- Registering a request adds it at the end, at its region only, and what is known is unchanged. -/
theorem registerPending_waiting {tables : AMap String Table} {n : String} {t t' : Table} (ht : tables.get n = some t) {id idx : Nat}
    (h : t.registerPending id idx = .ok t') {q : Query} (hx : t.tryResolve idx q = .ok none) :
    (∀ key, waiting (tables.set n t') key = if (n, idx) = key then waiting tables key ++ [id] else waiting tables key) ∧
    (∀ k u' j p res, (tables.set n t').get k = some u' → u'.tryResolve j p = .ok (some res) →
      ∃ u, tables.get k = some u ∧ u.tryResolve j p = .ok (some res)) := by
  obtain ⟨r, reqs, b, h1, h2, rfl⟩ := registerPending_region ht h hx
  constructor
  · intro key
    simp only [waiting]
    rw [regionOf_set (t' := { t with regions := t.regions.set idx _ }) ht rfl]
    by_cases e : (n, idx) = key
    · subst e; simp [Region.reqs, regionOf, ht, h1, h2]
    · simp only [if_neg e]
  · intro k u' j p res hu hp
    rw [AMap.get_set] at hu
    split at hu
    · rename_i e
      subst e
      cases hu
      refine ⟨t, ht, ?_⟩
      unfold Table.tryResolve at hp ⊢
      simp only [AMap.get_set] at hp
      by_cases hj : idx = j
      · subst hj; simp [Region.freshIds] at hp
      · simpa only [if_neg hj] using hp
    · exact ⟨u', hu, hp⟩

/-! ### Results -/

/-- The collected results say `x`. -/
def Held (rs : AMap (String × UInt32) ResolveResult) (x : Place) : Prop := ∃ r, rs.get (x.1, x.2.1) = some r ∧ x.2.2 ∈ r.hashes

/-- The collected results are kept under their table and tablet. -/
structure ResultsOk (rs : AMap (String × UInt32) ResolveResult) : Prop where
  wf : AMap.WF rs
  keyed : ∀ key r, rs.get key = some r → key = (r.table, r.metadata.tabletId)

theorem appendResults_ok : ∀ (res : List (Query × Metadata)) {rs : AMap (String × UInt32) ResolveResult}, ResultsOk rs →
    ResultsOk (appendResults rs res) ∧ ∀ x, Held (appendResults rs res) x ↔ Held rs x ∨ x ∈ placed res
  | [], rs, h => ⟨h, fun x => by simp [appendResults, placed]⟩
  | (q, m) :: rest, rs, h => by
    have hk : ∀ r0, rs.get (q.table, m.tabletId) = some r0 → (q.table, m.tabletId) = (r0.table, r0.metadata.tabletId) := h.keyed _
    have h1 : ResultsOk (rs.set (q.table, m.tabletId) { ((rs.get (q.table, m.tabletId)).getD ⟨q.id, q.table, m, []⟩) with
        hashes := ((rs.get (q.table, m.tabletId)).getD ⟨q.id, q.table, m, []⟩).hashes ++ q.hashes }) := by
      refine ⟨h.wf.set _ _, fun key r hr => ?_⟩
      rw [AMap.get_set] at hr
      split at hr
      · rename_i e
        simp only [Option.some.injEq] at hr
        subst hr e
        cases hg : rs.get (q.table, m.tabletId) with
        | none => simp
        | some r0 => simpa using hk r0 hg
      · exact h.keyed key r hr
    obtain ⟨i1, i2⟩ := appendResults_ok rest h1
    refine ⟨i1, fun x => ?_⟩
    rw [show appendResults rs ((q, m) :: rest) = appendResults _ rest from rfl, i2]
    obtain ⟨a, b, d⟩ := x
    simp only [Held, AMap.get_set, placed, List.flatMap_cons, List.mem_append, List.mem_map, Prod.mk.injEq]
    by_cases e : (q.table, m.tabletId) = (a, b)
    · simp only [Prod.mk.injEq] at e
      obtain ⟨rfl, rfl⟩ := e
      cases hg : rs.get (q.table, m.tabletId) with
      | none =>
        simp
      | some r0 =>
        simp [or_assoc]
    · have e2 : ¬ (q.table = a ∧ m.tabletId = b) := fun k => e (by rw [k.1, k.2])
      have : ¬ (∃ h, h ∈ q.hashes ∧ q.table = a ∧ m.tabletId = b ∧ h = d) := by
        rintro ⟨_, _, rfl, rfl, _⟩; exact e rfl
      simp [this, e2]

theorem nodup_of_asc {l : List UInt32} (h : Asc l) : l.Nodup :=
  h.imp (fun hab => by rintro rfl; simp at hab)

theorem take_ok {rs : AMap (String × UInt32) ResolveResult} (h : ResultsOk rs) :
    (placed (rs.map fun e => e.2.take)).Nodup ∧ ∀ x, x ∈ placed (rs.map fun e => e.2.take) ↔ Held rs x := by
  have hkey : ∀ e ∈ rs, e.1 = (e.2.table, e.2.metadata.tabletId) := fun e he => h.keyed e.1 e.2 (AMap.get_of_mem h.wf he)
  constructor
  · simp only [placed, List.flatMap_map]
    unfold List.Nodup
    rw [List.pairwise_flatMap]
    constructor
    · intro e _
      rw [List.pairwise_map]
      refine (nodup_of_asc (asc_setOf e.2.hashes)).imp ?_
      intro a b hab he
      simp only [Prod.mk.injEq] at he
      exact hab he.2.2
    · have hw : rs.Pairwise fun a b => a.1 ≠ b.1 := by
        have := h.wf
        unfold AMap.WF AMap.keys List.Nodup at this
        rwa [List.pairwise_map] at this
      refine hw.imp_of_mem ?_
      intro a b ha hb hab x hx y hy hxy
      subst hxy
      obtain ⟨u, _, rfl⟩ := List.mem_map.mp hx
      obtain ⟨v, _, hv⟩ := List.mem_map.mp hy
      simp only [ResolveResult.take, Query.create, Prod.mk.injEq] at hv
      exact hab (by rw [hkey a ha, hkey b hb, hv.1, hv.2.1])
  · rintro ⟨a, b, d⟩
    simp only [placed, List.flatMap_map, List.mem_flatMap, List.mem_map, Held, ResolveResult.take, Query.create, mem_setOf, Prod.mk.injEq]
    constructor
    · rintro ⟨e, he, u, hu, rfl, rfl, rfl⟩
      exact ⟨e.2, by rw [← hkey e he]; exact AMap.get_of_mem h.wf he, hu⟩
    · rintro ⟨r, hr, hd⟩
      have := h.keyed _ _ hr
      simp only [Prod.mk.injEq] at this
      exact ⟨((a, b), r), AMap.mem_of_get hr, d, hd, this.1.symm, this.2.symm, rfl⟩

theorem placedIds_map (res : List (Query × Metadata)) : placedIds (res.map fun e => (e.1, e.2.tabletId)) = placed res := by
  simp [placedIds, placed, List.flatMap_map]

/-- Answering a request, if nothing of it is pending. -/
theorem maybeResolve_answers {c c' : MetaCache} {id : Nat} {r r' : Resolve} (h : c.maybeResolve id r = .ok (c', r'))
    (ha : answersTo c r.notification id = []) (hw : ResultsOk r.results) :
    r'.notification = r.notification ∧ r'.pending = r.pending ∧
    (r.pending = [] → r'.results = [] ∧ ∃ pl, answersTo c' r.notification id = [pl] ∧ pl.Nodup ∧ ∀ x, x ∈ pl ↔ Held r.results x) ∧
    (r.pending ≠ [] → r' = r ∧ c' = c) := by
  unfold MetaCache.maybeResolve at h
  obtain ⟨t1, t2⟩ := take_ok hw
  by_cases hp : r.pending = []
  · simp only [if_pos hp] at h
    cases hn : r.notification with
    | source =>
      simp only [hn] at h ha
      split at h
      · simp at h
      · simp only [Run.ok.injEq, Prod.mk.injEq] at h
        obtain ⟨rfl, rfl⟩ := h
        refine ⟨rfl, rfl, fun _ => ⟨rfl, _, by simp [answersTo], t1, t2⟩, fun hne => absurd hp hne⟩
    | handler =>
      simp only [hn] at h ha
      simp only [Run.ok.injEq, Prod.mk.injEq] at h
      obtain ⟨rfl, rfl⟩ := h
      refine ⟨rfl, rfl, fun _ => ⟨rfl, placed (r.results.map fun e => e.2.take), ?_, t1, t2⟩, fun hne => absurd hp hne⟩
      simp only [answersTo] at ha ⊢
      rw [List.filter_append, List.map_append, ha]
      simp only [decide_true, List.filter_cons_of_pos, List.filter_nil, List.map_cons, List.map_nil, List.nil_append, placedIds_map]
  · simp only [if_neg hp, Run.ok.injEq, Prod.mk.injEq] at h
    obtain ⟨rfl, rfl⟩ := h
    exact ⟨rfl, rfl, fun e => absurd e hp, fun _ => ⟨rfl, rfl⟩⟩

theorem maybeResolve_frame {c c' : MetaCache} {id : Nat} {r r' : Resolve} (h : c.maybeResolve id r = .ok (c', r')) :
    c'.tables = c.tables ∧ c'.resolves = c.resolves ∧ c'.resolveCounter = c.resolveCounter ∧ c'.out = c.out ∧
    ∀ j n, j ≠ id → answersTo c' n j = answersTo c n j := by
  unfold MetaCache.maybeResolve at h
  split at h
  · simp only at h
    split at h
    · split at h
      · simp at h
      · simp only [Run.ok.injEq, Prod.mk.injEq] at h
        obtain ⟨rfl, rfl⟩ := h
        refine ⟨rfl, rfl, rfl, rfl, fun j n hj => ?_⟩
        cases n with
        | source => simp only [answersTo, AMap.get_set, if_neg (Ne.symm hj)]
        | handler => rfl
    · simp only [Run.ok.injEq, Prod.mk.injEq] at h
      obtain ⟨rfl, rfl⟩ := h
      refine ⟨rfl, rfl, rfl, rfl, fun j n hj => ?_⟩
      cases n with
      | source => rfl
      | handler => simp [answersTo, Ne.symm hj]
  · simp only [Run.ok.injEq, Prod.mk.injEq] at h
    obtain ⟨rfl, rfl⟩ := h; exact ⟨rfl, rfl, rfl, rfl, fun _ _ _ => rfl⟩

theorem processFresh_frame {c c' : MetaCache} {n : String} {idx id : Nat} {t : Table} (h : c.processFresh n idx t id = .ok c') :
    c'.tables = c.tables ∧ c'.resolveCounter = c.resolveCounter ∧ c'.out = c.out ∧
    (∀ j, j ≠ id → c'.resolves.get j = c.resolves.get j ∧ ∀ k, answersTo c' k j = answersTo c k j) ∧
    (c.resolves.get id = none → c' = c) := by
  unfold MetaCache.processFresh at h
  cases hr : c.resolves.get id with
  | none => simp only [hr, Run.ok.injEq] at h; subst h; exact ⟨rfl, rfl, rfl, fun _ _ => ⟨rfl, fun _ => rfl⟩, fun _ => rfl⟩
  | some r =>
    simp only [hr] at h
    obtain ⟨r', _, h2⟩ := Run.bind_eq_ok.mp h
    obtain ⟨y, h3, h4⟩ := Run.bind_eq_ok.mp h2
    simp only [Run.ok.injEq] at h4
    obtain ⟨m1, m2, m3, m4, m5⟩ := maybeResolve_frame h3
    subst h4
    refine ⟨m1, m3, m4, fun j hj => ⟨?_, fun k => m5 j k hj⟩, by simp⟩
    simp only [AMap.get_set, if_neg (Ne.symm hj), m2]

/-! ### One request -/

/-- How often a request is waiting for a region. -/
def pendingCount (r : Resolve) (key : String × Nat) : Nat := if (r.pending.get key).isSome then 1 else 0

/-- What has been collected for a request with the given parts: `R` relates parts and results they may have. -/
structure Acc (R : Query × Nat → List (Query × Metadata) → Prop) (n : Notification) (parts : List (Query × Nat))
    (res : Query × Nat → List (Query × Metadata)) (r : Resolve) : Prop where
  kind : r.notification = n
  pend : ∀ key q, r.pending.get key = some q → key.1 = q.table ∧ (q, key.2) ∈ parts
  done : ∀ p ∈ parts, r.pending.get (keyOf p) = none → R p (res p)
  ok : ResultsOk r.results

/-- The results collected are those of the parts that are not pending. -/
def Collected (parts : List (Query × Nat)) (res : Query × Nat → List (Query × Metadata)) (r : Resolve) : Prop :=
  ∀ x, Held r.results x ↔ ∃ p ∈ parts, r.pending.get (keyOf p) = none ∧ x ∈ placed (res p)

/-- A request is answered with the results of its parts. -/
def Answered (parts : List (Query × Nat)) (res : Query × Nat → List (Query × Metadata)) (n : Notification) (id : Nat) (c : MetaCache) : Prop :=
  ∃ pl, answersTo c n id = [pl] ∧ pl.Nodup ∧ ∀ x, x ∈ pl ↔ ∃ p ∈ parts, x ∈ placed (res p)

/-- The state of a request.  `rest` are notifications for region `key0` still to be made. -/
structure Tracked (R : Query × Nat → List (Query × Metadata) → Prop) (n : Notification) (parts : List (Query × Nat)) (id : Nat)
    (key0 : String × Nat) (rest : List Nat) (c : MetaCache) (r : Resolve) (res : Query × Nat → List (Query × Metadata)) : Prop where
  stored : c.resolves.get id = some r
  acc : Acc R n parts res r
  cnt : ∀ key, (waiting c.tables key).count id + (if key0 = key then rest.count id else 0) = pendingCount r key
  answered : r.pending = [] → Answered parts res n id c
  waits : r.pending ≠ [] → answersTo c n id = [] ∧ Collected parts res r

theorem inj_of_nodup {α β : Type} {f : α → β} : ∀ {l : List α}, (l.map f).Nodup → ∀ {a b : α}, a ∈ l → b ∈ l → f a = f b → a = b
  | [], _, _, _, ha, _, _ => by simp at ha
  | x :: l, h, a, b, ha, hb, he => by
    simp only [List.map_cons, List.nodup_cons] at h
    rcases List.mem_cons.mp ha with rfl | ha'
    · rcases List.mem_cons.mp hb with rfl | hb'
      · rfl
      · exact absurd (List.mem_map.mpr ⟨b, hb', he.symm⟩) h.1
    · rcases List.mem_cons.mp hb with rfl | hb'
      · exact absurd (List.mem_map.mpr ⟨a, ha', he⟩) h.1
      · exact inj_of_nodup h.2 ha' hb' he

theorem pending_nil {α β : Type} [DecidableEq α] {m : AMap α β} (h : ∀ key, m.get key = none) : m = [] := by
  cases m with
  | nil => rfl
  | cons e m => have := h e.1; simp [AMap.get] at this

/-- The request after its results were looked at. -/
theorem tracked_resolve {R : Query × Nat → List (Query × Metadata) → Prop} {n : Notification} {parts : List (Query × Nat)} {id : Nat}
    {key0 : String × Nat} {rest : List Nat} {c c1 c' : MetaCache} {r r' : Resolve} {res : Query × Nat → List (Query × Metadata)}
    (h : c.maybeResolve id r = .ok (c1, r')) (hc : c' = { c1 with resolves := c1.resolves.set id r' }) (ha : Acc R n parts res r)
    (hcol : Collected parts res r) (hn : answersTo c n id = [])
    (hcnt : ∀ key, (waiting c.tables key).count id + (if key0 = key then rest.count id else 0) = pendingCount r key) :
    Tracked R n parts id key0 rest c' r' res := by
  obtain ⟨f1, f2, f3, f4, f5⟩ := maybeResolve_frame h
  obtain ⟨g1, g2, g3, g4⟩ := maybeResolve_answers h (by rw [ha.kind]; exact hn) ha.ok
  subst hc
  refine ⟨by simp, ⟨g1.trans ha.kind, by rw [g2]; exact ha.pend, by rw [g2]; exact ha.done, ?_⟩, ?_, ?_, ?_⟩
  · by_cases hp : r.pending = []
    · rw [(g3 hp).1]; exact ⟨AMap.WF.nil, by simp⟩
    · rw [(g4 hp).1]; exact ha.ok
  · intro key
    simp only [f1, pendingCount, g2]
    exact hcnt key
  · intro hp
    rw [g2] at hp
    obtain ⟨_, pl, a1, a2, a3⟩ := g3 hp
    refine ⟨pl, by rw [ha.kind] at a1; exact a1, a2, fun x => ?_⟩
    rw [a3, hcol x]
    simp [hp]
  · intro hp
    rw [g2] at hp
    obtain ⟨rfl, rfl⟩ := g4 hp
    exact ⟨hn, hcol⟩

/-- A request that is notified about a region of which it is told once. -/
theorem tracked_notify {R : Query × Nat → List (Query × Metadata) → Prop} {n : Notification} {parts : List (Query × Nat)} {id : Nat}
    (hnd : (parts.map keyOf).Nodup) {table : String} {idx : Nat} {t : Table}
    (hR : ∀ q x, q.table = table → t.tryResolve idx q = .ok (some x) → R (q, idx) x)
    {j : Nat} {rest : List Nat} {c c' : MetaCache} {r : Resolve} {res : Query × Nat → List (Query × Metadata)}
    (ht : Tracked R n parts id (table, idx) (j :: rest) c r res) (h : c.processFresh table idx t j = .ok c') :
    ∃ r' res', Tracked R n parts id (table, idx) rest c' r' res' := by
  obtain ⟨f1, f2, f3, f4, _⟩ := processFresh_frame h
  by_cases hj : j = id
  · subst hj
    unfold MetaCache.processFresh at h
    simp only [ht.stored] at h
    obtain ⟨r1, h1, h2⟩ := Run.bind_eq_ok.mp h
    obtain ⟨y, h3, h4⟩ := Run.bind_eq_ok.mp h2
    simp only [Run.ok.injEq] at h4
    have hc0 := ht.cnt (table, idx)
    simp only [if_true, List.count_cons_self] at hc0
    have hp : (r.pending.get (table, idx)).isSome := by
      unfold pendingCount at hc0
      split at hc0
      · assumption
      · omega
    have hc1 : (waiting c.tables (table, idx)).count j = 0 ∧ rest.count j = 0 := by
      simp only [pendingCount, hp, if_true] at hc0
      omega
    obtain ⟨q, hq⟩ := Option.isSome_iff_exists.mp hp
    simp only [hq] at h1
    obtain ⟨x, h5, h6⟩ := Run.bind_eq_ok.mp h1
    cases x with
    | none => simp at h6
    | some x =>
      simp only [Run.ok.injEq] at h6
      subst h6
      have hne : r.pending ≠ [] := by intro e; rw [e] at hq; simp at hq
      obtain ⟨w1, w2⟩ := ht.waits hne
      obtain ⟨p1, p2⟩ := ht.acc.pend _ _ hq
      simp only at p1 p2
      obtain ⟨o1, o2⟩ := appendResults_ok x ht.acc.ok
      -- the part that is resolved is the only one with this region
      have huniq : ∀ p ∈ parts, keyOf p = (table, idx) → p = (q, idx) := by
        intro p hp' hk
        have hk2 : keyOf p = keyOf (q, idx) := by rw [hk]; simp [keyOf, p1]
        exact inj_of_nodup hnd hp' p2 hk2
      refine ⟨y.2, fun p => if p = (q, idx) then x else res p, tracked_resolve h3 h4.symm ?_ ?_ w1 ?_⟩
      · refine ⟨ht.acc.kind, ?_, ?_, o1⟩
        · intro key q' hq'
          rw [AMap.get_erase] at hq'
          split at hq'
          · simp at hq'
          · exact ht.acc.pend key q' hq'
        · intro p hp' hn'
          split
          · rename_i e
            subst e
            exact hR q x p1.symm h5
          · rename_i e
            refine ht.acc.done p hp' ?_
            rw [AMap.get_erase] at hn'
            split at hn'
            · rename_i e2; exact absurd (huniq p hp' e2.symm) e
            · exact hn'
      · intro z
        rw [o2 z, w2 z]
        constructor
        · rintro (⟨p, hp', hn', hz⟩ | hz)
          · refine ⟨p, hp', ?_, ?_⟩
            · rw [AMap.get_erase, hn']; split <;> rfl
            · have : p ≠ (q, idx) := by
                rintro rfl
                simp only [keyOf, ← p1] at hn'
                rw [hq] at hn'; simp at hn'
              simp only [if_neg this]; exact hz
          · refine ⟨(q, idx), p2, by simp [keyOf, ← p1], by simpa using hz⟩
        · rintro ⟨p, hp', hn', hz⟩
          by_cases e : p = (q, idx)
          · simp only [if_pos e] at hz; exact .inr hz
          · simp only [if_neg e] at hz
            refine .inl ⟨p, hp', ?_, hz⟩
            rw [AMap.get_erase] at hn'
            split at hn'
            · rename_i e2; exact absurd (huniq p hp' e2.symm) e
            · exact hn'
      · intro key
        have := ht.cnt key
        by_cases e : (table, idx) = key
        · subst e
          simp [pendingCount, hc1.1, hc1.2]
        · simp only [if_neg e] at this ⊢
          rw [this]
          simp [pendingCount, AMap.get_erase, if_neg e]
  · obtain ⟨k1, k2⟩ := f4 id (fun e => hj e.symm)
    refine ⟨r, res, by rw [k1]; exact ht.stored, ht.acc, ?_, ?_, ?_⟩
    · intro key
      rw [f1, ← ht.cnt key, List.count_cons_of_ne hj]
    · intro hp
      obtain ⟨pl, a1, a2⟩ := ht.answered hp
      exact ⟨pl, by rw [k2]; exact a1, a2⟩
    · intro hp
      rw [k2]; exact ht.waits hp

theorem tracked_notifyAll {R : Query × Nat → List (Query × Metadata) → Prop} {n : Notification} {parts : List (Query × Nat)} {id : Nat}
    (hnd : (parts.map keyOf).Nodup) {table : String} {idx : Nat} {t : Table}
    (hR : ∀ q x, q.table = table → t.tryResolve idx q = .ok (some x) → R (q, idx) x) : ∀ {rest : List Nat} {c c' : MetaCache} {r : Resolve}
    {res : Query × Nat → List (Query × Metadata)}, Tracked R n parts id (table, idx) rest c r res → c.notifyAll table idx t rest = .ok c' →
    ∃ r' res', Tracked R n parts id (table, idx) [] c' r' res' := by
  intro rest
  induction rest with
  | nil => intro c c' r res ht h; simp only [MetaCache.notifyAll, Run.ok.injEq] at h; subst h; exact ⟨r, res, ht⟩
  | cons j rest ih =>
    intro c c' r res ht h
    obtain ⟨c1, h1, h2⟩ := Run.bind_eq_ok.mp h
    obtain ⟨r', res', ht'⟩ := tracked_notify hnd hR ht h1
    exact ih ht' h2

theorem Tracked.frame {R R' : Query × Nat → List (Query × Metadata) → Prop} {n : Notification} {parts : List (Query × Nat)} {id : Nat}
    {key0 key1 : String × Nat} {rest : List Nat} {c c' : MetaCache} {r : Resolve} {res : Query × Nat → List (Query × Metadata)}
    (h : Tracked R n parts id key0 [] c r res) (hR : ∀ p x, R p x → R' p x) (h1 : c'.resolves.get id = c.resolves.get id)
    (h2 : answersTo c' n id = answersTo c n id)
    (h3 : ∀ key, (waiting c'.tables key).count id + (if key1 = key then rest.count id else 0) = (waiting c.tables key).count id) :
    Tracked R' n parts id key1 rest c' r res := by
  refine ⟨h1.trans h.stored, ⟨h.acc.kind, h.acc.pend, fun p hp hn => hR _ _ (h.acc.done p hp hn), h.acc.ok⟩, ?_, ?_, ?_⟩
  · intro key
    rw [h3 key, ← h.cnt key]
    simp
  · intro hp
    obtain ⟨pl, a1, a2⟩ := h.answered hp
    exact ⟨pl, h2.trans a1, a2⟩
  · intro hp
    obtain ⟨w1, w2⟩ := h.waits hp
    exact ⟨h2.trans w1, w2⟩

/-- The loop over the parts of a new request. -/
theorem resolveParts_acc {R : Query × Nat → List (Query × Metadata) → Prop} {n : Notification} {id : Nat} {a0 : AMap String Table}
    (hR : ∀ (p : Query × Nat) x u, a0.get p.1.table = some u → u.tryResolve p.2 p.1 = .ok (some x) → R p x) :
    ∀ {todo done : List (Query × Nat)} {a b : AMap String Table} {r r' : Resolve} {res : Query × Nat → List (Query × Metadata)},
    ((done ++ todo).map keyOf).Nodup → resolveParts id a r todo = .ok (b, r') →
    (∀ k u j p x, a.get k = some u → u.tryResolve j p = .ok (some x) → ∃ u0, a0.get k = some u0 ∧ u0.tryResolve j p = .ok (some x)) →
    Acc R n done res r → Collected done res r → (∀ key, (waiting a key).count id = pendingCount r key) →
    ∃ res', Acc R n (done ++ todo) res' r' ∧ Collected (done ++ todo) res' r' ∧ ∀ key, (waiting b key).count id = pendingCount r' key := by
  intro todo
  induction todo with
  | nil =>
    intro done a b r r' res _ h _ h2 h3 h4
    simp only [resolveParts, Run.ok.injEq, Prod.mk.injEq] at h
    obtain ⟨rfl, rfl⟩ := h
    rw [List.append_nil]
    exact ⟨res, h2, h3, h4⟩
  | cons e todo ih =>
    obtain ⟨q, idx⟩ := e
    intro done a b r r' res hnd h hb h2 h3 h4
    unfold resolveParts at h
    cases ht : a.get q.table with
    | none => simp [ht, Run.unwrap, Run.bind] at h
    | some t =>
      simp only [ht, Run.unwrap, Run.bind_ok] at h
      obtain ⟨x, h5, h6⟩ := Run.bind_eq_ok.mp h
      -- the region is new
      have hnew : ∀ p ∈ done, keyOf p ≠ keyOf (q, idx) := by
        intro p hp he
        rw [List.map_append, List.nodup_append] at hnd
        exact hnd.2.2 (keyOf p) (List.mem_map.mpr ⟨p, hp, rfl⟩) (keyOf (q, idx)) (by simp) he
      have hnone : r.pending.get (q.table, idx) = none := by
        cases hg : r.pending.get (q.table, idx) with
        | none => rfl
        | some q' =>
          obtain ⟨u1, u2⟩ := h2.pend _ _ hg
          exact absurd (by simpa [keyOf] using u1.symm) (hnew _ u2)
      have hne : ∀ p ∈ done, p ≠ (q, idx) := fun p hp e => hnew p hp (by rw [e])
      have happ : done ++ (q, idx) :: todo = (done ++ [(q, idx)]) ++ todo := by simp
      rw [happ] at hnd ⊢
      cases x with
      | some x =>
        obtain ⟨o1, o2⟩ := appendResults_ok x h2.ok
        refine ih hnd h6 hb (res := fun p => if p = (q, idx) then x else res p) ⟨h2.kind, ?_, ?_, o1⟩ ?_ ?_
        · intro key q' hq'
          obtain ⟨u1, u2⟩ := h2.pend key q' hq'
          exact ⟨u1, List.mem_append_left _ u2⟩
        · intro p hp hn
          rcases List.mem_append.mp hp with hp | hp
          · simp only [if_neg (hne p hp)]
            exact h2.done p hp hn
          · obtain rfl := List.mem_singleton.mp hp
            simp only [if_true]
            obtain ⟨u0, v1, v2⟩ := hb _ _ _ _ _ ht h5
            exact hR (q, idx) x u0 v1 v2
        · intro z
          rw [o2 z, h3 z]
          constructor
          · rintro (⟨p, hp, hn, hz⟩ | hz)
            · exact ⟨p, List.mem_append_left _ hp, hn, by simp only [if_neg (hne p hp)]; exact hz⟩
            · exact ⟨(q, idx), by simp, hnone, by simpa using hz⟩
          · rintro ⟨p, hp, hn, hz⟩
            rcases List.mem_append.mp hp with hp | hp
            · simp only [if_neg (hne p hp)] at hz
              exact .inl ⟨p, hp, hn, hz⟩
            · obtain rfl := List.mem_singleton.mp hp
              simp only [if_true] at hz
              exact .inr hz
        · exact h4
      | none =>
        obtain ⟨t', h7, h8⟩ := Run.bind_eq_ok.mp h6
        obtain ⟨w1, w2⟩ := registerPending_waiting ht h7 h5
        have hget : ∀ p ∈ done, (r.pending.set (q.table, idx) q).get (keyOf p) = r.pending.get (keyOf p) := fun p hp => by
          rw [AMap.get_set_ne]; exact fun e => hnew p hp e.symm
        refine ih hnd h8 ?_ (res := res) ⟨h2.kind, ?_, ?_, h2.ok⟩ ?_ ?_
        · intro k u' j p x hu hx
          obtain ⟨u, v1, v2⟩ := w2 k u' j p x hu hx
          exact hb k u j p x v1 v2
        · intro key q' hq'
          simp only [AMap.get_set] at hq'
          split at hq'
          · rename_i e
            subst e
            cases hq'
            exact ⟨rfl, by simp⟩
          · obtain ⟨u1, u2⟩ := h2.pend key q' hq'
            exact ⟨u1, List.mem_append_left _ u2⟩
        · intro p hp hn
          rcases List.mem_append.mp hp with hp | hp
          · rw [hget p hp] at hn
            exact h2.done p hp hn
          · obtain rfl := List.mem_singleton.mp hp
            simp [keyOf] at hn
        · intro z
          rw [h3 z]
          constructor
          · rintro ⟨p, hp, hn, hz⟩
            exact ⟨p, List.mem_append_left _ hp, by rw [hget p hp]; exact hn, hz⟩
          · rintro ⟨p, hp, hn, hz⟩
            rcases List.mem_append.mp hp with hp | hp
            · rw [hget p hp] at hn
              exact ⟨p, hp, hn, hz⟩
            · obtain rfl := List.mem_singleton.mp hp
              simp [keyOf] at hn
        · intro key
          rw [w1 key]
          have := h4 key
          simp only [pendingCount, AMap.get_set] at this ⊢
          by_cases e : (q.table, idx) = key
          · subst e
            rw [hnone] at this
            simp only [if_true, List.count_append, List.count_singleton_self, this]
            simp
          · simp only [if_neg e]
            exact this

theorem resolveParts_other {id j : Nat} (hj : j ≠ id) : ∀ {parts : List (Query × Nat)} {a b : AMap String Table} {r r' : Resolve},
    resolveParts id a r parts = .ok (b, r') → ∀ key, (waiting b key).count j = (waiting a key).count j := by
  intro parts
  induction parts with
  | nil =>
    intro a b r r' h key
    simp only [resolveParts, Run.ok.injEq, Prod.mk.injEq] at h
    obtain ⟨rfl, rfl⟩ := h; rfl
  | cons e rest ih =>
    obtain ⟨q, idx⟩ := e
    intro a b r r' h key
    unfold resolveParts at h
    cases ht : a.get q.table with
    | none => simp [ht, Run.unwrap, Run.bind] at h
    | some t =>
      simp only [ht, Run.unwrap, Run.bind_ok] at h
      obtain ⟨x, h1, h2⟩ := Run.bind_eq_ok.mp h
      cases x with
      | some res => exact ih h2 key
      | none =>
        obtain ⟨t', h3, h4⟩ := Run.bind_eq_ok.mp h2
        rw [ih h4 key, (registerPending_waiting ht h3 h1).1 key]
        split
        · simp [Ne.symm hj]
        · rfl

theorem Evolves.splitAll {f : String → UInt32 → List Metadata} {a b : AMap String Table} (h : Evolves f a b) :
    ∀ qs, Cache.splitAll b qs = Cache.splitAll a qs
  | [] => rfl
  | q :: rest => by
    simp only [Cache.splitAll]
    cases ha : a.get q.table with
    | none => rw [(h q.table).1 ha]; rfl
    | some t =>
      obtain ⟨t', h1, h2, _⟩ := (h q.table).2 t ha
      rw [h1]
      simp only [Run.unwrap_some, Run.bind_ok, h2, Evolves.splitAll h rest]

/-! ### All requests of a history -/

/-- Ids that have not been given out are not used. -/
def IdsFree (c : MetaCache) : Prop :=
  ∀ id, c.resolveCounter < id → c.resolves.get id = none ∧ (∀ n, answersTo c n id = []) ∧ ∀ key, (waiting c.tables key).count id = 0

/-- What holds after a history. -/
structure HInv (c0 : MetaCache) (ins : List Input) (c : MetaCache) : Prop where
  counter : c.resolveCounter = (requestsOf ins).length + 1
  free : IdsFree c
  tracked : ∀ k n qs parts, (requestsOf ins)[k]? = some (n, qs) → splitAll c.tables qs = .ok parts → (parts.map keyOf).Nodup →
    ∃ r res, Tracked (ResolvedAt c0 ins) n parts (requestId k) ("", 0) [] c r res

theorem ResolvedAt.mono {c0 : MetaCache} {ins ins' : List Input} (he : ∀ pre, Earlier pre ins → Earlier pre ins') {p : Query × Nat}
    {x : List (Query × Metadata)} (h : ResolvedAt c0 ins p x) : ResolvedAt c0 ins' p x := by
  obtain ⟨pre, c, t, h1, h2⟩ := h
  exact ⟨pre, c, t, he pre h1, h2⟩

/-- Inputs that leave the requests alone. -/
theorem HInv.frame {c0 c c' : MetaCache} {ins ins' : List Input} (h : HInv c0 ins c) (he : ∀ pre, Earlier pre ins → Earlier pre ins')
    (hq : requestsOf ins' = requestsOf ins) {f : String → UInt32 → List Metadata} (hev : Evolves f c.tables c'.tables)
    (h0 : c'.resolveCounter = c.resolveCounter) (h1 : c'.resolves = c.resolves) (h2 : ∀ n id, answersTo c' n id = answersTo c n id)
    (h3 : ∀ key, waiting c'.tables key = waiting c.tables key) : HInv c0 ins' c' := by
  refine ⟨by rw [h0, hq]; exact h.counter, ?_, ?_⟩
  · intro id hid
    rw [h0] at hid
    obtain ⟨f1, f2, f3⟩ := h.free id hid
    exact ⟨by rw [h1]; exact f1, fun n => by rw [h2]; exact f2 n, fun key => by rw [h3]; exact f3 key⟩
  · intro k n qs parts hk hs hn
    rw [hq] at hk
    rw [hev.splitAll] at hs
    obtain ⟨r, res, ht⟩ := h.tracked k n qs parts hk hs hn
    exact ⟨r, res, ht.frame (fun p x => ResolvedAt.mono he) (by rw [h1]) (h2 _ _) (fun key => by rw [h3]; simp)⟩

theorem requestsOf_append (a b : List Input) : requestsOf (a ++ b) = requestsOf a ++ requestsOf b := by
  simp [requestsOf]

theorem feedAll_snoc {c0 c c' : MetaCache} {i : Input} : ∀ {ins : List Input} {c0 : MetaCache}, feedAll c0 ins = .ok c → feed c i = .ok c' →
    feedAll c0 (ins ++ [i]) = .ok c' := by
  intro ins
  induction ins with
  | nil => intro c0 h h1; simp only [feedAll, Run.ok.injEq] at h; subst h; simp [feedAll, h1]
  | cons j ins ih =>
    intro c0 h h1
    obtain ⟨d, h2, h3⟩ := Run.bind_eq_ok.mp h
    simp only [List.cons_append, feedAll, h2, Run.bind_ok]
    exact ih h3 h1

theorem feedAll_snoc_inv {c' : MetaCache} {i : Input} : ∀ {ins : List Input} {c0 : MetaCache}, feedAll c0 (ins ++ [i]) = .ok c' →
    ∃ c, feedAll c0 ins = .ok c ∧ feed c i = .ok c' := by
  intro ins
  induction ins with
  | nil =>
    intro c0 h
    obtain ⟨d, h1, h2⟩ := Run.bind_eq_ok.mp h
    simp only [feedAll, Run.ok.injEq] at h2
    subst h2
    exact ⟨c0, rfl, h1⟩
  | cons j ins ih =>
    intro c0 h
    obtain ⟨d, h2, h3⟩ := Run.bind_eq_ok.mp h
    obtain ⟨c, k1, k2⟩ := ih h3
    exact ⟨c, by simp [feedAll, h2, k1], k2⟩

theorem processIn_snoc {c' : MetaCache} {x : TabletOpResult} : ∀ {rs : List TabletOpResult} {c c1 : MetaCache}, c.processIn rs = .ok c1 →
    c1.processResult x = .ok c' → c.processIn (rs ++ [x]) = .ok c' := by
  intro rs
  induction rs with
  | nil => intro c c1 h h1; simp only [MetaCache.processIn, Run.ok.injEq] at h; subst h; simp [MetaCache.processIn, h1]
  | cons y rs ih =>
    intro c c1 h h1
    obtain ⟨d, h2, h3⟩ := Run.bind_eq_ok.mp h
    simp only [List.cons_append, MetaCache.processIn, h2, Run.bind_ok]
    exact ih h3 h1

theorem notifyAll_free {table : String} {idx : Nat} {t : Table} : ∀ {rest : List Nat} {c c' : MetaCache}, c.notifyAll table idx t rest = .ok c' →
    c'.resolveCounter = c.resolveCounter ∧ c'.out = c.out ∧
    ∀ id, c.resolves.get id = none → c'.resolves.get id = none ∧ ∀ n, answersTo c' n id = answersTo c n id := by
  intro rest
  induction rest with
  | nil => intro c c' h; simp only [MetaCache.notifyAll, Run.ok.injEq] at h; subst h; exact ⟨rfl, rfl, fun _ h => ⟨h, fun _ => rfl⟩⟩
  | cons j rest ih =>
    intro c c' h
    obtain ⟨c1, h1, h2⟩ := Run.bind_eq_ok.mp h
    obtain ⟨f1, f2, f3, f4, f5⟩ := processFresh_frame h1
    obtain ⟨i1, i2, i3⟩ := ih h2
    refine ⟨i1.trans f2, i2.trans f3, fun id hid => ?_⟩
    by_cases hj : j = id
    · subst hj
      rw [f5 hid] at i3
      exact i3 j hid
    · obtain ⟨g1, g2⟩ := f4 id (fun e => hj e.symm)
      obtain ⟨k1, k2⟩ := i3 id (g1.trans hid)
      exact ⟨k1, fun n => (k2 n).trans (g2 n)⟩

/-- One list result. -/
theorem HInv.listResult {c0 c c' : MetaCache} {ins : List Input} {rs : List TabletOpResult} {x : TabletOpResult}
    (h : HInv c0 (ins ++ [.list rs]) c) (hx : c.processResult x = .ok c') (hf : feedAll c0 (ins ++ [.list (rs ++ [x])]) = .ok c') :
    HInv c0 (ins ++ [.list (rs ++ [x])]) c' := by
  have he : ∀ pre, Earlier pre (ins ++ [.list rs]) → Earlier pre (ins ++ [.list (rs ++ [x])]) := fun pre hp => .result x hp
  have hq : requestsOf (ins ++ [.list (rs ++ [x])]) = requestsOf (ins ++ [.list rs]) := by simp [requestsOf]
  have hev := processResult_evolves hx
  unfold MetaCache.processResult at hx
  split at hx
  · rename_i start to tablets hxr
    cases ht : c.tables.get x.table with
    | none =>
      simp only [ht, Run.ok.injEq] at hx
      subst hx
      exact h.frame he hq hev rfl rfl (fun _ _ => rfl) (fun _ => rfl)
    | some t =>
      simp only [ht] at hx
      generalize (if x.status = OpStatus.succeeded then some tablets else none : Option (List Metadata)) = o at hx
      obtain ⟨⟨t', i, ns⟩, h1, h2⟩ := Run.bind_eq_ok.mp hx
      simp only at h2
      have htab := notifyAll_tables h2
      obtain ⟨n1, n2, n3⟩ := notifyAll_free h2
      have hw := fun key => (updateRegion_waiting ht h1 key).1
      have hns := (updateRegion_waiting ht h1 ("", 0)).2
      refine ⟨by rw [n1, hq]; exact h.counter, ?_, ?_⟩
      · intro id hid
        rw [n1] at hid
        obtain ⟨f1, f2, f3⟩ := h.free id hid
        obtain ⟨k1, k2⟩ := n3 id f1
        refine ⟨k1, fun n => (k2 n).trans (f2 n), fun key => ?_⟩
        rw [htab]
        simp only [hw key]
        split
        · rfl
        · exact f3 key
      · intro k n qs parts hk hs hn
        rw [hq] at hk
        rw [hev.splitAll] at hs
        obtain ⟨r, res, htr⟩ := h.tracked k n qs parts hk hs hn
        have htr' : Tracked (ResolvedAt c0 (ins ++ [.list (rs ++ [x])])) n parts (requestId k) (x.table, i) ns
            { c with tables := c.tables.set x.table t' } r res := by
          refine htr.frame (fun p y => ResolvedAt.mono he) rfl rfl (fun key => ?_)
          simp only [hw key, hns]
          cases o.isSome with
          | false => simp
          | true =>
            by_cases e : (x.table, i) = key
            · subst e; simp
            · simp [e]
        have hres : ∀ q y, q.table = x.table → t'.tryResolve i q = .ok (some y) → ResolvedAt c0 (ins ++ [.list (rs ++ [x])]) (q, i) y := by
          intro q y hqt hy
          refine ⟨_, c', t', .now, hf, ?_, hy⟩
          rw [htab]
          simp [hqt]
        obtain ⟨r', res', hfin⟩ := tracked_notifyAll hn hres htr' h2
        exact ⟨r', res', hfin.frame (fun _ _ => id) rfl rfl (fun key => by simp)⟩
  · simp at hx

theorem HInv.list {c0 c : MetaCache} {ins : List Input} (h : HInv c0 ins c) (hf : feedAll c0 ins = .ok c) :
    ∀ {rs : List TabletOpResult} {c' : MetaCache}, c.processIn rs = .ok c' → HInv c0 (ins ++ [.list rs]) c' := by
  intro rs
  generalize hn : rs.length = m
  induction m generalizing rs with
  | zero =>
    intro c' hc
    obtain rfl := List.length_eq_zero_iff.mp hn
    simp only [MetaCache.processIn, Run.ok.injEq] at hc
    subst hc
    exact h.frame (fun pre => .input _) (by simp [requestsOf]) (Evolves.refl _) rfl rfl (fun _ _ => rfl) (fun _ => rfl)
  | succ m ih =>
    intro c' hc
    have hne : rs ≠ [] := by rintro rfl; simp at hn
    have hsp := List.dropLast_concat_getLast hne
    rw [← hsp] at hc ⊢
    have hlen : rs.dropLast.length = m := by simp [hn]
    have : ∀ {l : List TabletOpResult} {c : MetaCache} {x : TabletOpResult} {c' : MetaCache}, c.processIn (l ++ [x]) = .ok c' →
        ∃ c1, c.processIn l = .ok c1 ∧ c1.processResult x = .ok c' := by
      intro l
      induction l with
      | nil =>
        intro c x c' h
        obtain ⟨d, h1, h2⟩ := Run.bind_eq_ok.mp h
        simp only [MetaCache.processIn, Run.ok.injEq] at h2
        subst h2
        exact ⟨c, rfl, h1⟩
      | cons y l ihl =>
        intro c x c' h
        obtain ⟨d, h2, h3⟩ := Run.bind_eq_ok.mp h
        obtain ⟨e, k1, k2⟩ := ihl h3
        exact ⟨e, by simp [MetaCache.processIn, h2, k1], k2⟩
    obtain ⟨c1, h1, h2⟩ := this hc
    exact (ih hlen h1).listResult h2 (feedAll_snoc (c0 := c0) hf hc)

/-- A new request. -/
theorem HInv.resolve {c0 c c' : MetaCache} {ins : List Input} (h : HInv c0 ins c) (hf : feedAll c0 ins = .ok c) {n : Notification}
    {qs : List Query} (hc : c.resolve n qs = .ok c') : HInv c0 (ins ++ [.resolve n qs]) c' := by
  have hev : Evolves _ c.tables c'.tables := feed_evolves (i := .resolve n qs) hc
  obtain ⟨parts, h1, h2⟩ := Run.bind_eq_ok.mp hc
  obtain ⟨⟨x1, x2⟩, h3, h4⟩ := Run.bind_eq_ok.mp h2
  obtain ⟨⟨y1, y2⟩, h5, h6⟩ := Run.bind_eq_ok.mp h4
  simp only [Run.ok.injEq] at h6
  obtain ⟨m1, m2, m3, m4, m5⟩ := maybeResolve_frame h5
  simp only at m1 m2 m3 m4
  have hcnt : c'.resolveCounter = c.resolveCounter + 1 := by rw [← h6]; exact m3
  have hother : ∀ id, id ≠ c.resolveCounter + 1 → c'.resolves.get id = c.resolves.get id ∧ (∀ n, answersTo c' n id = answersTo c n id) ∧
      ∀ key, (waiting c'.tables key).count id = (waiting c.tables key).count id := by
    intro id hid
    subst h6
    refine ⟨?_, fun n => m5 id n hid, fun key => ?_⟩
    · simp only [AMap.get_set, if_neg (Ne.symm hid), m2]
    · simp only [m1]
      exact resolveParts_other hid h3 key
  have hreq : requestsOf (ins ++ [.resolve n qs]) = requestsOf ins ++ [(n, qs)] := by simp [requestsOf]
  refine ⟨by rw [hcnt, hreq, h.counter]; simp, ?_, ?_⟩
  · intro id hid
    rw [hcnt] at hid
    obtain ⟨f1, f2, f3⟩ := h.free id (by omega)
    obtain ⟨o1, o2, o3⟩ := hother id (by omega)
    exact ⟨o1.trans f1, fun n => (o2 n).trans (f2 n), fun key => (o3 key).trans (f3 key)⟩
  · intro k n' qs' parts' hk hs hn
    rw [hev.splitAll] at hs
    rw [hreq, List.getElem?_append] at hk
    split at hk
    · rename_i hlt
      obtain ⟨r, res, htr⟩ := h.tracked k n' qs' parts' hk hs hn
      have hid : requestId k ≠ c.resolveCounter + 1 := by rw [h.counter]; unfold requestId; omega
      obtain ⟨o1, o2, o3⟩ := hother _ hid
      exact ⟨r, res, htr.frame (fun p x => ResolvedAt.mono (fun _ => .input _)) o1 (o2 _) (fun key => by rw [o3]; simp)⟩
    · rename_i hge
      have hk0 : k = (requestsOf ins).length := by
        have := (List.getElem?_eq_some_iff.mp hk).1
        simp at this
        omega
      subst hk0
      simp only [Nat.sub_self, List.getElem?_cons_zero, Option.some.injEq, Prod.mk.injEq] at hk
      obtain ⟨rfl, rfl⟩ := hk
      rw [h1] at hs
      simp only [Run.ok.injEq] at hs
      subst hs
      have hid : requestId (requestsOf ins).length = c.resolveCounter + 1 := by rw [h.counter]; rfl
      rw [hid]
      obtain ⟨f1, f2, f3⟩ := h.free (c.resolveCounter + 1) (by omega)
      obtain ⟨res, a1, a2, a3⟩ := resolveParts_acc (R := ResolvedAt c0 (ins ++ [.resolve n qs])) (n := n) (a0 := c.tables) (done := []) (res := fun _ => [])
        (fun p x u hu hx => ⟨ins, c, u, .input _ .now, hf, hu, hx⟩) (by simpa using hn) h3 (fun k u j p x hu hx => ⟨u, hu, hx⟩)
        ⟨rfl, by simp, by simp, ⟨AMap.WF.nil, by simp⟩⟩ (fun x => by simp [Held]) (fun key => by rw [f3 key]; simp [pendingCount])
      simp only [List.nil_append] at a1 a2
      exact ⟨y2, res, tracked_resolve h5 h6.symm a1 a2 (f2 n) (fun key => by simpa using a3 key)⟩

theorem HInv.step {c0 c c' : MetaCache} {ins : List Input} {i : Input} (h : HInv c0 ins c) (hf : feedAll c0 ins = .ok c)
    (hc : feed c i = .ok c') : HInv c0 (ins ++ [i]) c' := by
  have hev := feed_evolves hc
  cases i with
  | progress =>
    have hw := progress_waiting hc
    obtain ⟨⟨x1, x2⟩, h1, h2⟩ := Run.bind_eq_ok.mp hc
    simp only [Run.ok.injEq] at h2
    refine h.frame (fun pre => .input _) (by simp [requestsOf]) hev ?_ ?_ ?_ hw
    · subst h2; split <;> rfl
    · subst h2; split <;> rfl
    · intro n id; subst h2; cases n <;> (split <;> rfl)
  | resolve n qs => exact h.resolve hf hc
  | update t m b =>
    have hw := updateTablet_waiting hc
    refine h.frame (fun pre => .input _) (by simp [requestsOf]) hev ?_ ?_ ?_ hw
    all_goals
      simp only [feed, MetaCache.updateTablet] at hc
      split at hc
      · obtain ⟨t', _, h2⟩ := Run.bind_eq_ok.mp hc
        simp only [Run.ok.injEq] at h2
        subst h2
        first | rfl | exact fun _ _ => rfl
      · simp only [Run.ok.injEq] at hc
        subst hc
        first | rfl | exact fun _ _ => rfl
  | list rs => exact h.list hf hc
  | take =>
    simp only [feed, Run.ok.injEq] at hc
    subst hc
    exact h.frame (fun pre => .input _) (by simp [requestsOf]) hev rfl rfl (fun _ _ => rfl) (fun _ => rfl)

theorem init_fresh : ∀ {cfg : List (String × UInt32)} {c c' : MetaCache}, c.init cfg = .ok c' →
    (∀ key r, regionOf c.tables key = some r → r = Region.create) →
    (∀ key r, regionOf c'.tables key = some r → r = Region.create) ∧ c'.resolves = c.resolves ∧ c'.cells = c.cells ∧ c'.calls = c.calls ∧
      c'.resolveCounter = c.resolveCounter ∧ c'.out = c.out := by
  intro cfg
  induction cfg with
  | nil => intro c c' h hi; simp only [MetaCache.init, Run.ok.injEq] at h; subst h; exact ⟨hi, rfl, rfl, rfl, rfl, rfl⟩
  | cons e rest ih =>
    obtain ⟨k, size⟩ := e
    intro c c' h hi
    obtain ⟨t0, h1, h2⟩ := Run.bind_eq_ok.mp h
    have hi' : ∀ key r, regionOf (c.tables.set k t0) key = some r → r = Region.create := ?_
    · have hg := ih h2 hi'
      exact hg
    rintro ⟨n, i⟩ r hr
    simp only [regionOf, AMap.get_set] at hr
    split at hr
    · simp only [Option.bind_some] at hr
      unfold Table.create at h1
      split at h1
      · simp at h1
      · simp only [Run.ok.injEq] at h1
        subst h1
        have := AMap.mem_of_get hr
        simp only [List.mem_map, Prod.mk.injEq] at this
        obtain ⟨_, _, _, e⟩ := this
        exact e.symm
    · exact hi (n, i) r hr

theorem started_inv {cfg : List (String × UInt32)} {c0 : MetaCache} (h : Started cfg c0) : HInv c0 [] c0 := by
  obtain ⟨corr, h⟩ := h
  obtain ⟨i1, i2, i3, i4, i5, i6⟩ := init_fresh h (by simp [MetaCache.create, regionOf])
  refine ⟨by rw [i5]; rfl, fun id _ => ⟨by rw [i2]; rfl, fun n => ?_, fun key => ?_⟩, by simp [requestsOf]⟩
  · cases n with
    | source => simp only [answersTo, i3]; rfl
    | handler => simp only [answersTo, i4]; rfl
  · unfold waiting
    cases hr : regionOf c0.tables key with
    | none => rfl
    | some r => rw [i1 key r hr]; rfl

theorem resolve_history_inv {cfg : List (String × UInt32)} {c0 : MetaCache} (h0 : Started cfg c0) : ∀ {ins : List Input} {c : MetaCache},
    feedAll c0 ins = .ok c → HInv c0 ins c := by
  intro ins
  generalize hn : ins.length = m
  induction m generalizing ins with
  | zero =>
    intro c hc
    obtain rfl := List.length_eq_zero_iff.mp hn
    simp only [feedAll, Run.ok.injEq] at hc
    subst hc
    exact started_inv h0
  | succ m ih =>
    intro c' hc
    have hne : ins ≠ [] := by rintro rfl; simp at hn
    rw [← List.dropLast_concat_getLast hne] at hc ⊢
    obtain ⟨c, k1, k2⟩ := feedAll_snoc_inv hc
    exact (ih (by simp [hn]) k1).step k1 k2

/-! ### What is asked for -/

theorem prepareListOps_op {n : String} {size : UInt32} : ∀ {rs rs' : AMap Nat Region} {ops : List TabletOp},
    prepareListOps n size rs = .ok (rs', ops) → ∀ {i r}, (i, r) ∈ rs → r.maybePrepare.2 = true →
    ∃ b, regionBounds size i = .ok b ∧ ⟨n, some (.list (UInt32.ofNat b.1) (UInt32.ofNat b.2))⟩ ∈ ops := by
  intro rs
  induction rs with
  | nil => intro rs' ops _ i r hm; simp at hm
  | cons e rest ih =>
    obtain ⟨i0, r0⟩ := e
    intro rs' ops h i r hm hp
    obtain ⟨b, h1, h2⟩ := Run.bind_eq_ok.mp h
    obtain ⟨⟨x1, x2⟩, h3, h4⟩ := Run.bind_eq_ok.mp h2
    simp only [Run.ok.injEq, Prod.mk.injEq] at h4
    rw [← h4.2]
    rcases List.mem_cons.mp hm with e | hm
    · cases e
      exact ⟨b, h1, by rw [if_pos hp]; exact List.mem_cons_self ..⟩
    · obtain ⟨b', k1, k2⟩ := ih h3 hm hp
      refine ⟨b', k1, ?_⟩
      split
      · exact List.mem_cons_of_mem _ k2
      · exact k2

theorem prepareAll_op : ∀ {a b : AMap String Table} {ops : List TabletOp}, prepareAllTables a = .ok (b, ops) → ∀ {n t i r}, (n, t) ∈ a →
    (i, r) ∈ t.regions → r.maybePrepare.2 = true →
    ∃ b, regionBounds t.size i = .ok b ∧ ⟨t.name, some (.list (UInt32.ofNat b.1) (UInt32.ofNat b.2))⟩ ∈ ops := by
  intro a
  induction a with
  | nil => intro b ops _ n t i r hm; simp at hm
  | cons e rest ih =>
    obtain ⟨n0, t0⟩ := e
    intro b ops h n t i r hm hi hp
    obtain ⟨⟨x1, x2⟩, h1, h2⟩ := Run.bind_eq_ok.mp h
    obtain ⟨⟨y1, y2⟩, h3, h4⟩ := Run.bind_eq_ok.mp h2
    simp only [Run.ok.injEq, Prod.mk.injEq] at h4
    rw [← h4.2]
    rcases List.mem_cons.mp hm with e | hm
    · cases e
      obtain ⟨b', k1, k2⟩ := prepareListOps_op h1 hi hp
      exact ⟨b', k1, List.mem_append_left _ k2⟩
    · obtain ⟨b', k1, k2⟩ := ih h3 hm hi hp
      exact ⟨b', k1, List.mem_append_right _ k2⟩

theorem maybePrepare_again (r : Region) : r.maybePrepare.1.maybePrepare = (r.maybePrepare.1, false) := by
  unfold Region.maybePrepare
  cases h : r.state with
  | stale reqs p =>
    by_cases hc : p = false ∧ reqs ≠ []
    · simp [if_pos hc]
    · simp only [if_neg hc, h]
  | fresh => simp only [h]

theorem prepareListOps_again {n : String} {size : UInt32} : ∀ {rs rs' : AMap Nat Region} {ops : List TabletOp},
    prepareListOps n size rs = .ok (rs', ops) → prepareListOps n size rs' = .ok (rs', []) := by
  intro rs
  induction rs with
  | nil => intro rs' ops h; simp only [prepareListOps, Run.ok.injEq, Prod.mk.injEq] at h; rw [← h.1]; rfl
  | cons e rest ih =>
    obtain ⟨i, r⟩ := e
    intro rs' ops h
    obtain ⟨b, h1, h2⟩ := Run.bind_eq_ok.mp h
    obtain ⟨⟨x1, x2⟩, h3, h4⟩ := Run.bind_eq_ok.mp h2
    simp only [Run.ok.injEq, Prod.mk.injEq] at h4
    rw [← h4.1]
    simp [prepareListOps, h1, ih h3, maybePrepare_again]

theorem prepareAll_again : ∀ {a b : AMap String Table} {ops : List TabletOp}, prepareAllTables a = .ok (b, ops) →
    prepareAllTables b = .ok (b, []) := by
  intro a
  induction a with
  | nil => intro b ops h; simp only [prepareAllTables, Run.ok.injEq, Prod.mk.injEq] at h; rw [← h.1]; rfl
  | cons e rest ih =>
    obtain ⟨n, t⟩ := e
    intro b ops h
    obtain ⟨⟨x1, x2⟩, h1, h2⟩ := Run.bind_eq_ok.mp h
    obtain ⟨⟨y1, y2⟩, h3, h4⟩ := Run.bind_eq_ok.mp h2
    simp only [Run.ok.injEq, Prod.mk.injEq] at h4
    rw [← h4.1]
    simp [prepareAllTables, prepareListOps_again h1, ih h3]

/-- The region has been asked for and is still awaited. -/
def Prepared (tables : AMap String Table) (key : String × Nat) : Prop := ∃ reqs ids, regionOf tables key = some ⟨.stale reqs true, ids⟩

theorem updateTablet_prepared {c c' : MetaCache} {n : String} {m : Metadata} {b : Bool} (h : c.updateTablet n m b = .ok c') {key : String × Nat}
    (hp : Prepared c'.tables key) : Prepared c.tables key := by
  obtain ⟨reqs, ids, hp⟩ := hp
  unfold MetaCache.updateTablet at h
  cases ht : c.tables.get n with
  | none => simp only [ht, Run.ok.injEq] at h; subst h; exact ⟨reqs, ids, hp⟩
  | some t =>
    simp only [ht] at h
    obtain ⟨t', h1, h2⟩ := Run.bind_eq_ok.mp h
    simp only [Run.ok.injEq] at h2
    subst h2
    obtain ⟨i, h3, h4⟩ := Run.bind_eq_ok.mp h1
    have hsame : regionOf (c.tables.set n { t with tablets := insertLatest t.tablets m }) key = some ⟨.stale reqs true, ids⟩ → Prepared c.tables key := by
      intro hp
      rw [regionOf_same (t' := { t with tablets := insertLatest t.tablets m }) ht rfl] at hp
      exact ⟨reqs, ids, hp⟩
    cases hr : t.regions.get i with
    | none =>
      simp only [hr, Run.ok.injEq] at h4
      subst h4
      exact hsame hp
    | some r =>
      simp only [hr, Run.ok.injEq] at h4
      subst h4
      cases b with
      | false => exact hsame hp
      | true =>
        simp only [if_true] at hp
        rw [regionOf_set (t' := { t with tablets := insertLatest t.tablets m, regions := t.regions.set i r.markStale }) ht rfl] at hp
        split at hp
        · simp [Region.markStale] at hp
        · exact ⟨reqs, ids, hp⟩

theorem processResult_prepared {c c' : MetaCache} {x : TabletOpResult} (h : c.processResult x = .ok c') {table : String} {idx : Nat}
    (hp : Prepared c'.tables (table, idx)) : Prepared c.tables (table, idx) ∧ ∀ t, c.tables.get table = some t → ¬ About table t.size idx x := by
  obtain ⟨reqs, ids, hp⟩ := hp
  unfold MetaCache.processResult at h
  split at h
  · rename_i start to tablets hxr
    cases ht : c.tables.get x.table with
    | none =>
      simp only [ht, Run.ok.injEq] at h
      subst h
      refine ⟨⟨reqs, ids, hp⟩, ?_⟩
      rintro t htt ⟨hx, _⟩
      rw [← hx, ht] at htt
      simp at htt
    | some t =>
      simp only [ht] at h
      obtain ⟨⟨t', i, ns⟩, h1, h2⟩ := Run.bind_eq_ok.mp h
      simp only at h2
      rw [notifyAll_tables h2] at hp
      simp only at hp
      unfold Table.updateRegion at h1
      obtain ⟨j, h3, h4⟩ := Run.bind_eq_ok.mp h1
      have hj : j = region t.size start := by
        unfold mapRegion at h3
        split at h3
        · simp at h3
        · simp only [Run.ok.injEq] at h3; exact h3.symm
      have habout : ∀ u, c.tables.get table = some u → About table u.size idx x → (x.table, j) = (table, idx) := by
        rintro u hu ⟨e, s', t'', ts', hr', hi'⟩
        rw [hxr] at hr'
        simp only [Option.some.injEq, OpResult.list.injEq] at hr'
        obtain ⟨rfl, _, _⟩ := hr'
        rw [← e] at hu
        rw [ht] at hu
        cases hu
        rw [e, hj, hi']
      cases hr : t.regions.get j with
      | none =>
        simp only [hr, Run.ok.injEq, Prod.mk.injEq] at h4
        obtain ⟨rfl, rfl, rfl⟩ := h4
        rw [regionOf_same ht rfl] at hp
        refine ⟨⟨reqs, ids, hp⟩, fun u hu ha => ?_⟩
        rw [← habout u hu ha] at hp
        simp [regionOf, ht, hr] at hp
      | some r =>
        simp only [hr] at h4
        have key : ∀ r', t'.regions = t.regions.set j r' → (∀ q, r'.state ≠ .stale q true) →
            Prepared c.tables (table, idx) ∧ ∀ u, c.tables.get table = some u → ¬ About table u.size idx x := by
          intro r' hreg hst
          rw [regionOf_set ht hreg] at hp
          split at hp
          · simp only [Option.some.injEq] at hp
            exact absurd (by rw [hp]) (hst reqs)
          · rename_i hne
            exact ⟨⟨reqs, ids, hp⟩, fun u hu ha => hne (habout u hu ha)⟩
        split at h4
        · simp only [Run.ok.injEq, Prod.mk.injEq] at h4
          obtain ⟨rfl, rfl, rfl⟩ := h4
          exact key _ rfl (by simp [Region.markFresh])
        · simp only [Run.ok.injEq, Prod.mk.injEq] at h4
          obtain ⟨rfl, rfl, rfl⟩ := h4
          exact key _ rfl (by simp [Region.markStale])
  · simp at h

theorem processIn_prepared : ∀ {rs : List TabletOpResult} {c c' : MetaCache}, c.processIn rs = .ok c' → ∀ {table idx t},
    c.tables.get table = some t → Prepared c'.tables (table, idx) → Prepared c.tables (table, idx) ∧ ∀ x ∈ rs, ¬ About table t.size idx x := by
  intro rs
  induction rs with
  | nil => intro c c' h table idx t _ hp; simp only [MetaCache.processIn, Run.ok.injEq] at h; subst h; exact ⟨hp, by simp⟩
  | cons x rest ih =>
    intro c c' h table idx t ht hp
    obtain ⟨c1, h1, h2⟩ := Run.bind_eq_ok.mp h
    obtain ⟨t1, e1, e2, _⟩ := (processResult_evolves h1 table).2 t ht
    obtain ⟨i1, i2⟩ := ih h2 e1 hp
    obtain ⟨k1, k2⟩ := processResult_prepared h1 i1
    refine ⟨k1, fun y hy => ?_⟩
    rcases List.mem_cons.mp hy with rfl | hy
    · exact k2 t ht
    · rw [← e2]; exact i2 y hy

theorem resolveParts_prepared {id : Nat} {key : String × Nat} : ∀ {parts : List (Query × Nat)} {a b : AMap String Table} {r r' : Resolve},
    resolveParts id a r parts = .ok (b, r') → Prepared b key → Prepared a key := by
  intro parts
  induction parts with
  | nil =>
    intro a b r r' h hp
    simp only [resolveParts, Run.ok.injEq, Prod.mk.injEq] at h
    obtain ⟨rfl, rfl⟩ := h; exact hp
  | cons e rest ih =>
    obtain ⟨q, idx⟩ := e
    intro a b r r' h hp
    unfold resolveParts at h
    cases ht : a.get q.table with
    | none => simp [ht, Run.unwrap, Run.bind] at h
    | some t =>
      simp only [ht, Run.unwrap, Run.bind_ok] at h
      obtain ⟨x, h1, h2⟩ := Run.bind_eq_ok.mp h
      cases x with
      | some res => exact ih h2 hp
      | none =>
        obtain ⟨t', h3, h4⟩ := Run.bind_eq_ok.mp h2
        obtain ⟨r0, reqs0, b0, g1, g2, rfl⟩ := registerPending_region ht h3 h1
        obtain ⟨reqs, ids, hp'⟩ := ih h4 hp
        rw [regionOf_set (t' := { t with regions := t.regions.set idx _ }) ht rfl] at hp'
        split at hp'
        · rename_i e
          subst e
          simp only [Option.some.injEq, Region.mk.injEq, RegionState.stale.injEq] at hp'
          obtain ⟨⟨_, rfl⟩, _⟩ := hp'
          exact ⟨reqs0, r0.ids, by simp [regionOf, ht, g1, ← g2]⟩
        · exact ⟨reqs, ids, hp'⟩

theorem asked_mono {c0 : MetaCache} {ins : List Input} {table : String} {size : UInt32} {idx : Nat} (h : Asked c0 ins table size idx) {i : Input}
    (hi : ∀ rs, i = .list rs → ∀ x ∈ rs, ¬ About table size idx x) : Asked c0 (ins ++ [i]) table size idx := by
  obtain ⟨pre, mid, c1, c2, m, lo, hiB, h1, h2, h3, h4, h5, h6, h7⟩ := h
  refine ⟨pre, mid ++ [i], c1, c2, m, lo, hiB, by simp [h1], h2, h3, h4, h5, h6, fun rs hrs => ?_⟩
  rcases List.mem_append.mp hrs with hrs | hrs
  · exact h7 rs hrs
  · exact hi rs (List.mem_singleton.mp hrs).symm

theorem toNat_ofNat_small {n : Nat} (h : n ≤ u32Max) : (UInt32.ofNat n).toNat = n := by
  rw [UInt32.toNat_ofNat']
  unfold u32Max at h
  omega

/-- The bounds of a region the cache keeps delimit its hashes. -/
theorem bounds_exact {size : UInt32} (hz : size ≠ 0) {idx : Nat} (hk : Kept size idx) {b : Nat × Nat} (hb : regionBounds size idx = .ok b) (h : UInt32) :
    region size h = idx ↔ UInt32.ofNat b.1 ≤ h ∧ h ≤ UInt32.ofNat b.2 := by
  have hp := size_pos hz
  have hle : idx * size.toNat ≤ u32Max := by
    have h1 : idx * size.toNat ≤ 0xffffffff / size.toNat * size.toNat := Nat.mul_le_mul_right _ (Nat.le_of_lt hk)
    exact Nat.le_trans h1 (Nat.div_mul_le_self _ _)
  have hr : region size (UInt32.ofNat (idx * size.toNat)) = idx := by
    unfold region
    rw [toNat_ofNat_small hle]
    exact Nat.mul_div_cancel _ hp
  obtain ⟨lo, hi, e1, e2, e3⟩ := Props.C46_bounds hz (h0 := UInt32.ofNat (idx * size.toNat))
  rw [hr] at e1 e3
  rw [hb] at e1
  simp only [Run.ok.injEq] at e1
  subst e1
  have hlo : lo ≤ u32Max := by
    have := ((e3 (UInt32.ofNat (idx * size.toNat))).mp hr).1
    rw [toNat_ofNat_small hle] at this
    omega
  rw [e3 h, UInt32.le_iff_toNat_le, UInt32.le_iff_toNat_le, toNat_ofNat_small hlo, toNat_ofNat_small e2]

theorem asked_step {cfg : List (String × UInt32)} {c0 c c' : MetaCache} {ins : List Input} {i : Input} (h0 : Started cfg c0)
    (hf : feedAll c0 ins = .ok c) (hc : feed c i = .ok c')
    (ih : ∀ n t idx, c.tables.get n = some t → Prepared c.tables (n, idx) → Asked c0 ins n t.size idx)
    {n : String} {t' : Table} {idx : Nat} (ht' : c'.tables.get n = some t') (hp : Prepared c'.tables (n, idx)) :
    Asked c0 (ins ++ [i]) n t'.size idx := by
  have hev := feed_evolves hc
  obtain ⟨corr, hinit⟩ := h0
  have hinv := (reaches_inv ⟨corr, c0, hinit, hf⟩).1
  cases ht : c.tables.get n with
  | none => rw [(hev n).1 ht] at ht'; simp at ht'
  | some t =>
    obtain ⟨t1, e1, e2, _⟩ := (hev n).2 t ht
    rw [ht'] at e1
    cases e1
    rw [e2]
    cases i with
    | progress =>
      obtain ⟨reqs, ids, hreg⟩ := hp
      rw [progress_region hc] at hreg
      cases hr : regionOf c.tables (n, idx) with
      | none => simp [hr] at hreg
      | some r =>
        rw [hr] at hreg
        simp only [Option.map_some, Option.some.injEq] at hreg
        by_cases hb : r.maybePrepare.2 = true
        · -- asked for now
          have hmk : t.regions.get idx = some r := by simpa [regionOf, ht] using hr
          obtain ⟨⟨x1, x2⟩, h1, h2⟩ := Run.bind_eq_ok.mp hc
          obtain ⟨b, k1, k2⟩ := prepareAll_op h1 (AMap.mem_of_get ht) (AMap.mem_of_get hmk) hb
          have hne : x2 ≠ [] := by rintro rfl; simp at k2
          simp only [if_neg hne, Run.ok.injEq] at h2
          have hti := hinv n t ht
          rw [hti.2] at k2
          refine ⟨ins, [], c, c', (c.correlation + 1, x2), _, _, rfl, hf, hc, by rw [← h2], k2, ?_, by simp⟩
          exact bounds_exact hti.1.size ((hti.1.regions idx).mp (by simp [hmk])) k1
        · have hsame : r.maybePrepare.1 = r := by
            unfold Region.maybePrepare at hb ⊢
            split
            · rename_i heq
              simp only [heq] at hb
              split
              · rename_i hcnd; rw [if_pos hcnd] at hb; simp at hb
              · rfl
            · rfl
          rw [hsame] at hreg
          exact asked_mono (ih n t idx ht ⟨reqs, ids, by rw [hr, hreg]⟩) (by simp)
    | resolve k qs =>
      refine asked_mono (ih n t idx ht ?_) (by simp)
      obtain ⟨parts, h1, h2⟩ := Run.bind_eq_ok.mp hc
      obtain ⟨⟨x1, x2⟩, h3, h4⟩ := Run.bind_eq_ok.mp h2
      obtain ⟨⟨y1, y2⟩, h5, h6⟩ := Run.bind_eq_ok.mp h4
      simp only [Run.ok.injEq] at h6
      have := (maybeResolve_frame h5).1
      subst h6
      simp only at this hp
      rw [this] at hp
      exact resolveParts_prepared h3 hp
    | update k m b => exact asked_mono (ih n t idx ht (updateTablet_prepared hc hp)) (by simp)
    | list rs =>
      obtain ⟨p1, p2⟩ := processIn_prepared hc ht hp
      exact asked_mono (ih n t idx ht p1) (by rintro rs' hrs'; cases hrs'; exact p2)
    | take =>
      simp only [feed, Run.ok.injEq] at hc
      subst hc
      exact asked_mono (ih n t idx ht hp) (by simp)

theorem asked_inv {cfg : List (String × UInt32)} {c0 : MetaCache} (h0 : Started cfg c0) : ∀ {ins : List Input} {c : MetaCache},
    feedAll c0 ins = .ok c → ∀ n t idx, c.tables.get n = some t → Prepared c.tables (n, idx) → Asked c0 ins n t.size idx := by
  intro ins
  generalize hn : ins.length = m
  induction m generalizing ins with
  | zero =>
    intro c hc n t idx ht hp
    obtain rfl := List.length_eq_zero_iff.mp hn
    simp only [feedAll, Run.ok.injEq] at hc
    subst hc
    obtain ⟨corr, h⟩ := h0
    obtain ⟨reqs, ids, hp⟩ := hp
    have := (init_fresh h (by simp [MetaCache.create, regionOf])).1 _ _ hp
    simp [Region.create] at this
  | succ m ih =>
    intro c' hc n t idx ht hp
    have hne : ins ≠ [] := by rintro rfl; simp at hn
    rw [← List.dropLast_concat_getLast hne] at hc ⊢
    obtain ⟨c, k1, k2⟩ := feedAll_snoc_inv hc
    exact asked_step h0 k1 k2 (ih (by simp [hn]) k1) ht hp

/-! ### Waiting gets less -/

theorem mem_waiting {c : MetaCache} {p : Query × Nat} {id : Nat} : Awaited c p id ↔ id ∈ waiting c.tables (keyOf p) := by
  unfold Awaited waiting regionOf keyOf
  cases ht : c.tables.get p.1.table with
  | none => simp
  | some t =>
    simp only [Option.bind_some, Option.some.injEq]
    cases hr : t.regions.get p.2 with
    | none => simp [hr]
    | some r =>
      obtain ⟨st, ids⟩ := r
      simp only
      cases st with
      | fresh => simp [hr, Region.reqs]
      | stale reqs b =>
        simp only [Region.reqs]
        constructor
        · rintro ⟨_, _, _, _, rfl, h2, h3⟩
          rw [hr] at h2
          simp only [Option.some.injEq, Region.mk.injEq, RegionState.stale.injEq] at h2
          rw [h2.1.1]; exact h3
        · exact fun h => ⟨t, reqs, b, ids, rfl, hr, h⟩

theorem mem_ite_nil {P : Prop} [Decidable P] {w : List Nat} {id : Nat} (h : id ∈ if P then [] else w) : id ∈ w := by
  split at h
  · simp at h
  · exact h

theorem processResult_waiting {c c' : MetaCache} {x : TabletOpResult} (h : c.processResult x = .ok c') (key : String × Nat) :
    (∀ id ∈ waiting c'.tables key, id ∈ waiting c.tables key) ∧
    ∀ t, c.tables.get key.1 = some t → About key.1 t.size key.2 x → x.status = .succeeded → waiting c'.tables key = [] := by
  unfold MetaCache.processResult at h
  split at h
  · rename_i start to tablets hxr
    cases ht : c.tables.get x.table with
    | none =>
      simp only [ht, Run.ok.injEq] at h
      subst h
      refine ⟨fun _ => id, ?_⟩
      rintro t htt ⟨hx, _⟩
      rw [← hx, ht] at htt
      simp at htt
    | some t =>
      simp only [ht] at h
      obtain ⟨⟨t', i, ns⟩, h1, h2⟩ := Run.bind_eq_ok.mp h
      simp only at h2
      rw [notifyAll_tables h2]
      simp only
      have hw := (updateRegion_waiting ht h1 key).1
      rw [hw]
      constructor
      · intro id hid
        exact mem_ite_nil hid
      · rintro u hu ⟨e, s', t'', ts', hr', hi'⟩ hs
        rw [if_pos]
        refine ⟨?_, by simp [hs]⟩
        rw [hxr] at hr'
        simp only [Option.some.injEq, OpResult.list.injEq] at hr'
        obtain ⟨rfl, _, _⟩ := hr'
        rw [← e, ht] at hu
        cases hu
        have hi : i = region t.size start := by
          unfold Table.updateRegion at h1
          obtain ⟨j, h3, h4⟩ := Run.bind_eq_ok.mp h1
          have hj : j = region t.size start := by
            unfold mapRegion at h3
            split at h3
            · simp at h3
            · simp only [Run.ok.injEq] at h3; exact h3.symm
          rw [← hj]
          split at h4
          · simp only [Run.ok.injEq, Prod.mk.injEq] at h4; exact h4.2.1.symm
          · split at h4 <;> (simp only [Run.ok.injEq, Prod.mk.injEq] at h4; exact h4.2.1.symm)
        rw [e, hi, hi']
  · simp at h

theorem processIn_waiting : ∀ {rs : List TabletOpResult} {c c' : MetaCache}, c.processIn rs = .ok c' → ∀ key,
    (∀ id ∈ waiting c'.tables key, id ∈ waiting c.tables key) ∧
    ∀ t, c.tables.get key.1 = some t → ∀ x ∈ rs, About key.1 t.size key.2 x → x.status = .succeeded → waiting c'.tables key = [] := by
  intro rs
  induction rs with
  | nil => intro c c' h key; simp only [MetaCache.processIn, Run.ok.injEq] at h; subst h; exact ⟨fun _ => id, by simp⟩
  | cons x rest ih =>
    intro c c' h key
    obtain ⟨c1, h1, h2⟩ := Run.bind_eq_ok.mp h
    obtain ⟨i1, i2⟩ := ih h2 key
    obtain ⟨k1, k2⟩ := processResult_waiting h1 key
    refine ⟨fun id hid => k1 id (i1 id hid), fun t ht y hy ha hs => ?_⟩
    rcases List.mem_cons.mp hy with rfl | hy
    · have := k2 t ht ha hs
      rw [this] at i1
      exact List.eq_nil_iff_forall_not_mem.mpr fun id hid => by simpa using i1 id hid
    · obtain ⟨t1, e1, e2, _⟩ := (processResult_evolves h1 key.1).2 t ht
      exact i2 t1 e1 y hy (by rw [e2]; exact ha) hs

theorem feed_waiting {c c' : MetaCache} {i : Input} (h : feed c i = .ok c') (key : String × Nat) {id : Nat} (hid : id ≤ c.resolveCounter)
    (hw : id ∈ waiting c'.tables key) : id ∈ waiting c.tables key := by
  cases i with
  | progress => rwa [progress_waiting h] at hw
  | resolve n qs =>
    obtain ⟨parts, h1, h2⟩ := Run.bind_eq_ok.mp h
    obtain ⟨⟨x1, x2⟩, h3, h4⟩ := Run.bind_eq_ok.mp h2
    obtain ⟨⟨y1, y2⟩, h5, h6⟩ := Run.bind_eq_ok.mp h4
    simp only [Run.ok.injEq] at h6
    have := (maybeResolve_frame h5).1
    subst h6
    simp only at this hw
    rw [this] at hw
    have hc := resolveParts_other (show id ≠ c.resolveCounter + 1 by omega) h3 key
    rw [← List.count_pos_iff] at hw ⊢
    omega
  | update t m b => rwa [updateTablet_waiting h] at hw
  | list rs => exact (processIn_waiting h key).1 id hw
  | take => simp only [feed, Run.ok.injEq] at h; subst h; exact hw

theorem processIn_counter : ∀ {rs : List TabletOpResult} {c c' : MetaCache}, c.processIn rs = .ok c' → c'.resolveCounter = c.resolveCounter := by
  intro rs
  induction rs with
  | nil => intro c c' h; simp only [MetaCache.processIn, Run.ok.injEq] at h; subst h; rfl
  | cons x rest ih =>
    intro c c' h
    obtain ⟨c1, h1, h2⟩ := Run.bind_eq_ok.mp h
    rw [ih h2]
    unfold MetaCache.processResult at h1
    split at h1
    · split at h1
      · obtain ⟨y, _, h4⟩ := Run.bind_eq_ok.mp h1
        exact (notifyAll_free h4).1
      · simp only [Run.ok.injEq] at h1; subst h1; rfl
    · simp at h1

theorem feedAll_append {c c' : MetaCache} {more : List Input} : ∀ {ins : List Input} {c0 : MetaCache}, feedAll c0 ins = .ok c →
    feedAll c more = .ok c' → feedAll c0 (ins ++ more) = .ok c' := by
  intro ins
  induction ins with
  | nil => intro c0 h h1; simp only [feedAll, Run.ok.injEq] at h; subst h; exact h1
  | cons j ins ih =>
    intro c0 h h1
    obtain ⟨d, h2, h3⟩ := Run.bind_eq_ok.mp h
    simp only [List.cons_append, feedAll, h2, Run.bind_ok]
    exact ih h3 h1

end TCP.Cache
