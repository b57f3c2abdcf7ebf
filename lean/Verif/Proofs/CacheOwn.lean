import Verif.Proofs.CacheProv
import Verif.Proofs.CacheMetadata
import Verif.Proofs.CacheResolve

/-!
# Answers of the metadata cache name tablets responsible for the hashes

`R table h i` says that tablet `i` of the table is responsible for hash `h`, `size` gives the region size of a table, `G` are the resolve
requests looked at and `T` the tables they are about.
-/

namespace TCP.Cache

open TCP TCP.TabletStore TCP.Cache.Spec

/-- What fresh regions say about the hashes of the region. -/
def RegionsOwn (R : String → UInt32 → UInt32 → Prop) (tables : AMap String Table) : Prop :=
  ∀ n t, tables.get n = some t → ∀ idx r ids, t.regions.get idx = some r → r.freshIds = some ids → ∀ h i, region t.size h = idx → First ids h i → R n h i

/-- What is known about one resolve request. -/
structure ResOwn (R : String → UInt32 → UInt32 → Prop) (size : String → Option UInt32) (T : String → Prop) (r : Resolve) : Prop where
  results : ∀ e ∈ r.results, e.1 = (e.2.table, e.2.metadata.tabletId) ∧ T e.2.table ∧ ∀ h ∈ e.2.hashes, R e.2.table h e.2.metadata.tabletId
  pending : ∀ n idx q, r.pending.get (n, idx) = some q → q.table = n ∧ T n ∧ QueryOk q ∧ ∀ s, size n = some s → ∀ h ∈ q.hashes, region s h = idx

structure TabOwn (R : String → UInt32 → UInt32 → Prop) (size : String → Option UInt32) (tables : AMap String Table) : Prop where
  inv : CacheInv tables
  sizes : ∀ n t, tables.get n = some t → size n = some t.size
  regions : RegionsOwn R tables

structure OwnP (R : String → UInt32 → UInt32 → Prop) (size : String → Option UInt32) (T : String → Prop) (G : Nat → Prop) (c : MetaCache) : Prop where
  tables : TabOwn R size c.tables
  resolves : ∀ id r, c.resolves.get id = some r → G id → ResOwn R size T r
  cells : ∀ id res, c.cells.get id = some res → G id → ∀ p ∈ res, T p.1.table ∧ ∀ h ∈ p.1.hashes, R p.1.table h p.2.tabletId

/-- A list result says the truth about the region it is about. -/
def ListOwn (R : String → UInt32 → UInt32 → Prop) (size : String → Option UInt32) (x : TabletOpResult) : Prop :=
  x.status = .succeeded → ∀ a b ts, x.result = some (.list a b ts) → ∀ s, size x.table = some s →
    ∀ h i, region s h = region s a → First (ts.map Metadata.tabletId) h i → R x.table h i

/-- No region of a table became fresh. -/
def NoFresher (a b : AMap String Table) : Prop :=
  ∀ n t', b.get n = some t' → ∃ t, a.get n = some t ∧ t'.size = t.size ∧
    ∀ idx r' ids, t'.regions.get idx = some r' → r'.freshIds = some ids → ∃ r, t.regions.get idx = some r ∧ r.freshIds = some ids

variable {R : String → UInt32 → UInt32 → Prop} {size : String → Option UInt32} {T : String → Prop} {G : Nat → Prop}

theorem TabOwn.step {a b : AMap String Table} {f : String → UInt32 → List Metadata} (h : TabOwn R size a) (he : Evolves f a b) (hn : NoFresher a b) :
    TabOwn R size b where
  inv := he.inv h.inv
  sizes := fun n t ht => by
    obtain ⟨t0, h1, h2, _⟩ := hn n t ht
    rw [h2]; exact h.sizes n t0 h1
  regions := fun n t ht idx r ids hr hf x i hx hfi => by
    obtain ⟨t0, h1, h2, h3⟩ := hn n t ht
    obtain ⟨r0, h4, h5⟩ := h3 idx r ids hr hf
    exact h.regions n t0 h1 idx r0 ids h4 h5 x i (by rw [← h2]; exact hx) hfi

theorem NoFresher.refl (a : AMap String Table) : NoFresher a a := fun _ t h => ⟨t, h, rfl, fun _ r _ h1 h2 => ⟨r, h1, h2⟩⟩

theorem NoFresher.set {a : AMap String Table} {n : String} {t t' : Table} (ht : a.get n = some t) (hs : t'.size = t.size)
    (hr : ∀ idx r' ids, t'.regions.get idx = some r' → r'.freshIds = some ids → ∃ r, t.regions.get idx = some r ∧ r.freshIds = some ids) :
    NoFresher a (a.set n t') := by
  intro k u hu
  rw [AMap.get_set] at hu
  split at hu
  · rename_i e
    simp only [Option.some.injEq] at hu
    subst hu e
    exact ⟨t, ht, hs, hr⟩
  · exact ⟨u, hu, rfl, fun _ r _ h1 h2 => ⟨r, h1, h2⟩⟩

theorem setRegion_noFresher {t : Table} {i : Nat} {r' : Region} (hr : r'.freshIds = none) :
    ∀ idx r ids, (t.regions.set i r').get idx = some r → r.freshIds = some ids → ∃ r0, t.regions.get idx = some r0 ∧ r0.freshIds = some ids := by
  intro idx r ids h1 h2
  rw [AMap.get_set] at h1
  split at h1
  · simp only [Option.some.injEq] at h1
    subst h1
    rw [hr] at h2; cases h2
  · exact ⟨r, h1, h2⟩

theorem prepareAllTables_noFresher : ∀ {a b : AMap String Table} {ops : List TabletOp}, prepareAllTables a = .ok (b, ops) → NoFresher a b := by
  intro a
  induction a with
  | nil => intro b ops h; simp only [prepareAllTables, Run.ok.injEq, Prod.mk.injEq] at h; obtain ⟨rfl, rfl⟩ := h; exact .refl _
  | cons e rest ih =>
    obtain ⟨n, t⟩ := e
    intro b ops h
    obtain ⟨⟨x1, x2⟩, h1, h2⟩ := Run.bind_eq_ok.mp h
    obtain ⟨⟨y1, y2⟩, h3, h4⟩ := Run.bind_eq_ok.mp h2
    simp only [Run.ok.injEq, Prod.mk.injEq] at h4
    rw [← h4.1]
    intro k u hu
    have hk := ih h3 k u
    simp only [AMap.get_cons] at hu ⊢
    split at hu
    · rename_i e
      simp only [Option.some.injEq] at hu
      subst hu
      rw [if_pos e]
      refine ⟨t, rfl, rfl, fun idx r' ids g1 g2 => ?_⟩
      rw [prepareListOps_spec h1] at g1
      simp only [AMap.get_mapVals] at g1
      cases hg : t.regions.get idx with
      | none => rw [hg] at g1; simp at g1
      | some r0 =>
        rw [hg] at g1
        simp only [Option.map_some, Option.some.injEq] at g1
        subst g1
        rw [maybePrepare_fresh] at g2
        exact ⟨r0, rfl, g2⟩
    · rename_i e
      rw [if_neg e]
      exact hk hu

theorem registerPending_noFresher {t t' : Table} {id idx : Nat} (h : t.registerPending id idx = .ok t') :
    ∀ i r' ids, t'.regions.get i = some r' → r'.freshIds = some ids → ∃ r, t.regions.get i = some r ∧ r.freshIds = some ids := by
  unfold Table.registerPending at h
  split at h
  · rename_i r hr
    obtain ⟨r', h1, h2⟩ := Run.bind_eq_ok.mp h
    simp only [Run.ok.injEq] at h2
    subst h2
    refine setRegion_noFresher ?_
    unfold Region.register at h1
    split at h1
    · simp only [Run.ok.injEq] at h1
      subst h1
      simp [Region.freshIds]
    · simp at h1
  · simp only [Run.ok.injEq] at h
    subst h
    exact fun _ r _ h1 h2 => ⟨r, h1, h2⟩

theorem updateTablet_noFresher {t t' : Table} {m : Metadata} {b : Bool} (h : t.updateTablet m b = .ok t') :
    t'.size = t.size ∧ ∀ i r' ids, t'.regions.get i = some r' → r'.freshIds = some ids → ∃ r, t.regions.get i = some r ∧ r.freshIds = some ids := by
  unfold Table.updateTablet at h
  obtain ⟨i, _, h4⟩ := Run.bind_eq_ok.mp h
  dsimp only at h4
  split at h4
  · simp only [Run.ok.injEq] at h4
    subst h4
    split
    · exact ⟨rfl, setRegion_noFresher (markStale_fresh _)⟩
    · exact ⟨rfl, fun _ r _ h1 h2 => ⟨r, h1, h2⟩⟩
  · simp only [Run.ok.injEq] at h4
    subst h4
    exact ⟨rfl, fun _ r _ h1 h2 => ⟨r, h1, h2⟩⟩

/-! ## Resolving -/

theorem tryResolve_own {tables : AMap String Table} (ht : TabOwn R size tables) {t : Table} {idx : Nat} {q : Query} (hg : tables.get q.table = some t)
    (hq : QueryOk q) (hr : ∀ h ∈ q.hashes, region t.size h = idx) {res : List (Query × Metadata)} (h : t.tryResolve idx q = .ok (some res)) :
    ∀ p ∈ res, p.1.table = q.table ∧ ∀ h ∈ p.1.hashes, R q.table h p.2.tabletId := by
  have hinv := (ht.inv _ t hg).1
  unfold Table.tryResolve at h
  split at h
  · cases h
  · rename_i r hrg
    split at h
    · simp at h
    · rename_i ids hf
      obtain ⟨first, h1, h2⟩ := Run.bind_eq_ok.mp h
      obtain ⟨x, h3, h4⟩ := Run.bind_eq_ok.mp h2
      simp only [Run.ok.injEq, Option.some.injEq] at h4
      subst h4
      have hasc := (hinv.fresh idx r hrg _ hf).1
      cases ids with
      | nil => simp [Run.unwrap] at h1
      | cons a ids =>
        simp only [List.getElem?_cons_zero, Run.unwrap_some, Run.ok.injEq] at h1
        subst h1
        have hcur : Cursor (a :: ids) 1 a [] q.hashes := by
          refine ⟨by simp, by simp, .inl ⟨by omega, rfl, fun j hj hlt => ?_⟩⟩
          rcases List.mem_cons.mp hj with rfl | hj
          · simp [UInt32.lt_iff_toNat_lt] at hlt
          · have := (List.pairwise_cons.mp hasc).1 j hj
            simp only [UInt32.lt_iff_toNat_lt] at this hlt
            omega
        obtain ⟨res, k1, k2, k3, _, _⟩ := mergeLoop_ok hasc (hinv.known hrg hf) q [] (by simpa [QueryOk] using hq) hcur
        rw [k1] at h3
        simp only [List.nil_append, Run.ok.injEq] at h3 k3
        subst h3
        intro p hp
        obtain ⟨_, p2, _, _, p5⟩ := k2 p hp
        refine ⟨p2, fun x hx => ?_⟩
        have hxq : x ∈ q.hashes := k3.subset (List.mem_flatMap.mpr ⟨p, hp, hx⟩)
        exact ht.regions _ t hg idx r _ hrg hf x _ (hr x hxq) (p5 x hx)

theorem appendResults_own : ∀ {res : List (Query × Metadata)} {rs : AMap (String × UInt32) ResolveResult},
    (∀ e ∈ rs, e.1 = (e.2.table, e.2.metadata.tabletId) ∧ T e.2.table ∧ ∀ h ∈ e.2.hashes, R e.2.table h e.2.metadata.tabletId) →
    (∀ p ∈ res, T p.1.table ∧ ∀ h ∈ p.1.hashes, R p.1.table h p.2.tabletId) →
    ∀ e ∈ appendResults rs res, e.1 = (e.2.table, e.2.metadata.tabletId) ∧ T e.2.table ∧ ∀ h ∈ e.2.hashes, R e.2.table h e.2.metadata.tabletId := by
  intro res
  induction res with
  | nil => intro rs h _; exact h
  | cons a rest ih =>
    obtain ⟨q, m⟩ := a
    intro rs h hr
    simp only [appendResults]
    refine ih ?_ (fun p hp => hr p (by simp [hp]))
    intro e he
    rcases amap_mem_set he with rfl | he
    · dsimp only
      have hq := hr (q, m) (by simp)
      cases hg : rs.get (q.table, m.tabletId) with
      | none => exact ⟨rfl, by simpa using hq⟩
      | some r =>
        obtain ⟨k1, k3, k2⟩ := h _ (AMap.mem_of_get hg)
        simp only [Prod.mk.injEq] at k1
        refine ⟨by simp [← k1.1, ← k1.2], by simpa using k3, fun x hx => ?_⟩
        simp only [Option.getD_some] at hx ⊢
        rcases List.mem_append.mp hx with hx | hx
        · exact k2 x hx
        · rw [← k1.1, ← k1.2]; exact hq.2 x hx
    · exact h e he

theorem maybeResolve_own {c c' : MetaCache} {id : Nat} {r r' : Resolve} (h : c.maybeResolve id r = .ok (c', r')) (hc : OwnP R size T G c)
    (hr : G id → ResOwn R size T r) : OwnP R size T G c' ∧ (G id → ResOwn R size T r') := by
  unfold MetaCache.maybeResolve at h
  split at h
  · dsimp only at h
    split at h
    · split at h
      · cases h
      · simp only [Run.ok.injEq, Prod.mk.injEq] at h
        obtain ⟨rfl, rfl⟩ := h
        refine ⟨⟨hc.tables, hc.resolves, fun k res hk hgk p hp => ?_⟩, fun hg => ⟨by simp, (hr hg).pending⟩⟩
        dsimp only at hk
        rw [AMap.get_set] at hk
        split at hk
        · rename_i e
          subst e
          simp only [Option.some.injEq] at hk
          subst hk
          obtain ⟨e, he, rfl⟩ := List.mem_map.mp hp
          refine ⟨((hr hgk).results e he).2.1, fun x hx => ?_⟩
          simp only [ResolveResult.take, Query.create, mem_setOf] at hx ⊢
          exact ((hr hgk).results e he).2.2 x hx
        · exact hc.cells k res hk hgk p hp
    · simp only [Run.ok.injEq, Prod.mk.injEq] at h
      obtain ⟨rfl, rfl⟩ := h
      exact ⟨⟨hc.tables, hc.resolves, hc.cells⟩, fun hg => ⟨by simp, (hr hg).pending⟩⟩
  · simp only [Run.ok.injEq, Prod.mk.injEq] at h
    obtain ⟨rfl, rfl⟩ := h
    exact ⟨hc, hr⟩

theorem setResolve_own {c : MetaCache} (hc : OwnP R size T G c) {id : Nat} {r : Resolve} (hr : G id → ResOwn R size T r) :
    OwnP R size T G { c with resolves := c.resolves.set id r } := by
  refine ⟨hc.tables, fun k r' hk hg => ?_, hc.cells⟩
  dsimp only at hk
  rw [AMap.get_set] at hk
  split at hk
  · rename_i e; subst e; simp only [Option.some.injEq] at hk; subst hk; exact hr hg
  · exact hc.resolves k r' hk hg

theorem processFresh_own {c c' : MetaCache} {n : String} {idx id : Nat} {t : Table} (h : c.processFresh n idx t id = .ok c') (hc : OwnP R size T G c)
    (ht : c.tables.get n = some t) : OwnP R size T G c' := by
  unfold MetaCache.processFresh at h
  split at h
  · simp only [Run.ok.injEq] at h; subst h; exact hc
  · rename_i r hr
    dsimp only at h
    obtain ⟨r', h1, h2⟩ := Run.bind_eq_ok.mp h
    obtain ⟨y, h3, h4⟩ := Run.bind_eq_ok.mp h2
    simp only [Run.ok.injEq] at h4
    subst h4
    have hr' : G id → ResOwn R size T r' := fun hg => by
      have hrr := hc.resolves id r hr hg
      split at h1
      · simp only [Run.ok.injEq] at h1; subst h1; exact hrr
      · rename_i q hq
        obtain ⟨x, h5, h6⟩ := Run.bind_eq_ok.mp h1
        split at h6
        · simp only [Run.ok.injEq] at h6
          subst h6
          obtain ⟨q1, qt, q2, q3⟩ := hrr.pending n idx q hq
          refine ⟨appendResults_own hrr.results fun p hp => ?_, fun n' idx' q' hq' => ?_⟩
          · obtain ⟨k1, k2⟩ := tryResolve_own hc.tables (by rw [q1]; exact ht) q2 (q3 _ (hc.tables.sizes _ _ ht)) h5 p hp
            rw [k1]; exact ⟨by rw [q1]; exact qt, k2⟩
          · dsimp only at hq'
            rw [AMap.get_erase] at hq'
            split at hq'
            · cases hq'
            · exact hrr.pending n' idx' q' hq'
        · cases h6
    obtain ⟨k1, k2⟩ := maybeResolve_own h3 hc hr'
    exact setResolve_own k1 k2

theorem notifyAll_own {n : String} {idx : Nat} {t : Table} : ∀ {ids : List Nat} {c c' : MetaCache},
    c.notifyAll n idx t ids = .ok c' → OwnP R size T G c → c.tables.get n = some t → OwnP R size T G c' := by
  intro ids
  induction ids with
  | nil => intro c c' h hc _; simp only [MetaCache.notifyAll, Run.ok.injEq] at h; subst h; exact hc
  | cons j rest ih =>
    intro c c' h hc ht
    obtain ⟨c1, h1, h2⟩ := Run.bind_eq_ok.mp h
    exact ih h2 (processFresh_own h1 hc ht) (by rw [processFresh_tables h1]; exact ht)

theorem first_of_setOf {l : List UInt32} {h i : UInt32} (hf : First (setOf l) h i) : First l h i :=
  ⟨(mem_setOf _ _).mp hf.1, hf.2.1, fun j hj => hf.2.2 j ((mem_setOf _ _).mpr hj)⟩

theorem processResult_own {c c' : MetaCache} {x : TabletOpResult} (h : c.processResult x = .ok c') (hc : OwnP R size T G c) (hx : ListOwn R size x) :
    OwnP R size T G c' := by
  unfold MetaCache.processResult at h
  split at h
  · rename_i start to tablets hres
    split at h
    · rename_i t ht
      obtain ⟨y, h1, h2⟩ := Run.bind_eq_ok.mp h
      obtain ⟨u1, u2, u3⟩ := updateRegion_inv (t' := y.1) (i := y.2.1) (ns := y.2.2) h1
      have hinv := (hc.tables.inv _ t ht).1
      have hreg : ∀ idx r ids, y.1.regions.get idx = some r → r.freshIds = some ids → ∀ h i, region y.1.size h = idx → First ids h i → R x.table h i := by
        rw [u1]
        unfold Table.updateRegion at h1
        obtain ⟨j, h0, h3⟩ := Run.bind_eq_ok.mp h1
        have hj : j = region t.size start := by
          rw [mapRegion_ok hinv.size] at h0
          simp only [Run.ok.injEq] at h0
          exact h0.symm
        have hold := hc.tables.regions _ t ht
        split at h3
        · simp only [Run.ok.injEq] at h3; subst h3; exact hold
        · split at h3
          · rename_i ts hts
            simp only [Run.ok.injEq] at h3
            subst h3
            split at hts
            · rename_i hst
              simp only [Option.some.injEq] at hts
              subst hts
              intro idx r ids hr hf h i hreg hfi
              dsimp only at hr
              rw [AMap.get_set] at hr
              split at hr
              · rename_i e
                subst e
                simp only [Option.some.injEq] at hr
                subst hr
                simp only [Region.markFresh, Region.freshIds, Option.some.injEq] at hf
                subst hf
                exact hx hst _ _ _ hres _ (hc.tables.sizes _ _ ht) h i (by rw [hreg, hj]) (first_of_setOf hfi)
              · exact hold idx r ids hr hf h i hreg hfi
            · cases hts
          · simp only [Run.ok.injEq] at h3
            subst h3
            intro idx r ids hr hf h i hreg hfi
            obtain ⟨r0, g1, g2⟩ := setRegion_noFresher (markStale_fresh _) idx r ids hr hf
            exact hold idx r0 ids g1 g2 h i hreg hfi
      refine notifyAll_own h2 ⟨⟨?_, ?_, ?_⟩, hc.resolves, hc.cells⟩ (by simp)
      · intro n t' hn
        dsimp only at hn
        rw [AMap.get_set] at hn
        split at hn
        · rename_i e
          simp only [Option.some.injEq] at hn
          subst hn
          exact ⟨(u3 hinv).2.1, by rw [u2, (hc.tables.inv _ t ht).2]; exact e⟩
        · exact hc.tables.inv n t' hn
      · intro n t' hn
        dsimp only at hn
        rw [AMap.get_set] at hn
        split at hn
        · rename_i e
          simp only [Option.some.injEq] at hn
          subst hn
          rw [u1, ← e]
          exact hc.tables.sizes _ _ ht
        · exact hc.tables.sizes n t' hn
      · intro n t' hn
        dsimp only at hn
        rw [AMap.get_set] at hn
        split at hn
        · rename_i e
          simp only [Option.some.injEq] at hn
          subst hn
          rw [← e]
          exact hreg
        · exact hc.tables.regions n t' hn
    · simp only [Run.ok.injEq] at h; subst h; exact hc
  · cases h

theorem processIn_own : ∀ {rs : List TabletOpResult} {c c' : MetaCache}, c.processIn rs = .ok c' → OwnP R size T G c → (∀ x ∈ rs, ListOwn R size x) →
    OwnP R size T G c' := by
  intro rs
  induction rs with
  | nil => intro c c' h hc _; simp only [MetaCache.processIn, Run.ok.injEq] at h; subst h; exact hc
  | cons x rest ih =>
    intro c c' h hc hx
    obtain ⟨c1, h1, h2⟩ := Run.bind_eq_ok.mp h
    exact ih h2 (processResult_own h1 hc (hx x (by simp))) (fun y hy => hx y (by simp [hy]))

/-- The parts of well-formed queries. -/
def PartsOk (size : String → Option UInt32) (T : String → Prop) (parts : List (Query × Nat)) : Prop :=
  ∀ p ∈ parts, QueryOk p.1 ∧ T p.1.table ∧ ∀ s, size p.1.table = some s → ∀ h ∈ p.1.hashes, region s h = p.2

theorem sublist_flatMap_mem {α β : Type} {f : α → List β} {x : α} : ∀ {l : List α}, x ∈ l → (f x).Sublist (l.flatMap f)
  | [], h => by simp at h
  | y :: l, h => by
    rw [List.flatMap_cons]
    rcases List.mem_cons.mp h with rfl | h
    · exact List.sublist_append_left _ _
    · exact (sublist_flatMap_mem h).trans (List.sublist_append_right _ _)

theorem sublist_asc {a b : List UInt32} (h : a.Sublist b) (hb : Asc b) : Asc a := List.Pairwise.sublist h hb

theorem splitAll_own {tables : AMap String Table} (ht : TabOwn R size tables) : ∀ {qs : List Query} {parts : List (Query × Nat)},
    splitAll tables qs = .ok parts → (∀ q ∈ qs, QueryOk q ∧ T q.table) → PartsOk size T parts := by
  intro qs
  induction qs with
  | nil => intro parts h _; simp only [splitAll, Run.ok.injEq] at h; subst h; simp [PartsOk]
  | cons q0 rest ih =>
    intro parts h hq
    unfold splitAll at h
    cases hg : tables.get q0.table with
    | none => simp [hg, Run.unwrap, Run.bind] at h
    | some t =>
      simp only [hg, Run.unwrap, Run.bind_ok] at h
      obtain ⟨x, h1, h2⟩ := Run.bind_eq_ok.mp h
      obtain ⟨y, h3, h4⟩ := Run.bind_eq_ok.mp h2
      simp only [Run.ok.injEq] at h4
      subst h4
      obtain ⟨hok, hT⟩ := hq q0 (by simp)
      obtain ⟨parts', n, k1, k2, k3⟩ := split_ok (ht.inv _ t hg).1.size hok
      rw [h1] at k1
      cases k1
      intro p hp
      rcases List.mem_append.mp hp with hp | hp
      · obtain ⟨_, p2, _, p4⟩ := k2.same p hp
        refine ⟨?_, by rw [p2]; exact hT, fun s hs x hx => ?_⟩
        · refine sublist_asc ?_ hok
          rw [← k3]
          exact sublist_flatMap_mem (f := fun p : Query × Nat => p.1.hashes) hp
        · rw [p2, ht.sizes _ _ hg] at hs
          cases hs
          exact p4 x hx
      · exact ih h3 (fun q hq' => hq q (by simp [hq'])) p hp

theorem resolveParts_own {id : Nat} : ∀ {parts : List (Query × Nat)} {a b : AMap String Table} {r r' : Resolve}, resolveParts id a r parts = .ok (b, r') →
    TabOwn R size a → TabOwn R size b ∧ (PartsOk size T parts → ResOwn R size T r → ResOwn R size T r') := by
  intro parts
  induction parts with
  | nil => intro a b r r' h ha; simp only [resolveParts, Run.ok.injEq, Prod.mk.injEq] at h; obtain ⟨rfl, rfl⟩ := h; exact ⟨ha, fun _ h => h⟩
  | cons e rest ih =>
    obtain ⟨q, idx⟩ := e
    intro a b r r' h ha
    simp only [resolveParts] at h
    obtain ⟨t, h1, h2⟩ := Run.bind_eq_ok.mp h
    obtain ⟨x, h3, h4⟩ := Run.bind_eq_ok.mp h2
    have ht : a.get q.table = some t := by
      cases hg : a.get q.table with
      | none => rw [hg] at h1; cases h1
      | some y => rw [hg] at h1; simp only [Run.unwrap_some, Run.ok.injEq] at h1; rw [h1]
    cases x with
    | some res =>
      obtain ⟨k1, k2⟩ := ih h4 ha
      refine ⟨k1, fun hp hr => k2 (fun p hp' => hp p (by simp [hp'])) ⟨appendResults_own hr.results fun p hp' => ?_, hr.pending⟩⟩
      obtain ⟨q1, qt, q2⟩ := hp (q, idx) (by simp)
      obtain ⟨l1, l2⟩ := tryResolve_own ha ht q1 (q2 _ (ha.sizes _ _ ht)) h3 p hp'
      rw [l1]; exact ⟨qt, l2⟩
    | none =>
      obtain ⟨t', h5, h6⟩ := Run.bind_eq_ok.mp h4
      obtain ⟨u1, u2, u3⟩ := registerPending_inv h5
      have hst := ha.step (Evolves.one ht (l := fun _ => []) u1 u2 (by simpa using u3)) (NoFresher.set ht u1 (registerPending_noFresher h5))
      obtain ⟨k1, k2⟩ := ih h6 hst
      refine ⟨k1, fun hp hr => k2 (fun p hp' => hp p (by simp [hp'])) ⟨hr.results, fun n idx' q' hq' => ?_⟩⟩
      dsimp only at hq'
      rw [AMap.get_set] at hq'
      split at hq'
      · rename_i e
        simp only [Option.some.injEq] at hq'
        subst hq'
        simp only [Prod.mk.injEq] at e
        obtain ⟨rfl, rfl⟩ := e
        obtain ⟨q1, qt, q2⟩ := hp (q, idx) (by simp)
        exact ⟨rfl, qt, q1, q2⟩
      · exact hr.pending n idx' q' hq'

/-- The inputs that keep answers right. -/
def InOwn (R : String → UInt32 → UInt32 → Prop) (size : String → Option UInt32) (T : String → Prop) (G : Nat → Prop) (next : Nat) : Input → Prop
  | .resolve _ qs => G next → ∀ q ∈ qs, QueryOk q ∧ T q.table
  | .list rs => ∀ x ∈ rs, ListOwn R size x
  | _ => True

theorem feed_own {c c' : MetaCache} {i : Input} (h : feed c i = .ok c') (hc : OwnP R size T G c) (hi : InOwn R size T G (c.resolveCounter + 1) i) :
    OwnP R size T G c' := by
  cases i with
  | progress =>
    simp only [feed, MetaCache.makeProgress] at h
    obtain ⟨x, h1, h2⟩ := Run.bind_eq_ok.mp h
    have ht : TabOwn R size x.1 := hc.tables.step (prepareAllTables_evolves (b := x.1) (ops := x.2) h1) (prepareAllTables_noFresher (b := x.1) (ops := x.2) h1)
    simp only [Run.ok.injEq] at h2
    subst h2
    split
    · exact ⟨ht, hc.resolves, hc.cells⟩
    · exact ⟨ht, hc.resolves, hc.cells⟩
  | resolve n qs =>
    simp only [feed, MetaCache.resolve] at h
    obtain ⟨parts, h0, h2⟩ := Run.bind_eq_ok.mp h
    obtain ⟨x, h3, h4⟩ := Run.bind_eq_ok.mp h2
    obtain ⟨y, h5, h6⟩ := Run.bind_eq_ok.mp h4
    simp only [Run.ok.injEq] at h6
    subst h6
    obtain ⟨k1, k2⟩ := resolveParts_own (R := R) (size := size) (b := x.1) (r' := x.2) h3 hc.tables
    obtain ⟨k3, k4⟩ := maybeResolve_own (G := G) h5 ⟨k1, hc.resolves, hc.cells⟩ fun hg => k2 (splitAll_own hc.tables h0 (hi hg)) ⟨by simp, by simp⟩
    exact setResolve_own k3 k4
  | update t m b =>
    have he := updateTablet_evolves (c := c) (c' := c') (n := t) (m := m) (b := b) h
    simp only [feed, MetaCache.updateTablet] at h
    split at h
    · rename_i tb htb
      obtain ⟨t', h1, h2⟩ := Run.bind_eq_ok.mp h
      simp only [Run.ok.injEq] at h2
      subst h2
      obtain ⟨g1, g2⟩ := updateTablet_noFresher h1
      exact ⟨hc.tables.step he (NoFresher.set htb g1 g2), hc.resolves, hc.cells⟩
    · simp only [Run.ok.injEq] at h; subst h; exact hc
  | list rs => exact processIn_own h hc hi
  | take =>
    simp only [feed, MetaCache.takeOut, Run.ok.injEq] at h
    subst h
    exact ⟨hc.tables, hc.resolves, hc.cells⟩

theorem maybeResolve_counter {c c' : MetaCache} {id : Nat} {r r' : Resolve} (h : c.maybeResolve id r = .ok (c', r')) :
    c'.resolveCounter = c.resolveCounter := by
  unfold MetaCache.maybeResolve at h
  split at h
  · dsimp only at h
    split at h
    · split at h
      · cases h
      · simp only [Run.ok.injEq, Prod.mk.injEq] at h
        rw [← h.1]
    · simp only [Run.ok.injEq, Prod.mk.injEq] at h
      rw [← h.1]
  · simp only [Run.ok.injEq, Prod.mk.injEq] at h
    rw [← h.1]

theorem feed_counter {c c' : MetaCache} {i : Input} (h : feed c i = .ok c') : c'.resolveCounter = c.resolveCounter + (requestsOf [i]).length := by
  cases i with
  | progress =>
    simp only [feed, MetaCache.makeProgress] at h
    obtain ⟨x, _, h2⟩ := Run.bind_eq_ok.mp h
    simp only [Run.ok.injEq] at h2
    subst h2
    split <;> rfl
  | resolve n qs =>
    simp only [feed, MetaCache.resolve] at h
    obtain ⟨parts, _, h2⟩ := Run.bind_eq_ok.mp h
    obtain ⟨x, _, h4⟩ := Run.bind_eq_ok.mp h2
    obtain ⟨y, h5, h6⟩ := Run.bind_eq_ok.mp h4
    simp only [Run.ok.injEq] at h6
    subst h6
    exact maybeResolve_counter h5
  | update t m b =>
    simp only [feed, MetaCache.updateTablet] at h
    split at h
    · obtain ⟨t', _, h2⟩ := Run.bind_eq_ok.mp h
      simp only [Run.ok.injEq] at h2
      subst h2; rfl
    · simp only [Run.ok.injEq] at h; subst h; rfl
  | list rs => exact processIn_counter h
  | take =>
    simp only [feed, MetaCache.takeOut, Run.ok.injEq] at h
    subst h; rfl

theorem feedAll_own : ∀ {ins : List Input} {c c' : MetaCache}, feedAll c ins = .ok c' → OwnP R size T G c →
    (∀ rs, .list rs ∈ ins → ∀ x ∈ rs, ListOwn R size x) →
    (∀ k n qs, (requestsOf ins)[k]? = some (n, qs) → G (c.resolveCounter + 1 + k) → ∀ q ∈ qs, QueryOk q ∧ T q.table) → OwnP R size T G c' := by
  intro ins
  induction ins with
  | nil => intro c c' h hc _ _; simp only [feedAll, Run.ok.injEq] at h; subst h; exact hc
  | cons i rest ih =>
    intro c c' h hc hl hr
    obtain ⟨c1, h1, h2⟩ := Run.bind_eq_ok.mp h
    have hreq : requestsOf (i :: rest) = requestsOf [i] ++ requestsOf rest := by
      unfold requestsOf
      rw [← List.filterMap_append]; rfl
    refine ih h2 (feed_own h1 hc ?_) (fun rs hm => hl rs (by simp [hm])) fun k n qs hk hg => ?_
    · cases i with
      | resolve n qs => exact fun hg => hr 0 n qs (by rw [hreq]; rfl) hg
      | list rs => exact hl rs (by simp)
      | _ => trivial
    · refine hr (k + (requestsOf [i]).length) n qs ?_ ?_
      · rw [hreq, List.getElem?_append_right (by omega)]
        simpa using hk
      · rw [feed_counter h1] at hg
        have e : c.resolveCounter + (requestsOf [i]).length + 1 + k = c.resolveCounter + 1 + (k + (requestsOf [i]).length) := by omega
        rw [← e]; exact hg

/-- A cache that was just initialised. -/
theorem started_own {cfg : List (String × UInt32)} {c0 : MetaCache} (h : Started cfg c0) (hz : ∀ n t, c0.tables.get n = some t → size n = some t.size) :
    OwnP R size T G c0 ∧ c0.resolveCounter = 1 := by
  obtain ⟨corr, h⟩ := h
  have h0 := init_inv h (by simp [MetaCache.create])
  have key : ∀ {cfg : List (String × UInt32)} {c c' : MetaCache}, c.init cfg = .ok c' →
      (∀ n t, c.tables.get n = some t → ∀ idx r, t.regions.get idx = some r → r.freshIds = none) →
      (∀ n t, c'.tables.get n = some t → ∀ idx r, t.regions.get idx = some r → r.freshIds = none) ∧ c'.resolves = c.resolves ∧ c'.cells = c.cells ∧
        c'.resolveCounter = c.resolveCounter := by
    intro cfg
    induction cfg with
    | nil => intro c c' h hi; simp only [MetaCache.init, Run.ok.injEq] at h; subst h; exact ⟨hi, rfl, rfl, rfl⟩
    | cons e rest ih =>
      obtain ⟨k, size⟩ := e
      intro c c' h hi
      obtain ⟨t0, h1, h2⟩ := Run.bind_eq_ok.mp h
      obtain ⟨k1, k2⟩ := ih h2 (by
        intro n t ht
        simp only [AMap.get_set] at ht
        split at ht
        · cases ht
          unfold Table.create at h1
          split at h1
          · simp at h1
          · simp only [Run.ok.injEq] at h1
            subst h1
            intro idx r hr
            have := AMap.mem_of_get hr
            simp only [List.mem_map, Prod.mk.injEq] at this
            obtain ⟨_, _, _, rfl⟩ := this
            rfl
        · exact hi n t ht)
      exact ⟨k1, k2⟩
  obtain ⟨k1, k2, k3, k4⟩ := key h (by simp [MetaCache.create])
  refine ⟨⟨⟨fun n t ht => ⟨(h0 n t ht).1, (h0 n t ht).2.1⟩, hz, fun n t ht idx r ids hr hf => ?_⟩, ?_, ?_⟩, by rw [k4]; rfl⟩
  · rw [k1 n t ht idx r hr] at hf; cases hf
  · rw [k2]; simp [MetaCache.create]
  · rw [k3]; simp [MetaCache.create]

end TCP.Cache
