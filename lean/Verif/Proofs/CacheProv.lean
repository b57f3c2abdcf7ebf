import Verif.Proofs.CacheResolve

/-!
# Where the metadata in answers comes from

`P table m` is any fact about the metadata of tablets that holds for all metadata the cache is told.
-/

namespace TCP.Cache

open TCP TCP.TabletStore TCP.Cache.Spec

variable {P : String → Metadata → Prop}

def TablesP (P : String → Metadata → Prop) (ts : AMap String Table) : Prop :=
  ∀ n t, ts.get n = some t → ∀ i m, t.tablets.get i = some m → P n m

def ResultsP (P : String → Metadata → Prop) (rs : AMap (String × UInt32) ResolveResult) : Prop := ∀ e ∈ rs, P e.2.table e.2.metadata

/-- A request: its results, and the tables of its pending parts. -/
structure ResP (P : String → Metadata → Prop) (r : Resolve) : Prop where
  results : ResultsP P r.results
  pending : ∀ n idx q, r.pending.get (n, idx) = some q → q.table = n

structure ProvP (P : String → Metadata → Prop) (c : MetaCache) : Prop where
  tables : TablesP P c.tables
  resolves : ∀ id r, c.resolves.get id = some r → ResP P r
  cells : ∀ id res, c.cells.get id = some res → ∀ p ∈ res, P p.1.table p.2

/-- What an input tells. -/
def InP (P : String → Metadata → Prop) : Input → Prop
  | .update t m _ => P t m
  | .list rs => ∀ x ∈ rs, x.status = .succeeded → ∀ a b ts, x.result = some (.list a b ts) → ∀ m ∈ ts, P x.table m
  | _ => True

theorem TablesP.set {ts : AMap String Table} (h : TablesP P ts) {n : String} {t : Table} (ht : ∀ i m, t.tablets.get i = some m → P n m) : TablesP P (ts.set n t) := by
  intro k t' hk i m hm
  rw [AMap.get_set] at hk
  split at hk
  · rename_i e
    simp only [Option.some.injEq] at hk
    subst hk e
    exact ht i m hm
  · exact h k t' hk i m hm

theorem insertLatest_p {Q : Metadata → Prop} {ts : AMap UInt32 Metadata} (h : ∀ i m, ts.get i = some m → Q m) {m : Metadata} (hm : Q m) :
    ∀ i m', (insertLatest ts m).get i = some m' → Q m' := by
  intro i m' hg
  unfold insertLatest at hg
  split at hg
  · split at hg
    · rw [AMap.get_set] at hg
      split at hg
      · simp only [Option.some.injEq] at hg; subst hg; exact hm
      · exact h i m' hg
    · exact h i m' hg
  · rw [AMap.get_set] at hg
    split at hg
    · simp only [Option.some.injEq] at hg; subst hg; exact hm
    · exact h i m' hg

theorem foldl_insertLatest_p {Q : Metadata → Prop} : ∀ {l : List Metadata} {ts : AMap UInt32 Metadata}, (∀ i m, ts.get i = some m → Q m) → (∀ m ∈ l, Q m) →
    ∀ i m', (l.foldl insertLatest ts).get i = some m' → Q m' := by
  intro l
  induction l with
  | nil => intro ts h _; exact h
  | cons m rest ih =>
    intro ts h hl
    exact ih (insertLatest_p h (hl m (by simp))) (fun x hx => hl x (by simp [hx]))

theorem flush_p {tablets : AMap UInt32 Metadata} {q : Query} {cur : UInt32} {hs : List UInt32} {x : List (Query × Metadata)} (h : flush tablets q cur hs = .ok x) :
    ∀ p ∈ x, p.1.table = q.table ∧ ∃ i, tablets.get i = some p.2 := by
  unfold flush at h
  split at h
  · simp only [Run.ok.injEq] at h; subst h; simp
  · obtain ⟨m, h1, h2⟩ := Run.bind_eq_ok.mp h
    simp only [Run.ok.injEq] at h2
    subst h2
    intro p hp
    simp only [List.mem_singleton] at hp
    subst hp
    refine ⟨rfl, cur, ?_⟩
    cases hg : tablets.get cur with
    | none => rw [hg] at h1; cases h1
    | some y => rw [hg] at h1; simp only [Run.unwrap_some, Run.ok.injEq] at h1; rw [h1]

theorem mergeLoop_p {ids : List UInt32} {tablets : AMap UInt32 Metadata} {q : Query} : ∀ {l : List UInt32} {pos : Nat} {cur : UInt32} {hs : List UInt32}
    {out x : List (Query × Metadata)}, mergeLoop ids tablets q l pos cur hs out = .ok x →
    (∀ p ∈ out, p.1.table = q.table ∧ ∃ i, tablets.get i = some p.2) → ∀ p ∈ x, p.1.table = q.table ∧ ∃ i, tablets.get i = some p.2 := by
  intro l
  induction l with
  | nil =>
    intro pos cur hs out x h ho p hp
    simp only [mergeLoop] at h
    obtain ⟨y, h1, h2⟩ := Run.bind_eq_ok.mp h
    simp only [Run.ok.injEq] at h2
    subst h2
    rcases List.mem_append.mp hp with hp | hp
    · exact ho p hp
    · exact flush_p h1 p hp
  | cons a rest ih =>
    intro pos cur hs out x h ho
    simp only [mergeLoop] at h
    split at h
    · obtain ⟨y, h1, h2⟩ := Run.bind_eq_ok.mp h
      obtain ⟨next, _, h3⟩ := Run.bind_eq_ok.mp h2
      refine ih h3 fun p hp => ?_
      rcases List.mem_append.mp hp with hp | hp
      · exact ho p hp
      · exact flush_p h1 p hp
    · exact ih h ho

theorem tryResolve_p {t : Table} {idx : Nat} {q : Query} {res : List (Query × Metadata)} (h : t.tryResolve idx q = .ok (some res)) :
    ∀ p ∈ res, p.1.table = q.table ∧ ∃ i, t.tablets.get i = some p.2 := by
  unfold Table.tryResolve at h
  split at h
  · cases h
  · split at h
    · simp at h
    · obtain ⟨first, _, h2⟩ := Run.bind_eq_ok.mp h
      obtain ⟨x, h3, h4⟩ := Run.bind_eq_ok.mp h2
      simp only [Run.ok.injEq, Option.some.injEq] at h4
      subst h4
      exact mergeLoop_p h3 (by simp)

theorem amap_mem_set {κ ν : Type} [DecidableEq κ] {m : AMap κ ν} {k : κ} {v : ν} {e : κ × ν} (h : e ∈ m.set k v) : e = (k, v) ∨ e ∈ m := by
  induction m with
  | nil => simp only [AMap.set, List.mem_singleton] at h; exact .inl h
  | cons a m ih =>
    unfold AMap.set at h
    split at h
    · rcases List.mem_cons.mp h with h | h
      · exact .inl h
      · exact .inr (by simp [h])
    · rcases List.mem_cons.mp h with h | h
      · exact .inr (by simp [h])
      · rcases ih h with h | h
        · exact .inl h
        · exact .inr (by simp [h])

theorem appendResults_p : ∀ {res : List (Query × Metadata)} {rs : AMap (String × UInt32) ResolveResult}, ResultsP P rs → (∀ p ∈ res, P p.1.table p.2) →
    ResultsP P (appendResults rs res) := by
  intro res
  induction res with
  | nil => intro rs h _; exact h
  | cons a rest ih =>
    obtain ⟨q, m⟩ := a
    intro rs h hr
    simp only [appendResults]
    refine ih ?_ (fun p hp => hr p (by simp [hp]))
    intro e he
    rcases amap_mem_set he with rfl | he
    · dsimp only
      cases hg : rs.get (q.table, m.tabletId) with
      | none => exact hr (q, m) (by simp)
      | some r => exact h _ (AMap.mem_of_get hg)
    · exact h e he

theorem maybeResolve_p {c c' : MetaCache} {id : Nat} {r r' : Resolve} (h : c.maybeResolve id r = .ok (c', r')) (hc : ProvP P c) (hr : ResP P r) :
    ProvP P c' ∧ ResP P r' := by
  unfold MetaCache.maybeResolve at h
  split at h
  · dsimp only at h
    split at h
    · split at h
      · cases h
      · simp only [Run.ok.injEq, Prod.mk.injEq] at h
        obtain ⟨rfl, rfl⟩ := h
        refine ⟨⟨hc.tables, hc.resolves, fun k res hk p hp => ?_⟩, by simp [ResultsP], hr.pending⟩
        dsimp only at hk
        rw [AMap.get_set] at hk
        split at hk
        · simp only [Option.some.injEq] at hk
          subst hk
          obtain ⟨e, he, rfl⟩ := List.mem_map.mp hp
          exact hr.results e he
        · exact hc.cells k res hk p hp
    · simp only [Run.ok.injEq, Prod.mk.injEq] at h
      obtain ⟨rfl, rfl⟩ := h
      exact ⟨⟨hc.tables, hc.resolves, hc.cells⟩, by simp [ResultsP], hr.pending⟩
  · simp only [Run.ok.injEq, Prod.mk.injEq] at h
    obtain ⟨rfl, rfl⟩ := h
    exact ⟨hc, hr⟩

theorem setResolve_p {c : MetaCache} (hc : ProvP P c) {id : Nat} {r : Resolve} (hr : ResP P r) : ProvP P { c with resolves := c.resolves.set id r } := by
  refine ⟨hc.tables, fun k r' hk => ?_, hc.cells⟩
  dsimp only at hk
  rw [AMap.get_set] at hk
  split at hk
  · simp only [Option.some.injEq] at hk; subst hk; exact hr
  · exact hc.resolves k r' hk

theorem processFresh_p {c c' : MetaCache} {n : String} {idx id : Nat} {t : Table} (h : c.processFresh n idx t id = .ok c') (hc : ProvP P c)
    (ht : ∀ i m, t.tablets.get i = some m → P n m) : ProvP P c' := by
  unfold MetaCache.processFresh at h
  split at h
  · simp only [Run.ok.injEq] at h; subst h; exact hc
  · rename_i r hr
    dsimp only at h
    obtain ⟨r', h1, h2⟩ := Run.bind_eq_ok.mp h
    obtain ⟨y, h3, h4⟩ := Run.bind_eq_ok.mp h2
    simp only [Run.ok.injEq] at h4
    subst h4
    have hr' : ResP P r' := by
      have hrr := hc.resolves id r hr
      split at h1
      · simp only [Run.ok.injEq] at h1; subst h1; exact hrr
      · rename_i q hq
        obtain ⟨x, h5, h6⟩ := Run.bind_eq_ok.mp h1
        split at h6
        · simp only [Run.ok.injEq] at h6
          subst h6
          refine ⟨appendResults_p hrr.results fun p hp => ?_, fun n' idx' q' hq' => ?_⟩
          · obtain ⟨k1, i, k2⟩ := tryResolve_p h5 p hp
            rw [k1, hrr.pending n idx q hq]
            exact ht i _ k2
          · dsimp only at hq'
            rw [AMap.get_erase] at hq'
            split at hq'
            · cases hq'
            · exact hrr.pending n' idx' q' hq'
        · cases h6
    obtain ⟨k1, k2⟩ := maybeResolve_p h3 hc hr'
    exact setResolve_p k1 k2

theorem notifyAll_p {n : String} {idx : Nat} {t : Table} (ht : ∀ i m, t.tablets.get i = some m → P n m) : ∀ {ids : List Nat} {c c' : MetaCache},
    c.notifyAll n idx t ids = .ok c' → ProvP P c → ProvP P c' := by
  intro ids
  induction ids with
  | nil => intro c c' h hc; simp only [MetaCache.notifyAll, Run.ok.injEq] at h; subst h; exact hc
  | cons j rest ih =>
    intro c c' h hc
    obtain ⟨c1, h1, h2⟩ := Run.bind_eq_ok.mp h
    exact ih h2 (processFresh_p h1 hc ht)

theorem processResult_p {c c' : MetaCache} {x : TabletOpResult} (h : c.processResult x = .ok c') (hc : ProvP P c)
    (hx : x.status = .succeeded → ∀ a b ts, x.result = some (.list a b ts) → ∀ m ∈ ts, P x.table m) : ProvP P c' := by
  unfold MetaCache.processResult at h
  split at h
  · rename_i start to tablets hres
    split at h
    · rename_i t ht
      obtain ⟨y, h1, h2⟩ := Run.bind_eq_ok.mp h
      have hy : ∀ i m, y.1.tablets.get i = some m → P x.table m := by
        unfold Table.updateRegion at h1
        obtain ⟨i, _, h3⟩ := Run.bind_eq_ok.mp h1
        have h0 := hc.tables x.table t ht
        split at h3
        · simp only [Run.ok.injEq] at h3; subst h3; exact h0
        · split at h3
          · rename_i ts hts
            simp only [Run.ok.injEq] at h3
            subst h3
            split at hts
            · rename_i hst
              simp only [Option.some.injEq] at hts
              subst hts
              exact foldl_insertLatest_p h0 (hx hst _ _ _ hres)
            · cases hts
          · simp only [Run.ok.injEq] at h3; subst h3; exact h0
      exact notifyAll_p hy h2 ⟨hc.tables.set hy, hc.resolves, hc.cells⟩
    · simp only [Run.ok.injEq] at h; subst h; exact hc
  · cases h

theorem processIn_p : ∀ {rs : List TabletOpResult} {c c' : MetaCache}, c.processIn rs = .ok c' → ProvP P c → InP P (.list rs) → ProvP P c' := by
  intro rs
  induction rs with
  | nil => intro c c' h hc _; simp only [MetaCache.processIn, Run.ok.injEq] at h; subst h; exact hc
  | cons x rest ih =>
    intro c c' h hc hx
    obtain ⟨c1, h1, h2⟩ := Run.bind_eq_ok.mp h
    exact ih h2 (processResult_p h1 hc (hx x (by simp))) (fun y hy => hx y (by simp [hy]))

theorem prepareAllTables_p : ∀ {a b : AMap String Table} {ops : List TabletOp}, prepareAllTables a = .ok (b, ops) → ∀ n,
    (a.get n = none → b.get n = none) ∧ ∀ t, b.get n = some t → ∃ t0, a.get n = some t0 ∧ t.tablets = t0.tablets := by
  intro a
  induction a with
  | nil => intro b ops h n; simp only [prepareAllTables, Run.ok.injEq, Prod.mk.injEq] at h; obtain ⟨rfl, rfl⟩ := h; simp
  | cons e rest ih =>
    obtain ⟨k, t0⟩ := e
    intro b ops h n
    simp only [prepareAllTables] at h
    obtain ⟨x, h1, h2⟩ := Run.bind_eq_ok.mp h
    obtain ⟨y, h3, h4⟩ := Run.bind_eq_ok.mp h2
    simp only [Run.ok.injEq, Prod.mk.injEq] at h4
    obtain ⟨rfl, rfl⟩ := h4
    have := ih (b := y.1) (ops := y.2) h3 n
    simp only [AMap.get_cons]
    split
    · refine ⟨by simp, fun t ht => ?_⟩
      simp only [Option.some.injEq] at ht
      subst ht
      exact ⟨t0, rfl, rfl⟩
    · exact this

theorem registerPending_p {t t' : Table} {id idx : Nat} (h : t.registerPending id idx = .ok t') : t'.tablets = t.tablets := by
  unfold Table.registerPending at h
  split at h
  · obtain ⟨r', _, h2⟩ := Run.bind_eq_ok.mp h
    simp only [Run.ok.injEq] at h2
    subst h2; rfl
  · simp only [Run.ok.injEq] at h; subst h; rfl

theorem resolveParts_p {id : Nat} : ∀ {parts : List (Query × Nat)} {a b : AMap String Table} {r r' : Resolve}, resolveParts id a r parts = .ok (b, r') →
    TablesP P a → ResP P r → TablesP P b ∧ ResP P r' := by
  intro parts
  induction parts with
  | nil => intro a b r r' h ha hr; simp only [resolveParts, Run.ok.injEq, Prod.mk.injEq] at h; obtain ⟨rfl, rfl⟩ := h; exact ⟨ha, hr⟩
  | cons e rest ih =>
    obtain ⟨q, idx⟩ := e
    intro a b r r' h ha hr
    simp only [resolveParts] at h
    obtain ⟨t, h1, h2⟩ := Run.bind_eq_ok.mp h
    obtain ⟨x, h3, h4⟩ := Run.bind_eq_ok.mp h2
    have ht : a.get q.table = some t := by
      cases hg : a.get q.table with
      | none => rw [hg] at h1; cases h1
      | some y => rw [hg] at h1; simp only [Run.unwrap_some, Run.ok.injEq] at h1; rw [h1]
    cases x with
    | some res =>
      refine ih h4 ha ⟨appendResults_p hr.results fun p hp => ?_, hr.pending⟩
      obtain ⟨k1, i, k2⟩ := tryResolve_p h3 p hp
      rw [k1]
      exact ha q.table t ht i _ k2
    | none =>
      obtain ⟨t', h5, h6⟩ := Run.bind_eq_ok.mp h4
      refine ih h6 (ha.set ?_) ⟨hr.results, fun n idx' q' hq' => ?_⟩
      · rw [registerPending_p h5]
        exact ha q.table t ht
      · dsimp only at hq'
        rw [AMap.get_set] at hq'
        split at hq'
        · rename_i e
          simp only [Option.some.injEq] at hq'
          subst hq'
          simp only [Prod.mk.injEq] at e
          exact e.1
        · exact hr.pending n idx' q' hq'

theorem feed_p {c c' : MetaCache} {i : Input} (h : feed c i = .ok c') (hc : ProvP P c) (hi : InP P i) : ProvP P c' := by
  cases i with
  | progress =>
    simp only [feed, MetaCache.makeProgress] at h
    obtain ⟨x, h1, h2⟩ := Run.bind_eq_ok.mp h
    have ht : TablesP P x.1 := by
      intro n t hn i m hm
      obtain ⟨t0, k1, k2⟩ := (prepareAllTables_p (b := x.1) (ops := x.2) h1 n).2 t hn
      exact hc.tables n t0 k1 i m (by rw [← k2]; exact hm)
    simp only [Run.ok.injEq] at h2
    subst h2
    split
    · exact ⟨ht, hc.resolves, hc.cells⟩
    · exact ⟨ht, hc.resolves, hc.cells⟩
  | resolve n qs =>
    simp only [feed, MetaCache.resolve] at h
    obtain ⟨parts, _, h2⟩ := Run.bind_eq_ok.mp h
    obtain ⟨x, h3, h4⟩ := Run.bind_eq_ok.mp h2
    obtain ⟨y, h5, h6⟩ := Run.bind_eq_ok.mp h4
    simp only [Run.ok.injEq] at h6
    subst h6
    obtain ⟨k1, k2⟩ := resolveParts_p (P := P) (b := x.1) (r' := x.2) h3 hc.tables ⟨by simp [ResultsP], by simp⟩
    obtain ⟨k3, k4⟩ := maybeResolve_p h5 ⟨k1, hc.resolves, hc.cells⟩ k2
    exact setResolve_p k3 k4
  | update t m b =>
    simp only [feed, MetaCache.updateTablet] at h
    split at h
    · rename_i tb htb
      obtain ⟨t', h1, h2⟩ := Run.bind_eq_ok.mp h
      simp only [Run.ok.injEq] at h2
      subst h2
      refine ⟨hc.tables.set ?_, hc.resolves, hc.cells⟩
      have : t'.tablets = insertLatest tb.tablets m := by
        unfold Table.updateTablet at h1
        obtain ⟨j, _, h3⟩ := Run.bind_eq_ok.mp h1
        dsimp only at h3
        split at h3
        · simp only [Run.ok.injEq] at h3; subst h3; split <;> rfl
        · simp only [Run.ok.injEq] at h3; subst h3; rfl
      rw [this]
      exact insertLatest_p (hc.tables t tb htb) hi
    · simp only [Run.ok.injEq] at h; subst h; exact hc
  | list rs => exact processIn_p h hc hi
  | take =>
    simp only [feed, MetaCache.takeOut, Run.ok.injEq] at h
    subst h
    exact ⟨hc.tables, hc.resolves, hc.cells⟩

theorem feedAll_p : ∀ {ins : List Input} {c c' : MetaCache}, feedAll c ins = .ok c' → ProvP P c → (∀ i ∈ ins, InP P i) → ProvP P c' := by
  intro ins
  induction ins with
  | nil => intro c c' h hc _; simp only [feedAll, Run.ok.injEq] at h; subst h; exact hc
  | cons i rest ih =>
    intro c c' h hc hi
    obtain ⟨c1, h1, h2⟩ := Run.bind_eq_ok.mp h
    exact ih h2 (feed_p h1 hc (hi i (by simp))) (fun x hx => hi x (by simp [hx]))

theorem init_p : ∀ {cfg : List (String × UInt32)} {c c' : MetaCache}, c.init cfg = .ok c' → ProvP P c → ProvP P c' := by
  intro cfg
  induction cfg with
  | nil => intro c c' h hc; simp only [MetaCache.init, Run.ok.injEq] at h; subst h; exact hc
  | cons e rest ih =>
    obtain ⟨n, size⟩ := e
    intro c c' h hc
    simp only [MetaCache.init] at h
    obtain ⟨t, h1, h2⟩ := Run.bind_eq_ok.mp h
    refine ih h2 ⟨hc.tables.set ?_, hc.resolves, hc.cells⟩
    rw [(create_inv h1).2.1]
    simp

theorem started_p {cfg : List (String × UInt32)} {c0 : MetaCache} (h : Started cfg c0) : ProvP P c0 := by
  obtain ⟨corr, h⟩ := h
  exact init_p h ⟨by simp [TablesP, MetaCache.create], by simp [MetaCache.create], by simp [MetaCache.create]⟩

end TCP.Cache
