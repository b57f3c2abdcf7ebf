import Verif.Proofs.CacheDataLive
import Verif.Spec.CacheCoordinator

/-! # Proofs about the transaction manager: the data cache as seen from the coordinator -/

namespace TCP.Cache

open TCP TCP.TabletStore TCP.Cache.Spec

variable {α η ω : Type}

/-! ## Batches that will never have a result -/

/-- The batch is not recorded and has no result. -/
structure Dead (d : DataCache α) (id : Nat) : Prop where
  le : id ≤ d.batchCounter
  batch : d.batches.get id = none
  load : d.cells.loads.get id = none
  store : d.cells.stores.get id = none

theorem setLoad_other {c c' : Cells α} {id j : Nat} {x} (h : c.setLoad id x = .ok c') (hj : id ≠ j) :
    c'.loads.get j = c.loads.get j ∧ c'.stores.get j = c.stores.get j := by
  unfold Cells.setLoad at h
  split at h
  · simp at h
  · simp only [Run.ok.injEq] at h; subst h; exact ⟨AMap.get_set_ne _ _ hj, rfl⟩

theorem setStore_other {c c' : Cells α} {id j : Nat} {x} (h : c.setStore id x = .ok c') (hj : id ≠ j) :
    c'.loads.get j = c.loads.get j ∧ c'.stores.get j = c.stores.get j := by
  unfold Cells.setStore at h
  split at h
  · simp at h
  · simp only [Run.ok.injEq] at h; subst h; exact ⟨rfl, AMap.get_set_ne _ _ hj⟩

theorem resolveEntry_foreign {id j : Nat} {b b' : Batch α} {e : Entry α} {c c' : Cells α} (h : resolveEntry id b e c = .ok (b', c'))
    (hj : id ≠ j) : c'.loads.get j = c.loads.get j ∧ c'.stores.get j = c.stores.get j := by
  unfold resolveEntry at h
  split at h
  · simp at h
  · dsimp only at h
    split at h
    · split at h
      · obtain ⟨x, h1, h2⟩ := Run.bind_eq_ok.mp h
        simp only [Run.ok.injEq, Prod.mk.injEq] at h2
        obtain ⟨-, rfl⟩ := h2
        exact setLoad_other h1 hj
      · simp only [Run.ok.injEq, Prod.mk.injEq] at h; obtain ⟨-, rfl⟩ := h; exact ⟨rfl, rfl⟩
    · obtain ⟨x, h1, h2⟩ := Run.bind_eq_ok.mp h
      simp only [Run.ok.injEq, Prod.mk.injEq] at h2
      obtain ⟨-, rfl⟩ := h2
      exact setLoad_other h1 hj
    · split at h
      · obtain ⟨x, h1, h2⟩ := Run.bind_eq_ok.mp h
        simp only [Run.ok.injEq, Prod.mk.injEq] at h2
        obtain ⟨-, rfl⟩ := h2
        exact setStore_other h1 hj
      · simp only [Run.ok.injEq, Prod.mk.injEq] at h; obtain ⟨-, rfl⟩ := h; exact ⟨rfl, rfl⟩
    · obtain ⟨x, h1, h2⟩ := Run.bind_eq_ok.mp h
      simp only [Run.ok.injEq, Prod.mk.injEq] at h2
      obtain ⟨-, rfl⟩ := h2
      exact setStore_other h1 hj
    · simp only [Run.ok.injEq, Prod.mk.injEq] at h; obtain ⟨-, rfl⟩ := h; exact ⟨rfl, rfl⟩

theorem registerAll_other {id j : Nat} (hj : id ≠ j) : ∀ {ks : List String} {es es' : AMap String (Entry α)} {b b' : Batch α} {c c' : Cells α},
    registerAll id es b c ks = .ok (es', b', c') → c'.loads.get j = c.loads.get j ∧ c'.stores.get j = c.stores.get j := by
  intro ks
  induction ks with
  | nil => intro es es' b b' c c' h; simp only [registerAll, Run.ok.injEq, Prod.mk.injEq] at h; rw [h.2.2]; exact ⟨rfl, rfl⟩
  | cons k rest ih =>
    intro es es' b b' c c' h
    unfold registerAll at h
    cases hg : es.get k with
    | none => simp only [hg] at h; exact ih h
    | some e =>
      simp only [hg] at h
      obtain ⟨x, h1, h2⟩ := Run.bind_eq_ok.mp h
      obtain ⟨i1, i2⟩ := ih h2
      have : x.2.2.loads.get j = c.loads.get j ∧ x.2.2.stores.get j = c.stores.get j := by
        unfold addPending at h1
        split at h1
        · simp only [Run.ok.injEq] at h1; rw [← h1]; exact ⟨rfl, rfl⟩
        · simp only [Run.ok.injEq] at h1; rw [← h1]; exact ⟨rfl, rfl⟩
        · obtain ⟨y, h3, h4⟩ := Run.bind_eq_ok.mp h1
          simp only [Run.ok.injEq] at h4
          rw [← h4]
          exact resolveEntry_foreign (b' := y.1) (c' := y.2) h3 hj
      rw [i1, i2]; exact this

theorem batch_dead {d d' : DataCache α} {s : BatchState α} {ks : List String} {id : Nat} (h : d.batch s ks = .ok d') (hd : Dead d id) :
    Dead d' id := by
  unfold DataCache.batch at h
  obtain ⟨⟨es, b, c⟩, h1, h2⟩ := Run.bind_eq_ok.mp h
  simp only [Run.ok.injEq] at h2
  subst h2
  have hne : d.batchCounter + 1 ≠ id := by have := hd.le; omega
  obtain ⟨i1, i2⟩ := registerAll_other hne h1
  refine ⟨Nat.le_succ_of_le hd.le, ?_, by dsimp only; rw [i1]; exact hd.load, by dsimp only; rw [i2]; exact hd.store⟩
  dsimp only
  split
  · exact hd.batch
  · rw [AMap.get_set_ne _ _ hne]; exact hd.batch

theorem loadEntries_same : ∀ (ms : List Metadata) (d : DataCache α), (d.loadEntries ms).batchCounter = d.batchCounter ∧
    (d.loadEntries ms).batches = d.batches ∧ (d.loadEntries ms).cells = d.cells := by
  intro ms
  induction ms with
  | nil => intro d; exact ⟨rfl, rfl, rfl⟩
  | cons m rest ih =>
    intro d
    unfold DataCache.loadEntries
    split
    · exact ih d
    · exact ih _

theorem load_dead {d d' : DataCache α} {ms : List Metadata} {id : Nat} (h : d.load ms = .ok d') (hd : Dead d id) : Dead d' id := by
  obtain ⟨h1, h2, h3⟩ := loadEntries_same ms d
  exact batch_dead h ⟨by rw [h1]; exact hd.le, by rw [h2]; exact hd.batch, by rw [h3]; exact hd.load, by rw [h3]; exact hd.store⟩

theorem storeEntries_same : ∀ {xs : List (Metadata × α × Bytes)} {d d' : DataCache α}, d.storeEntries xs = .ok d' →
    d'.batchCounter = d.batchCounter ∧ d'.batches = d.batches ∧ d'.cells = d.cells := by
  intro xs
  induction xs with
  | nil => intro d d' h; simp only [DataCache.storeEntries, Run.ok.injEq] at h; subst h; exact ⟨rfl, rfl, rfl⟩
  | cons x rest ih =>
    obtain ⟨m, v, b⟩ := x
    intro d d' h
    unfold DataCache.storeEntries at h
    split at h
    · simp at h
    · have := ih h; exact this

theorem store_dead {env : DataEnv α} {d d' : DataCache α} {data : List (Metadata × α)} {ms : List Metadata} {b : Bool} {id : Nat}
    (h : d.store env data = .ok (d', ms, b)) (hd : Dead d id) : Dead d' id := by
  unfold DataCache.store at h
  obtain ⟨⟨ms0, o⟩, h1, h2⟩ := Run.bind_eq_ok.mp h
  cases o with
  | none => simp only [Run.ok.injEq, Prod.mk.injEq] at h2; obtain ⟨rfl, -, -⟩ := h2; exact hd
  | some bs =>
    dsimp only at h2
    obtain ⟨d1, h3, h4⟩ := Run.bind_eq_ok.mp h2
    obtain ⟨d2, h5, h6⟩ := Run.bind_eq_ok.mp h4
    simp only [Run.ok.injEq, Prod.mk.injEq] at h6
    obtain ⟨rfl, -, -⟩ := h6
    obtain ⟨s1, s2, s3⟩ := storeEntries_same h3
    exact batch_dead h5 ⟨by rw [s1]; exact hd.le, by rw [s2]; exact hd.batch, by rw [s3]; exact hd.load, by rw [s3]; exact hd.store⟩

theorem notifyBatches_other {e : Entry α} {j : Nat} : ∀ {w : List Nat} {bs bs' : AMap Nat (Batch α)} {c c' : Cells α},
    bs.get j = none → notifyBatches e w bs c = .ok (bs', c') →
    bs'.get j = none ∧ c'.loads.get j = c.loads.get j ∧ c'.stores.get j = c.stores.get j := by
  intro w
  induction w with
  | nil => intro bs bs' c c' hj h; simp only [notifyBatches, Run.ok.injEq, Prod.mk.injEq] at h; obtain ⟨rfl, rfl⟩ := h; exact ⟨hj, rfl, rfl⟩
  | cons id rest ih =>
    intro bs bs' c c' hj h
    unfold notifyBatches at h
    obtain ⟨b, h1, h2⟩ := Run.bind_eq_ok.mp h
    obtain ⟨⟨b1, c1⟩, h3, h4⟩ := Run.bind_eq_ok.mp h2
    have hne : id ≠ j := by rintro rfl; rw [hj] at h1; simp at h1
    obtain ⟨i1, i2, i3⟩ := ih (by rw [AMap.get_set_ne _ _ hne]; exact hj) h4
    obtain ⟨r1, r2⟩ := resolveEntry_foreign h3 hne
    exact ⟨i1, by rw [i2]; exact r1, by rw [i3]; exact r2⟩

theorem notifyEntries_other {j : Nat} : ∀ {es es' : AMap String (Entry α)} {bs bs' : AMap Nat (Batch α)} {c c' : Cells α},
    bs.get j = none → notifyEntries es bs c = .ok (es', bs', c') →
    bs'.get j = none ∧ c'.loads.get j = c.loads.get j ∧ c'.stores.get j = c.stores.get j := by
  intro es
  induction es with
  | nil =>
    intro es' bs bs' c c' hj h
    simp only [notifyEntries, Run.ok.injEq, Prod.mk.injEq] at h; obtain ⟨-, rfl, rfl⟩ := h; exact ⟨hj, rfl, rfl⟩
  | cons x rest ih =>
    obtain ⟨k, e⟩ := x
    intro es' bs bs' c c' hj h
    unfold notifyEntries at h
    split at h
    · obtain ⟨⟨bs1, c1⟩, h1, h2⟩ := Run.bind_eq_ok.mp h
      obtain ⟨⟨es2, bs2, c2⟩, h3, h4⟩ := Run.bind_eq_ok.mp h2
      simp only [Run.ok.injEq, Prod.mk.injEq] at h4
      obtain ⟨-, rfl, rfl⟩ := h4
      obtain ⟨i1, i2, i3⟩ := notifyBatches_other hj h1
      obtain ⟨j1, j2, j3⟩ := ih i1 h3
      exact ⟨j1, by rw [j2]; exact i2, by rw [j3]; exact i3⟩
    · obtain ⟨⟨es2, bs2, c2⟩, h3, h4⟩ := Run.bind_eq_ok.mp h
      simp only [Run.ok.injEq, Prod.mk.injEq] at h4
      obtain ⟨-, rfl, rfl⟩ := h4
      exact ih hj h3

theorem get_filter_none {κ ν : Type} [DecidableEq κ] {m : AMap κ ν} {k : κ} {p : κ × ν → Bool} (h : m.get k = none) :
    AMap.get (m.filter p) k = none := by
  rw [AMap.get_eq_none_iff] at h ⊢
  intro hm
  apply h
  obtain ⟨x, h1, h2⟩ := List.mem_map.mp hm
  exact List.mem_map.mpr ⟨x, (List.mem_filter.mp h1).1, h2⟩

theorem makeProgress_dead {d d' : DataCache α} {policy : AMap String (Entry α) → List String} {id : Nat}
    (h : d.makeProgress policy = .ok d') (hd : Dead d id) : Dead d' id := by
  unfold DataCache.makeProgress at h
  obtain ⟨⟨es, bs, c⟩, h1, h2⟩ := Run.bind_eq_ok.mp h
  simp only [Run.ok.injEq] at h2
  subst h2
  obtain ⟨i1, i2, i3⟩ := notifyEntries_other hd.batch h1
  exact ⟨hd.le, get_filter_none i1, by dsimp only; rw [i2]; exact hd.load, by dsimp only; rw [i3]; exact hd.store⟩

theorem processIn_dead {env : DataEnv α} {d d' : DataCache α} {r : DataIn} {id : Nat}
    (h : d.processIn env r = .ok d') (hd : Dead d id) : Dead d' id := by
  rcases processIn_shape h with ⟨_, rfl⟩ | ⟨k, e, s, _, _, _, _, rfl⟩
  · exact hd
  · exact ⟨hd.le, hd.batch, hd.load, hd.store⟩

/-- Storing nothing. -/
theorem store_nil {env : DataEnv α} {d d' : DataCache α} {ms : List Metadata} {b : Bool} (h : d.store env [] = .ok (d', ms, b)) :
    b = true ∧ ms = [] ∧ d' = { d with batchCounter := d.batchCounter + 1 } := by
  simp [DataCache.store, prepareWrites, DataCache.storeEntries, DataCache.batch, registerAll] at h
  obtain ⟨rfl, rfl, rfl⟩ := h
  exact ⟨rfl, rfl, rfl⟩

theorem fresh_dead {env : DataEnv α} {evs : List (Event α)} {d : DataCache α} (h : History env evs d) :
    Dead { d with batchCounter := d.batchCounter + 1 } (d.batchCounter + 1) := by
  have hi := history_inv h
  obtain ⟨h1, h2⟩ := fresh_cells hi.base hi.ids
  refine ⟨Nat.le_refl _, ?_, h1, h2⟩
  cases hb : d.batches.get (d.batchCounter + 1) with
  | none => rfl
  | some b => have := hi.ids.batches (d.batchCounter + 1) (by rw [hb]; rfl); omega

/-! ## What happens to the caches while process requests advance -/

/-- A call of a transaction. -/
def Called : Event α → Prop
  | .load _ _ _ => True
  | .store _ _ _ => True
  | _ => False

/-- How the world changes. -/
structure Grows (env : TxnEnv α η ω) (w w' : World α ω) : Prop where
  dead : ∀ id, Dead w.data id → Dead w'.data id
  hist : ∀ devs, History env.data devs w.data → ∃ more, (∀ e ∈ more, Called e) ∧ History env.data (devs ++ more) w'.data
  keeps : ∀ devs, History env.data devs w.data → Keeps w.data.cells w'.data.cells
  cells : ∀ id x, w.md.cells.get id = some x → w'.md.cells.get id = some x

theorem Grows.refl (env : TxnEnv α η ω) (w : World α ω) : Grows env w w where
  dead := fun _ h => h
  hist := fun devs h => ⟨[], by simp, by simpa using h⟩
  keeps := fun _ _ => Keeps.refl _
  cells := fun _ _ h => h

theorem Grows.trans {env : TxnEnv α η ω} {a b c : World α ω} (h : Grows env a b) (k : Grows env b c) : Grows env a c where
  dead := fun id hd => k.dead id (h.dead id hd)
  hist := fun devs hd => by
    obtain ⟨m1, h1, h2⟩ := h.hist devs hd
    obtain ⟨m2, h3, h4⟩ := k.hist _ h2
    refine ⟨m1 ++ m2, fun e he => ?_, by simpa using h4⟩
    rcases List.mem_append.mp he with he | he
    · exact h1 e he
    · exact h3 e he
  keeps := fun devs hd => by
    obtain ⟨m1, _, h2⟩ := h.hist devs hd
    exact (h.keeps devs hd).trans (k.keeps _ h2)
  cells := fun id x hx => k.cells id x (h.cells id x hx)

theorem maybeResolve_cells {c c' : MetaCache} {id : Nat} {r r' : Resolve} (h : c.maybeResolve id r = .ok (c', r')) :
    ∀ j x, c.cells.get j = some x → c'.cells.get j = some x := by
  intro j x hx
  unfold MetaCache.maybeResolve at h
  split at h
  · dsimp only at h
    split at h
    · split at h
      · simp at h
      · rename_i hn
        simp only [Run.ok.injEq, Prod.mk.injEq] at h
        obtain ⟨rfl, -⟩ := h
        have : id ≠ j := by rintro rfl; rw [hx] at hn; simp at hn
        dsimp only
        rw [AMap.get_set_ne _ _ this]; exact hx
    · simp only [Run.ok.injEq, Prod.mk.injEq] at h
      obtain ⟨rfl, -⟩ := h
      exact hx
  · simp only [Run.ok.injEq, Prod.mk.injEq] at h
    obtain ⟨rfl, -⟩ := h
    exact hx

theorem resolve_cells {c c' : MetaCache} {n : Notification} {qs : List Query} (h : c.resolve n qs = .ok c') :
    ∀ j x, c.cells.get j = some x → c'.cells.get j = some x := by
  intro j x hx
  unfold MetaCache.resolve at h
  obtain ⟨parts, _, h2⟩ := Run.bind_eq_ok.mp h
  obtain ⟨y, _, h3⟩ := Run.bind_eq_ok.mp h2
  obtain ⟨z, h4, h5⟩ := Run.bind_eq_ok.mp h3
  simp only [Run.ok.injEq] at h5
  subst h5
  exact maybeResolve_cells (c' := z.1) (r' := z.2) h4 j x hx

theorem step_grows {env : TxnEnv α η ω} {i : Nat} {p p' : Proc α η} {w w' : World α ω} (h : p.step env i w = .ok (p', w')) :
    Grows env w w' := by
  unfold Proc.step at h
  cases hs : p.status with
  | pending qs =>
    simp only [hs] at h
    obtain ⟨c, h1, h2⟩ := Run.bind_eq_ok.mp h
    simp only [Run.ok.injEq, Prod.mk.injEq] at h2
    obtain ⟨-, rfl⟩ := h2
    exact ⟨fun _ h => h, fun devs h => ⟨[], by simp, by simpa using h⟩, fun _ _ => Keeps.refl _, resolve_cells h1⟩
  | resolving id =>
    simp only [hs] at h
    cases hc : w.md.cells.get id with
    | none =>
      simp only [hc, Run.ok.injEq, Prod.mk.injEq] at h
      rw [← h.2]; exact Grows.refl _ _
    | some res =>
      simp only [hc] at h
      obtain ⟨d, h1, h2⟩ := Run.bind_eq_ok.mp h
      simp only [Run.ok.injEq, Prod.mk.injEq] at h2
      obtain ⟨-, rfl⟩ := h2
      refine ⟨fun _ hd => load_dead h1 hd, fun devs hd => ⟨[.load (res.map Prod.snd) d.batchCounter (firstReady w.data (res.map Prod.snd))], by simp [Called], hd.load h1⟩,
        fun devs hd => (load_ok (history_inv hd) h1).2.1, fun _ _ h => h⟩
  | loading id =>
    simp only [hs] at h
    cases hc : w.data.cells.loads.get id with
    | none =>
      simp only [hc, Run.ok.injEq, Prod.mk.injEq] at h
      rw [← h.2]; exact Grows.refl _ _
    | some o =>
      cases o with
      | none =>
        simp only [hc, Run.ok.injEq, Prod.mk.injEq] at h
        rw [← h.2]; exact Grows.refl _ _
      | some res =>
        simp only [hc] at h
        obtain ⟨ts, h1, h2⟩ := Run.bind_eq_ok.mp h
        obtain ⟨x, h3, h4⟩ := Run.bind_eq_ok.mp h2
        obtain ⟨⟨d, ms, b⟩, h5, h6⟩ := Run.bind_eq_ok.mp h4
        simp only [Run.ok.injEq, Prod.mk.injEq] at h6
        obtain ⟨-, rfl⟩ := h6
        exact ⟨fun _ hd => store_dead h5 hd, fun devs hd => ⟨[.store (takeWrites (applySets ts x.2)) ms (if b then some d.batchCounter else none)], by simp [Called], hd.store h5⟩,
          fun devs hd => (store_ok (history_inv hd) h5).2.1, fun _ _ h => h⟩
  | storing o =>
    cases o with
    | none =>
      simp only [hs, Run.ok.injEq, Prod.mk.injEq] at h
      rw [← h.2]; exact Grows.refl _ _
    | some id =>
      simp only [hs] at h
      split at h <;> (simp only [Run.ok.injEq, Prod.mk.injEq] at h; rw [← h.2]; exact Grows.refl _ _)
  | completed =>
    simp only [hs, Run.ok.injEq, Prod.mk.injEq] at h
    rw [← h.2]; exact Grows.refl _ _
  | failed =>
    simp only [hs, Run.ok.injEq, Prod.mk.injEq] at h
    rw [← h.2]; exact Grows.refl _ _

/-- Every process request makes its step in some world between the first and the last. -/
def Each (env : TxnEnv α η ω) (i : Nat) (w w' : World α ω) (ps ps' : List (Proc α η)) : Prop :=
  ps'.length = ps.length ∧ ∀ (k : Nat) (p p' : Proc α η), ps[k]? = some p → ps'[k]? = some p' → ∃ w1 w2, Grows env w w1 ∧ p.step env i w1 = .ok (p', w2) ∧ Grows env w2 w'

theorem stepProcs_each {env : TxnEnv α η ω} {i : Nat} : ∀ {ps ps' : List (Proc α η)} {w w' : World α ω},
    stepProcs env i ps w = .ok (ps', w') → Grows env w w' ∧ Each env i w w' ps ps' := by
  intro ps
  induction ps with
  | nil =>
    intro ps' w w' h
    simp only [stepProcs, Run.ok.injEq, Prod.mk.injEq] at h
    obtain ⟨rfl, rfl⟩ := h
    exact ⟨Grows.refl _ _, rfl, by simp⟩
  | cons p rest ih =>
    intro ps' w w' h
    unfold stepProcs at h
    obtain ⟨⟨p1, w1⟩, h1, h2⟩ := Run.bind_eq_ok.mp h
    obtain ⟨⟨ps2, w2⟩, h3, h4⟩ := Run.bind_eq_ok.mp h2
    simp only [Run.ok.injEq, Prod.mk.injEq] at h4
    obtain ⟨rfl, rfl⟩ := h4
    have g1 := step_grows h1
    obtain ⟨g2, e1, e2⟩ := ih h3
    refine ⟨g1.trans g2, by simp [e1], ?_⟩
    intro k q q' hq hq'
    cases k with
    | zero =>
      simp only [List.getElem?_cons_zero, Option.some.injEq] at hq hq'
      subst hq; subst hq'
      exact ⟨w, w1, Grows.refl _ _, h1, g2⟩
    | succ k =>
      simp only [List.getElem?_cons_succ] at hq hq'
      obtain ⟨a, b, h5, h6, h7⟩ := e2 k q q' hq hq'
      exact ⟨a, b, g1.trans h5, h6, h7⟩

/-- How a transaction changes. -/
def TxnEach (env : TxnEnv α η ω) (i : Nat) (w w' : World α ω) : TxnState α η → TxnState α η → Prop
  | .preparing ps, s => ∃ ps', s = .preparing ps' ∧ Each env i w w' ps ps'
  | a, b => a = b

theorem stepTxns_each {env : TxnEnv α η ω} : ∀ {ts ts' : AMap Nat (TxnState α η)} {w w' : World α ω},
    stepTxns env ts w = .ok (ts', w') → Grows env w w' ∧ AMap.keys ts' = AMap.keys ts ∧
    ∀ i, (ts.get i = none → ts'.get i = none) ∧ ∀ s, ts.get i = some s → ∃ s', ts'.get i = some s' ∧ TxnEach env i w w' s s' := by
  intro ts
  induction ts with
  | nil =>
    intro ts' w w' h
    simp only [stepTxns, Run.ok.injEq, Prod.mk.injEq] at h
    obtain ⟨rfl, rfl⟩ := h
    exact ⟨Grows.refl _ _, rfl, by simp⟩
  | cons x rest ih =>
    obtain ⟨i, s⟩ := x
    intro ts' w w' h
    have key : ∃ s' w1 ts2, ts' = (i, s') :: ts2 ∧ Grows env w w1 ∧ (∀ w2, Grows env w1 w2 → TxnEach env i w w2 s s') ∧ stepTxns env rest w1 = .ok (ts2, w') := by
      cases s with
      | preparing ps =>
        unfold stepTxns at h
        obtain ⟨⟨ps1, w1⟩, h1, h2⟩ := Run.bind_eq_ok.mp h
        obtain ⟨⟨ts2, w2⟩, h3, h4⟩ := Run.bind_eq_ok.mp h2
        simp only [Run.ok.injEq, Prod.mk.injEq] at h4
        obtain ⟨rfl, rfl⟩ := h4
        obtain ⟨g, e1, e2⟩ := stepProcs_each h1
        refine ⟨.preparing ps1, w1, ts2, rfl, g, fun w2 hg => ⟨ps1, rfl, e1, fun k p p' hp hp' => ?_⟩, h3⟩
        obtain ⟨a, b, h5, h6, h7⟩ := e2 k p p' hp hp'
        exact ⟨a, b, h5, h6, h7.trans hg⟩
      | committing ops =>
        unfold stepTxns at h
        obtain ⟨⟨ts2, w2⟩, h3, h4⟩ := Run.bind_eq_ok.mp h
        simp only [Run.ok.injEq, Prod.mk.injEq] at h4
        obtain ⟨rfl, rfl⟩ := h4
        exact ⟨_, w, ts2, rfl, Grows.refl _ _, fun _ _ => rfl, h3⟩
      | completed o =>
        unfold stepTxns at h
        obtain ⟨⟨ts2, w2⟩, h3, h4⟩ := Run.bind_eq_ok.mp h
        simp only [Run.ok.injEq, Prod.mk.injEq] at h4
        obtain ⟨rfl, rfl⟩ := h4
        exact ⟨_, w, ts2, rfl, Grows.refl _ _, fun _ _ => rfl, h3⟩
    obtain ⟨s', w1, ts2, rfl, g1, e1, h3⟩ := key
    obtain ⟨g2, e2, e3⟩ := ih h3
    refine ⟨g1.trans g2, by simp [AMap.keys_cons, e2], fun j => ?_⟩
    by_cases hj : i = j
    · subst hj
      simp only [AMap.get_cons, ↓reduceIte]
      refine ⟨by simp, fun t ht => ?_⟩
      simp only [Option.some.injEq] at ht
      subst ht
      exact ⟨s', rfl, e1 w' g2⟩
    · simp only [AMap.get_cons, hj, ↓reduceIte]
      obtain ⟨f1, f2⟩ := e3 j
      refine ⟨f1, fun t ht => ?_⟩
      obtain ⟨t', h4, h5⟩ := f2 t ht
      refine ⟨t', h4, ?_⟩
      cases t with
      | preparing ps =>
        obtain ⟨ps', rfl, l1, l2⟩ := h5
        refine ⟨ps', rfl, l1, fun k p p' hp hp' => ?_⟩
        obtain ⟨a, b, h6, h7, h8⟩ := l2 k p p' hp hp'
        exact ⟨a, b, g1.trans h6, h7, h8⟩
      | committing ops => exact h5
      | completed o => exact h5

end TCP.Cache
