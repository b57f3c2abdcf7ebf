import Verif.Proofs.CacheStore
import Verif.Proofs.CacheActor
import Verif.Spec.CacheNumbers

/-!
# Proofs about the correlation ids of a cache (C105)
-/

namespace TCP.Cache

open TCP TCP.TabletStore TCP.Cache.Spec

variable {α η ω : Type}

/-- The ids that follow `n` were added. -/
def Num (xs xs' : List Nat) (n n' : Nat) : Prop := ∃ k, xs' = xs ++ List.range' (n + 1) k ∧ n' = n + k

theorem Num.refl {xs : List Nat} {n : Nat} : Num xs xs n n := ⟨0, by simp, rfl⟩

theorem Num.trans {xs ys zs : List Nat} {n m k : Nat} (h1 : Num xs ys n m) (h2 : Num ys zs m k) : Num xs zs n k := by
  obtain ⟨a, rfl, rfl⟩ := h1
  obtain ⟨b, rfl, rfl⟩ := h2
  refine ⟨a + b, ?_, by omega⟩
  rw [List.append_assoc, show n + a + 1 = n + 1 + a by omega, List.range'_append_1]

theorem Num.one {xs : List Nat} {n : Nat} : Num xs (xs ++ [n + 1]) n (n + 1) := ⟨1, rfl, rfl⟩

/-! ## The caches -/

theorem maybeResolve_num {c : MetaCache} {id : Nat} {r : Resolve} {y : MetaCache × Resolve} (h : c.maybeResolve id r = .ok y) : y.1.correlation = c.correlation := by
  unfold MetaCache.maybeResolve at h
  split at h
  · dsimp only at h
    split at h
    · split at h
      · cases h
      · simp only [Run.ok.injEq] at h; rw [← h]
    · simp only [Run.ok.injEq] at h; rw [← h]
  · simp only [Run.ok.injEq] at h; rw [← h]

theorem mdResolve_num {c c' : MetaCache} {n : Notification} {qs : List Query} (h : c.resolve n qs = .ok c') : c'.correlation = c.correlation := by
  unfold MetaCache.resolve at h
  obtain ⟨_, _, h⟩ := Run.bind_eq_ok.mp h
  obtain ⟨_, _, h⟩ := Run.bind_eq_ok.mp h
  obtain ⟨y, h1, h⟩ := Run.bind_eq_ok.mp h
  simp only [Run.ok.injEq] at h
  rw [← h]
  exact (maybeResolve_num h1).trans rfl

theorem processFresh_num {c c' : MetaCache} {table : String} {idx : Nat} {t : Table} {id : Nat} (h : c.processFresh table idx t id = .ok c') :
    c'.correlation = c.correlation := by
  unfold MetaCache.processFresh at h
  split at h
  · simp only [Run.ok.injEq] at h; rw [← h]
  · dsimp only at h
    obtain ⟨_, _, h⟩ := Run.bind_eq_ok.mp h
    obtain ⟨y, h1, h⟩ := Run.bind_eq_ok.mp h
    simp only [Run.ok.injEq] at h
    rw [← h]
    exact maybeResolve_num h1

theorem notifyAll_num {table : String} {idx : Nat} {t : Table} : ∀ {ids : List Nat} {c c' : MetaCache}, c.notifyAll table idx t ids = .ok c' → c'.correlation = c.correlation := by
  intro ids
  induction ids with
  | nil => intro c c' h; simp only [MetaCache.notifyAll, Run.ok.injEq] at h; rw [← h]
  | cons id rest ih =>
    intro c c' h
    simp only [MetaCache.notifyAll] at h
    obtain ⟨c1, h1, h⟩ := Run.bind_eq_ok.mp h
    rw [ih h, processFresh_num h1]

theorem processResult_num {c c' : MetaCache} {x : TabletOpResult} (h : c.processResult x = .ok c') : c'.correlation = c.correlation := by
  unfold MetaCache.processResult at h
  split at h
  · split at h
    · obtain ⟨y, _, h⟩ := Run.bind_eq_ok.mp h
      exact (notifyAll_num h).trans rfl
    · simp only [Run.ok.injEq] at h; rw [← h]
  · cases h

theorem mdProcessIn_num : ∀ {xs : List TabletOpResult} {c c' : MetaCache}, c.processIn xs = .ok c' → c'.correlation = c.correlation := by
  intro xs
  induction xs with
  | nil => intro c c' h; simp only [MetaCache.processIn, Run.ok.injEq] at h; rw [← h]
  | cons x rest ih =>
    intro c c' h
    simp only [MetaCache.processIn] at h
    obtain ⟨c1, h1, h⟩ := Run.bind_eq_ok.mp h
    rw [ih h, processResult_num h1]

theorem mdUpdateTablet_num {c c' : MetaCache} {table : String} {m : Metadata} {b : Bool} (h : c.updateTablet table m b = .ok c') : c'.correlation = c.correlation := by
  unfold MetaCache.updateTablet at h
  split at h
  · obtain ⟨t', _, h⟩ := Run.bind_eq_ok.mp h
    simp only [Run.ok.injEq] at h; rw [← h]
  · simp only [Run.ok.injEq] at h; rw [← h]

theorem updateTablets_num : ∀ {l : List (String × Metadata × Bool)} {c c' : MetaCache}, updateTablets c l = .ok c' → c'.correlation = c.correlation ∧ c'.out = c.out := by
  intro l
  induction l with
  | nil => intro c c' h; simp only [updateTablets, Run.ok.injEq] at h; rw [← h]; exact ⟨rfl, rfl⟩
  | cons x rest ih =>
    obtain ⟨t, m, b⟩ := x
    intro c c' h
    simp only [updateTablets] at h
    obtain ⟨c1, h1, h⟩ := Run.bind_eq_ok.mp h
    exact ⟨(ih h).1.trans (mdUpdateTablet_num h1), (ih h).2.trans (mdUpdateTablet_out h1)⟩

theorem mdInit_num : ∀ {tables : List (String × UInt32)} {c c' : MetaCache}, c.init tables = .ok c' → c'.correlation = c.correlation := by
  intro tables
  induction tables with
  | nil => intro c c' h; simp only [MetaCache.init, Run.ok.injEq] at h; rw [← h]
  | cons x rest ih =>
    obtain ⟨n, size⟩ := x
    intro c c' h
    simp only [MetaCache.init] at h
    obtain ⟨t, _, h⟩ := Run.bind_eq_ok.mp h
    exact (ih h).trans rfl

theorem mdProgress_num {c c' : MetaCache} (h : c.makeProgress = .ok c') : Num (c.out.map Prod.fst) (c'.out.map Prod.fst) c.correlation c'.correlation := by
  unfold MetaCache.makeProgress at h
  obtain ⟨x, _, h⟩ := Run.bind_eq_ok.mp h
  simp only [Run.ok.injEq] at h
  rw [← h]
  split
  · exact .refl
  · simp only [List.map_append, List.map_cons, List.map_nil]; exact .one

theorem dataProcessIn_num {env : DataEnv α} {c c' : DataCache α} {i : DataIn} (h : c.processIn env i = .ok c') : c'.correlation = c.correlation := by
  cases i with
  | load corr st b =>
    simp only [DataCache.processIn] at h
    split at h
    · simp only [Run.ok.injEq] at h; rw [← h]
    · obtain ⟨e, _, h⟩ := Run.bind_eq_ok.mp h
      obtain ⟨e', _, h⟩ := Run.bind_eq_ok.mp h
      simp only [Run.ok.injEq] at h; rw [← h]
  | store corr st =>
    simp only [DataCache.processIn] at h
    split at h
    · simp only [Run.ok.injEq] at h; rw [← h]
    · obtain ⟨e, _, h⟩ := Run.bind_eq_ok.mp h
      obtain ⟨e', _, h⟩ := Run.bind_eq_ok.mp h
      simp only [Run.ok.injEq] at h; rw [← h]

/-- The requests of a data cache are numbered on. -/
def DNum (c c' : DataCache α) : Prop := Num (c.out.map DataOut.corr) (c'.out.map DataOut.corr) c.correlation c'.correlation

theorem batch_num {c c' : DataCache α} {s : BatchState α} {keys : List String} (h : c.batch s keys = .ok c') : c'.out = c.out ∧ c'.correlation = c.correlation := by
  unfold DataCache.batch at h
  obtain ⟨x, _, h⟩ := Run.bind_eq_ok.mp h
  simp only [Run.ok.injEq] at h
  rw [← h]; exact ⟨rfl, rfl⟩

theorem loadEntries_num : ∀ (ms : List Metadata) (c : DataCache α), DNum c (c.loadEntries ms) := by
  intro ms
  induction ms with
  | nil => intro c; exact .refl
  | cons m rest ih =>
    intro c
    simp only [DataCache.loadEntries]
    split
    · exact ih c
    · refine Num.trans ?_ (ih _)
      simp only [List.map_append, List.map_cons, List.map_nil]; exact .one

theorem load_num {c c' : DataCache α} {ms : List Metadata} (h : c.load ms = .ok c') : DNum c c' := by
  obtain ⟨h1, h2⟩ := batch_num h
  have := loadEntries_num ms c
  unfold DNum at this ⊢
  rw [h1, h2]; exact this

theorem storeEntries_num : ∀ (xs : List (Metadata × α × Bytes)) {c c' : DataCache α}, c.storeEntries xs = .ok c' → DNum c c' := by
  intro xs
  induction xs with
  | nil => intro c c' h; simp only [DataCache.storeEntries, Run.ok.injEq] at h; rw [← h]; exact .refl
  | cons x rest ih =>
    obtain ⟨m, v, b⟩ := x
    intro c c' h
    simp only [DataCache.storeEntries] at h
    split at h
    · cases h
    · refine Num.trans ?_ (ih h)
      simp only [List.map_append, List.map_cons, List.map_nil]; exact .one

theorem store_num {env : DataEnv α} {c : DataCache α} {l : List (Metadata × α)} {y : DataCache α × List Metadata × Bool} (h : c.store env l = .ok y) : DNum c y.1 := by
  unfold DataCache.store at h
  obtain ⟨x, _, h⟩ := Run.bind_eq_ok.mp h
  split at h
  · simp only [Run.ok.injEq] at h; rw [← h]; exact .refl
  · obtain ⟨c1, h1, h⟩ := Run.bind_eq_ok.mp h
    obtain ⟨c2, h2, h⟩ := Run.bind_eq_ok.mp h
    simp only [Run.ok.injEq] at h
    rw [← h]
    obtain ⟨k1, k2⟩ := batch_num h2
    have := storeEntries_num _ h1
    unfold DNum at this ⊢
    dsimp only
    rw [k1, k2]; exact this

theorem dataProgress_num {c c' : DataCache α} {evict : AMap String (Entry α) → List String} (h : c.makeProgress evict = .ok c') : DNum c c' := by
  unfold DataCache.makeProgress at h
  obtain ⟨x, _, h⟩ := Run.bind_eq_ok.mp h
  simp only [Run.ok.injEq] at h
  rw [← h]; exact .refl

/-! ## The coordinator and the manager -/

/-- The requests of the caches are numbered on. -/
structure WNum (w w' : World α ω) : Prop where
  md : Num (w.md.out.map Prod.fst) (w'.md.out.map Prod.fst) w.md.correlation w'.md.correlation
  data : DNum w.data w'.data

theorem WNum.refl {w : World α ω} : WNum w w := ⟨.refl, .refl⟩

theorem WNum.trans {w w' w'' : World α ω} (h : WNum w w') (h' : WNum w' w'') : WNum w w'' := ⟨h.md.trans h'.md, Num.trans h.data h'.data⟩

theorem num_same {xs xs' : List Nat} {n n' : Nat} (h : xs' = xs) (h' : n' = n) : Num xs xs' n n' := h ▸ h' ▸ .refl

theorem proc_num {env : TxnEnv α η ω} {txn : Nat} {p : Proc α η} {w : World α ω} {x : Proc α η × World α ω} (h : p.step env txn w = .ok x) : WNum w x.2 := by
  unfold Proc.step at h
  split at h
  · obtain ⟨c, h1, h⟩ := Run.bind_eq_ok.mp h
    simp only [Run.ok.injEq] at h
    rw [← h]
    exact ⟨num_same (by rw [mdResolve_out h1]) (mdResolve_num h1), .refl⟩
  · split at h
    · simp only [Run.ok.injEq] at h; rw [← h]; exact .refl
    · obtain ⟨d, h1, h⟩ := Run.bind_eq_ok.mp h
      simp only [Run.ok.injEq] at h
      rw [← h]
      exact ⟨.refl, load_num h1⟩
  · split at h
    · simp only [Run.ok.injEq] at h; rw [← h]; exact .refl
    · simp only [Run.ok.injEq] at h; rw [← h]; exact .refl
    · obtain ⟨ts, _, h⟩ := Run.bind_eq_ok.mp h
      obtain ⟨y, _, h⟩ := Run.bind_eq_ok.mp h
      obtain ⟨z, h1, h⟩ := Run.bind_eq_ok.mp h
      simp only [Run.ok.injEq] at h
      rw [← h]
      exact ⟨.refl, store_num h1⟩
  · simp only [Run.ok.injEq] at h; rw [← h]; exact .refl
  · split at h <;> · simp only [Run.ok.injEq] at h; rw [← h]; exact .refl
  · simp only [Run.ok.injEq] at h; rw [← h]; exact .refl
  · simp only [Run.ok.injEq] at h; rw [← h]; exact .refl

theorem stepProcs_num {env : TxnEnv α η ω} {txn : Nat} : ∀ {ps : List (Proc α η)} {w : World α ω} {x : List (Proc α η) × World α ω},
    stepProcs env txn ps w = .ok x → WNum w x.2 := by
  intro ps
  induction ps with
  | nil => intro w x h; simp only [stepProcs, Run.ok.injEq] at h; rw [← h]; exact .refl
  | cons p rest ih =>
    intro w x h
    simp only [stepProcs] at h
    obtain ⟨y, h1, h⟩ := Run.bind_eq_ok.mp h
    obtain ⟨z, h2, h⟩ := Run.bind_eq_ok.mp h
    simp only [Run.ok.injEq] at h
    rw [← h]
    dsimp only; exact (proc_num h1).trans (ih h2)

theorem stepTxns_num {env : TxnEnv α η ω} : ∀ {ts : AMap Nat (TxnState α η)} {w : World α ω} {x : AMap Nat (TxnState α η) × World α ω},
    stepTxns env ts w = .ok x → WNum w x.2 := by
  intro ts
  induction ts with
  | nil => intro w x h; simp only [stepTxns, Run.ok.injEq] at h; rw [← h]; exact .refl
  | cons t rest ih =>
    obtain ⟨i, st⟩ := t
    intro w x h
    cases st with
    | preparing ps =>
      simp only [stepTxns] at h
      obtain ⟨y, h1, h⟩ := Run.bind_eq_ok.mp h
      obtain ⟨z, h2, h⟩ := Run.bind_eq_ok.mp h
      simp only [Run.ok.injEq] at h
      rw [← h]
      dsimp only; exact (stepProcs_num h1).trans (ih h2)
    | committing ops =>
      simp only [stepTxns] at h
      obtain ⟨z, h2, h⟩ := Run.bind_eq_ok.mp h
      simp only [Run.ok.injEq] at h
      rw [← h]
      dsimp only; exact ih h2
    | completed o =>
      simp only [stepTxns] at h
      obtain ⟨z, h2, h⟩ := Run.bind_eq_ok.mp h
      simp only [Run.ok.injEq] at h
      rw [← h]
      dsimp only; exact ih h2

/-- The requests of a coordinator are numbered on. -/
def CNum (c c' : Coordinator α η) : Prop := Num (c.out.map Prod.fst) (c'.out.map Prod.fst) c.correlation c'.correlation

theorem commit_num {c c' : Coordinator α η} {i : Nat} (h : c.commit i = .ok c') : CNum c c' := by
  unfold Coordinator.commit at h
  split at h
  · split at h
    · cases h
    · split at h
      · simp only [Run.ok.injEq] at h
        rw [← h]
        unfold CNum
        simp only [List.map_append, List.map_cons, List.map_nil]; exact .one
      · simp only [Run.ok.injEq] at h; rw [← h]; exact .refl
  · cases h

theorem coordProcess_num {c c' : Coordinator α η} {i : Nat} {qs : List Query} {x : η} (h : c.process i qs x = .ok c') : CNum c c' := by
  unfold Coordinator.process at h
  split at h
  · simp only [Run.ok.injEq] at h; rw [← h]; exact .refl
  · cases h

theorem coordCheck_num {c : Coordinator α η} {i : Nat} {x : Coordinator α η × Option Outcome} (h : c.check i = .ok x) : CNum c x.1 := by
  unfold Coordinator.check at h
  split at h
  · cases h
  · cases h
  · simp only [Run.ok.injEq] at h; rw [← h]; exact .refl
  · simp only [Run.ok.injEq] at h; rw [← h]; exact .refl

theorem coordIn_num {c : Coordinator α η} {md : MetaCache} {corr : Nat} {rs : List TabletOpResult} {x : Coordinator α η × MetaCache} (h : c.processIn md corr rs = .ok x) :
    CNum c x.1 ∧ x.2.out = md.out ∧ x.2.correlation = md.correlation := by
  unfold Coordinator.processIn at h
  split at h
  · simp only [Run.ok.injEq] at h; rw [← h]; exact ⟨.refl, rfl, rfl⟩
  · dsimp only at h
    split at h
    · obtain ⟨y, _, h⟩ := Run.bind_eq_ok.mp h
      obtain ⟨md', h1, h⟩ := Run.bind_eq_ok.mp h
      simp only [Run.ok.injEq] at h
      rw [← h]
      exact ⟨.refl, (updateTablets_num h1).2, (updateTablets_num h1).1⟩
    · simp only [Run.ok.injEq] at h; rw [← h]; exact ⟨.refl, rfl, rfl⟩

/-- The requests of a manager are numbered on, and errors are remembered for no further ones. -/
structure MNum (m m' : Manager α η ω) : Prop where
  coord : CNum m.coord m'.coord
  world : WNum m.world m'.world
  errors : ∀ k, (m'.errors.get k).isSome → (m.errors.get k).isSome

theorem MNum.refl {m : Manager α η ω} : MNum m m := ⟨.refl, .refl, fun _ h => h⟩

theorem MNum.trans {m m' m'' : Manager α η ω} (h : MNum m m') (h' : MNum m' m'') : MNum m m'' :=
  ⟨Num.trans h.coord h'.coord, h.world.trans h'.world, fun k hk => h.errors k (h'.errors k hk)⟩

theorem erase_some {ν : Type} {m : AMap Nat ν} {k j : Nat} (h : ((m.erase j).get k).isSome) : (m.get k).isSome := by
  by_cases hk : k = j
  · subst hk; rw [AMap.get_erase_self] at h; cases h
  · rwa [AMap.get_erase_ne _ (Ne.symm hk)] at h

theorem opsResponse_num {m m' : Manager α η ω} {corr : Nat} {r : Response} (h : m.opsResponse corr r = .ok m') : MNum m m' := by
  unfold Manager.opsResponse at h
  obtain ⟨md, h1, h⟩ := Run.bind_eq_ok.mp h
  split at h
  · simp only [Run.ok.injEq] at h
    rw [← h]
    exact ⟨.refl, ⟨num_same (by rw [mdProcessIn_out h1]) (mdProcessIn_num h1), .refl⟩, fun _ h => h⟩
  · obtain ⟨x, h2, h⟩ := Run.bind_eq_ok.mp h
    simp only [Run.ok.injEq] at h
    rw [← h]
    obtain ⟨k1, k2, k3⟩ := coordIn_num h2
    exact ⟨k1, ⟨num_same (by dsimp only; rw [k2, mdProcessIn_out h1]) (k3.trans (mdProcessIn_num h1)), .refl⟩, fun _ h => h⟩

theorem processIn_num {env : TxnEnv α η ω} {m m' : Manager α η ω} {i : MgrIn} (h : m.processIn env i = .ok m') : MNum m m' := by
  have he : ∀ corr, MNum m { m with errors := m.errors.erase corr } := fun corr => ⟨.refl, .refl, fun _ h => erase_some h⟩
  cases i with
  | data r =>
    simp only [Manager.processIn] at h
    obtain ⟨d, h1, h⟩ := Run.bind_eq_ok.mp h
    simp only [Run.ok.injEq] at h
    rw [← h]
    exact ⟨.refl, ⟨.refl, num_same (by rw [dataProcessIn_out h1]) (dataProcessIn_num h1)⟩, fun _ h => h⟩
  | response corr r => simp only [Manager.processIn] at h; exact (he corr).trans (opsResponse_num h)
  | error corr =>
    simp only [Manager.processIn] at h
    split at h
    · exact (he corr).trans (opsResponse_num h)
    · simp only [Run.ok.injEq] at h; rw [← h]; exact .refl

theorem makeProgress_num {env : TxnEnv α η ω} {m m' : Manager α η ω} (h : m.makeProgress env = .ok m') : MNum m m' := by
  unfold Manager.makeProgress at h
  obtain ⟨md, h1, h⟩ := Run.bind_eq_ok.mp h
  obtain ⟨d, h2, h⟩ := Run.bind_eq_ok.mp h
  obtain ⟨x, h3, h⟩ := Run.bind_eq_ok.mp h
  simp only [Run.ok.injEq] at h
  rw [← h]
  have h4 : WNum m.world { m.world with md := md, data := d } := ⟨mdProgress_num h1, dataProgress_num h2⟩
  exact ⟨.refl, h4.trans (stepTxns_num h3), fun _ h => h⟩

theorem mgrResolve_num {m m' : Manager α η ω} {qs : List Query} (h : m.resolve qs = .ok m') : MNum m m' := by
  unfold Manager.resolve at h
  obtain ⟨md, h1, h⟩ := Run.bind_eq_ok.mp h
  simp only [Run.ok.injEq] at h
  rw [← h]
  exact ⟨.refl, ⟨num_same (by rw [mdResolve_out h1]) (mdResolve_num h1), .refl⟩, fun _ h => h⟩

theorem mgrInit_num {m m' : Manager α η ω} {tables : List (String × UInt32)} (h : m.init tables = .ok m') : MNum m m' := by
  unfold Manager.init at h
  obtain ⟨md, h1, h⟩ := Run.bind_eq_ok.mp h
  simp only [Run.ok.injEq] at h
  rw [← h]
  exact ⟨.refl, ⟨num_same (by rw [mdInit_out h1]) (mdInit_num h1), .refl⟩, fun _ h => h⟩

theorem commitCheck_num {hd : Commit} {m : Manager α η ω} {x : Commit × Manager α η ω} (h : hd.check m = .ok x) : MNum m x.2 := by
  unfold Commit.check at h
  split at h
  · simp only [Run.ok.injEq] at h; rw [← h]; exact .refl
  · obtain ⟨y, h1, h⟩ := Run.bind_eq_ok.mp h
    simp only [Run.ok.injEq] at h
    rw [← h]
    exact ⟨coordCheck_num h1, .refl, fun _ h => h⟩

/-! ## The store -/

theorem withCore_num {s : Sys} {c : KvCore} : MNum s (s.withCore c) := ⟨.refl, ⟨.refl, .refl⟩, fun _ h => h⟩

theorem maybeResolve_mnum {env : KvEnv} {s s' : Sys} (h : s.maybeResolve env = .ok s') : MNum s s' := by
  unfold Manager.maybeResolve at h
  dsimp only at h
  split at h
  · obtain ⟨s1, h1, h⟩ := Run.bind_eq_ok.mp h
    split at h
    · simp only [Run.ok.injEq] at h
      rw [← h]
      exact withCore_num.trans (mgrResolve_num h1)
    · cases h
  · simp only [Run.ok.injEq] at h; rw [← h]; exact .refl

theorem maybeStart_mnum {env : KvEnv} {s s' : Sys} (h : s.maybeStart env = .ok s') : MNum s s' := by
  unfold Manager.maybeStart at h
  dsimp only at h
  split at h
  · simp only [Run.ok.injEq] at h; rw [← h]; exact withCore_num
  · obtain ⟨co, h1, h⟩ := Run.bind_eq_ok.mp h
    simp only [Run.ok.injEq] at h
    rw [← h]
    have h2 : MNum s { s with coord := co } := ⟨show CNum s.coord co from (coordProcess_num h1 : CNum s.coord.createTxn.1 co), .refl, fun _ h => h⟩
    exact h2.trans withCore_num

theorem commitTxns_num : ∀ {ts : AMap Nat TxnTracker} {co : Coordinator Bytes Unit} {x : Coordinator Bytes Unit × AMap Nat TxnTracker},
    commitTxns co ts = .ok x → CNum co x.1 := by
  intro ts
  induction ts with
  | nil => intro co x h; simp only [commitTxns, Run.ok.injEq] at h; rw [← h]; exact .refl
  | cons t rest ih =>
    obtain ⟨i, t⟩ := t
    intro co x h
    simp only [commitTxns] at h
    split at h
    · obtain ⟨b, _, h⟩ := Run.bind_eq_ok.mp h
      split at h
      · obtain ⟨y, h1, h⟩ := Run.bind_eq_ok.mp h
        simp only [Run.ok.injEq] at h
        rw [← h]
        dsimp only; exact ih h1
      · obtain ⟨co', h1, h⟩ := Run.bind_eq_ok.mp h
        obtain ⟨y, h2, h⟩ := Run.bind_eq_ok.mp h
        simp only [Run.ok.injEq] at h
        rw [← h]
        dsimp only; exact Num.trans (commit_num h1) (ih h2)
    · obtain ⟨y, h1, h⟩ := Run.bind_eq_ok.mp h
      simp only [Run.ok.injEq] at h
      rw [← h]
      dsimp only; exact ih h1

theorem finalizeTxns_num : ∀ {ts : AMap Nat TxnTracker} {s : Sys} {x : Sys × AMap Nat TxnTracker × List UInt32 × List KvResponse},
    finalizeTxns s ts = .ok x → MNum s x.1 := by
  intro ts
  induction ts with
  | nil => intro s x h; simp only [finalizeTxns, Run.ok.injEq] at h; rw [← h]; exact .refl
  | cons t rest ih =>
    obtain ⟨i, t⟩ := t
    intro s x h
    simp only [finalizeTxns] at h
    split at h
    · obtain ⟨y, h1, h⟩ := Run.bind_eq_ok.mp h
      simp only [Run.ok.injEq] at h
      rw [← h]
      dsimp only; exact ih h1
    · obtain ⟨z, h0, h⟩ := Run.bind_eq_ok.mp h
      have hz := commitCheck_num h0
      split at h
      · obtain ⟨y, h1, h⟩ := Run.bind_eq_ok.mp h
        simp only [Run.ok.injEq] at h
        rw [← h]
        dsimp only; exact hz.trans (ih h1)
      · obtain ⟨y, h1, h⟩ := Run.bind_eq_ok.mp h
        simp only [Run.ok.injEq] at h
        rw [← h]
        dsimp only; exact hz.trans (ih h1)

theorem storeProgress_num {env : KvEnv} {s s' : Sys} (h : s.storeProgress env = .ok s') : MNum s s' := by
  unfold Manager.storeProgress at h
  obtain ⟨s1, h1, h⟩ := Run.bind_eq_ok.mp h
  obtain ⟨s2, h2, h⟩ := Run.bind_eq_ok.mp h
  obtain ⟨x, h3, h⟩ := Run.bind_eq_ok.mp h
  dsimp only at h
  obtain ⟨y, h4, h⟩ := Run.bind_eq_ok.mp h
  simp only [Run.ok.injEq] at h
  rw [← h]
  have h5 : MNum s2 { s2 with coord := x.1 } := ⟨commitTxns_num h3, .refl, fun _ h => h⟩
  exact (((((maybeResolve_mnum h1).trans (maybeStart_mnum h2)).trans h5).trans withCore_num).trans (finalizeTxns_num h4)).trans withCore_num

/-! ## Histories -/

/-- `ops` are the ids of the requests to the tablet store sent so far, `blobs` those of the requests to the storage. -/
structure Numbered (co md d : Nat) (ops blobs : List Nat) (m : Manager α η ω) : Prop where
  ids : ∃ k1 k2 k3, m.coord.correlation = co + k1 ∧ m.world.md.correlation = md + k2 ∧ m.world.data.correlation = d + k3 ∧
    (ops ++ (m.coord.out.map Prod.fst ++ m.world.md.out.map Prod.fst)).Perm (List.range' (co + 1) k1 ++ List.range' (md + 1) k2) ∧
    blobs ++ m.world.data.out.map DataOut.corr = List.range' (d + 1) k3
  errors : ∀ k, (m.errors.get k).isSome → k ∈ ops

theorem Numbered.create {co md d : Nat} {w : ω} : Numbered (α := α) (η := η) co md d [] [] (.create co md d w) :=
  ⟨⟨0, 0, 0, rfl, rfl, rfl, .refl _, rfl⟩, fun k h => by simp [Manager.create] at h⟩

theorem Numbered.num {co md d : Nat} {ops blobs : List Nat} {m m' : Manager α η ω} (h : Numbered co md d ops blobs m) (hn : MNum m m') : Numbered co md d ops blobs m' := by
  obtain ⟨⟨k1, k2, k3, e1, e2, e3, e4, e5⟩, he⟩ := h
  obtain ⟨⟨a1, f1, g1⟩, ⟨⟨a2, f2, g2⟩, ⟨a3, f3, g3⟩⟩, hr⟩ := hn
  refine ⟨⟨k1 + a1, k2 + a2, k3 + a3, by omega, by omega, by omega, ?_, ?_⟩, fun k hk => he k (hr k hk)⟩
  · rw [f1, f2, e1, e2, show co + k1 + 1 = co + 1 + k1 by omega, show md + k2 + 1 = md + 1 + k2 by omega, ← List.range'_append_1, ← List.range'_append_1]
    rw [List.perm_iff_count] at e4 ⊢
    intro a
    have := e4 a
    simp only [List.count_append] at this ⊢
    omega
  · rw [f3, e3, ← List.append_assoc, e5, show d + k3 + 1 = d + 1 + k3 by omega, List.range'_append_1]

theorem rememberErrors_keys : ∀ {xs : List (Nat × List TabletOp)} {es es' : AMap Nat Response}, rememberErrors es xs = .ok es' →
    ∀ k, (es'.get k).isSome → (es.get k).isSome ∨ k ∈ xs.map Prod.fst := by
  intro xs
  induction xs with
  | nil => intro es es' h k hk; simp only [rememberErrors, Run.ok.injEq] at h; rw [← h] at hk; exact .inl hk
  | cons x rest ih =>
    obtain ⟨corr, ops⟩ := x
    intro es es' h k hk
    simp only [rememberErrors] at h
    split at h
    · cases h
    · rcases ih h k hk with h1 | h1
      · by_cases hc : k = corr
        · exact .inr (by simp [hc])
        · rw [AMap.get_set_ne _ _ (Ne.symm hc)] at h1; exact .inl h1
      · exact .inr (by simp only [List.map_cons, List.mem_cons]; exact .inr h1)

theorem rememberErrors_fresh : ∀ {xs : List (Nat × List TabletOp)} {es : AMap Nat Response}, (xs.map Prod.fst).Nodup → (∀ k ∈ xs.map Prod.fst, (es.get k).isSome = false) →
    ∃ es', rememberErrors es xs = .ok es' := by
  intro xs
  induction xs with
  | nil => intro es _ _; exact ⟨es, rfl⟩
  | cons x rest ih =>
    obtain ⟨corr, ops⟩ := x
    intro es hn hk
    simp only [List.map_cons, List.nodup_cons] at hn
    obtain ⟨es', h⟩ := ih (es := es.set corr ⟨false, ops.map failedResult⟩) hn.2 fun k hk' => by
      have hne : k ≠ corr := fun e => hn.1 (e ▸ hk')
      rw [AMap.get_set_ne _ _ (Ne.symm hne)]
      exact hk k (by simp only [List.map_cons, List.mem_cons]; exact .inr hk')
    refine ⟨es', ?_⟩
    have := hk corr (by simp)
    simp only [rememberErrors, this]
    exact h

theorem Numbered.take {co md d : Nat} {ops blobs : List Nat} {m m' : Manager α η ω} {outs : List MgrOut} (h : Numbered co md d ops blobs m) (ht : m.takeOut = .ok (m', outs)) :
    Numbered co md d (ops ++ (m.coord.out.map Prod.fst ++ m.world.md.out.map Prod.fst)) (blobs ++ m.world.data.out.map DataOut.corr) m' ∧
      outs.map MgrOut.corr = m.coord.out.map Prod.fst ++ m.world.md.out.map Prod.fst ++ m.world.data.out.map DataOut.corr := by
  obtain ⟨⟨k1, k2, k3, e1, e2, e3, e4, e5⟩, he⟩ := h
  unfold Manager.takeOut at ht
  obtain ⟨es, h1, ht⟩ := Run.bind_eq_ok.mp ht
  simp only [Run.ok.injEq, Prod.mk.injEq] at ht
  obtain ⟨rfl, rfl⟩ := ht
  refine ⟨⟨⟨k1, k2, k3, e1, e2, e3, by simpa [MetaCache.takeOut] using e4, by simpa [DataCache.takeOut] using e5⟩, fun k hk => ?_⟩, ?_⟩
  · rcases rememberErrors_keys h1 k hk with h2 | h2
    · exact List.mem_append_left _ (he k h2)
    · exact List.mem_append_right _ (by simpa using h2)
  · simp [List.map_append, List.map_map, Function.comp_def, MgrOut.corr]

/-- The ids in `taken` have been sent. -/
def NumberedAll (co md d : Nat) (taken : List Nat) (m : Manager α η ω) : Prop := ∃ ops blobs, taken.Perm (ops ++ blobs) ∧ Numbered co md d ops blobs m

theorem NumberedAll.num {co md d : Nat} {taken : List Nat} {m m' : Manager α η ω} (h : NumberedAll co md d taken m) (hn : MNum m m') : NumberedAll co md d taken m' := by
  obtain ⟨a, b, hp, h⟩ := h
  exact ⟨a, b, hp, h.num hn⟩

theorem NumberedAll.take {co md d : Nat} {taken : List Nat} {m m' : Manager α η ω} {outs : List MgrOut} (h : NumberedAll co md d taken m) (ht : m.takeOut = .ok (m', outs)) :
    NumberedAll co md d (taken ++ outs.map MgrOut.corr) m' := by
  obtain ⟨a, b, hp, h⟩ := h
  obtain ⟨h1, h2⟩ := h.take ht
  refine ⟨_, _, ?_, h1⟩
  rw [h2]
  rw [List.perm_iff_count] at hp ⊢
  intro x
  have := hp x
  simp only [List.count_append] at this ⊢
  omega

theorem mstep_num {env : TxnEnv α η ω} {c c' : Client α η ω} {ev : MEvent η} (h : MStep env c ev c') : (∃ outs, ev = .take outs ∧ c.m.takeOut = .ok (c'.m, outs)) ∨
    ((∀ outs, ev ≠ .take outs) ∧ MNum c.m c'.m) := by
  cases h with
  | init h => exact .inr ⟨fun _ e => by (cases e), mgrInit_num h⟩
  | start => exact .inr ⟨fun _ e => by (cases e), ⟨.refl, .refl, fun _ h => h⟩⟩
  | process ho hs => exact .inr ⟨fun _ e => by (cases e), ⟨coordProcess_num hs, .refl, fun _ h => h⟩⟩
  | pending ho hs => exact .inr ⟨fun _ e => by (cases e), .refl⟩
  | commit ho hs => exact .inr ⟨fun _ e => by (cases e), ⟨commit_num hs, .refl, fun _ h => h⟩⟩
  | abort ho => exact .inr ⟨fun _ e => by (cases e), ⟨.refl, .refl, fun _ h => h⟩⟩
  | check ho hs => exact .inr ⟨fun _ e => by (cases e), commitCheck_num hs⟩
  | resolve hs => exact .inr ⟨fun _ e => by (cases e), mgrResolve_num hs⟩
  | input hs => exact .inr ⟨fun _ e => by (cases e), processIn_num hs⟩
  | progress hs => exact .inr ⟨fun _ e => by (cases e), makeProgress_num hs⟩
  | take hs => exact .inl ⟨_, rfl, hs⟩
  | app => exact .inr ⟨fun _ e => by (cases e), ⟨.refl, ⟨.refl, .refl⟩, fun _ h => h⟩⟩

theorem input_num {tenv : TxnEnv Bytes Unit KvCore} {s s' : Sys} {i : MgrIn} (h : s.input tenv i = .ok s') : MNum s s' := by
  unfold Manager.input at h
  obtain ⟨s1, h1, h⟩ := Run.bind_eq_ok.mp h
  simp only [Run.ok.injEq] at h
  rw [← h]
  exact (processIn_num h1).trans withCore_num

theorem kstep_num {env : KvEnv} {tenv : TxnEnv Bytes Unit KvCore} {s s' : Sys} {ev : KEvent} (h : KStep env tenv s ev s') : (∃ outs, ev = .take outs ∧ s.takeOut = .ok (s', outs)) ∨
    ((∀ outs, ev ≠ .take outs) ∧ MNum s s') := by
  cases h with
  | init h => exact .inr ⟨fun _ e => by (cases e), withCore_num.trans (mgrInit_num h)⟩
  | accept => exact .inr ⟨fun _ e => by (cases e), withCore_num⟩
  | store h => exact .inr ⟨fun _ e => by (cases e), storeProgress_num h⟩
  | progress h => exact .inr ⟨fun _ e => by (cases e), makeProgress_num h⟩
  | input h => exact .inr ⟨fun _ e => by (cases e), input_num h⟩
  | take h => exact .inl ⟨_, rfl, h⟩
  | responses => exact .inr ⟨fun _ e => by (cases e), withCore_num⟩

theorem numbered_m {env : TxnEnv α η ω} {co md d : Nat} {w : ω} {evs : List (MEvent η)} {c0 c : Client α η ω} (hc : c0.m = .create co md d w) (h : MSteps env c0 evs c) :
    NumberedAll co md d (evs.flatMap fun e => match e with | .take outs => outs.map MgrOut.corr | _ => []) c.m := by
  induction h with
  | refl => rw [hc]; exact ⟨[], [], .refl _, .create⟩
  | step h hs ih =>
    rw [List.flatMap_append]
    rcases mstep_num hs with ⟨outs, rfl, h1⟩ | ⟨h1, h2⟩
    · simpa using ih.take h1
    · rename_i ev _
      have : (List.flatMap (fun e : MEvent η => match e with | .take outs => outs.map MgrOut.corr | _ => []) [ev]) = [] := by
        cases ev <;> simp_all
      rw [this, List.append_nil]
      exact ih.num h2

theorem numbered_k {env : KvEnv} {tenv : TxnEnv Bytes Unit KvCore} {co md d : Nat} {evs : List KEvent} {s0 s : Sys} (hc : s0 = .create co md d .new)
    (h : KSteps env tenv s0 evs s) :
    NumberedAll co md d (evs.flatMap fun e => match e with | .take outs => outs.map MgrOut.corr | _ => []) s := by
  induction h with
  | refl => rw [hc]; exact ⟨[], [], .refl _, .create⟩
  | step h hs ih =>
    rw [List.flatMap_append]
    rcases kstep_num hs with ⟨outs, rfl, h1⟩ | ⟨h1, h2⟩
    · simpa using ih.take h1
    · rename_i ev _
      have : (List.flatMap (fun e : KEvent => match e with | .take outs => outs.map MgrOut.corr | _ => []) [ev]) = [] := by
        cases ev <;> simp_all
      rw [this, List.append_nil]
      exact ih.num h2

/-- All ids, in three ranges. -/
theorem NumberedAll.ranges {co md d : Nat} {taken : List Nat} {m : Manager α η ω} (h : NumberedAll co md d taken m) :
    ∃ k1 k2 k3, (taken ++ (m.coord.out.map Prod.fst ++ m.world.md.out.map Prod.fst ++ m.world.data.out.map DataOut.corr)).Perm
      (List.range' (co + 1) k1 ++ List.range' (md + 1) k2 ++ List.range' (d + 1) k3) := by
  obtain ⟨a, b, hp, ⟨k1, k2, k3, _, _, _, e4, e5⟩, _⟩ := h
  refine ⟨k1, k2, k3, ?_⟩
  rw [List.perm_iff_count] at hp e4 ⊢
  intro x
  have h1 := hp x
  have h2 := e4 x
  have h3 : List.count x (b ++ m.world.data.out.map DataOut.corr) = _ := congrArg (List.count x) e5
  simp only [List.count_append] at h1 h2 h3 ⊢
  omega

theorem ranges_nodup {co md d k1 k2 k3 n : Nat} (h1 : Apart n co md) (h2 : Apart n co d) (h3 : Apart n md d) (hk : k1 + k2 + k3 ≤ n) :
    (List.range' (co + 1) k1 ++ List.range' (md + 1) k2 ++ List.range' (d + 1) k3).Nodup := by
  unfold Apart at h1 h2 h3
  rw [List.nodup_append, List.nodup_append]
  refine ⟨⟨List.nodup_range', List.nodup_range', ?_⟩, List.nodup_range', ?_⟩
  · intro a ha b hb
    rw [List.mem_range'_1] at ha hb
    omega
  · intro a ha b hb
    rw [List.mem_append, List.mem_range'_1, List.mem_range'_1] at ha
    rw [List.mem_range'_1] at hb
    omega

theorem NumberedAll.nodup {co md d n : Nat} {taken : List Nat} {m : Manager α η ω} (h : NumberedAll co md d taken m) (h1 : Apart n co md) (h2 : Apart n co d) (h3 : Apart n md d)
    (hn : (taken ++ (m.coord.out.map Prod.fst ++ m.world.md.out.map Prod.fst ++ m.world.data.out.map DataOut.corr)).length ≤ n) :
    (taken ++ (m.coord.out.map Prod.fst ++ m.world.md.out.map Prod.fst ++ m.world.data.out.map DataOut.corr)).Nodup ∧
      ∀ i ∈ taken ++ (m.coord.out.map Prod.fst ++ m.world.md.out.map Prod.fst ++ m.world.data.out.map DataOut.corr),
        ∃ a ∈ [co, md, d], a < i ∧ i ≤ a + n := by
  obtain ⟨k1, k2, k3, hp⟩ := h.ranges
  have hl := hp.length_eq
  simp only [List.length_append, List.length_range'] at hl hn
  refine ⟨hp.nodup_iff.mpr (ranges_nodup h1 h2 h3 (by omega)), fun i hi => ?_⟩
  have := hp.mem_iff.mp hi
  simp only [List.mem_append, List.mem_range'_1] at this
  rcases this with (h | h) | h
  · exact ⟨co, by simp, by omega, by omega⟩
  · exact ⟨md, by simp, by omega, by omega⟩
  · exact ⟨d, by simp, by omega, by omega⟩

theorem NumberedAll.takes {co md d n : Nat} {taken : List Nat} {m : Manager α η ω} (h : NumberedAll co md d taken m) (h1 : Apart n co md)
    (hn : (taken ++ (m.coord.out.map Prod.fst ++ m.world.md.out.map Prod.fst ++ m.world.data.out.map DataOut.corr)).length ≤ n) :
    ∃ r, m.takeOut = .ok r := by
  obtain ⟨a, b, hp, ⟨k1, k2, k3, _, _, _, e4, e5⟩, he⟩ := h
  have hl := hp.length_eq
  have hl2 := e4.length_eq
  simp only [List.length_append, List.length_range', List.length_map] at hl hl2 hn
  unfold Apart at h1
  have hnd : (a ++ (m.coord.out.map Prod.fst ++ m.world.md.out.map Prod.fst)).Nodup := by
    rw [e4.nodup_iff, List.nodup_append]
    refine ⟨List.nodup_range', List.nodup_range', ?_⟩
    intro a ha b hb
    rw [List.mem_range'_1] at ha hb
    omega
  rw [List.nodup_append] at hnd
  obtain ⟨es, hes⟩ := rememberErrors_fresh (xs := m.coord.out ++ m.world.md.out) (es := m.errors) (by rw [List.map_append]; exact hnd.2.1) (fun k hk => by
    rw [List.map_append] at hk
    cases hx : (m.errors.get k).isSome with
    | false => rfl
    | true => exact absurd rfl (hnd.2.2 k (he k hx) k hk))
  exact ⟨_, by unfold Manager.takeOut; simp only [hes, Run.bind_ok]; rfl⟩

theorem sublist_flatMap {β γ : Type} {f g : β → List γ} (h : ∀ x, (f x).Sublist (g x)) : ∀ l : List β, (l.flatMap f).Sublist (l.flatMap g)
  | [] => .slnil
  | x :: l => by
    simp only [List.flatMap_cons]
    exact (h x).append (sublist_flatMap h l)

theorem krequests_sub (evs : List KEvent) (s : Sys) : ((krequests evs s).map Prod.fst).Sublist (kvRequestIds evs s) := by
  unfold krequests kvRequestIds
  rw [List.map_append, List.map_append, List.map_flatMap]
  refine List.Sublist.append (sublist_flatMap (fun e => ?_) evs) (List.sublist_append_left _ _)
  cases e with
  | take outs =>
    dsimp only
    induction outs with
    | nil => exact .slnil
    | cons o os ih =>
      cases o with
      | ops corr ops => simp only [List.filterMap_cons, List.map_cons, MgrOut.corr]; exact ih.cons_cons _
      | data r => simp only [List.filterMap_cons, List.map_cons]; exact ih.cons _
  | _ => exact .slnil

theorem nodup_fst {β : Type} : ∀ {l : List (Nat × β)}, (l.map Prod.fst).Nodup → ∀ {k x y}, (k, x) ∈ l → (k, y) ∈ l → x = y := by
  intro l
  induction l with
  | nil => intro _ k x y hx; cases hx
  | cons z rest ih =>
    intro h k x y hx hy
    simp only [List.map_cons, List.nodup_cons] at h
    rcases List.mem_cons.mp hx with hx | hx <;> rcases List.mem_cons.mp hy with hy | hy
    · rw [← hx] at hy; exact (Prod.mk.inj hy).2.symm
    · exact absurd (List.mem_map_of_mem hy) (hx ▸ h.1)
    · exact absurd (List.mem_map_of_mem hx) (hy ▸ h.1)
    · exact ih h.2 hx hy

end TCP.Cache
