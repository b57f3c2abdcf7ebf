import Verif.Proofs.CacheNumbers
import Verif.Proofs.CacheManager
import Verif.Proofs.KvCount
import Verif.Spec.CacheMemory

/-!
# Proofs about what a cache remembers (C106)
-/

namespace TCP.Cache

open TCP TCP.TabletStore TCP.Cache.Spec

variable {α η ω : Type}

theorem length_set_old {ν : Type} {m : AMap Nat ν} {k : Nat} {v : ν} (h : (m.get k).isSome) : (m.set k v).length = m.length := by
  induction m with
  | nil => cases h
  | cons e rest ih =>
    obtain ⟨k', v'⟩ := e
    simp only [AMap.set, AMap.get] at h ⊢
    split
    · rfl
    · rename_i hk; simp only [hk, if_false] at h; simp only [List.length_cons, ih h]

theorem length_set_new {ν : Type} {m : AMap Nat ν} {k : Nat} {v : ν} (h : (m.get k).isSome = false) : (m.set k v).length = m.length + 1 := by
  induction m with
  | nil => rfl
  | cons e rest ih =>
    obtain ⟨k', v'⟩ := e
    simp only [AMap.set, AMap.get] at h ⊢
    split
    · rename_i hk; simp only [hk, if_true] at h; cases h
    · rename_i hk; simp only [hk, if_false] at h; simp only [List.length_cons, ih h]

theorem isSome_set {ν : Type} {m : AMap Nat ν} {k j : Nat} {v : ν} : ((m.set k v).get j).isSome ↔ j = k ∨ (m.get j).isSome := by
  rw [AMap.get_set]
  by_cases h : k = j
  · simp [h]
  · simp only [h, if_false]
    exact ⟨.inr, fun h' => h'.elim (fun e => absurd e.symm h) id⟩

/-! ## Resolutions -/

/-- There is a record of every resolution there ever was. -/
structure Rec (c : MetaCache) : Prop where
  length : c.resolves.length + 1 = c.resolveCounter
  all : ∀ id, (c.resolves.get id).isSome ↔ 1 < id ∧ id ≤ c.resolveCounter
  calls : ∀ x ∈ c.calls, (c.resolves.get x.1).isSome
  cells : ∀ id, (c.cells.get id).isSome → (c.resolves.get id).isSome

theorem Rec.create {n : Nat} : Rec (.create n) where
  length := rfl
  all id := by simp only [MetaCache.create, AMap.get_nil, Option.isSome_none]; exact ⟨fun h => (by cases h), fun h => (by omega)⟩
  calls x hx := by cases hx
  cells id h := by cases h

theorem Rec.same {c c' : MetaCache} (h : Rec c) (h1 : c'.resolves = c.resolves) (h2 : c'.resolveCounter = c.resolveCounter) (h3 : c'.calls = c.calls)
    (h4 : c'.cells = c.cells) : Rec c' := by
  obtain ⟨a, b, d, e⟩ := h
  exact ⟨by rw [h1, h2]; exact a, by rw [h1, h2]; exact b, by rw [h1, h3]; exact d, by rw [h1, h4]; exact e⟩

theorem maybeResolve_rec {c : MetaCache} {id : Nat} {r : Resolve} {y : MetaCache × Resolve} (h : c.maybeResolve id r = .ok y) :
    y.1.resolves = c.resolves ∧ y.1.resolveCounter = c.resolveCounter ∧ (∀ x ∈ y.1.calls, x ∈ c.calls ∨ x.1 = id) ∧
      ∀ j, (y.1.cells.get j).isSome → (c.cells.get j).isSome ∨ j = id := by
  unfold MetaCache.maybeResolve at h
  split at h
  · dsimp only at h
    split at h
    · split at h
      · cases h
      · simp only [Run.ok.injEq] at h; rw [← h]
        exact ⟨rfl, rfl, fun x hx => .inl hx, fun j hj => (isSome_set.mp hj).symm⟩
    · simp only [Run.ok.injEq] at h; rw [← h]
      refine ⟨rfl, rfl, fun x hx => ?_, fun j hj => .inl hj⟩
      simp only [List.mem_append, List.mem_singleton] at hx
      rcases hx with hx | hx
      · exact .inl hx
      · exact .inr (by rw [hx])
  · simp only [Run.ok.injEq] at h; rw [← h]; exact ⟨rfl, rfl, fun x hx => .inl hx, fun j hj => .inl hj⟩

/-- The records stay, and there are at least `k` further ones. -/
def Rises (k : Nat) (c c' : MetaCache) : Prop := Rec c → Rec c' ∧ c.resolveCounter + k ≤ c'.resolveCounter

theorem Rises.refl {c : MetaCache} : Rises 0 c c := fun h => ⟨h, Nat.le_refl _⟩

theorem Rises.trans {k j : Nat} {c c' c'' : MetaCache} (h : Rises k c c') (h' : Rises j c' c'') : Rises (k + j) c c'' := fun hr =>
  ⟨(h' (h hr).1).1, by have := (h hr).2; have := (h' (h hr).1).2; omega⟩

theorem Rises.less {k j : Nat} {c c' : MetaCache} (h : Rises k c c') (hj : j ≤ k) : Rises j c c' := fun hr => ⟨(h hr).1, by have := (h hr).2; omega⟩

theorem rises_same {c c' : MetaCache} (h1 : c'.resolves = c.resolves) (h2 : c'.resolveCounter = c.resolveCounter) (h3 : c'.calls = c.calls)
    (h4 : c'.cells = c.cells) : Rises 0 c c' := fun h => ⟨h.same h1 h2 h3 h4, by omega⟩

theorem mdResolve_rises {c c' : MetaCache} {n : Notification} {qs : List Query} (h : c.resolve n qs = .ok c') : Rises 1 c c' := by
  intro hr
  unfold MetaCache.resolve at h
  obtain ⟨_, _, h⟩ := Run.bind_eq_ok.mp h
  obtain ⟨_, _, h⟩ := Run.bind_eq_ok.mp h
  obtain ⟨y, h1, h⟩ := Run.bind_eq_ok.mp h
  simp only [Run.ok.injEq] at h
  obtain ⟨k1, k2, k3, k4⟩ := maybeResolve_rec h1
  dsimp only at k1 k2 k3 k4
  have hn : (c.resolves.get (c.resolveCounter + 1)).isSome = false := by
    cases hs : (c.resolves.get (c.resolveCounter + 1)).isSome
    · rfl
    · have := (hr.all _).mp hs; omega
  have hc : c'.resolves = c.resolves.set (c.resolveCounter + 1) y.2 := by rw [← h]; dsimp only; rw [k1]
  have hcc : c'.resolveCounter = c.resolveCounter + 1 := by rw [← h]; dsimp only; rw [k2]
  have hl := hr.length
  refine ⟨⟨?_, fun id => ?_, fun x hx => ?_, fun id hid => ?_⟩, by omega⟩
  · rw [hc, hcc, length_set_new hn]; omega
  · rw [hc, hcc, isSome_set, hr.all]; omega
  · rw [hc, isSome_set]
    rw [← h] at hx
    rcases k3 x hx with h5 | h5
    · exact .inr (hr.calls x h5)
    · exact .inl h5
  · rw [hc, isSome_set]
    rw [← h] at hid
    rcases k4 id hid with h5 | h5
    · exact .inr (hr.cells id h5)
    · exact .inl h5

theorem processFresh_rises {c c' : MetaCache} {table : String} {idx : Nat} {t : Table} {id : Nat} (h : c.processFresh table idx t id = .ok c') : Rises 0 c c' := by
  intro hr
  unfold MetaCache.processFresh at h
  split at h
  · simp only [Run.ok.injEq] at h; rw [← h]; exact ⟨hr, Nat.le_refl _⟩
  · rename_i r hg
    dsimp only at h
    obtain ⟨_, _, h⟩ := Run.bind_eq_ok.mp h
    obtain ⟨y, h1, h⟩ := Run.bind_eq_ok.mp h
    simp only [Run.ok.injEq] at h
    obtain ⟨k1, k2, k3, k4⟩ := maybeResolve_rec h1
    have hi : (c.resolves.get id).isSome := by rw [hg]; rfl
    have hc : c'.resolves = c.resolves.set id y.2 := by rw [← h]; dsimp only; rw [k1]
    have hcc : c'.resolveCounter = c.resolveCounter := by rw [← h]; exact k2
    have hs : ∀ j, (c'.resolves.get j).isSome ↔ (c.resolves.get j).isSome := fun j => by
      rw [hc, isSome_set]
      exact ⟨fun h => h.elim (fun e => e ▸ hi) _root_.id, .inr⟩
    refine ⟨⟨?_, fun j => ?_, fun x hx => ?_, fun j hj => ?_⟩, by omega⟩
    · rw [hc, hcc, length_set_old hi]; exact hr.length
    · rw [hs, hcc]; exact hr.all j
    · rw [hs]
      rw [← h] at hx
      rcases k3 x hx with h5 | h5
      · exact hr.calls x h5
      · rw [h5]; exact hi
    · rw [hs]
      rw [← h] at hj
      rcases k4 j hj with h5 | h5
      · exact hr.cells j h5
      · rw [h5]; exact hi

theorem notifyAll_rises {table : String} {idx : Nat} {t : Table} : ∀ {ids : List Nat} {c c' : MetaCache}, c.notifyAll table idx t ids = .ok c' → Rises 0 c c' := by
  intro ids
  induction ids with
  | nil => intro c c' h; simp only [MetaCache.notifyAll, Run.ok.injEq] at h; rw [← h]; exact .refl
  | cons id rest ih =>
    intro c c' h
    simp only [MetaCache.notifyAll] at h
    obtain ⟨c1, h1, h⟩ := Run.bind_eq_ok.mp h
    exact (processFresh_rises h1).trans (ih h)

theorem processResult_rises {c c' : MetaCache} {x : TabletOpResult} (h : c.processResult x = .ok c') : Rises 0 c c' := by
  unfold MetaCache.processResult at h
  split at h
  · split at h
    · obtain ⟨y, _, h⟩ := Run.bind_eq_ok.mp h
      exact Rises.trans (c := c) (c' := { c with tables := c.tables.set x.table y.1 }) (rises_same rfl rfl rfl rfl) (notifyAll_rises h)
    · simp only [Run.ok.injEq] at h; rw [← h]; exact .refl
  · cases h

theorem mdProcessIn_rises : ∀ {xs : List TabletOpResult} {c c' : MetaCache}, c.processIn xs = .ok c' → Rises 0 c c' := by
  intro xs
  induction xs with
  | nil => intro c c' h; simp only [MetaCache.processIn, Run.ok.injEq] at h; rw [← h]; exact .refl
  | cons x rest ih =>
    intro c c' h
    simp only [MetaCache.processIn] at h
    obtain ⟨c1, h1, h⟩ := Run.bind_eq_ok.mp h
    exact (processResult_rises h1).trans (ih h)

theorem mdUpdateTablet_rises {c c' : MetaCache} {table : String} {m : Metadata} {b : Bool} (h : c.updateTablet table m b = .ok c') : Rises 0 c c' := by
  unfold MetaCache.updateTablet at h
  split at h
  · obtain ⟨t', _, h⟩ := Run.bind_eq_ok.mp h
    simp only [Run.ok.injEq] at h; rw [← h]; exact rises_same rfl rfl rfl rfl
  · simp only [Run.ok.injEq] at h; rw [← h]; exact .refl

theorem updateTablets_rises : ∀ {l : List (String × Metadata × Bool)} {c c' : MetaCache}, updateTablets c l = .ok c' → Rises 0 c c' := by
  intro l
  induction l with
  | nil => intro c c' h; simp only [updateTablets, Run.ok.injEq] at h; rw [← h]; exact .refl
  | cons x rest ih =>
    obtain ⟨t, m, b⟩ := x
    intro c c' h
    simp only [updateTablets] at h
    obtain ⟨c1, h1, h⟩ := Run.bind_eq_ok.mp h
    exact (mdUpdateTablet_rises h1).trans (ih h)

theorem mdInit_rises : ∀ {tables : List (String × UInt32)} {c c' : MetaCache}, c.init tables = .ok c' → Rises 0 c c' := by
  intro tables
  induction tables with
  | nil => intro c c' h; simp only [MetaCache.init, Run.ok.injEq] at h; rw [← h]; exact .refl
  | cons x rest ih =>
    obtain ⟨n, size⟩ := x
    intro c c' h
    simp only [MetaCache.init] at h
    obtain ⟨t, _, h⟩ := Run.bind_eq_ok.mp h
    exact Rises.trans (c := c) (c' := { c with tables := c.tables.set n t }) (rises_same rfl rfl rfl rfl) (ih h)

theorem mdProgress_rises {c c' : MetaCache} (h : c.makeProgress = .ok c') : Rises 0 c c' := by
  unfold MetaCache.makeProgress at h
  obtain ⟨x, _, h⟩ := Run.bind_eq_ok.mp h
  simp only [Run.ok.injEq] at h
  rw [← h]
  split <;> exact rises_same rfl rfl rfl rfl

theorem proc_rises {env : TxnEnv α η ω} {txn : Nat} {p : Proc α η} {w : World α ω} {x : Proc α η × World α ω} (h : p.step env txn w = .ok x) : Rises 0 w.md x.2.md := by
  unfold Proc.step at h
  split at h
  · obtain ⟨c, h1, h⟩ := Run.bind_eq_ok.mp h
    simp only [Run.ok.injEq] at h
    rw [← h]
    exact (mdResolve_rises h1).less (by omega)
  · split at h
    · simp only [Run.ok.injEq] at h; rw [← h]; exact .refl
    · obtain ⟨d, h1, h⟩ := Run.bind_eq_ok.mp h
      simp only [Run.ok.injEq] at h
      rw [← h]; exact .refl
  · split at h
    · simp only [Run.ok.injEq] at h; rw [← h]; exact .refl
    · simp only [Run.ok.injEq] at h; rw [← h]; exact .refl
    · obtain ⟨ts, _, h⟩ := Run.bind_eq_ok.mp h
      obtain ⟨y, _, h⟩ := Run.bind_eq_ok.mp h
      obtain ⟨z, h1, h⟩ := Run.bind_eq_ok.mp h
      simp only [Run.ok.injEq] at h
      rw [← h]; exact .refl
  · simp only [Run.ok.injEq] at h; rw [← h]; exact .refl
  · split at h <;> · simp only [Run.ok.injEq] at h; rw [← h]; exact .refl
  · simp only [Run.ok.injEq] at h; rw [← h]; exact .refl
  · simp only [Run.ok.injEq] at h; rw [← h]; exact .refl

/-! ## Transactions, requests to the storage -/

/-- Records of requests to the storage are kept for requests to be sent and for requests there were records of before. -/
def DOps (c c' : DataCache α) : Prop :=
  (∀ r ∈ c.out, r ∈ c'.out) ∧ ∀ k, (c'.ops.get k).isSome → (c.ops.get k).isSome ∨ ∃ r ∈ c'.out, r.corr = k

theorem DOps.refl {c : DataCache α} : DOps c c := ⟨fun _ h => h, fun _ h => .inl h⟩

theorem DOps.trans {c c' c'' : DataCache α} (h : DOps c c') (h' : DOps c' c'') : DOps c c'' := by
  refine ⟨fun r hr => h'.1 r (h.1 r hr), fun k hk => ?_⟩
  rcases h'.2 k hk with h1 | h1
  · rcases h.2 k h1 with h2 | ⟨r, h2, h3⟩
    · exact .inl h2
    · exact .inr ⟨r, h'.1 r h2, h3⟩
  · exact .inr h1

theorem batch_ops {c c' : DataCache α} {s : BatchState α} {keys : List String} (h : c.batch s keys = .ok c') : DOps c c' := by
  unfold DataCache.batch at h
  obtain ⟨x, _, h⟩ := Run.bind_eq_ok.mp h
  simp only [Run.ok.injEq] at h
  rw [← h]; exact ⟨fun _ h => h, fun _ h => .inl h⟩

theorem loadEntries_ops : ∀ (ms : List Metadata) (c : DataCache α), DOps c (c.loadEntries ms) := by
  intro ms
  induction ms with
  | nil => intro c; exact .refl
  | cons m rest ih =>
    intro c
    simp only [DataCache.loadEntries]
    split
    · exact ih c
    · refine DOps.trans ⟨fun r hr => List.mem_append_left _ hr, fun k hk => ?_⟩ (ih _)
      rcases isSome_set.mp hk with h | h
      · exact .inr ⟨_, List.mem_append_right _ (List.mem_singleton.mpr rfl), h.symm⟩
      · exact .inl h

theorem storeEntries_ops : ∀ (xs : List (Metadata × α × Bytes)) {c c' : DataCache α}, c.storeEntries xs = .ok c' → DOps c c' := by
  intro xs
  induction xs with
  | nil => intro c c' h; simp only [DataCache.storeEntries, Run.ok.injEq] at h; rw [← h]; exact .refl
  | cons x rest ih =>
    obtain ⟨m, v, b⟩ := x
    intro c c' h
    simp only [DataCache.storeEntries] at h
    split at h
    · cases h
    · refine DOps.trans ⟨fun r hr => List.mem_append_left _ hr, fun k hk => ?_⟩ (ih h)
      rcases isSome_set.mp hk with h | h
      · exact .inr ⟨_, List.mem_append_right _ (List.mem_singleton.mpr rfl), h.symm⟩
      · exact .inl h

theorem store_ops {env : DataEnv α} {c : DataCache α} {l : List (Metadata × α)} {y : DataCache α × List Metadata × Bool} (h : c.store env l = .ok y) : DOps c y.1 := by
  unfold DataCache.store at h
  obtain ⟨x, _, h⟩ := Run.bind_eq_ok.mp h
  split at h
  · simp only [Run.ok.injEq] at h; rw [← h]; exact .refl
  · obtain ⟨c1, h1, h⟩ := Run.bind_eq_ok.mp h
    obtain ⟨c2, h2, h⟩ := Run.bind_eq_ok.mp h
    simp only [Run.ok.injEq] at h
    rw [← h]
    exact (storeEntries_ops _ h1).trans (batch_ops h2)

theorem proc_ops {env : TxnEnv α η ω} {txn : Nat} {p : Proc α η} {w : World α ω} {x : Proc α η × World α ω} (h : p.step env txn w = .ok x) : DOps w.data x.2.data := by
  unfold Proc.step at h
  split at h
  · obtain ⟨c, h1, h⟩ := Run.bind_eq_ok.mp h
    simp only [Run.ok.injEq] at h
    rw [← h]; exact .refl
  · split at h
    · simp only [Run.ok.injEq] at h; rw [← h]; exact .refl
    · obtain ⟨d, h1, h⟩ := Run.bind_eq_ok.mp h
      simp only [Run.ok.injEq] at h
      rw [← h]; exact (loadEntries_ops _ _).trans (batch_ops h1)
  · split at h
    · simp only [Run.ok.injEq] at h; rw [← h]; exact .refl
    · simp only [Run.ok.injEq] at h; rw [← h]; exact .refl
    · obtain ⟨ts, _, h⟩ := Run.bind_eq_ok.mp h
      obtain ⟨y, _, h⟩ := Run.bind_eq_ok.mp h
      obtain ⟨z, h1, h⟩ := Run.bind_eq_ok.mp h
      simp only [Run.ok.injEq] at h
      rw [← h]; exact store_ops h1
  · simp only [Run.ok.injEq] at h; rw [← h]; exact .refl
  · split at h <;> · simp only [Run.ok.injEq] at h; rw [← h]; exact .refl
  · simp only [Run.ok.injEq] at h; rw [← h]; exact .refl
  · simp only [Run.ok.injEq] at h; rw [← h]; exact .refl

theorem stepProcs_mem {env : TxnEnv α η ω} {txn : Nat} : ∀ {ps : List (Proc α η)} {w : World α ω} {x : List (Proc α η) × World α ω},
    stepProcs env txn ps w = .ok x → Rises 0 w.md x.2.md ∧ DOps w.data x.2.data := by
  intro ps
  induction ps with
  | nil => intro w x h; simp only [stepProcs, Run.ok.injEq] at h; rw [← h]; exact ⟨.refl, .refl⟩
  | cons p rest ih =>
    intro w x h
    simp only [stepProcs] at h
    obtain ⟨y, h1, h⟩ := Run.bind_eq_ok.mp h
    obtain ⟨z, h2, h⟩ := Run.bind_eq_ok.mp h
    simp only [Run.ok.injEq] at h
    rw [← h]
    exact ⟨(proc_rises h1).trans (ih h2).1, (proc_ops h1).trans (ih h2).2⟩

theorem stepTxns_mem {env : TxnEnv α η ω} : ∀ {ts : AMap Nat (TxnState α η)} {w : World α ω} {x : AMap Nat (TxnState α η) × World α ω},
    stepTxns env ts w = .ok x → (Rises 0 w.md x.2.md ∧ DOps w.data x.2.data) ∧ ∀ i, (x.1.get i).isSome ↔ (ts.get i).isSome := by
  intro ts
  induction ts with
  | nil => intro w x h; simp only [stepTxns, Run.ok.injEq] at h; rw [← h]; exact ⟨⟨.refl, .refl⟩, fun _ => Iff.rfl⟩
  | cons t rest ih =>
    obtain ⟨i, st⟩ := t
    intro w x h
    have key : ∀ {st' : TxnState α η} {ts' : AMap Nat (TxnState α η)}, (∀ j, (ts'.get j).isSome ↔ (AMap.get rest j).isSome) →
        ∀ j, (AMap.get ((i, st') :: ts') j).isSome ↔ (AMap.get ((i, st) :: rest) j).isSome := fun hk j => by
      simp only [AMap.get_cons]
      split
      · simp
      · exact hk j
    cases st with
    | preparing ps =>
      simp only [stepTxns] at h
      obtain ⟨y, h1, h⟩ := Run.bind_eq_ok.mp h
      obtain ⟨z, h2, h⟩ := Run.bind_eq_ok.mp h
      simp only [Run.ok.injEq] at h
      rw [← h]
      exact ⟨⟨(stepProcs_mem h1).1.trans (ih h2).1.1, (stepProcs_mem h1).2.trans (ih h2).1.2⟩, key (ih h2).2⟩
    | committing ops =>
      simp only [stepTxns] at h
      obtain ⟨z, h2, h⟩ := Run.bind_eq_ok.mp h
      simp only [Run.ok.injEq] at h
      rw [← h]
      exact ⟨(ih h2).1, key (ih h2).2⟩
    | completed o =>
      simp only [stepTxns] at h
      obtain ⟨z, h2, h⟩ := Run.bind_eq_ok.mp h
      simp only [Run.ok.injEq] at h
      rw [← h]
      exact ⟨(ih h2).1, key (ih h2).2⟩

/-- What a step that is neither an input nor the taking of messages does, with `k` resolutions; transactions aside. -/
structure MMem (k : Nat) (m m' : Manager α η ω) : Prop where
  md : Rises k m.world.md m'.world.md
  data : DOps m.world.data m'.world.data
  errors : m'.errors = m.errors
  out : ∀ x ∈ m.coord.out, x ∈ m'.coord.out
  corrs : ∀ k, (m'.coord.correlations.get k).isSome → (m.coord.correlations.get k).isSome ∨ ∃ ops, (k, ops) ∈ m'.coord.out

theorem MMem.refl {m : Manager α η ω} : MMem 0 m m := ⟨.refl, .refl, rfl, fun _ h => h, fun _ h => .inl h⟩

theorem makeProgress_mem {env : TxnEnv α η ω} {m m' : Manager α η ω} (h : m.makeProgress env = .ok m') :
    MMem 0 m m' ∧ ∀ i, (m'.coord.txns.get i).isSome ↔ (m.coord.txns.get i).isSome := by
  unfold Manager.makeProgress at h
  obtain ⟨md, h1, h⟩ := Run.bind_eq_ok.mp h
  obtain ⟨d, h2, h⟩ := Run.bind_eq_ok.mp h
  obtain ⟨x, h3, h⟩ := Run.bind_eq_ok.mp h
  simp only [Run.ok.injEq] at h
  rw [← h]
  obtain ⟨⟨k1, k2⟩, k3⟩ := stepTxns_mem h3
  refine ⟨⟨(mdProgress_rises h1).trans k1, DOps.trans ?_ k2, rfl, fun _ h => h, fun _ h => .inl h⟩, k3⟩
  unfold DataCache.makeProgress at h2
  obtain ⟨y, _, h2⟩ := Run.bind_eq_ok.mp h2
  simp only [Run.ok.injEq] at h2
  rw [← h2]; exact ⟨fun _ h => h, fun _ h => .inl h⟩

theorem commit_mem {c c' : Coordinator α η} {i : Nat} (h : c.commit i = .ok c') : (∀ x ∈ c.out, x ∈ c'.out) ∧
    (∀ k, (c'.correlations.get k).isSome → (c.correlations.get k).isSome ∨ ∃ ops, (k, ops) ∈ c'.out) ∧
    (∀ j, (c'.txns.get j).isSome ↔ (c.txns.get j).isSome) ∧ c'.txnCounter = c.txnCounter := by
  unfold Coordinator.commit at h
  split at h
  · rename_i ps hg
    have hs : ∀ {s : TxnState α η} {j : Nat}, ((c.txns.set i s).get j).isSome ↔ (c.txns.get j).isSome := fun {s j} => by
      rw [isSome_set]
      exact ⟨fun h => h.elim (fun e => by rw [e, hg]; rfl) id, .inr⟩
    split at h
    · cases h
    · split at h
      · simp only [Run.ok.injEq] at h
        rw [← h]
        refine ⟨fun x hx => List.mem_append_left _ hx, fun k hk => ?_, fun _ => hs, rfl⟩
        rcases isSome_set.mp hk with h1 | h1
        · exact .inr ⟨_, List.mem_append_right _ (List.mem_singleton.mpr (by rw [h1]))⟩
        · exact .inl h1
      · simp only [Run.ok.injEq] at h; rw [← h]; exact ⟨fun _ h => h, fun _ h => .inl h, fun _ => hs, rfl⟩
  · cases h

theorem coordProcess_mem {c c' : Coordinator α η} {i : Nat} {qs : List Query} {x : η} (h : c.process i qs x = .ok c') : c'.out = c.out ∧
    c'.correlations = c.correlations ∧ (∀ j, (c'.txns.get j).isSome ↔ (c.txns.get j).isSome) ∧ c'.txnCounter = c.txnCounter := by
  unfold Coordinator.process at h
  split at h
  · rename_i ps hg
    simp only [Run.ok.injEq] at h; rw [← h]
    refine ⟨rfl, rfl, fun j => ?_, rfl⟩
    dsimp only
    rw [isSome_set]
    exact ⟨fun h => h.elim (fun e => by rw [e, hg]; rfl) id, .inr⟩
  · cases h

theorem coordIn_mem {c : Coordinator α η} {md : MetaCache} {corr : Nat} {rs : List TabletOpResult} {x : Coordinator α η × MetaCache} (h : c.processIn md corr rs = .ok x) :
    Rises 0 md x.2 ∧ x.1.out = c.out ∧ (∀ k, (x.1.correlations.get k).isSome → (c.correlations.get k).isSome ∧ k ≠ corr) ∧
      (∀ j, (x.1.txns.get j).isSome ↔ (c.txns.get j).isSome) ∧ x.1.txnCounter = c.txnCounter := by
  have he : ∀ k, ((c.correlations.erase corr).get k).isSome → (c.correlations.get k).isSome ∧ k ≠ corr := fun k hk => by
    refine ⟨erase_some hk, fun e => ?_⟩
    rw [e, AMap.get_erase_self] at hk; cases hk
  unfold Coordinator.processIn at h
  split at h
  · rename_i hg
    simp only [Run.ok.injEq] at h; rw [← h]
    exact ⟨.refl, rfl, fun k hk => ⟨hk, fun e => by rw [e, hg] at hk; cases hk⟩, fun _ => Iff.rfl, rfl⟩
  · dsimp only at h
    split at h
    · rename_i ops hg
      obtain ⟨y, _, h⟩ := Run.bind_eq_ok.mp h
      obtain ⟨md', h1, h⟩ := Run.bind_eq_ok.mp h
      simp only [Run.ok.injEq] at h
      rw [← h]
      refine ⟨updateTablets_rises h1, rfl, he, fun j => ?_, rfl⟩
      dsimp only
      rw [isSome_set]
      exact ⟨fun h => h.elim (fun e => by rw [e, hg]; rfl) id, .inr⟩
    · simp only [Run.ok.injEq] at h; rw [← h]; exact ⟨.refl, rfl, he, fun _ => Iff.rfl, rfl⟩

theorem opsResponse_mem {m m' : Manager α η ω} {corr : Nat} {r : Response} (h : m.opsResponse corr r = .ok m') :
    Rises 0 m.world.md m'.world.md ∧ m'.world.data = m.world.data ∧ m'.errors = m.errors ∧ m'.coord.out = m.coord.out ∧
      (∀ k, (m'.coord.correlations.get k).isSome → (m.coord.correlations.get k).isSome ∧ (answers r ≠ [] → k ≠ corr)) ∧
      (∀ j, (m'.coord.txns.get j).isSome ↔ (m.coord.txns.get j).isSome) ∧ m'.coord.txnCounter = m.coord.txnCounter := by
  unfold Manager.opsResponse at h
  rw [answers_eq] at h
  obtain ⟨md, h1, h⟩ := Run.bind_eq_ok.mp h
  split at h
  · rename_i ha
    simp only [Run.ok.injEq] at h
    rw [← h]
    exact ⟨mdProcessIn_rises h1, rfl, rfl, rfl, fun k hk => ⟨hk, fun hn => absurd ha hn⟩, fun _ => Iff.rfl, rfl⟩
  · obtain ⟨x, h2, h⟩ := Run.bind_eq_ok.mp h
    simp only [Run.ok.injEq] at h
    rw [← h]
    obtain ⟨k1, k2, k3, k4, k5⟩ := coordIn_mem h2
    exact ⟨(mdProcessIn_rises h1).trans k1, rfl, rfl, k2, fun k hk => ⟨(k3 k hk).1, fun _ => (k3 k hk).2⟩, k4, k5⟩

/-- The input answers the request with this id. -/
def Hits (i : MgrIn) (k : Nat) : Prop := i = .error k ∨ ∃ r, i = .response k r

theorem processIn_mem {env : TxnEnv α η ω} {m m' : Manager α η ω} {i : MgrIn} (h : m.processIn env i = .ok m') :
    Rises 0 m.world.md m'.world.md ∧ m'.world.data.out = m.world.data.out ∧
      (∀ k, (m'.world.data.ops.get k).isSome → (m.world.data.ops.get k).isSome ∧ ∀ x, i = .data x → x.corr ≠ k) ∧
      (∀ k, (m'.errors.get k).isSome → (m.errors.get k).isSome ∧ ¬ Hits i k) ∧ m'.coord.out = m.coord.out ∧
      (∀ k, (m'.coord.correlations.get k).isSome → (m.coord.correlations.get k).isSome ∧ ∀ r, i = .response k r → answers r = []) ∧
      (∀ j, (m'.coord.txns.get j).isSome ↔ (m.coord.txns.get j).isSome) ∧ m'.coord.txnCounter = m.coord.txnCounter := by
  have he : ∀ {corr k : Nat}, ((m.errors.erase corr).get k).isSome → (m.errors.get k).isSome ∧ k ≠ corr := fun {corr k} hk => by
    refine ⟨erase_some hk, fun e => ?_⟩
    rw [e, AMap.get_erase_self] at hk; cases hk
  cases i with
  | data r =>
    simp only [Manager.processIn] at h
    obtain ⟨d, h1, h⟩ := Run.bind_eq_ok.mp h
    simp only [Run.ok.injEq] at h
    rw [← h]
    refine ⟨.refl, dataProcessIn_out h1, fun k hk => ?_, fun k hk => ⟨hk, fun h => ?_⟩, rfl, fun k hk => ⟨hk, fun r h => by cases h⟩, fun _ => Iff.rfl, rfl⟩
    · have hx : (m.world.data.ops.get k).isSome ∧ r.corr ≠ k := by
        have hd : ∀ {corr : Nat}, ((m.world.data.ops.erase corr).get k).isSome → (m.world.data.ops.get k).isSome ∧ corr ≠ k := fun {corr} hk => by
          refine ⟨erase_some hk, fun e => ?_⟩
          rw [e, AMap.get_erase_self] at hk; cases hk
        dsimp only at hk
        cases r with
        | load corr st b =>
          simp only [DataCache.processIn] at h1
          split at h1
          · rename_i hg
            simp only [Run.ok.injEq] at h1; rw [← h1] at hk
            exact ⟨hk, fun e => by simp only [DataIn.corr] at e; rw [e] at hg; rw [hg] at hk; cases hk⟩
          · obtain ⟨e, _, h1⟩ := Run.bind_eq_ok.mp h1
            obtain ⟨e', _, h1⟩ := Run.bind_eq_ok.mp h1
            simp only [Run.ok.injEq] at h1; rw [← h1] at hk
            exact hd hk
        | store corr st =>
          simp only [DataCache.processIn] at h1
          split at h1
          · rename_i hg
            simp only [Run.ok.injEq] at h1; rw [← h1] at hk
            exact ⟨hk, fun e => by simp only [DataIn.corr] at e; rw [e] at hg; rw [hg] at hk; cases hk⟩
          · obtain ⟨e, _, h1⟩ := Run.bind_eq_ok.mp h1
            obtain ⟨e', _, h1⟩ := Run.bind_eq_ok.mp h1
            simp only [Run.ok.injEq] at h1; rw [← h1] at hk
            exact hd hk
      exact ⟨hx.1, fun x e => by cases e; exact hx.2⟩
    · rcases h with h | ⟨_, h⟩ <;> cases h
  | response corr r =>
    simp only [Manager.processIn] at h
    obtain ⟨k1, k2, k3, k4, k5, k6, k7⟩ := opsResponse_mem h
    refine ⟨k1, by rw [k2], fun k hk => ⟨by rw [k2] at hk; exact hk, fun x h => by cases h⟩, fun k hk => ?_, k4, fun k hk => ⟨(k5 k hk).1, fun r' e => ?_⟩, k6, k7⟩
    · rw [k3] at hk
      refine ⟨(he hk).1, fun h => ?_⟩
      rcases h with h | ⟨_, h⟩
      · cases h
      · cases h; exact (he hk).2 rfl
    · cases e
      exact Decidable.byContradiction fun hn => (k5 _ hk).2 hn rfl
  | error corr =>
    simp only [Manager.processIn] at h
    split at h
    · obtain ⟨k1, k2, k3, k4, k5, k6, k7⟩ := opsResponse_mem h
      refine ⟨k1, by rw [k2], fun k hk => ⟨by rw [k2] at hk; exact hk, fun x h => by cases h⟩, fun k hk => ?_, k4, fun k hk => ⟨(k5 k hk).1, fun r' e => by cases e⟩, k6, k7⟩
      rw [k3] at hk
      refine ⟨(he hk).1, fun h => ?_⟩
      rcases h with h | ⟨_, h⟩
      · cases h; exact (he hk).2 rfl
      · cases h
    · rename_i hg
      simp only [Run.ok.injEq] at h; rw [← h]
      refine ⟨.refl, rfl, fun k hk => ⟨hk, fun x h => by cases h⟩, fun k hk => ⟨hk, fun h => ?_⟩, rfl, fun k hk => ⟨hk, fun r' e => by cases e⟩, fun _ => Iff.rfl, rfl⟩
      rcases h with h | ⟨_, h⟩
      · cases h; rw [hg] at hk; cases hk
      · cases h

/-! ## Histories -/

/-- What is remembered after a history. -/
structure Mem (evs : List (MEvent η)) (c : Client α η ω) : Prop where
  recs : Rec c.m.world.md
  many : resolutions evs + 1 ≤ c.m.world.md.resolveCounter
  ops : ∀ k, (c.m.world.data.ops.get k).isSome → ∃ r : DataOut, r.corr = k ∧ MOutstanding evs c r
  errors : ∀ k, (c.m.errors.get k).isSome → Unreplied evs k
  corrs : ∀ k, (c.m.coord.correlations.get k).isSome → Undecided evs c.m k
  txns : ∀ i, (c.m.coord.txns.get i).isSome ↔ Unfinished evs i
  started : ∀ i, MEvent.start i ∈ evs → i ≤ c.m.coord.txnCounter
  opened : ∀ i ∈ c.opened, i ≤ c.m.coord.txnCounter
  aborted : ∀ i, MEvent.abort i ∈ evs → i ≤ c.m.coord.txnCounter
  commits : ∀ i h, c.commits.get i = some h → i ≤ c.m.coord.txnCounter ∧ h.txn = i ∧ ∀ o, h.outcome = some o → MEvent.check i (some o) ∈ evs
  checked : ∀ i o, MEvent.check i o ∈ evs → i ≤ c.m.coord.txnCounter

theorem out_keep {evs : List (MEvent η)} {c c' : Client α η ω} {ev : MEvent η} {r : DataOut} (h : MOutstanding evs c r)
    (h1 : r ∈ c.m.world.data.out → r ∈ c'.m.world.data.out ∨ ∃ outs, ev = .take outs ∧ .data r ∈ outs) (h2 : ∀ x, ev = .input (.data x) → x.corr ≠ r.corr) :
    MOutstanding (evs ++ [ev]) c' r := by
  rcases h with h | ⟨a, outs, b, rfl, hm, hb⟩
  · rcases h1 h with h3 | ⟨outs, rfl, h3⟩
    · exact .inl h3
    · exact .inr ⟨evs, outs, [], rfl, h3, fun x hx => by cases hx⟩
  · refine .inr ⟨a, outs, b ++ [ev], by simp, hm, fun x hx => ?_⟩
    rcases List.mem_append.mp hx with hx | hx
    · exact hb x hx
    · exact h2 x (List.mem_singleton.mp hx).symm

theorem unanswered_keep {evs : List (MEvent η)} {ev : MEvent η} {k : Nat} (h : Unreplied evs k) (h2 : ∀ i, ev = .input i → ¬ Hits i k) : Unreplied (evs ++ [ev]) k := by
  obtain ⟨a, outs, b, ops, rfl, hm, hb, hr⟩ := h
  refine ⟨a, outs, b ++ [ev], ops, by simp, hm, fun hx => ?_, fun r hx => ?_⟩
  · rcases List.mem_append.mp hx with hx | hx
    · exact hb hx
    · exact h2 _ (List.mem_singleton.mp hx).symm (.inl rfl)
  · rcases List.mem_append.mp hx with hx | hx
    · exact hr r hx
    · exact h2 _ (List.mem_singleton.mp hx).symm (.inr ⟨r, rfl⟩)

theorem undecided_keep {evs : List (MEvent η)} {m m' : Manager α η ω} {ev : MEvent η} {k : Nat} (h : Undecided evs m k)
    (h1 : ∀ ops, (k, ops) ∈ m.coord.out → (k, ops) ∈ m'.coord.out ∨ ∃ outs, ev = .take outs ∧ .ops k ops ∈ outs)
    (h2 : ∀ r, ev = .input (.response k r) → answers r = []) : Undecided (evs ++ [ev]) m' k := by
  rcases h with ⟨ops, h⟩ | ⟨a, outs, b, ops, rfl, hm, hb⟩
  · rcases h1 ops h with h3 | ⟨outs, rfl, h3⟩
    · exact .inl ⟨ops, h3⟩
    · exact .inr ⟨evs, outs, [], ops, rfl, h3, fun x hx => by cases hx⟩
  · refine .inr ⟨a, outs, b ++ [ev], ops, by simp, hm, fun r hx => ?_⟩
    rcases List.mem_append.mp hx with hx | hx
    · exact hb r hx
    · exact h2 r (List.mem_singleton.mp hx).symm

theorem resolutions_append (evs : List (MEvent η)) (ev : MEvent η) : resolutions (evs ++ [ev]) = resolutions evs + resolutions [ev] := by
  simp [resolutions, List.filter_append]

/-- A step that is neither an input nor the taking of messages, and does not concern the transactions. -/
theorem Mem.quiet {evs : List (MEvent η)} {c c' : Client α η ω} {ev : MEvent η} (h : Mem evs c) (hm : MMem (resolutions [ev]) c.m c'.m)
    (hi : ∀ i, ev ≠ .input i) : Rec c'.m.world.md ∧ resolutions (evs ++ [ev]) + 1 ≤ c'.m.world.md.resolveCounter ∧
    (∀ k, (c'.m.world.data.ops.get k).isSome → ∃ r : DataOut, r.corr = k ∧ MOutstanding (evs ++ [ev]) c' r) ∧
    (∀ k, (c'.m.errors.get k).isSome → Unreplied (evs ++ [ev]) k) ∧ ∀ k, (c'.m.coord.correlations.get k).isSome → Undecided (evs ++ [ev]) c'.m k := by
  refine ⟨(hm.md h.recs).1, ?_, fun k hk => ?_, fun k hk => ?_, fun k hk => ?_⟩
  · have := (hm.md h.recs).2; have := h.many; rw [resolutions_append]; omega
  · rcases hm.data.2 k hk with h1 | ⟨r, h1, h2⟩
    · obtain ⟨r, h2, h3⟩ := h.ops k h1
      exact ⟨r, h2, out_keep h3 (fun h => .inl (hm.data.1 r h)) fun x e => absurd e (hi _)⟩
    · exact ⟨r, h2, .inl h1⟩
  · rw [hm.errors] at hk
    exact unanswered_keep (h.errors k hk) fun i e => absurd e (hi _)
  · rcases hm.corrs k hk with h1 | ⟨ops, h1⟩
    · exact undecided_keep (h.corrs k h1) (fun ops h => .inl (hm.out _ h)) fun r e => absurd e (hi _)
    · exact .inl ⟨ops, h1⟩

/-- The event does not start or end a transaction. -/
def Neutral (ev : MEvent η) : Prop := (∀ i, ev ≠ .start i) ∧ (∀ i, ev ≠ .abort i) ∧ ∀ i o, ev ≠ .check i o

theorem unfinished_neutral {evs : List (MEvent η)} {ev : MEvent η} (h : Neutral ev) {i : Nat} : Unfinished (evs ++ [ev]) i ↔ Unfinished evs i := by
  simp only [Unfinished, List.mem_append, List.mem_singleton]
  constructor
  · rintro ⟨h1, h2, h3⟩
    refine ⟨h1.elim id fun e => absurd e.symm (h.1 i), fun e => h2 (.inl e), fun o e => h3 o (.inl e)⟩
  · rintro ⟨h1, h2, h3⟩
    refine ⟨.inl h1, fun e => e.elim h2 fun e => h.2.1 i e.symm, fun o e => e.elim (h3 o) fun e => h.2.2 i _ e.symm⟩

theorem Mem.neutral {evs : List (MEvent η)} {c c' : Client α η ω} {ev : MEvent η} (h : Mem evs c) (hn : Neutral ev)
    (hx : Rec c'.m.world.md ∧ resolutions (evs ++ [ev]) + 1 ≤ c'.m.world.md.resolveCounter ∧
      (∀ k, (c'.m.world.data.ops.get k).isSome → ∃ r : DataOut, r.corr = k ∧ MOutstanding (evs ++ [ev]) c' r) ∧
      (∀ k, (c'.m.errors.get k).isSome → Unreplied (evs ++ [ev]) k) ∧ ∀ k, (c'.m.coord.correlations.get k).isSome → Undecided (evs ++ [ev]) c'.m k)
    (ht : ∀ i, (c'.m.coord.txns.get i).isSome ↔ (c.m.coord.txns.get i).isSome) (hc : c'.m.coord.txnCounter = c.m.coord.txnCounter)
    (ho : ∀ i ∈ c'.opened, i ∈ c.opened) (hk : ∀ i h, c'.commits.get i = some h → c.commits.get i = some h ∨ (i ∈ c.opened ∧ h = ⟨i, none⟩)) : Mem (evs ++ [ev]) c' where
  recs := hx.1
  many := hx.2.1
  ops := hx.2.2.1
  errors := hx.2.2.2.1
  corrs := hx.2.2.2.2
  txns i := by rw [ht, h.txns, unfinished_neutral hn]
  started i hi := by
    rw [hc]
    rcases List.mem_append.mp hi with hi | hi
    · exact h.started i hi
    · exact absurd (List.mem_singleton.mp hi).symm (hn.1 i)
  opened i hi := by rw [hc]; exact h.opened i (ho i hi)
  aborted i hi := by
    rw [hc]
    rcases List.mem_append.mp hi with hi | hi
    · exact h.aborted i hi
    · exact absurd (List.mem_singleton.mp hi).symm (hn.2.1 i)
  commits i hd hi := by
    rw [hc]
    rcases hk i hd hi with h1 | ⟨h1, h2⟩
    · obtain ⟨a, b, d⟩ := h.commits i hd h1
      exact ⟨a, b, fun o e => List.mem_append_left _ (d o e)⟩
    · exact ⟨h.opened i h1, by rw [h2], fun o e => by rw [h2] at e; cases e⟩
  checked i o hi := by
    rw [hc]
    rcases List.mem_append.mp hi with hi | hi
    · exact h.checked i o hi
    · exact absurd (List.mem_singleton.mp hi).symm (hn.2.2 i o)

theorem Mem.create {co md d : Nat} {w : ω} : Mem (α := α) (η := η) [] ⟨.create co md d w, [], []⟩ where
  recs := .create
  many := Nat.le_refl _
  ops k h := by cases h
  errors k h := by cases h
  corrs k h := by cases h
  txns i := ⟨fun h => (by cases h), fun h => (by cases h.1)⟩
  started i h := by cases h
  opened i h := by cases h
  aborted i h := by cases h
  commits i hd h := by cases h
  checked i o h := by cases h

theorem Mem.step {env : TxnEnv α η ω} {evs : List (MEvent η)} {c c' : Client α η ω} {ev : MEvent η} (h : Mem evs c) (hs : MStep env c ev c') : Mem (evs ++ [ev]) c' := by
  cases hs with
  | init hs =>
    unfold Manager.init at hs
    obtain ⟨md, h1, hs⟩ := Run.bind_eq_ok.mp hs
    simp only [Run.ok.injEq] at hs
    subst hs
    exact h.neutral ⟨fun _ e => by (cases e), fun _ e => by (cases e), fun _ _ e => by (cases e)⟩
      (h.quiet ⟨mdInit_rises h1, .refl, rfl, fun _ h => h, fun _ h => .inl h⟩ fun _ e => by (cases e)) (fun _ => Iff.rfl) rfl (fun _ h => h) fun _ _ h => .inl h
  | start =>
    have hq := h.quiet (c' := { c with m := { c.m with coord := c.m.coord.createTxn.1 }, opened := c.m.coord.createTxn.2 :: c.opened })
      (ev := .start c.m.coord.createTxn.2) ⟨.refl, .refl, rfl, fun _ h => h, fun _ h => .inl h⟩ fun _ e => by (cases e)
    refine ⟨hq.1, hq.2.1, hq.2.2.1, hq.2.2.2.1, hq.2.2.2.2, fun i => ?_, fun i hi => ?_, fun i hi => ?_, fun i hi => ?_, fun i hd hi => ?_, fun i o hi => ?_⟩
    · show (AMap.get (AMap.set c.m.coord.txns (c.m.coord.txnCounter + 1) (.preparing [])) i).isSome ↔ _
      rw [isSome_set, h.txns]
      simp only [Unfinished, List.mem_append, List.mem_singleton, Coordinator.createTxn]
      constructor
      · rintro (rfl | ⟨h1, h2, h3⟩)
        · refine ⟨.inr rfl, fun e => ?_, fun o e => ?_⟩
          · rcases e with e | e
            · have := h.aborted _ e; omega
            · cases e
          · rcases e with e | e
            · have := h.checked _ _ e; omega
            · cases e
        · exact ⟨.inl h1, fun e => e.elim h2 fun e => by (cases e), fun o e => e.elim (h3 o) fun e => by (cases e)⟩
      · rintro ⟨h1, h2, h3⟩
        rcases h1 with h1 | h1
        · exact .inr ⟨h1, fun e => h2 (.inl e), fun o e => h3 o (.inl e)⟩
        · cases h1; exact .inl rfl
    all_goals show _
    · show i ≤ c.m.coord.txnCounter + 1
      rcases List.mem_append.mp hi with hi | hi
      · have := h.started i hi; omega
      · have := List.mem_singleton.mp hi
        simp only [Coordinator.createTxn, MEvent.start.injEq] at this; omega
    · show i ≤ c.m.coord.txnCounter + 1
      rcases List.mem_cons.mp hi with hi | hi
      · simp only [Coordinator.createTxn] at hi; omega
      · have := h.opened i hi; omega
    · show i ≤ c.m.coord.txnCounter + 1
      rcases List.mem_append.mp hi with hi | hi
      · have := h.aborted i hi; omega
      · cases List.mem_singleton.mp hi
    · obtain ⟨a, b, d⟩ := h.commits i hd hi
      exact ⟨show i ≤ c.m.coord.txnCounter + 1 by omega, b, fun o e => List.mem_append_left _ (d o e)⟩
    · show i ≤ c.m.coord.txnCounter + 1
      rcases List.mem_append.mp hi with hi | hi
      · have := h.checked i o hi; omega
      · cases List.mem_singleton.mp hi
  | process ho hs =>
    obtain ⟨k1, k2, k3, k4⟩ := coordProcess_mem hs
    exact h.neutral ⟨fun _ e => by (cases e), fun _ e => by (cases e), fun _ _ e => by (cases e)⟩
      (h.quiet ⟨.refl, .refl, rfl, fun _ h => by rw [k1]; exact h, fun _ h => .inl (by rw [k2] at h; exact h)⟩ fun _ e => by (cases e)) k3 k4 (fun _ h => h) fun _ _ h => .inl h
  | pending ho hs =>
    exact h.neutral ⟨fun _ e => by (cases e), fun _ e => by (cases e), fun _ _ e => by (cases e)⟩
      (h.quiet .refl fun _ e => by (cases e)) (fun _ => Iff.rfl) rfl (fun _ h => h) fun _ _ h => .inl h
  | commit ho hs =>
    obtain ⟨k1, k2, k3, k4⟩ := commit_mem hs
    refine h.neutral ⟨fun _ e => by (cases e), fun _ e => by (cases e), fun _ _ e => by (cases e)⟩
      (h.quiet ⟨.refl, .refl, rfl, k1, k2⟩ fun _ e => by (cases e)) k3 k4 (fun _ h => (List.mem_filter.mp h).1) fun j hd hj => ?_
    rw [AMap.get_set] at hj
    split at hj
    · rename_i e; subst e; exact .inr ⟨ho, by cases hj; rfl⟩
    · exact .inl hj
  | abort ho =>
    rename_i i0
    have hq := h.quiet (c' := { c with m := { c.m with coord := c.m.coord.abort i0 }, opened := c.opened.filter (· ≠ i0) })
      (ev := .abort i0) ⟨.refl, .refl, rfl, fun _ h => h, fun _ h => .inl h⟩ fun _ e => by (cases e)
    refine ⟨hq.1, hq.2.1, hq.2.2.1, hq.2.2.2.1, hq.2.2.2.2, fun i => ?_, fun i hi => ?_, fun i hi => ?_, fun i hi => ?_, fun i hd hi => ?_, fun i o hi => ?_⟩
    · show (AMap.get (AMap.erase c.m.coord.txns i0) i).isSome ↔ _
      by_cases hii : i = i0
      · subst hii
        rw [AMap.get_erase_self]
        exact ⟨fun h => (by cases h), fun h => absurd (List.mem_append_right _ (List.mem_singleton.mpr rfl)) h.2.1⟩
      · rw [AMap.get_erase_ne _ (Ne.symm hii), h.txns]
        simp only [Unfinished, List.mem_append, List.mem_singleton]
        constructor
        · rintro ⟨h1, h2, h3⟩
          exact ⟨.inl h1, fun e => e.elim h2 fun e => by (cases e; exact hii rfl), fun o e => e.elim (h3 o) fun e => by (cases e)⟩
        · rintro ⟨h1, h2, h3⟩
          exact ⟨h1.elim id fun e => by (cases e), fun e => h2 (.inl e), fun o e => h3 o (.inl e)⟩
    · rcases List.mem_append.mp hi with hi | hi
      · exact h.started i hi
      · cases List.mem_singleton.mp hi
    · exact h.opened i (List.mem_filter.mp hi).1
    · rcases List.mem_append.mp hi with hi | hi
      · exact h.aborted i hi
      · cases List.mem_singleton.mp hi; exact h.opened _ ho
    · obtain ⟨a, b, d⟩ := h.commits i hd hi
      exact ⟨a, b, fun o e => List.mem_append_left _ (d o e)⟩
    · rcases List.mem_append.mp hi with hi | hi
      · exact h.checked i o hi
      · cases List.mem_singleton.mp hi
  | check ho hs =>
    rename_i i0 hd0 hd1 m
    obtain ⟨c1, c2, c3⟩ := h.commits i0 hd0 ho
    have hmem : MMem 0 c.m m ∧ m.coord.txnCounter = c.m.coord.txnCounter ∧ hd1.txn = i0 ∧
        ((hd1.outcome = none ∧ m.coord.txns = c.m.coord.txns) ∨ (∃ o, hd1.outcome = some o ∧ MEvent.check i0 (some o) ∈ evs ∧ m.coord.txns = c.m.coord.txns) ∨
          (hd1.outcome ≠ none ∧ m.coord.txns = c.m.coord.txns.erase i0)) := by
      unfold Commit.check at hs
      split at hs
      · rename_i o hg
        simp only [Run.ok.injEq, Prod.mk.injEq] at hs
        obtain ⟨rfl, rfl⟩ := hs
        exact ⟨.refl, rfl, c2, .inr (.inl ⟨o, hg, c3 o hg, rfl⟩)⟩
      · obtain ⟨y, h1, hs⟩ := Run.bind_eq_ok.mp hs
        simp only [Run.ok.injEq, Prod.mk.injEq] at hs
        obtain ⟨rfl, rfl⟩ := hs
        unfold Coordinator.check at h1
        split at h1
        · cases h1
        · cases h1
        · simp only [Run.ok.injEq] at h1; subst h1
          exact ⟨.refl, rfl, c2, .inl ⟨rfl, rfl⟩⟩
        · simp only [Run.ok.injEq] at h1; subst h1
          exact ⟨⟨.refl, .refl, rfl, fun _ h => h, fun _ h => .inl h⟩, rfl, c2, .inr (.inr ⟨by simp, by rw [c2]⟩)⟩
    obtain ⟨hm, hcnt, htx, hcase⟩ := hmem
    have hq := h.quiet (c' := { c with m := m, commits := c.commits.set i0 hd1 }) (ev := .check i0 hd1.outcome) hm fun _ e => by (cases e)
    refine ⟨hq.1, hq.2.1, hq.2.2.1, hq.2.2.2.1, hq.2.2.2.2, fun i => ?_, fun i hi => ?_, fun i hi => ?_, fun i hi => ?_, fun i hd hi => ?_, fun i o hi => ?_⟩
    · show (AMap.get m.coord.txns i).isSome ↔ _
      have hback : ∀ {j : Nat}, (∀ o, hd1.outcome = some o → j = i0 → MEvent.check i0 (some o) ∈ evs) → (Unfinished (evs ++ [.check i0 hd1.outcome]) j ↔ Unfinished evs j) := by
        intro j hj
        simp only [Unfinished, List.mem_append, List.mem_singleton]
        constructor
        · rintro ⟨h1, h2, h3⟩
          exact ⟨h1.elim id fun e => by (cases e), fun e => h2 (.inl e), fun o e => h3 o (.inl e)⟩
        · rintro ⟨h1, h2, h3⟩
          refine ⟨.inl h1, fun e => e.elim h2 fun e => by (cases e), fun o e => e.elim (h3 o) fun e => ?_⟩
          simp only [MEvent.check.injEq] at e
          have := hj o e.2.symm e.1
          rw [← e.1] at this
          exact h3 o this
      rcases hcase with ⟨h1, h2⟩ | ⟨o, h1, h2, h3⟩ | ⟨h1, h2⟩
      · rw [h2, h.txns, hback fun o e => by rw [h1] at e; cases e]
      · rw [h3, h.txns, hback fun o' e _ => by rw [h1] at e; cases e; exact h2]
      · rw [h2]
        by_cases hii : i = i0
        · subst hii
          rw [AMap.get_erase_self]
          refine ⟨fun h => (by cases h), fun hu => ?_⟩
          cases ho' : hd1.outcome with
          | none => exact absurd ho' h1
          | some o => exact absurd (List.mem_append_right _ (List.mem_singleton.mpr (by rw [ho']))) (hu.2.2 o)
        · rw [AMap.get_erase_ne _ (Ne.symm hii), h.txns, hback fun o _ e => absurd e hii]
    · show i ≤ m.coord.txnCounter
      rw [hcnt]
      rcases List.mem_append.mp hi with hi | hi
      · exact h.started i hi
      · cases List.mem_singleton.mp hi
    · show i ≤ m.coord.txnCounter
      rw [hcnt]; exact h.opened i hi
    · show i ≤ m.coord.txnCounter
      rw [hcnt]
      rcases List.mem_append.mp hi with hi | hi
      · exact h.aborted i hi
      · cases List.mem_singleton.mp hi
    · show i ≤ m.coord.txnCounter ∧ _
      rw [hcnt]
      simp only [AMap.get_set] at hi
      split at hi
      · rename_i e; subst e
        cases hi
        exact ⟨c1, htx, fun o e => List.mem_append_right _ (List.mem_singleton.mpr (by rw [e]))⟩
      · obtain ⟨a, b, d⟩ := h.commits i hd hi
        exact ⟨a, b, fun o e => List.mem_append_left _ (d o e)⟩
    · show i ≤ m.coord.txnCounter
      rw [hcnt]
      rcases List.mem_append.mp hi with hi | hi
      · exact h.checked i o hi
      · cases List.mem_singleton.mp hi; exact c1
  | resolve hs =>
    unfold Manager.resolve at hs
    obtain ⟨md, h1, hs⟩ := Run.bind_eq_ok.mp hs
    simp only [Run.ok.injEq] at hs
    subst hs
    exact h.neutral ⟨fun _ e => by (cases e), fun _ e => by (cases e), fun _ _ e => by (cases e)⟩
      (h.quiet ⟨mdResolve_rises h1, .refl, rfl, fun _ h => h, fun _ h => .inl h⟩ fun _ e => by (cases e)) (fun _ => Iff.rfl) rfl (fun _ h => h) fun _ _ h => .inl h
  | input hs =>
    obtain ⟨k1, k2, k3, k4, k5, k6, k7, k8⟩ := processIn_mem hs
    refine h.neutral ⟨fun _ e => by (cases e), fun _ e => by (cases e), fun _ _ e => by (cases e)⟩ ⟨(k1 h.recs).1, ?_, fun k hk => ?_, fun k hk => ?_, fun k hk => ?_⟩
      k7 k8 (fun _ h => h) fun _ _ h => .inl h
    · rw [resolutions_append]
      have := (k1 h.recs).2; have := h.many
      simp only [resolutions, List.filter_cons, List.filter_nil] at *
      simpa using by omega
    · obtain ⟨h1, h2⟩ := k3 k hk
      obtain ⟨r, h3, h4⟩ := h.ops k h1
      exact ⟨r, h3, out_keep h4 (fun h => .inl (by rw [k2]; exact h)) fun x e => by cases e; rw [h3]; exact h2 x rfl⟩
    · obtain ⟨h1, h2⟩ := k4 k hk
      exact unanswered_keep (h.errors k h1) fun i e => by cases e; exact h2
    · obtain ⟨h1, h2⟩ := k6 k hk
      exact undecided_keep (h.corrs k h1) (fun ops h => .inl (by rw [k5]; exact h)) fun r e => by cases e; exact h2 r rfl
  | progress hs =>
    obtain ⟨k1, k2⟩ := makeProgress_mem hs
    exact h.neutral ⟨fun _ e => by (cases e), fun _ e => by (cases e), fun _ _ e => by (cases e)⟩
      (h.quiet k1 fun _ e => by (cases e)) k2 (makeProgress_txnCounter hs) (fun _ h => h) fun _ _ h => .inl h
  | take hs =>
    unfold Manager.takeOut at hs
    obtain ⟨es, h1, hs⟩ := Run.bind_eq_ok.mp hs
    simp only [Run.ok.injEq, Prod.mk.injEq] at hs
    obtain ⟨rfl, rfl⟩ := hs
    refine h.neutral ⟨fun _ e => by (cases e), fun _ e => by (cases e), fun _ _ e => by (cases e)⟩
      ⟨h.recs.same rfl rfl rfl rfl, ?_, fun k hk => ?_, fun k hk => ?_, fun k hk => ?_⟩ (fun _ => Iff.rfl) rfl (fun _ h => h) fun _ _ h => .inl h
    · rw [resolutions_append]; exact h.many
    · obtain ⟨r, h3, h4⟩ := h.ops k hk
      exact ⟨r, h3, out_keep h4 (fun h => .inr ⟨_, rfl, List.mem_append_right _ (List.mem_map.mpr ⟨r, h, rfl⟩)⟩) fun x e => by (cases e)⟩
    · rcases rememberErrors_keys h1 k hk with h2 | h2
      · exact unanswered_keep (h.errors k h2) fun i e => by (cases e)
      · obtain ⟨⟨k', ops⟩, h3, h4⟩ := List.mem_map.mp h2
        cases h4
        exact ⟨evs, _, [], ops, rfl, List.mem_append_left _ (List.mem_map.mpr ⟨_, h3, rfl⟩), fun h => by (cases h), fun r h => by (cases h)⟩
    · exact undecided_keep (h.corrs k hk) (fun ops h => .inr ⟨_, rfl, List.mem_append_left _ (List.mem_map.mpr ⟨_, List.mem_append_left _ h, rfl⟩)⟩) fun r e => by (cases e)
  | app =>
    exact h.neutral ⟨fun _ e => by (cases e), fun _ e => by (cases e), fun _ _ e => by (cases e)⟩
      (h.quiet ⟨.refl, .refl, rfl, fun _ h => h, fun _ h => .inl h⟩ fun _ e => by (cases e)) (fun _ => Iff.rfl) rfl (fun _ h => h) fun _ _ h => .inl h

theorem mem_history {env : TxnEnv α η ω} {evs : List (MEvent η)} {c : Client α η ω} (h : MHistory env evs c) : Mem evs c := by
  obtain ⟨co, md, d, w, h⟩ := h
  generalize hc : (⟨.create co md d w, [], []⟩ : Client α η ω) = c0 at h
  induction h with
  | refl => rw [← hc]; exact .create
  | step _ hs ih => exact ih.step hs

end TCP.Cache
