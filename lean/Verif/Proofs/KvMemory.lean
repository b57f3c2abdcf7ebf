import Verif.Proofs.CacheMemory

/-!
# Proofs about what a key-value store remembers (C106)
-/

namespace TCP.Cache

open TCP TCP.TabletStore TCP.Cache.Spec

theorem keeps_refl {ts : AMap UInt32 TabletTracker} : KeepsAll ts ts := fun _ tr h => ⟨tr, h, fun _ h => h⟩

theorem keeps_trans {a b c : AMap UInt32 TabletTracker} (h : KeepsAll a b) (h' : KeepsAll b c) : KeepsAll a c := fun t tr ht => by
  obtain ⟨tr1, h1, h2⟩ := h t tr ht
  obtain ⟨tr2, h3, h4⟩ := h' t tr1 h1
  exact ⟨tr2, h3, fun q hq => h4 q (h2 q hq)⟩

theorem keeps_set {ts : AMap UInt32 TabletTracker} {t : UInt32} {tr' : TabletTracker}
    (h : ∀ tr, ts.get t = some tr → ∀ q, (tr.waiting.get q).isSome → (tr'.waiting.get q).isSome) : KeepsAll ts (ts.set t tr') := fun u tr hu => by
  rw [AMap.get_set]
  split
  · rename_i e; subst e; exact ⟨tr', rfl, h tr hu⟩
  · exact ⟨tr, hu, fun _ h => h⟩

theorem processTablets_keeps {env : KvEnv} {txn : Nat} : ∀ (vs : List (Query × UInt32 × Option Bytes)) {c c' : KvCore} {ws : List (Option Bytes)},
    c.processTablets env txn vs = .ok (c', ws) → KeepsAll c.tablets c'.tablets := by
  intro vs
  induction vs with
  | nil => intro c c' ws h; simp only [KvCore.processTablets, Run.ok.injEq, Prod.mk.injEq] at h; rw [← h.1]; exact keeps_refl
  | cons v rest ih =>
    obtain ⟨q, t, b⟩ := v
    intro c c' ws h
    simp only [KvCore.processTablets] at h
    split at h
    · rename_i x tr hx htr
      obtain ⟨y, h1, h⟩ := Run.bind_eq_ok.mp h
      obtain ⟨z, h2, h⟩ := Run.bind_eq_ok.mp h
      simp only [Run.ok.injEq, Prod.mk.injEq] at h
      obtain ⟨rfl, rfl⟩ := h
      obtain ⟨z1, z2⟩ := z
      refine keeps_trans (keeps_set fun tr0 h0 q' hq' => ?_) (ih h2)
      rw [htr] at h0; cases h0
      unfold TabletTracker.processQuery at h1
      obtain ⟨_, _, h1⟩ := Run.bind_eq_ok.mp h1
      obtain ⟨_, _, h1⟩ := Run.bind_eq_ok.mp h1
      split at h1
      · simp only [Run.ok.injEq] at h1; rw [← h1]; exact hq'
      · simp only [Run.ok.injEq] at h1; rw [← h1]; exact isSome_set.mpr (.inr hq')
    · obtain ⟨z, h2, h⟩ := Run.bind_eq_ok.mp h
      simp only [Run.ok.injEq, Prod.mk.injEq] at h
      obtain ⟨rfl, rfl⟩ := h
      obtain ⟨z1, z2⟩ := z
      exact ih h2

theorem handleResolve_keeps : ∀ (rs : List (Query × UInt32)) (c : KvCore), KeepsAll c.tablets (c.handleResolve rs).tablets := by
  intro rs
  induction rs with
  | nil => intro c; exact keeps_refl
  | cons x rest ih =>
    obtain ⟨q, t⟩ := x
    intro c
    simp only [KvCore.handleResolve]
    refine keeps_trans ?_ (ih _)
    refine keeps_set fun tr h q' hq' => ?_
    rw [h]; exact hq'

theorem handleCalls_keeps : ∀ (cs : List (Nat × List (Query × UInt32))) (c : KvCore), KeepsAll c.tablets (handleCalls c cs).tablets := by
  intro cs
  induction cs with
  | nil => intro c; exact keeps_refl
  | cons x rest ih => intro c; exact keeps_trans (handleResolve_keeps _ _) (ih _)

theorem collectProcess_keeps (env : KvEnv) : ∀ (ts : AMap UInt32 TabletTracker) (c : KvCore), KeepsAll ts (collectProcess env c ts).2.1 := by
  intro ts
  induction ts with
  | nil => intro c; exact keeps_refl
  | cons x rest ih =>
    obtain ⟨t, tr⟩ := x
    intro c u tr' hu
    simp only [AMap.get_cons] at hu
    simp only [collectProcess]
    split
    · simp only [AMap.get_cons]
      split
      · rename_i e
        simp only [e, if_true, Option.some.injEq] at hu
        subst hu
        exact ⟨_, rfl, fun q hq => isSome_set.mpr (.inr hq)⟩
      · rename_i e
        simp only [e, if_false] at hu
        exact ih _ u tr' hu
    · simp only [AMap.get_cons]
      split
      · rename_i e
        simp only [e, if_true, Option.some.injEq] at hu
        subst hu
        exact ⟨_, rfl, fun q hq => hq⟩
      · rename_i e
        simp only [e, if_false] at hu
        exact ih _ u tr' hu

theorem completeTablets_keeps : ∀ (ids : List UInt32) (ts : AMap UInt32 TabletTracker), KeepsAll ts (completeTablets ts ids) := by
  intro ids
  induction ids with
  | nil => intro ts; exact keeps_refl
  | cons t rest ih =>
    intro ts
    simp only [completeTablets]
    split
    · rename_i tr htr
      refine keeps_trans (keeps_set fun tr0 h0 q hq => ?_) (ih _)
      rw [htr] at h0; cases h0; exact hq
    · exact ih ts

section
variable {env : KvEnv} {data : DataEnv Bytes} {evict : AMap String (Entry Bytes) → List String}

theorem proc_keeps {txn : Nat} {p : Proc Bytes Unit} {w : World Bytes KvCore} {x : Proc Bytes Unit × World Bytes KvCore} (h : p.step (txnEnv env data evict) txn w = .ok x) :
    KeepsAll w.shared.tablets x.2.shared.tablets := by
  unfold Proc.step at h
  split at h
  · obtain ⟨c, h1, h⟩ := Run.bind_eq_ok.mp h
    simp only [Run.ok.injEq] at h
    rw [← h]; exact keeps_refl
  · split at h
    · simp only [Run.ok.injEq] at h; rw [← h]; exact keeps_refl
    · obtain ⟨d, h1, h⟩ := Run.bind_eq_ok.mp h
      simp only [Run.ok.injEq] at h
      rw [← h]; exact keeps_refl
  · split at h
    · simp only [Run.ok.injEq] at h; rw [← h]; exact keeps_refl
    · simp only [Run.ok.injEq] at h; rw [← h]; exact keeps_refl
    · obtain ⟨ts, _, h⟩ := Run.bind_eq_ok.mp h
      obtain ⟨⟨y1, y2⟩, hy, h⟩ := Run.bind_eq_ok.mp h
      obtain ⟨z, h1, h⟩ := Run.bind_eq_ok.mp h
      simp only [Run.ok.injEq] at h
      rw [← h]; exact processTablets_keeps _ hy
  · simp only [Run.ok.injEq] at h; rw [← h]; exact keeps_refl
  · split at h <;> · simp only [Run.ok.injEq] at h; rw [← h]; exact keeps_refl
  · simp only [Run.ok.injEq] at h; rw [← h]; exact keeps_refl
  · simp only [Run.ok.injEq] at h; rw [← h]; exact keeps_refl

theorem stepProcs_keeps {txn : Nat} : ∀ {ps : List (Proc Bytes Unit)} {w : World Bytes KvCore} {x : List (Proc Bytes Unit) × World Bytes KvCore},
    stepProcs (txnEnv env data evict) txn ps w = .ok x → KeepsAll w.shared.tablets x.2.shared.tablets := by
  intro ps
  induction ps with
  | nil => intro w x h; simp only [stepProcs, Run.ok.injEq] at h; rw [← h]; exact keeps_refl
  | cons p rest ih =>
    intro w x h
    simp only [stepProcs] at h
    obtain ⟨y, h1, h⟩ := Run.bind_eq_ok.mp h
    obtain ⟨z, h2, h⟩ := Run.bind_eq_ok.mp h
    simp only [Run.ok.injEq] at h
    rw [← h]
    have k := ih h2
    exact keeps_trans (proc_keeps h1) k

theorem stepTxns_keeps : ∀ {ts : AMap Nat (TxnState Bytes Unit)} {w : World Bytes KvCore} {x : AMap Nat (TxnState Bytes Unit) × World Bytes KvCore},
    stepTxns (txnEnv env data evict) ts w = .ok x → KeepsAll w.shared.tablets x.2.shared.tablets := by
  intro ts
  induction ts with
  | nil => intro w x h; simp only [stepTxns, Run.ok.injEq] at h; rw [← h]; exact keeps_refl
  | cons t rest ih =>
    obtain ⟨i, st⟩ := t
    intro w x h
    cases st with
    | preparing ps =>
      simp only [stepTxns] at h
      obtain ⟨y, h1, h⟩ := Run.bind_eq_ok.mp h
      obtain ⟨z, h2, h⟩ := Run.bind_eq_ok.mp h
      simp only [Run.ok.injEq] at h
      rw [← h]
      have k := ih h2
      exact keeps_trans (stepProcs_keeps h1) k
    | committing ops =>
      simp only [stepTxns] at h
      obtain ⟨z, h2, h⟩ := Run.bind_eq_ok.mp h
      simp only [Run.ok.injEq] at h
      rw [← h]
      have k := ih h2
      exact k
    | completed o =>
      simp only [stepTxns] at h
      obtain ⟨z, h2, h⟩ := Run.bind_eq_ok.mp h
      simp only [Run.ok.injEq] at h
      rw [← h]
      have k := ih h2
      exact k

/-- One step keeps the records of resolutions and of queries. -/
theorem kstep_mem {s s' : Sys} {ev : KEvent} (h : KStep env (txnEnv env data evict) s ev s') :
    Rises 0 s.world.md s'.world.md ∧ KeepsAll s.world.shared.tablets s'.world.shared.tablets := by
  cases h with
  | init h =>
    unfold Manager.init at h
    obtain ⟨md, h1, h⟩ := Run.bind_eq_ok.mp h
    simp only [Run.ok.injEq] at h
    rw [← h]
    exact ⟨mdInit_rises h1, keeps_refl⟩
  | accept => exact ⟨.refl, keeps_refl⟩
  | store h =>
    unfold Manager.storeProgress at h
    obtain ⟨s1, h1, h⟩ := Run.bind_eq_ok.mp h
    obtain ⟨s2, h2, h⟩ := Run.bind_eq_ok.mp h
    obtain ⟨x, h3, h⟩ := Run.bind_eq_ok.mp h
    dsimp only at h
    obtain ⟨y, h4, h⟩ := Run.bind_eq_ok.mp h
    simp only [Run.ok.injEq] at h
    have k1 : Rises 0 s.world.md s1.world.md ∧ KeepsAll s.world.shared.tablets s1.world.shared.tablets := by
      unfold Manager.maybeResolve at h1
      dsimp only at h1
      split at h1
      · obtain ⟨s3, h5, h1⟩ := Run.bind_eq_ok.mp h1
        split at h1
        · simp only [Run.ok.injEq] at h1
          subst h1
          unfold Manager.resolve at h5
          obtain ⟨md, h6, h5⟩ := Run.bind_eq_ok.mp h5
          simp only [Run.ok.injEq] at h5
          rw [← h5]
          exact ⟨(mdResolve_rises h6).less (by omega), keeps_refl⟩
        · cases h1
      · simp only [Run.ok.injEq] at h1; rw [← h1]; exact ⟨.refl, keeps_refl⟩
    have k2 : Rises 0 s1.world.md s2.world.md ∧ KeepsAll s1.world.shared.tablets s2.world.shared.tablets := by
      unfold Manager.maybeStart at h2
      dsimp only at h2
      split at h2
      · simp only [Run.ok.injEq] at h2; rw [← h2]; exact ⟨.refl, collectProcess_keeps env _ _⟩
      · obtain ⟨co, _, h2⟩ := Run.bind_eq_ok.mp h2
        simp only [Run.ok.injEq] at h2; rw [← h2]; exact ⟨.refl, collectProcess_keeps env _ _⟩
    have k3 := (finalizeTxns_weight (true, 0) _ _ _ h4).1
    rw [← h]
    refine ⟨(k1.1.trans k2.1).trans (?_ : Rises 0 s2.world.md y.1.world.md), keeps_trans (keeps_trans k1.2 k2.2) ?_⟩
    · rw [k3]; exact .refl
    · refine keeps_trans ?_ (completeTablets_keeps _ _)
      rw [k3]; exact keeps_refl
  | progress h =>
    have hr := (makeProgress_mem h).1.md
    unfold Manager.makeProgress at h
    obtain ⟨md, _, h⟩ := Run.bind_eq_ok.mp h
    obtain ⟨d, _, h⟩ := Run.bind_eq_ok.mp h
    obtain ⟨x, h3, h⟩ := Run.bind_eq_ok.mp h
    simp only [Run.ok.injEq] at h
    subst h
    have k := stepTxns_keeps h3
    exact ⟨hr, k⟩
  | input h =>
    unfold Manager.input at h
    obtain ⟨s1, h1, h⟩ := Run.bind_eq_ok.mp h
    simp only [Run.ok.injEq] at h
    rw [← h]
    refine ⟨(processIn_mem h1).1, ?_⟩
    rw [show s.world.shared.tablets = s1.world.shared.tablets by rw [processIn_shared h1]]
    exact handleCalls_keeps _ _
  | take h =>
    unfold Manager.takeOut at h
    obtain ⟨es, _, h⟩ := Run.bind_eq_ok.mp h
    simp only [Run.ok.injEq, Prod.mk.injEq] at h
    rw [← h.1]
    exact ⟨rises_same rfl rfl rfl rfl, keeps_refl⟩
  | responses => exact ⟨.refl, keeps_refl⟩

theorem ksteps_mem {s s' : Sys} {evs : List KEvent} (h : KSteps env (txnEnv env data evict) s evs s') :
    Rises 0 s.world.md s'.world.md ∧ KeepsAll s.world.shared.tablets s'.world.shared.tablets := by
  induction h with
  | refl => exact ⟨.refl, keeps_refl⟩
  | step _ hs ih => exact ⟨ih.1.trans (kstep_mem hs).1, keeps_trans ih.2 (kstep_mem hs).2⟩

theorem ksteps_rec {s : Sys} {evs : List KEvent} (h : KHistory env data evict evs s) : Rec s.world.md := by
  obtain ⟨co, md, d, h⟩ := h
  exact ((ksteps_mem h).1 .create).1

end

end TCP.Cache
