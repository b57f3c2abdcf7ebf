import Verif.Proofs.CacheCommitted
import Verif.Proofs.CacheRun

/-!
# A store that is only asked to read
-/

namespace TCP.Cache

open TCP TCP.TabletStore TCP.Cache.Spec

/-- Requests that only read. -/
def Gets (rs : List KvRequest) : Prop := ∀ r ∈ rs, r.isPut = false

/-- No put is anywhere in the tracker of a tablet. -/
def TabletTracker.NoPut (t : TabletTracker) : Prop := Gets t.pending ∧ ∀ e ∈ t.waiting, Gets e.2

/-- No put is anywhere in the store. -/
structure NoPut (c : KvCore) : Prop where
  pending : Gets c.pending
  resolving : ∀ e ∈ c.resolving, Gets e.2
  tablets : ∀ e ∈ c.tablets, e.2.NoPut

theorem Gets.nil : Gets [] := fun _ h => by simp at h

theorem Gets.append {a b : List KvRequest} (ha : Gets a) (hb : Gets b) : Gets (a ++ b) := by
  intro r hr
  rcases List.mem_append.mp hr with h | h
  · exact ha r h
  · exact hb r h

theorem processLoop_gets (env : KvEnv) (q : Query) : ∀ (rs : List KvRequest) (d : AMap String Bytes), Gets rs →
    Gets (processLoop env q rs d).2.1 ∧ (processLoop env q rs d).2.2.2 = false := by
  intro rs
  induction rs with
  | nil => intro d _; exact ⟨Gets.nil, rfl⟩
  | cons r rest ih =>
    intro d h
    have h1 : Gets rest := fun x hx => h x (List.mem_cons_of_mem _ hx)
    have h2 := h r List.mem_cons_self
    cases hp : processRequest env q d r with
    | none =>
      simp only [processLoop, hp]
      refine ⟨fun x hx => ?_, (ih d h1).2⟩
      rcases List.mem_cons.mp hx with hx | hx
      · rw [hx]; exact h2
      · exact (ih d h1).1 x hx
    | some y =>
      obtain ⟨x, d'⟩ := y
      simp only [processLoop, hp]
      exact ⟨(ih d' h1).1, by rw [h2, (ih d' h1).2]; rfl⟩

theorem processTablets_gets {env : KvEnv} {txn : Nat} : ∀ (vs : List (Query × UInt32 × Option Bytes)) (c c' : KvCore) (ws : List (Option Bytes)),
    c.processTablets env txn vs = .ok (c', ws) → NoPut c → NoPut c' ∧ ∀ w ∈ ws, w = none := by
  intro vs
  induction vs with
  | nil =>
    intro c c' ws h hc
    simp only [KvCore.processTablets, Run.ok.injEq, Prod.mk.injEq] at h
    rw [← h.1, ← h.2]; exact ⟨hc, by simp⟩
  | cons v rest ih =>
    obtain ⟨q, t, b⟩ := v
    intro c c' ws h hc
    have skip : ((KvCore.processTablets env c txn rest).bind fun z => .ok (z.1, none :: z.2)) = .ok (c', ws) → NoPut c' ∧ ∀ w ∈ ws, w = none := by
      intro h
      obtain ⟨⟨c1, ws1⟩, h1, h2⟩ := Run.bind_eq_ok.mp h
      simp only [Run.ok.injEq, Prod.mk.injEq] at h2
      rw [← h2.1, ← h2.2]
      refine ⟨(ih _ _ _ h1 hc).1, fun w hw => ?_⟩
      rcases List.mem_cons.mp hw with hw | hw
      · exact hw
      · exact (ih _ _ _ h1 hc).2 w hw
    cases hx : c.txns.get txn with
    | none => simp only [KvCore.processTablets, hx] at h; exact skip h
    | some x =>
      cases ht : c.tablets.get t with
      | none => simp only [KvCore.processTablets, hx, ht] at h; exact skip h
      | some tr =>
        simp only [KvCore.processTablets, hx, ht] at h
        obtain ⟨y, h1, h2⟩ := Run.bind_eq_ok.mp h
        obtain ⟨⟨c1, ws1⟩, h3, h4⟩ := Run.bind_eq_ok.mp h2
        simp only [Run.ok.injEq, Prod.mk.injEq] at h4
        have htr := hc.tablets _ (AMap.mem_of_get ht)
        have hy : y.1.NoPut ∧ y.2.2 = none := by
          unfold TabletTracker.processQuery at h1
          obtain ⟨bb, _, h1⟩ := Run.bind_eq_ok.mp h1
          obtain ⟨d, _, h1⟩ := Run.bind_eq_ok.mp h1
          cases hw : tr.waiting.get q.id with
          | none => simp only [hw, Run.ok.injEq] at h1; rw [← h1]; exact ⟨htr, rfl⟩
          | some rs =>
            simp only [hw, Run.ok.injEq] at h1
            have hl := processLoop_gets env q rs d (htr.2 _ (AMap.mem_of_get hw))
            rw [← h1]
            refine ⟨⟨htr.1, fun e he => ?_⟩, by simp [hl.2]⟩
            rcases mem_set he with he | he
            · rw [he]; exact hl.1
            · exact htr.2 e he
        have := ih _ _ _ h3 ⟨hc.pending, hc.resolving, fun e he => by
          rcases mem_set he with he | he
          · rw [he]; exact hy.1
          · exact hc.tablets e he⟩
        rw [← h4.1, ← h4.2]
        refine ⟨this.1, fun w hw => ?_⟩
        rcases List.mem_cons.mp hw with hw | hw
        · rw [hw]; exact hy.2
        · exact this.2 w hw

theorem processTablets_keys {env : KvEnv} {txn : Nat} : ∀ (vs : List (Query × UInt32 × Option Bytes)) (c c' : KvCore) (ws : List (Option Bytes)),
    c.processTablets env txn vs = .ok (c', ws) → ∀ i, i ∈ c'.txns.keys → i ∈ c.txns.keys := by
  intro vs
  induction vs with
  | nil =>
    intro c c' ws h i hi
    simp only [KvCore.processTablets, Run.ok.injEq, Prod.mk.injEq] at h
    rw [h.1]; exact hi
  | cons v rest ih =>
    obtain ⟨q, t, b⟩ := v
    intro c c' ws h i hi
    have skip : ((KvCore.processTablets env c txn rest).bind fun z => .ok (z.1, none :: z.2)) = .ok (c', ws) → i ∈ c.txns.keys := by
      intro h
      obtain ⟨⟨c1, ws1⟩, h1, h2⟩ := Run.bind_eq_ok.mp h
      simp only [Run.ok.injEq, Prod.mk.injEq] at h2
      exact ih _ _ _ h1 i (by rw [h2.1]; exact hi)
    cases hx : c.txns.get txn with
    | none => simp only [KvCore.processTablets, hx] at h; exact skip h
    | some x =>
      cases ht : c.tablets.get t with
      | none => simp only [KvCore.processTablets, hx, ht] at h; exact skip h
      | some tr =>
        simp only [KvCore.processTablets, hx, ht] at h
        obtain ⟨y, h1, h2⟩ := Run.bind_eq_ok.mp h
        obtain ⟨⟨c1, ws1⟩, h3, h4⟩ := Run.bind_eq_ok.mp h2
        simp only [Run.ok.injEq, Prod.mk.injEq] at h4
        have := ih _ _ _ h3 i (by rw [h4.1]; exact hi)
        obtain ⟨e, g1, g2⟩ := List.mem_map.mp this
        rcases mem_set g1 with g | g
        · rw [← g2, g]; exact List.mem_map.mpr ⟨_, AMap.mem_of_get hx, rfl⟩
        · rw [← g2]; exact List.mem_map.mpr ⟨e, g, rfl⟩

/-! ## Exchanging the handlers -/

section
variable {α η ω : Type} {env env' : TxnEnv α η ω} {P : ω → Prop}

theorem procStep_same (hd : env'.data = env.data)
    (hP : ∀ h w txn vs w' ws, P w → env.handle h w txn vs = .ok (w', ws) → env'.handle h w txn vs = .ok (w', ws)) {i : Nat} {p p' : Proc α η} {w w' : World α ω}
    (h : p.step env i w = .ok (p', w')) (hw : P w.shared) : p.step env' i w = .ok (p', w') := by
  unfold Proc.step at h ⊢
  split at h
  · exact h
  · exact h
  · split at h
    · exact h
    · exact h
    · obtain ⟨ts, h1, h2⟩ := Run.bind_eq_ok.mp h
      obtain ⟨⟨w1, ws⟩, h3, h4⟩ := Run.bind_eq_ok.mp h2
      rw [Run.bind_eq_ok]
      refine ⟨ts, h1, ?_⟩
      rw [Run.bind_eq_ok]
      exact ⟨_, hP _ _ _ _ _ _ hw h3, by rw [hd]; exact h4⟩
  · exact h
  · exact h
  · exact h
  · exact h

theorem stepProcs_same (hd : env'.data = env.data) (hI : ∀ h w txn vs w' ws, P w → env.handle h w txn vs = .ok (w', ws) → P w')
    (hP : ∀ h w txn vs w' ws, P w → env.handle h w txn vs = .ok (w', ws) → env'.handle h w txn vs = .ok (w', ws)) {i : Nat} :
    ∀ {ps ps' : List (Proc α η)} {w w' : World α ω}, stepProcs env i ps w = .ok (ps', w') → P w.shared → stepProcs env' i ps w = .ok (ps', w') := by
  intro ps
  induction ps with
  | nil => intro ps' w w' h _; exact h
  | cons p rest ih =>
    intro ps' w w' h hw
    simp only [stepProcs] at h ⊢
    obtain ⟨⟨p1, w1⟩, h1, h2⟩ := Run.bind_eq_ok.mp h
    obtain ⟨⟨ps2, w2⟩, h3, h4⟩ := Run.bind_eq_ok.mp h2
    rw [Run.bind_eq_ok]
    refine ⟨_, procStep_same hd hP h1 hw, ?_⟩
    rw [Run.bind_eq_ok]
    exact ⟨_, ih h3 (procStep_shared hI h1 hw), h4⟩

theorem stepTxns_same (hd : env'.data = env.data) (hI : ∀ h w txn vs w' ws, P w → env.handle h w txn vs = .ok (w', ws) → P w')
    (hP : ∀ h w txn vs w' ws, P w → env.handle h w txn vs = .ok (w', ws) → env'.handle h w txn vs = .ok (w', ws)) :
    ∀ {ts ts' : AMap Nat (TxnState α η)} {w w' : World α ω}, stepTxns env ts w = .ok (ts', w') → P w.shared → stepTxns env' ts w = .ok (ts', w') := by
  intro ts
  induction ts with
  | nil => intro ps' w w' h _; exact h
  | cons e rest ih =>
    obtain ⟨i, s⟩ := e
    intro ps' w w' h hw
    cases s with
    | preparing ps =>
      simp only [stepTxns] at h ⊢
      obtain ⟨⟨p1, w1⟩, h1, h2⟩ := Run.bind_eq_ok.mp h
      obtain ⟨⟨ps2, w2⟩, h3, h4⟩ := Run.bind_eq_ok.mp h2
      rw [Run.bind_eq_ok]
      refine ⟨_, stepProcs_same hd hI hP h1 hw, ?_⟩
      rw [Run.bind_eq_ok]
      exact ⟨_, ih h3 (stepProcs_shared hI h1 hw), h4⟩
    | committing ops =>
      simp only [stepTxns] at h ⊢
      obtain ⟨⟨ps2, w2⟩, h3, h4⟩ := Run.bind_eq_ok.mp h
      rw [Run.bind_eq_ok]
      exact ⟨_, ih h3 hw, h4⟩
    | completed o =>
      simp only [stepTxns] at h ⊢
      obtain ⟨⟨ps2, w2⟩, h3, h4⟩ := Run.bind_eq_ok.mp h
      rw [Run.bind_eq_ok]
      exact ⟨_, ih h3 hw, h4⟩

/-- A manager makes the same progress with handlers that do the same. -/
theorem makeProgress_same (hd : env'.data = env.data) (he : env'.evict = env.evict) (hI : ∀ h w txn vs w' ws, P w → env.handle h w txn vs = .ok (w', ws) → P w')
    (hP : ∀ h w txn vs w' ws, P w → env.handle h w txn vs = .ok (w', ws) → env'.handle h w txn vs = .ok (w', ws)) {m m' : Manager α η ω}
    (h : m.makeProgress env = .ok m') (hw : P m.world.shared) : m.makeProgress env' = .ok m' := by
  unfold Manager.makeProgress at h ⊢
  obtain ⟨md, h1, h⟩ := Run.bind_eq_ok.mp h
  obtain ⟨d, h2, h⟩ := Run.bind_eq_ok.mp h
  obtain ⟨⟨ts, w⟩, h3, h⟩ := Run.bind_eq_ok.mp h
  rw [Run.bind_eq_ok]
  refine ⟨md, h1, ?_⟩
  rw [he, Run.bind_eq_ok]
  refine ⟨d, h2, ?_⟩
  rw [Run.bind_eq_ok]
  exact ⟨_, stepTxns_same hd hI hP h3 hw, h⟩

theorem processIn_same (hd : env'.data = env.data) {m m' : Manager α η ω} {i : MgrIn} (h : m.processIn env i = .ok m') : m.processIn env' i = .ok m' := by
  cases i with
  | data r => simp only [Manager.processIn] at h ⊢; rw [hd]; exact h
  | response corr r => exact h
  | error corr => exact h
end

/-! ## The steps of the store -/

theorem handleResolve_gets : ∀ (x : List (Query × UInt32)) (c : KvCore), NoPut c → NoPut (c.handleResolve x) := by
  intro x
  induction x with
  | nil => intro c h; exact h
  | cons e rest ih =>
    obtain ⟨q, t⟩ := e
    intro c h
    simp only [KvCore.handleResolve]
    refine ih _ ⟨h.pending, fun e he => h.resolving e (mem_erase he), fun e he => ?_⟩
    have h1 : ((c.tablets.get t).getD (.create c.minProcess)).NoPut := by
      cases hg : c.tablets.get t with
      | none => exact ⟨Gets.nil, fun e he => by simp [TabletTracker.create] at he⟩
      | some tr => exact h.tablets _ (AMap.mem_of_get hg)
    have h2 : Gets ((c.resolving.get q.id).getD []) := by
      cases hg : c.resolving.get q.id with
      | none => exact Gets.nil
      | some rs => exact h.resolving _ (AMap.mem_of_get hg)
    rcases mem_set he with he | he
    · rw [he]; exact ⟨h1.1.append h2, h1.2⟩
    · exact h.tablets e he

theorem handleCalls_gets : ∀ (x : List (Nat × List (Query × UInt32))) (c : KvCore), NoPut c → NoPut (handleCalls c x) := by
  intro x
  induction x with
  | nil => intro c h; exact h
  | cons e rest ih => intro c h; exact ih _ (handleResolve_gets _ _ h)

theorem collectProcess_gets (env : KvEnv) : ∀ (ts : AMap UInt32 TabletTracker) (c : KvCore), (∀ e ∈ ts, e.2.NoPut) →
    ∀ e ∈ (collectProcess env c ts).2.1, e.2.NoPut := by
  intro ts
  induction ts with
  | nil => intro c _ e he; simp [collectProcess] at he
  | cons x rest ih =>
    obtain ⟨t, tr⟩ := x
    intro c h e he
    have h1 := h _ List.mem_cons_self
    have h2 : ∀ e ∈ rest, e.2.NoPut := fun e he => h e (List.mem_cons_of_mem _ he)
    simp only [collectProcess] at he
    split at he
    · rcases List.mem_cons.mp he with he | he
      · rw [he]
        refine ⟨Gets.nil, fun e he => ?_⟩
        rcases mem_set he with he | he
        · rw [he]; exact h1.1
        · exact h1.2 e he
      · exact ih _ h2 e he
    · rcases List.mem_cons.mp he with he | he
      · rw [he]; exact h1
      · exact ih _ h2 e he

theorem completeTablets_gets : ∀ (ids : List UInt32) (ts : AMap UInt32 TabletTracker), (∀ e ∈ ts, e.2.NoPut) → ∀ e ∈ completeTablets ts ids, e.2.NoPut := by
  intro ids
  induction ids with
  | nil => intro ts h; exact h
  | cons t rest ih =>
    intro ts h
    simp only [completeTablets]
    cases hg : ts.get t with
    | none => exact ih _ h
    | some tr =>
      refine ih _ fun e he => ?_
      rcases mem_set he with he | he
      · rw [he]
        have := h _ (AMap.mem_of_get hg)
        exact ⟨this.1, this.2⟩
      · exact h e he

theorem storeProgress_gets {env : KvEnv} {s s' : Sys} (h : s.storeProgress env = .ok s') (hs : NoPut s.world.shared) : NoPut s'.world.shared := by
  unfold Manager.storeProgress at h
  obtain ⟨s1, h1, h⟩ := Run.bind_eq_ok.mp h
  obtain ⟨s2, h2, h⟩ := Run.bind_eq_ok.mp h
  obtain ⟨x, h3, h⟩ := Run.bind_eq_ok.mp h
  obtain ⟨y, h4, h⟩ := Run.bind_eq_ok.mp h
  simp only [Run.ok.injEq] at h
  subst h
  have w1 : NoPut s1.world.shared := by
    unfold Manager.maybeResolve at h1
    dsimp only at h1
    split at h1
    · obtain ⟨s', k1, k2⟩ := Run.bind_eq_ok.mp h1
      split at k2
      · simp only [Run.ok.injEq] at k2
        subst k2
        rw [resolve_shared k1]
        refine ⟨Gets.nil, fun e he => ?_, hs.tablets⟩
        rcases mem_set he with he | he
        · rw [he]; exact hs.pending
        · exact hs.resolving e he
      · cases k2
    · simp only [Run.ok.injEq] at h1
      subst h1
      exact hs
  have w2 : NoPut s2.world.shared := by
    obtain ⟨_, n, k2⟩ := collectProcess_weight env (true, 0) s1.world.shared.tablets s1.world.shared
    have k3 := collectProcess_gets env _ s1.world.shared w1.tablets
    unfold Manager.maybeStart at h2
    dsimp only at h2
    split at h2
    · simp only [Run.ok.injEq] at h2
      subst h2
      exact ⟨by simp only [Manager.withCore, k2]; exact w1.pending, by simp only [Manager.withCore, k2]; exact w1.resolving, k3⟩
    · obtain ⟨co, _, h6⟩ := Run.bind_eq_ok.mp h2
      simp only [Run.ok.injEq] at h6
      subst h6
      exact ⟨by simp only [Manager.withCore, k2]; exact w1.pending, by simp only [Manager.withCore, k2]; exact w1.resolving, k3⟩
  have w4 := (finalizeTxns_weight (true, 0) _ _ _ h4).1
  simp only [Manager.withCore, w4]
  exact ⟨w2.pending, w2.resolving, completeTablets_gets _ _ w2.tablets⟩

/-! ## No response -/

/-- The handlers of the store, with all writes left out. -/
def readEnv (env : KvEnv) (data : DataEnv Bytes) (evict : AMap String (Entry Bytes) → List String) : TxnEnv Bytes Unit KvCore :=
  ⟨data, fun _ c txn vs => (c.processTablets env txn vs).bind fun x => .ok (x.1, x.2.map fun _ => none), evict⟩

theorem readEnv_readOnly (env : KvEnv) (data : DataEnv Bytes) (evict : AMap String (Entry Bytes) → List String) : ReadOnly (readEnv env data evict) () := by
  intro w txn vs w' sets h s hs
  obtain ⟨x, _, h2⟩ := Run.bind_eq_ok.mp h
  simp only [Run.ok.injEq, Prod.mk.injEq] at h2
  rw [← h2.2] at hs
  obtain ⟨_, _, rfl⟩ := List.mem_map.mp hs
  rfl

theorem readEnv_same {env : KvEnv} {data : DataEnv Bytes} {evict : AMap String (Entry Bytes) → List String} (u : Unit) (c : KvCore) (txn : Nat)
    (vs : List (Query × UInt32 × Option Bytes)) (c' : KvCore) (ws : List (Option Bytes)) (hc : NoPut c) (h : (txnEnv env data evict).handle u c txn vs = .ok (c', ws)) :
    (readEnv env data evict).handle u c txn vs = .ok (c', ws) := by
  have h1 := (processTablets_gets vs c c' ws h hc).2
  show (c.processTablets env txn vs).bind _ = _
  rw [Run.bind_eq_ok]
  refine ⟨_, h, ?_⟩
  simp only [Run.ok.injEq, Prod.mk.injEq, true_and]
  clear h
  induction ws with
  | nil => rfl
  | cons w rest ih =>
    rw [List.map_cons, ih fun w hw => h1 w (List.mem_cons_of_mem _ hw), h1 w List.mem_cons_self]

/-- A history in which only gets are accepted, as one of a manager whose handlers only read. -/
structure GetsInv (env : KvEnv) (data : DataEnv Bytes) (evict : AMap String (Entry Bytes) → List String) (evs : List KEvent) (s : Sys) : Prop where
  noPut : NoPut s.world.shared
  run : ∃ mevs cl, MHistory (readEnv env data evict) mevs cl ∧ KLink s cl ∧ ∀ e ∈ s.world.shared.txns, ∃ qs, .process e.1 qs () ∈ mevs
  silent : s.world.shared.responses = [] ∧ ∀ rs, .responses rs ∈ evs → rs = []

theorem getsStep_inv {env : KvEnv} {data : DataEnv Bytes} {evict : AMap String (Entry Bytes) → List String} (hsane : Sane (txnEnv env data evict)) {evs : List KEvent} {s s' : Sys}
    {ev : KEvent} (hi : GetsInv env data evict evs s) (h : KStep env (txnEnv env data evict) s ev s') (hg : ∀ r, ev = .accept r → r.isPut = false) :
    GetsInv env data evict (evs ++ [ev]) s' := by
  obtain ⟨hn, ⟨mevs, cl, ⟨co, md, d, w, hm⟩, hl, hp⟩, hr, hq⟩ := hi
  have quiet : (∀ rs, ev = .responses rs → rs = []) → ∀ rs, .responses rs ∈ evs ++ [ev] → rs = [] := by
    intro h rs hrs
    rcases List.mem_append.mp hrs with hrs | hrs
    · exact hq rs hrs
    · exact h rs (List.mem_singleton.mp hrs).symm
  -- a step that keeps the transactions
  have keep : ∀ {m cl'}, MSteps (readEnv env data evict) cl m cl' → KLink s' cl' → NoPut s'.world.shared → s'.world.shared.responses = s.world.shared.responses →
      (∀ i, i ∈ s'.world.shared.txns.keys → i ∈ s.world.shared.txns.keys) → (∀ rs, ev ≠ .responses rs) → GetsInv env data evict (evs ++ [ev]) s' := by
    intro m cl' h1 h2 h3 h4 h5 h6
    refine ⟨h3, ⟨mevs ++ m, cl', ⟨co, md, d, w, hm.append h1⟩, h2, fun e he => ?_⟩, by rw [h4, hr], quiet fun rs e => absurd e (h6 rs)⟩
    have : e.1 ∈ s.world.shared.txns.keys := h5 _ (List.mem_map.mpr ⟨e, he, rfl⟩)
    obtain ⟨e', g1, g2⟩ := List.mem_map.mp this
    obtain ⟨qs, g3⟩ := hp e' g1
    exact ⟨qs, by rw [← g2]; simp [g3]⟩
  cases h with
  | @init _ table a b tables h =>
    obtain ⟨cl1, g1, g2⟩ := hl.app (tenv := readEnv env data evict) (c := s.world.shared.init table a b) rfl
    have hsh := init_shared h
    have g3 : MStep (readEnv env data evict) cl1 (.init tables) { cl1 with m := s' } := .init (by rw [g2.same]; exact h)
    refine keep (g1.append (.single g3)) ⟨rfl, ?_, ?_⟩ ?_ (by rw [hsh]; rfl) (by rw [hsh]; exact fun i hi => hi) (by simp)
    · rw [hsh]; exact g2.wf
    · rw [hsh]; exact fun e he => ⟨(g2.txns e he).opened, (g2.txns e he).commit⟩
    · rw [hsh]; exact ⟨Gets.nil, fun e he => by simp [Manager.withCore, KvCore.init] at he, hn.tablets⟩
  | @accept r =>
    obtain ⟨cl1, g1, g2⟩ := hl.app (tenv := readEnv env data evict) (c := { s.world.shared with pending := s.world.shared.pending ++ [r] }) rfl
    refine keep g1 g2 ⟨hn.pending.append ?_, hn.resolving, hn.tablets⟩ rfl (fun i hi => hi) (by simp)
    intro x hx
    rw [List.mem_singleton.mp hx]
    exact hg r rfl
  | store h =>
    obtain ⟨m, cl', h1, _, h3, h4, h5⟩ := storeProgress_sim (tenv := readEnv env data evict) h hl
    have hh : MHistory (readEnv env data evict) (mevs ++ m) cl' := ⟨co, md, d, w, hm.append h1⟩
    refine ⟨storeProgress_gets h hn, ⟨mevs ++ m, cl', hh, h3, fun e he => ?_⟩, ?_, quiet fun rs e => by cases e⟩
    · rcases h5 e he with g | ⟨qs, g⟩
      · obtain ⟨e', g1, g2⟩ := List.mem_map.mp g
        obtain ⟨qs, g3⟩ := hp e' g1
        exact ⟨qs, by rw [← g2]; simp [g3]⟩
      · exact ⟨qs, by simp [g]⟩
    · rw [List.eq_nil_iff_forall_not_mem]
      intro r hr'
      rcases h4 r hr' with g | ⟨i, t, g1, _, g3⟩
      · rw [hr] at g; simp at g
      · obtain ⟨qs, g4⟩ := hp _ g1
        obtain ⟨corr, ops, a, b, g5, _⟩ := check_justified hh (i := i) (o := .succeeded) (by simp [g3])
        exact (read_only_stuck (env := readEnv env data evict) hsane hh (i := i) (qs := qs) (x := ()) (by simp [g4]) (readEnv_readOnly env data evict)).2 [(corr, ops)]
          (by rw [g5]; simp)
  | progress h =>
    have hI : ∀ (u : Unit) (c : KvCore) (txn : Nat) (vs : List (Query × UInt32 × Option Bytes)) (c' : KvCore) (ws : List (Option Bytes)), NoPut c →
        (txnEnv env data evict).handle u c txn vs = .ok (c', ws) → NoPut c' := fun _ c txn vs c' ws hc h => (processTablets_gets vs c c' ws h hc).1
    have h' : s.makeProgress (readEnv env data evict) = .ok s' := makeProgress_same (env := txnEnv env data evict) (env' := readEnv env data evict) (P := NoPut) rfl rfl hI readEnv_same h hn
    have g3 : MStep (readEnv env data evict) cl .progress { cl with m := s' } := .progress (by rw [hl.same]; exact h')
    have hp := makeProgress_shared (P := fun w => TOk cl w ∧ w.responses = s.world.shared.responses ∧ ∀ i, i ∈ w.txns.keys → i ∈ s.world.shared.txns.keys)
      (fun _ w txn vs w' ws hw hh => by
        obtain ⟨k1, k2⟩ := processTablets_tok vs w w' ws hh hw.1
        exact ⟨k1, k2.trans hw.2.1, fun i hi => hw.2.2 i (processTablets_keys vs w w' ws hh i hi)⟩) h ⟨⟨hl.wf, hl.txns⟩, rfl, fun i hi => hi⟩
    exact keep (.single g3) ⟨rfl, hp.1.1, fun e he => ⟨(hp.1.2 e he).opened, (hp.1.2 e he).commit⟩⟩ (makeProgress_shared (P := NoPut) hI h hn) hp.2.1 hp.2.2 (by simp)
  | @input _ i h =>
    unfold Manager.input at h
    obtain ⟨s1, h1, h2⟩ := Run.bind_eq_ok.mp h
    simp only [Run.ok.injEq] at h2
    subst h2
    have g3 : MStep (readEnv env data evict) cl (.input i) { cl with m := s1 } :=
      .input (by rw [hl.same]; exact processIn_same (env := txnEnv env data evict) (env' := readEnv env data evict) rfl h1)
    have hsh := processIn_shared h1
    have hl1 : KLink s1 { cl with m := s1 } := ⟨rfl, by rw [hsh]; exact hl.wf, by rw [hsh]; exact fun e he => ⟨(hl.txns e he).opened, (hl.txns e he).commit⟩⟩
    have hf : (handleCalls s1.world.shared (s1.world.md.calls.drop s.world.md.calls.length)).responses = s1.world.shared.responses ∧
        (handleCalls s1.world.shared (s1.world.md.calls.drop s.world.md.calls.length)).txns = s1.world.shared.txns := handleCalls_frame _ _
    obtain ⟨cl2, g4, g5⟩ := hl1.app (tenv := readEnv env data evict) hf.2
    refine keep ((MSteps.single g3).append g4) g5 ?_ (by simp only [Manager.withCore]; rw [hf.1, hsh]) (by simp only [Manager.withCore]; rw [hf.2, hsh]; exact fun i hi => hi) (by simp)
    simp only [Manager.withCore]
    exact handleCalls_gets _ _ (by rw [hsh]; exact hn)
  | @take _ outs h =>
    have g3 : MStep (readEnv env data evict) cl (.take outs) { cl with m := s' } := .take (by rw [hl.same]; exact h)
    have hsh := takeOut_shared h
    exact keep (.single g3) ⟨rfl, by rw [hsh]; exact hl.wf, by rw [hsh]; exact fun e he => ⟨(hl.txns e he).opened, (hl.txns e he).commit⟩⟩
      (by rw [hsh]; exact hn) (by rw [hsh]) (by rw [hsh]; exact fun i hi => hi) (by simp)
  | responses =>
    obtain ⟨cl1, g1, g2⟩ := hl.app (tenv := readEnv env data evict) (c := { s.world.shared with responses := [] }) rfl
    refine ⟨⟨hn.pending, hn.resolving, hn.tablets⟩, ⟨mevs ++ [.app], cl1, ⟨co, md, d, w, hm.append g1⟩, g2, fun e he => ?_⟩, rfl, quiet fun rs e => ?_⟩
    · obtain ⟨qs, g⟩ := hp e he
      exact ⟨qs, by simp [g]⟩
    · simp only [KEvent.responses.injEq] at e
      rw [← e]; exact hr

theorem only_gets {env : KvEnv} {data : DataEnv Bytes} {evict : AMap String (Entry Bytes) → List String} (hsane : Sane (txnEnv env data evict)) {evs : List KEvent} {s : Sys}
    (h : KHistory env data evict evs s) (hg : ∀ r, .accept r ∈ evs → r.isPut = false) : ∀ rs, .responses rs ∈ evs → rs = [] := by
  obtain ⟨co, md, d, h⟩ := h
  have : GetsInv env data evict evs s := by
    induction h with
    | refl =>
      exact ⟨⟨Gets.nil, by simp [Manager.create, KvCore.new], by simp [Manager.create, KvCore.new]⟩,
        ⟨[], ⟨_, [], []⟩, ⟨co, md, d, _, .refl⟩, ⟨rfl, AMap.WF.nil, by simp [Manager.create, KvCore.new]⟩, by simp [Manager.create, KvCore.new]⟩, rfl, by simp⟩
    | step h hs ih => exact getsStep_inv hsane (ih fun r hr => hg r (by simp [hr])) hs fun r e => hg r (by simp [e])
  exact this.silent.2

end TCP.Cache
