import Verif.Proofs.CacheRun

/-!
# A transaction validates or updates every tablet it resolved (C63)
-/

namespace TCP.Cache

open TCP TCP.TabletStore TCP.Cache.Spec

variable {α η ω : Type}

/-- A process request is followed through a step, whatever it may become. -/
def Follow (P : Proc α η → Prop) (c : Client α η ω) (i : Nat) : Prop :=
  match c.m.coord.txns.get i with
  | some (.preparing ps) => ∃ p ∈ ps, P p
  | some _ => True
  | none => i ≤ c.m.coord.txnCounter

theorem Follow.mk {P : Proc α η → Prop} {c c' : Client α η ω} {i : Nat} (h : Follow P c i) (h1 : c'.m.coord.txns.get i = c.m.coord.txns.get i)
    (h2 : c.m.coord.txnCounter ≤ c'.m.coord.txnCounter) : Follow P c' i := by
  unfold Follow at h ⊢
  rw [h1]
  split at h
  · exact h
  · trivial
  · exact Nat.le_trans h h2

theorem follow_step {env : TxnEnv α η ω} {P : Proc α η → Prop} (hP : ∀ i p w p' w', P p → p.step env i w = .ok (p', w') → P p')
    {evs : List (MEvent η)} {c c' : Client α η ω} {ev : MEvent η} {i : Nat} (hc : CInv evs c) (h : Follow P c i)
    (hs : MStep env c ev c') : Follow P c' i := by
  cases hs with
  | app => exact h.mk rfl (Nat.le_refl _)
  | @init tables m hs =>
    unfold Manager.init at hs
    obtain ⟨md, _, h2⟩ := Run.bind_eq_ok.mp hs
    simp only [Run.ok.injEq] at h2
    subst h2
    exact h.mk rfl (Nat.le_refl _)
  | start =>
    by_cases hij : c.m.coord.txnCounter + 1 = i
    · exfalso
      unfold Follow at h
      split at h
      · rename_i ps hps; have := hc.le i _ hps; omega
      · rename_i s _ hps; have := hc.le i _ hps; omega
      · omega
    · exact h.mk (by simp only [Coordinator.createTxn]; rw [AMap.get_set_ne _ _ hij]) (by simp [Coordinator.createTxn])
  | @process j qs hd co ho hs =>
    obtain ⟨ps, hps⟩ := hc.opened j ho
    simp only [Coordinator.process, hps, Run.ok.injEq] at hs
    subst hs
    by_cases hij : j = i
    · subst hij
      unfold Follow at h ⊢
      rw [hps] at h
      obtain ⟨p, h1, h2⟩ := h
      dsimp only
      rw [AMap.get_set_self]
      exact ⟨p, by simp [h1], h2⟩
    · exact h.mk (by dsimp only; rw [AMap.get_set_ne _ _ hij]) (Nat.le_refl _)
  | pending _ _ => exact h
  | @commit j co ho hs =>
    obtain ⟨ps, hps, ha, rfl⟩ := commit_cases hs
    by_cases hij : j = i
    · subst hij
      unfold Follow
      dsimp only
      rw [AMap.get_set_self]
      trivial
    · exact h.mk (by dsimp only; rw [AMap.get_set_ne _ _ hij]) (Nat.le_refl _)
  | @abort j ho =>
    by_cases hij : j = i
    · subst hij
      obtain ⟨ps, hps⟩ := hc.opened _ ho
      have := hc.le _ _ hps
      unfold Follow
      simp only [Coordinator.abort]
      rw [AMap.get_erase]
      simpa using this
    · exact h.mk (by simp only [Coordinator.abort]; rw [AMap.get_erase_ne _ hij]) (Nat.le_refl _)
  | @check j y y' m hj hs =>
    unfold Commit.check at hs
    cases hx : y.outcome with
    | some o =>
      simp only [hx, Run.ok.injEq, Prod.mk.injEq] at hs
      obtain ⟨rfl, rfl⟩ := hs
      exact h.mk rfl (Nat.le_refl _)
    | none =>
      simp only [hx] at hs
      obtain ⟨⟨co, r⟩, h1, h2⟩ := Run.bind_eq_ok.mp hs
      simp only [Run.ok.injEq, Prod.mk.injEq] at h2
      obtain ⟨rfl, rfl⟩ := h2
      unfold Coordinator.check at h1
      split at h1
      · simp at h1
      · simp at h1
      · simp only [Run.ok.injEq, Prod.mk.injEq] at h1
        obtain ⟨rfl, rfl⟩ := h1
        exact h.mk rfl (Nat.le_refl _)
      · rename_i o ho
        simp only [Run.ok.injEq, Prod.mk.injEq] at h1
        obtain ⟨rfl, rfl⟩ := h1
        by_cases hij : y.txn = i
        · have hle := hc.le _ _ ho
          unfold Follow
          dsimp only
          rw [hij, AMap.get_erase]
          rw [hij] at hle
          simpa using hle
        · exact h.mk (by dsimp only; rw [AMap.get_erase_ne _ hij]) (Nat.le_refl _)
  | @resolve qs m hs =>
    unfold Manager.resolve at hs
    obtain ⟨md, _, h2⟩ := Run.bind_eq_ok.mp hs
    simp only [Run.ok.injEq] at h2
    subst h2
    exact h.mk rfl (Nat.le_refl _)
  | @input inp m hs =>
    have hresp : ∀ {corr r es}, { c.m with errors := es }.opsResponse corr r = .ok m → Follow P { c with m := m } i := by
      intro corr r es hs
      obtain ⟨_, _, _, md, _, hr⟩ := opsResponse_cases hs
      rcases hr with ⟨_, hr, _⟩ | ⟨_, hr⟩
      · exact h.mk (by dsimp only; rw [hr]) (by dsimp only; rw [hr]; exact Nat.le_refl _)
      · rcases processIn_cases hr with ⟨_, hr⟩ | ⟨j, _, ⟨ops, b, l, h1, _, _, hr⟩ | ⟨_, hr⟩⟩
        · exact h.mk (by dsimp only; rw [hr]) (by dsimp only; rw [hr]; exact Nat.le_refl _)
        · by_cases hij : j = i
          · subst hij
            unfold Follow
            dsimp only
            rw [hr]
            dsimp only
            rw [AMap.get_set_self]
            trivial
          · exact h.mk (by dsimp only; rw [hr]; dsimp only; rw [AMap.get_set_ne _ _ hij]) (by dsimp only; rw [hr]; exact Nat.le_refl _)
        · exact h.mk (by dsimp only; rw [hr]) (by dsimp only; rw [hr]; exact Nat.le_refl _)
    cases inp with
    | data r =>
      simp only [Manager.processIn] at hs
      obtain ⟨d, _, h2⟩ := Run.bind_eq_ok.mp hs
      simp only [Run.ok.injEq] at h2
      subst h2
      exact h.mk rfl (Nat.le_refl _)
    | response corr r => exact hresp hs
    | error corr =>
      simp only [Manager.processIn] at hs
      cases hg : c.m.errors.get corr with
      | none =>
        simp only [hg, Run.ok.injEq] at hs
        subst hs
        exact h
      | some r =>
        simp only [hg] at hs
        exact hresp hs
  | @progress m hs =>
    unfold Manager.makeProgress at hs
    obtain ⟨md, _, h2⟩ := Run.bind_eq_ok.mp hs
    obtain ⟨d, hd, h3⟩ := Run.bind_eq_ok.mp h2
    obtain ⟨⟨ts, w⟩, h4, h5⟩ := Run.bind_eq_ok.mp h3
    simp only [Run.ok.injEq] at h5
    subst h5
    obtain ⟨_, _, he⟩ := stepTxns_each h4
    unfold Follow at h ⊢
    dsimp only
    cases hg : c.m.coord.txns.get i with
    | none =>
      simp only [hg] at h
      rw [(he i).1 hg]; exact h
    | some s =>
      obtain ⟨s', h6, h7⟩ := (he i).2 _ hg
      rw [h6]
      simp only [hg] at h
      cases s with
      | preparing ps =>
        obtain ⟨ps', rfl, hlen, hall⟩ := h7
        obtain ⟨p, h2, h3⟩ := h
        obtain ⟨k, hk, hk2⟩ := List.mem_iff_getElem.mp h2
        have hk' : k < ps'.length := by omega
        obtain ⟨w1, w2, _, hst, _⟩ := hall k p ps'[k] (by rw [← hk2]; exact List.getElem?_eq_getElem hk) (List.getElem?_eq_getElem hk')
        exact ⟨ps'[k], List.getElem_mem hk', hP _ _ _ _ _ h3 hst⟩
      | committing ops => obtain rfl := h7; trivial
      | completed o => obtain rfl := h7; trivial
  | @take m outs hs =>
    unfold Manager.takeOut at hs
    obtain ⟨es, h1, h2⟩ := Run.bind_eq_ok.mp hs
    simp only [Run.ok.injEq, Prod.mk.injEq] at h2
    obtain ⟨rfl, rfl⟩ := h2
    exact h.mk rfl (Nat.le_refl _)

theorem follow_steps {env : TxnEnv α η ω} {P : Proc α η → Prop} (hP : ∀ i p w p' w', P p → p.step env i w = .ok (p', w') → P p')
    {evs more : List (MEvent η)} {c c' : Client α η ω} {i : Nat} (hc : CInv evs c) (h : Follow P c i)
    (hs : MSteps env c more c') : Follow P c' i := by
  induction hs with
  | refl => exact h
  | step h1 hs ih => exact follow_step hP (cinv_steps hc h1) ih hs

/-! ## The tablets of a process request -/

/-- The tablet is as resolved, or written. -/
def Cov (q : Query) (m : Metadata) (s : TabletState α) : Prop :=
  s.query = q ∧ ((s.tablet.dirty = false ∧ s.tablet.metadata = m) ∨
    (s.tablet.dirty = true ∧ s.tablet.metadata.tabletId = m.tabletId ∧ s.tablet.metadata.version = m.version + 1))

/-- The process request covers a tablet it resolved. -/
def Covered (q : Query) (m : Metadata) (p : Proc α η) : Prop :=
  match p.status with
  | .pending _ => False
  | .resolving _ => False
  | .loading _ => Clean p.tablets ∧ ∃ s, p.tablets.get (tabletKey m) = some s ∧ s.query = q ∧ s.tablet.metadata = m
  | .storing none => True
  | .storing (some _) => ∃ e ∈ p.tablets, Cov q m e.2
  | .completed => ∃ e ∈ p.tablets, Cov q m e.2
  | .failed => True

theorem trackTablets_get : ∀ {res : List (Query × Metadata)} {ts : AMap Nat (TabletState α)} {q : Query} {m : Metadata},
    (q, m) ∈ res → (∀ x ∈ res, ∀ y ∈ res, tabletKey x.2 = tabletKey y.2 → x = y) →
    (trackTablets ts res).get (tabletKey m) = some ⟨q, .create m⟩ := by
  have keep : ∀ {res : List (Query × Metadata)} {ts : AMap Nat (TabletState α)} {q : Query} {m : Metadata},
      ts.get (tabletKey m) = some ⟨q, .create m⟩ → (∀ x ∈ res, tabletKey x.2 = tabletKey m → x = (q, m)) →
      (trackTablets ts res).get (tabletKey m) = some ⟨q, .create m⟩ := by
    intro res
    induction res with
    | nil => intro ts q m h _; exact h
    | cons x rest ih =>
      obtain ⟨q', m'⟩ := x
      intro ts q m h hd
      refine ih ?_ fun y hy => hd y (by simp [hy])
      by_cases e : tabletKey m' = tabletKey m
      · have := hd (q', m') (by simp) e
        simp only [Prod.mk.injEq] at this
        obtain ⟨rfl, rfl⟩ := this
        simp
      · rw [AMap.get_set_ne _ _ e]; exact h
  intro res
  induction res with
  | nil => intro ts q m h; simp at h
  | cons x rest ih =>
    obtain ⟨q', m'⟩ := x
    intro ts q m h hd
    rcases List.mem_cons.mp h with h | h
    · simp only [Prod.mk.injEq] at h
      obtain ⟨rfl, rfl⟩ := h
      exact keep (res := rest) (ts := ts.set (tabletKey m) ⟨q, .create m⟩) (AMap.get_set_self _ _ _) fun y hy he => hd y (List.mem_cons_of_mem _ hy) (q, m) List.mem_cons_self he
    · exact ih h fun y hy z hz => hd y (by simp [hy]) z (by simp [hz])

theorem initTablets_get : ∀ {res : List (Metadata × α)} {ts ts' : AMap Nat (TabletState α)} {k : Nat} {s : TabletState α}, initTablets ts res = .ok ts' →
    ts.get k = some s → ∃ s', ts'.get k = some s' ∧ s'.query = s.query ∧ s'.tablet.metadata = s.tablet.metadata := by
  intro res
  induction res with
  | nil => intro ts ts' k s h hs; simp only [initTablets, Run.ok.injEq] at h; subst h; exact ⟨s, hs, rfl, rfl⟩
  | cons x rest ih =>
    obtain ⟨m, v⟩ := x
    intro ts ts' k s h hs
    unfold initTablets at h
    obtain ⟨s0, h1, h2⟩ := Run.bind_eq_ok.mp h
    by_cases e : tabletKey m = k
    · subst e
      rw [hs] at h1
      obtain rfl : s = s0 := by simpa [Run.unwrap] using h1
      obtain ⟨s', h3, h4, h5⟩ := ih h2 (AMap.get_set_self _ _ _)
      exact ⟨s', h3, h4, h5⟩
    · exact ih h2 (by rw [AMap.get_set_ne _ _ e]; exact hs)

theorem applySets_mem : ∀ {ts : AMap Nat (TabletState α)} {sets : List (Option α)} {e : Nat × TabletState α}, e ∈ ts → Clean ts →
    ∃ e' ∈ applySets ts sets, e'.2.query = e.2.query ∧ e'.2.tablet.metadata = e.2.tablet.metadata ∧
      (e'.2.tablet.updated.isSome = e'.2.tablet.dirty) := by
  intro ts
  induction ts with
  | nil => intro sets e h; simp at h
  | cons x rest ih =>
    obtain ⟨k, s⟩ := x
    intro sets e h hc
    have hcr : Clean rest := fun y hy => hc y (by simp [hy])
    have hs := hc (k, s) (by simp)
    cases sets with
    | nil =>
      refine ⟨e, by simpa [applySets] using h, rfl, rfl, ?_⟩
      rw [(hc e h).1, (hc e h).2]; rfl
    | cons o vs =>
      rcases List.mem_cons.mp h with rfl | h
      · cases o with
        | none => exact ⟨(k, s), by simp [applySets], rfl, rfl, by rw [hs.1, hs.2]; rfl⟩
        | some v => exact ⟨(k, { s with tablet := s.tablet.setContents v }), by simp [applySets], rfl, rfl, rfl⟩
      · obtain ⟨e', h1, h2⟩ := ih (sets := vs) h hcr
        refine ⟨e', ?_, h2⟩
        cases o <;> simp [applySets, h1]

theorem putMetadata_mem : ∀ {ts : AMap Nat (TabletState α)} {ms : List Metadata} {e : Nat × TabletState α}, e ∈ ts →
    ms.length = (takeWrites ts).length → (∀ p ∈ (takeWrites ts).zip ms, p.2.tabletId = p.1.1.tabletId ∧ p.2.version = p.1.1.version + 1) →
    ∃ e' ∈ putMetadata ts ms, e'.2.query = e.2.query ∧ e'.2.tablet.dirty = e.2.tablet.dirty ∧
      ((e.2.tablet.updated = none ∧ e'.2.tablet.metadata = e.2.tablet.metadata) ∨
       (e.2.tablet.updated.isSome ∧ e'.2.tablet.metadata.tabletId = e.2.tablet.metadata.tabletId ∧
        e'.2.tablet.metadata.version = e.2.tablet.metadata.version + 1)) := by
  intro ts
  induction ts with
  | nil => intro ms e h; simp at h
  | cons x rest ih =>
    obtain ⟨k, s⟩ := x
    intro ms e h hl hz
    cases hu : s.tablet.updated with
    | none =>
      have hw : takeWrites ((k, s) :: rest) = takeWrites rest := by simp [takeWrites, hu]
      rw [hw] at hl hz
      have hp : putMetadata ((k, s) :: rest) ms = (k, s) :: putMetadata rest ms := by simp [putMetadata, hu]
      rw [hp]
      rcases List.mem_cons.mp h with rfl | h
      · exact ⟨(k, s), by simp, rfl, rfl, .inl ⟨hu, rfl⟩⟩
      · obtain ⟨e', h1, h2⟩ := ih h hl hz
        exact ⟨e', by simp [h1], h2⟩
    | some v =>
      have hw : takeWrites ((k, s) :: rest) = (s.tablet.metadata, v) :: takeWrites rest := by simp [takeWrites, hu]
      rw [hw] at hl hz
      cases ms with
      | nil => simp at hl
      | cons m ms =>
        have hp : putMetadata ((k, s) :: rest) (m :: ms) = (k, { s with tablet := { s.tablet with updated := none, metadata := m } }) :: putMetadata rest ms := by
          simp [putMetadata, hu]
        rw [hp]
        rcases List.mem_cons.mp h with rfl | h
        · exact ⟨_, List.mem_cons_self, rfl, rfl, .inr ⟨by simp [hu], hz ((s.tablet.metadata, v), m) (by simp)⟩⟩
        · obtain ⟨e', h1, h2⟩ := ih h (by simpa using hl) (fun p hp => hz p (by simp [hp]))
          exact ⟨e', by simp [h1], h2⟩

theorem covered_step {env : TxnEnv α η ω} {q : Query} {m : Metadata} (i : Nat) (p : Proc α η) (w : World α ω) (p' : Proc α η) (w' : World α ω)
    (h : Covered q m p) (hs : p.step env i w = .ok (p', w')) : Covered q m p' := by
  unfold Proc.step at hs
  unfold Covered at h
  cases hst : p.status with
  | pending _ => simp only [hst] at h
  | resolving _ => simp only [hst] at h
  | loading id =>
    simp only [hst] at h hs
    cases hc : w.data.cells.loads.get id with
    | none =>
      simp only [hc, Run.ok.injEq, Prod.mk.injEq] at hs
      rw [← hs.1]
      unfold Covered
      rw [hst]; exact h
    | some o =>
      cases o with
      | none =>
        simp only [hc, Run.ok.injEq, Prod.mk.injEq] at hs
        rw [← hs.1]; trivial
      | some res =>
        simp only [hc] at hs
        obtain ⟨ts, h1, h2⟩ := Run.bind_eq_ok.mp hs
        obtain ⟨⟨sh, sets⟩, _, h3⟩ := Run.bind_eq_ok.mp h2
        obtain ⟨⟨d, ms, b⟩, h4, h5⟩ := Run.bind_eq_ok.mp h3
        simp only [Run.ok.injEq, Prod.mk.injEq] at h5
        rw [← h5.1]
        cases b with
        | false => trivial
        | true =>
          obtain ⟨hcl, s, h6, h7, h8⟩ := h
          obtain ⟨s', h9, h10, h11⟩ := initTablets_get h1 h6
          have hcl' := initTablets_clean h1 hcl
          obtain ⟨e1, h12, h13, h14, h15⟩ := applySets_mem (sets := sets) (AMap.mem_of_get h9) hcl'
          obtain ⟨hl, hz⟩ := Props.C51_written_partial h4
          obtain ⟨e2, h16, h17, h18, h19⟩ := putMetadata_mem h12 hl (fun p hp => by
            obtain ⟨b, corr, _, h20, _⟩ := hz p hp
            rw [h20]; exact ⟨rfl, rfl⟩)
          refine ⟨e2, h16, by rw [h17, h13]; simp only; rw [h10, h7], ?_⟩
          simp only at h14
          rcases h19 with ⟨h20, h21⟩ | ⟨h20, h21, h22⟩
          · left
            rw [h20] at h15
            exact ⟨by rw [h18, ← h15]; rfl, by rw [h21, h14, h11, h8]⟩
          · right
            exact ⟨by rw [h18, ← h15, h20], by rw [h21, h14, h11, h8], by rw [h22, h14, h11, h8]⟩
  | storing o =>
    cases o with
    | none =>
      simp only [hst, Run.ok.injEq, Prod.mk.injEq] at hs
      rw [← hs.1]; trivial
    | some id =>
      simp only [hst] at h hs
      cases hc : w.data.cells.stores.get id with
      | none =>
        simp only [hc, Run.ok.injEq, Prod.mk.injEq] at hs
        rw [← hs.1]
        unfold Covered
        rw [hst]; exact h
      | some o =>
        cases o with
        | none => simp only [hc, Run.ok.injEq, Prod.mk.injEq] at hs; rw [← hs.1]; trivial
        | some u => simp only [hc, Run.ok.injEq, Prod.mk.injEq] at hs; rw [← hs.1]; exact h
  | completed =>
    simp only [hst] at h
    simp only [hst, Run.ok.injEq, Prod.mk.injEq] at hs
    rw [← hs.1]
    unfold Covered
    rw [hst]; exact h
  | failed =>
    simp only [hst, Run.ok.injEq, Prod.mk.injEq] at hs
    rw [← hs.1]
    unfold Covered
    rw [hst]; trivial

/-- From resolution to the request. -/
theorem resolved_covered {env : TxnEnv α η ω} (hsane : Sane env) {a b : List (MEvent η)} {c c' : Client α η ω} (h : MHistory env a c)
    {i id : Nat} {ps : List (Proc α η)} {p : Proc α η} (hi : c.m.coord.txns.get i = some (.preparing ps)) (hp : p ∈ ps)
    (hst : p.status = .resolving id) {res : List (Query × Metadata)} (hres : c.m.world.md.cells.get id = some res)
    (hd : ∀ x ∈ res, ∀ y ∈ res, tabletKey x.2 = tabletKey y.2 → x = y) {corr : Nat} {ops : List TabletOp}
    (hb : MSteps env c (.progress :: b) c') (hcm : .commit i [(corr, ops)] ∈ b) {q : Query} {m : Metadata} (hm : (q, m) ∈ res) :
    ∃ o ∈ ops, o.table = q.table ∧ (o.op = some (.check m.tabletId m.version) ∨
      ∃ m', o.op = some (.update (some m')) ∧ m'.tabletId = m.tabletId ∧ m'.version = m.version + 1) := by
  obtain ⟨c1, c2, k1, k2, k3⟩ := hb.split (a := []) (ev := .progress) (b := b) rfl
  generalize he : ([] : List (MEvent η)) = nl at k1
  obtain rfl : c = c1 := by
    cases k1 with
    | refl => rfl
    | step => simp at he
  have hf : Follow (Covered q m) c2 i := by
    cases k2 with
    | @progress m' hs =>
      obtain ⟨devs, hw⟩ := history_winv hsane h
      unfold Manager.makeProgress at hs
      obtain ⟨md, hmd, h2⟩ := Run.bind_eq_ok.mp hs
      obtain ⟨d, hdd, h3⟩ := Run.bind_eq_ok.mp h2
      obtain ⟨⟨ts, w⟩, h4, h5⟩ := Run.bind_eq_ok.mp h3
      simp only [Run.ok.injEq] at h5
      subst h5
      have hmdc : md.cells = c.m.world.md.cells := by
        unfold MetaCache.makeProgress at hmd
        obtain ⟨x, _, hx⟩ := Run.bind_eq_ok.mp hmd
        simp only [Run.ok.injEq] at hx
        rw [← hx]
        split <;> rfl
      obtain ⟨_, _, he⟩ := stepTxns_each h4
      obtain ⟨s', h6, ps', rfl, hlen, hall⟩ := (he i).2 _ hi
      obtain ⟨k, hk, hk2⟩ := List.mem_iff_getElem.mp hp
      have hk' : k < ps'.length := by omega
      obtain ⟨w1, w2, hg, hst', _⟩ := hall k p ps'[k] (by rw [← hk2]; exact List.getElem?_eq_getElem hk) (List.getElem?_eq_getElem hk')
      unfold Follow
      dsimp only
      rw [h6]
      refine ⟨ps'[k], List.getElem_mem hk', ?_⟩
      have hpi : PInv env devs c.m.world.data p := hw.procs i ps (AMap.mem_of_get hi) p hp
      rw [← hmdc] at hres
      simp only [Proc.step, hst, hg.cells id res hres] at hst'
      obtain ⟨x, _, h8⟩ := Run.bind_eq_ok.mp hst'
      simp only [Run.ok.injEq, Prod.mk.injEq] at h8
      rw [← h8.1]
      have hnil := hpi.start (.inr ⟨id, hst⟩)
      refine ⟨trackTablets_clean (by rw [hnil]; simp [Clean]), _, trackTablets_get hm hd, rfl, rfl⟩
  obtain ⟨b1, b2, rfl⟩ := List.append_of_mem hcm
  obtain ⟨c3, c4, k4, k5, _⟩ := k3.split rfl
  have hc2 := cinv_step (history_cinv h) k2
  have hf3 := follow_steps covered_step hc2 hf k4
  obtain ⟨_, ps3, h9, h10, h11⟩ := commit_step k5
  unfold Follow at hf3
  rw [h9] at hf3
  obtain ⟨p3, h12, h13⟩ := hf3
  have hcomp : p3.status = .completed := by
    by_cases e : p3.status = .completed
    · exact e
    · rw [active_of h12 e] at h10; cases h10
  unfold Covered at h13
  rw [hcomp] at h13
  obtain ⟨e, h14, h15, h16⟩ := h13
  simp only [List.cons.injEq, Prod.mk.injEq, and_true] at h11
  refine ⟨e.2.op, ?_, by simp [TabletState.op, h15], ?_⟩
  · rw [h11.2]
    exact List.mem_flatMap.mpr ⟨p3, h12, List.mem_map.mpr ⟨e, h14, rfl⟩⟩
  · unfold TabletState.op
    rcases h16 with ⟨h17, h18⟩ | ⟨h17, h18, h19⟩
    · left; simp [h17, h18]
    · right; exact ⟨e.2.tablet.metadata, by simp [h17], h18, h19⟩

end TCP.Cache
