import Verif.Proofs.CacheCoordinator

/-! # Proofs about the histories of the transaction manager -/

namespace TCP.Cache

open TCP TCP.TabletStore TCP.Cache.Spec

variable {α η ω : Type}

theorem answers_eq (r : Response) : r.results.filter TabletOpResult.isExec = answers r := by
  unfold answers
  congr 1

/-- The result is of the same kind as the op. -/
def SameKind (o : TabletOp) (r : TabletOpResult) : Prop :=
  (∃ i v e, o.op = some (.check i v) ∧ r.result = some (.check e)) ∨ ∃ u e, o.op = some (.update u) ∧ r.result = some (.update e)

theorem completeOps_ok : ∀ {ops : List TabletOp} {rs : List TabletOpResult} {b : Bool} {l : List (String × Metadata × Bool)},
    completeOps ops rs = .ok (b, l) →
    (b = true → ∀ p ∈ ops.zip rs, p.2.status = .succeeded) ∧ (b = false → ∃ p ∈ ops.zip rs, p.2.status ≠ .succeeded) ∧
    ∀ p ∈ ops.zip rs, SameKind p.1 p.2 := by
  intro ops
  induction ops with
  | nil => intro rs b l h; cases rs <;> (simp only [completeOps, Run.ok.injEq, Prod.mk.injEq] at h; rw [← h.1]; simp)
  | cons o rest ih =>
    intro rs b l h
    cases rs with
    | nil => simp only [completeOps, Run.ok.injEq, Prod.mk.injEq] at h; rw [← h.1]; simp
    | cons r rs =>
      unfold completeOps at h
      dsimp only at h
      obtain ⟨x, h1, h2⟩ := Run.bind_eq_ok.mp h
      obtain ⟨⟨b', l'⟩, h3, h4⟩ := Run.bind_eq_ok.mp h2
      simp only [Run.ok.injEq, Prod.mk.injEq] at h4
      obtain ⟨rfl, rfl⟩ := h4
      obtain ⟨i1, i2, i3⟩ := ih h3
      have hk : SameKind o r := by
        split at h1
        · rename_i e1 e2; exact .inl ⟨_, _, _, e1, e2⟩
        · rename_i e1 e2; exact .inr ⟨_, _, e1, e2⟩
        · simp at h1
      refine ⟨fun hb => ?_, fun hb => ?_, fun p hp => ?_⟩
      · simp only [Bool.and_eq_true, decide_eq_true_eq] at hb
        intro p hp
        rcases List.mem_cons.mp (by simpa using hp) with rfl | hp
        · exact hb.1
        · exact i1 hb.2 p hp
      · by_cases hs : r.status = .succeeded
        · simp only [hs, decide_true, Bool.true_and] at hb
          obtain ⟨p, h5, h6⟩ := i2 hb
          exact ⟨p, by simp [h5], h6⟩
        · exact ⟨(o, r), by simp, hs⟩
      · rcases List.mem_cons.mp (by simpa using hp) with rfl | hp
        · exact hk
        · exact i3 p hp

/-- Results that fit the ops do not crash the coordinator. -/
theorem completeOps_total : ∀ {ops : List TabletOp} {rs : List TabletOpResult}, FitsAll ops rs → ∃ x, completeOps ops rs = .ok x := by
  intro ops
  induction ops with
  | nil => intro rs h; cases rs with
    | nil => exact ⟨_, rfl⟩
    | cons r rs => exact absurd h (by simp [FitsAll])
  | cons o rest ih =>
    intro rs h
    cases rs with
    | nil => exact absurd h (by simp [FitsAll])
    | cons r rs =>
      obtain ⟨h1, h2⟩ := h
      obtain ⟨y, hy⟩ := ih h2
      unfold completeOps
      dsimp only
      unfold Fits at h1
      split at h1
      · rename_i e1 e2
        rw [e1, e2]
        dsimp only
        by_cases hs : r.status = .succeeded
        · simp [hs, hy]
        · obtain ⟨m, hm⟩ := Option.isSome_iff_exists.mp (h1 hs)
          simp [hs, hm, hy]
      · rename_i e1 e2
        rw [e1, e2]
        dsimp only
        obtain ⟨u, hu⟩ := Option.isSome_iff_exists.mp h1.1
        by_cases hs : r.status = .succeeded
        · simp [hs, hu, hy]
        · obtain ⟨m, hm⟩ := Option.isSome_iff_exists.mp (h1.2 hs)
          simp [hs, hm, hy]
      · exact h1.elim

/-- The results of a precomputed error. -/
def ErrRes (x : TabletOpResult) : Prop :=
  x.status = .failed ∧ (TabletOpResult.isExec x = true → x.result = some (.check none) ∨ x.result = some (.update none))

theorem failedResult_err (o : TabletOp) : ErrRes (failedResult o) := by
  refine ⟨rfl, fun h => ?_⟩
  obtain ⟨t, op⟩ := o
  cases op with
  | none => simp [failedResult, TabletOpResult.isExec] at h
  | some op => cases op <;> simp [failedResult, TabletOpResult.isExec] at h ⊢

theorem completeOps_err {o : TabletOp} {ops : List TabletOp} {x : TabletOpResult} {rs : List TabletOpResult} (hx : ErrRes x) (he : TabletOpResult.isExec x = true) :
    completeOps (o :: ops) (x :: rs) = .panic := by
  unfold completeOps
  dsimp only
  obtain ⟨h1, h2⟩ := hx
  rcases h2 he with h | h
  · rw [h, h1]
    cases o.op with
    | none => simp
    | some op => cases op <;> simp
  · rw [h, h1]
    cases o.op with
    | none => simp
    | some op => cases op <;> simp

/-! ## The coordinator -/

theorem processIn_cases {c c' : Coordinator α η} {md md' : MetaCache} {corr : Nat} {rs : List TabletOpResult}
    (h : c.processIn md corr rs = .ok (c', md')) :
    (c.correlations.get corr = none ∧ c' = c) ∨ ∃ i, c.correlations.get corr = some i ∧
      ((∃ ops b l, c.txns.get i = some (.committing ops) ∧ completeOps ops rs = .ok (b, l) ∧ updateTablets md l = .ok md' ∧
        c' = { c with correlations := c.correlations.erase corr, txns := c.txns.set i (.completed (if b then .succeeded else .failed)) }) ∨
       ((∀ ops, c.txns.get i ≠ some (.committing ops)) ∧ c' = { c with correlations := c.correlations.erase corr })) := by
  unfold Coordinator.processIn at h
  cases hc : c.correlations.get corr with
  | none => simp only [hc, Run.ok.injEq, Prod.mk.injEq] at h; exact .inl ⟨rfl, h.1.symm⟩
  | some i =>
    simp only [hc] at h
    refine .inr ⟨i, rfl, ?_⟩
    split at h
    · rename_i ops ht
      obtain ⟨⟨b, l⟩, h1, h2⟩ := Run.bind_eq_ok.mp h
      obtain ⟨md1, h3, h4⟩ := Run.bind_eq_ok.mp h2
      simp only [Run.ok.injEq, Prod.mk.injEq] at h4
      obtain ⟨rfl, rfl⟩ := h4
      exact .inl ⟨ops, b, l, ht, h1, h3, rfl⟩
    · rename_i hne
      simp only [Run.ok.injEq, Prod.mk.injEq] at h
      exact .inr ⟨fun ops ho => hne ops ho, h.1.symm⟩

theorem opsResponse_cases {m m' : Manager α η ω} {corr : Nat} {r : Response} (h : m.opsResponse corr r = .ok m') :
    m'.world.data = m.world.data ∧ m'.world.shared = m.world.shared ∧ m'.errors = m.errors ∧ ∃ md, m.world.md.processIn (r.results.filter TabletOpResult.isList) = .ok md ∧
      ((answers r = [] ∧ m'.coord = m.coord ∧ m'.world.md = md) ∨ (answers r ≠ [] ∧ m.coord.processIn md corr (answers r) = .ok (m'.coord, m'.world.md))) := by
  unfold Manager.opsResponse at h
  obtain ⟨md, h1, h2⟩ := Run.bind_eq_ok.mp h
  rw [answers_eq] at h2
  split at h2
  · rename_i ha
    simp only [Run.ok.injEq] at h2
    subst h2
    exact ⟨rfl, rfl, rfl, md, h1, .inl ⟨ha, rfl, rfl⟩⟩
  · rename_i ha
    obtain ⟨⟨c', md'⟩, h3, h4⟩ := Run.bind_eq_ok.mp h2
    simp only [Run.ok.injEq] at h4
    subst h4
    exact ⟨rfl, rfl, rfl, md, h1, .inr ⟨ha, h3⟩⟩

theorem prepareOps_ok : ∀ {ps : List (Proc α η)}, isActive ps = false →
    prepareOps ps = some (ps.flatMap fun p => p.tablets.map fun e => e.2.op) := by
  intro ps
  induction ps with
  | nil => intro _; rfl
  | cons p rest ih =>
    intro h
    simp only [isActive, List.any_cons, Bool.or_eq_false_iff, decide_eq_false_iff_not, Decidable.not_not] at h
    have := ih h.2
    simp [prepareOps, h.1, this]

theorem commit_cases {c c' : Coordinator α η} {i : Nat} (h : c.commit i = .ok c') : ∃ ps, c.txns.get i = some (.preparing ps) ∧ isActive ps = false ∧
    c' = { c with correlation := c.correlation + 1, out := c.out ++ [(c.correlation + 1, ps.flatMap fun p => p.tablets.map fun e => e.2.op)],
                  correlations := c.correlations.set (c.correlation + 1) i,
                  txns := c.txns.set i (.committing (ps.flatMap fun p => p.tablets.map fun e => e.2.op)) } := by
  unfold Coordinator.commit at h
  split at h
  · rename_i ps ht
    split at h
    · simp at h
    · rename_i ha
      have ha : isActive ps = false := by simpa using ha
      rw [prepareOps_ok ha] at h
      simp only [Run.ok.injEq] at h
      exact ⟨ps, ht, ha, h.symm⟩
  · simp at h

/-- The transaction was committed with these ops under this id, and then the outcome was determined by a response. -/
def Justified (evs : List (MEvent η)) (i : Nat) (o : Outcome) : Prop :=
  ∃ corr ops a b, evs = a ++ .commit i [(corr, ops)] :: b ∧
    (o = .succeeded → (ops = [] ∧ .input (.error corr) ∈ b) ∨ ∃ r, .input (.response corr r) ∈ b ∧ answers r ≠ [] ∧
      ∀ p ∈ ops.zip (answers r), p.2.status = .succeeded ∧ SameKind p.1 p.2) ∧
    (o = .failed → ∃ r, .input (.response corr r) ∈ b ∧ ∃ p ∈ ops.zip (answers r), p.2.status ≠ .succeeded)

theorem Justified.push {evs : List (MEvent η)} {i : Nat} {o : Outcome} (h : Justified evs i o) (ev : MEvent η) : Justified (evs ++ [ev]) i o := by
  obtain ⟨corr, ops, a, b, h1, h2, h3⟩ := h
  refine ⟨corr, ops, a, b ++ [ev], by simp [h1], fun ho => ?_, fun ho => ?_⟩
  · rcases h2 ho with h | ⟨r, h4, h5⟩
    · exact .inl ⟨h.1, by simp [h.2]⟩
    · exact .inr ⟨r, by simp [h4], h5⟩
  · obtain ⟨r, h4, h5⟩ := h3 ho
    exact ⟨r, by simp [h4], h5⟩

/-- What is sent. -/
def sentCorr : MEvent η → Option Nat
  | .commit _ [(corr, _)] => some corr
  | _ => none

structure CInv (evs : List (MEvent η)) (c : Client α η ω) : Prop where
  le : ∀ i s, c.m.coord.txns.get i = some s → i ≤ c.m.coord.txnCounter
  opened : ∀ i ∈ c.opened, ∃ ps, c.m.coord.txns.get i = some (.preparing ps)
  commits : ∀ i h, c.commits.get i = some h → h.txn = i ∧ i ≤ c.m.coord.txnCounter ∧ (∃ sent, .commit i sent ∈ evs) ∧
    (h.outcome = none → (∃ ops, c.m.coord.txns.get i = some (.committing ops)) ∨ ∃ o, c.m.coord.txns.get i = some (.completed o)) ∧
    (∀ o, h.outcome = some o → c.m.coord.txns.get i = none ∧ Justified evs i o)
  corr : ∀ corr i, c.m.coord.correlations.get corr = some i → corr ≤ c.m.coord.correlation ∧
    ∃ ops a b, c.m.coord.txns.get i = some (.committing ops) ∧ evs = a ++ .commit i [(corr, ops)] :: b
  committing : ∀ i ops, c.m.coord.txns.get i = some (.committing ops) → ∃ corr, c.m.coord.correlations.get corr = some i
  inj : ∀ corr corr' i, c.m.coord.correlations.get corr = some i → c.m.coord.correlations.get corr' = some i → corr = corr'
  sent : ∀ i sent, .commit i sent ∈ evs → i ≤ c.m.coord.txnCounter ∧ i ∉ c.opened ∧ (c.commits.get i).isSome ∧
    ∃ corr ops, sent = [(corr, ops)] ∧ corr ≤ c.m.coord.correlation
  nodup : (evs.filterMap sentCorr).Nodup
  once : ∀ i s s', .commit i s ∈ evs → .commit i s' ∈ evs → s = s'
  done : ∀ i o, c.m.coord.txns.get i = some (.completed o) → Justified evs i o
  errors : ∀ corr r, c.m.errors.get corr = some r → ∀ x ∈ r.results, ErrRes x

theorem sentCorr_mem {evs : List (MEvent η)} {x : Nat} (h : x ∈ evs.filterMap sentCorr) : ∃ i ops, .commit i [(x, ops)] ∈ evs := by
  obtain ⟨e, h1, h2⟩ := List.mem_filterMap.mp h
  unfold sentCorr at h2
  split at h2
  · simp only [Option.some.injEq] at h2; subst h2; exact ⟨_, _, h1⟩
  · simp at h2

/-- Steps that do not touch the transactions. -/
theorem CInv.keep {evs : List (MEvent η)} {c c' : Client α η ω} (h : CInv evs c) {ev : MEvent η} (hev : ∀ i s, ev ≠ .commit i s)
    (h1 : c'.m.coord.txns = c.m.coord.txns) (h2 : c'.m.coord.txnCounter = c.m.coord.txnCounter) (h3 : c'.m.coord.correlations = c.m.coord.correlations)
    (h4 : c'.m.coord.correlation = c.m.coord.correlation) (h5 : c'.opened = c.opened) (h6 : c'.commits = c.commits)
    (h7 : ∀ corr r, c'.m.errors.get corr = some r → ∀ x ∈ r.results, ErrRes x) : CInv (evs ++ [ev]) c' := by
  have hmem : ∀ i s, MEvent.commit i s ∈ evs ++ [ev] → MEvent.commit i s ∈ evs := by
    intro i s hm
    rcases List.mem_append.mp hm with hm | hm
    · exact hm
    · exact absurd (List.mem_singleton.mp hm).symm (hev i s)
  constructor
  · rw [h1, h2]; exact h.le
  · rw [h1, h5]; exact h.opened
  · rw [h1, h2, h6]
    intro i x hx
    obtain ⟨k1, k2, ⟨s, k3⟩, k4, k5⟩ := h.commits i x hx
    exact ⟨k1, k2, ⟨s, by simp [k3]⟩, k4, fun o ho => ⟨(k5 o ho).1, (k5 o ho).2.push ev⟩⟩
  · rw [h1, h3, h4]
    intro corr i hi
    obtain ⟨k1, ops, a, b, k2, k3⟩ := h.corr corr i hi
    exact ⟨k1, ops, a, b ++ [ev], k2, by simp [k3]⟩
  · rw [h1, h3]; exact h.committing
  · rw [h3]; exact h.inj
  · rw [h2, h4, h5, h6]; exact fun i s hm => h.sent i s (hmem i s hm)
  · have : sentCorr ev = none := by
      cases ev <;> try rfl
      exact absurd rfl (hev _ _)
    simp [List.filterMap_append, this, h.nodup]
  · exact fun i s s' a b => h.once i s s' (hmem i s a) (hmem i s' b)
  · rw [h1]; exact fun i o ho => (h.done i o ho).push ev
  · exact h7

theorem rememberErrors_ok {l : List (Nat × List TabletOp)} : ∀ {es es' : AMap Nat Response}, (∀ corr r, es.get corr = some r → ∀ x ∈ r.results, ErrRes x) →
    rememberErrors es l = .ok es' → ∀ corr r, es'.get corr = some r → ∀ x ∈ r.results, ErrRes x := by
  induction l with
  | nil => intro es es' h hs; simp only [rememberErrors, Run.ok.injEq] at hs; subst hs; exact h
  | cons e rest ih =>
    obtain ⟨corr, ops⟩ := e
    intro es es' h hs
    unfold rememberErrors at hs
    split at hs
    · simp at hs
    · refine ih ?_ hs
      intro c r hc
      rw [AMap.get_set] at hc
      split at hc
      · simp only [Option.some.injEq] at hc
        subst hc
        intro x hx
        obtain ⟨o, _, rfl⟩ := List.mem_map.mp hx
        exact failedResult_err o
      · exact h c r hc

theorem get_erase_some {κ ν : Type} [DecidableEq κ] {m : AMap κ ν} {k j : κ} {v : ν} (h : (m.erase k).get j = some v) : m.get j = some v ∧ k ≠ j := by
  rw [AMap.get_erase] at h
  split at h
  · simp at h
  · rename_i hne; exact ⟨h, fun e => hne e⟩

/-- A response to a tablet request. -/
theorem opsResponse_inv {evs : List (MEvent η)} {c : Client α η ω} (h : CInv evs c) {corr : Nat} {r : Response} {m' : Manager α η ω} {inp : MgrIn}
    (hs : { c.m with errors := c.m.errors.erase corr }.opsResponse corr r = .ok m')
    (hi : inp = .response corr r ∨ (inp = .error corr ∧ ∀ x ∈ r.results, ErrRes x)) : CInv (evs ++ [.input inp]) { c with m := m' } := by
  obtain ⟨_, _, he, md, _, hc⟩ := opsResponse_cases hs
  have herr : ∀ corr r, m'.errors.get corr = some r → ∀ x ∈ r.results, ErrRes x := by
    rw [he]
    intro k q hk
    exact h.errors k q (get_erase_some hk).1
  rcases hc with ⟨_, hc, _⟩ | ⟨hne, hc⟩
  · exact h.keep (by simp) (by simp [hc]) (by simp [hc]) (by simp [hc]) (by simp [hc]) rfl rfl herr
  · rcases processIn_cases hc with ⟨_, hc⟩ | ⟨i, hcorr, hc⟩
    · exact h.keep (by simp) (by simp [hc]) (by simp [hc]) (by simp [hc]) (by simp [hc]) rfl rfl herr
    · obtain ⟨_, ops, a, b, hcm, hev⟩ := h.corr corr i hcorr
      rcases hc with ⟨ops2, bb, l, h1, h2, _, h4⟩ | ⟨h1, _⟩
      · dsimp only at h1 h4
        rw [hcm] at h1
        cases h1
        have hout : Justified (evs ++ [.input inp]) i (if bb then .succeeded else .failed) := by
          refine ⟨corr, ops, a, b ++ [.input inp], by simp [hev], ?_, ?_⟩
          · intro hb
            have hb : bb = true := by cases bb with | true => rfl | false => simp at hb
            obtain ⟨k1, _, k3⟩ := completeOps_ok h2
            rcases hi with hi | ⟨he, hi⟩
            · exact .inr ⟨r, by simp [hi], hne, fun p hp => ⟨k1 hb p hp, k3 p hp⟩⟩
            · cases ops with
              | nil => exact .inl ⟨rfl, by simp [he]⟩
              | cons o os =>
                exfalso
                cases ha : answers r with
                | nil => exact hne ha
                | cons x xs =>
                  have hx : x ∈ answers r := by simp [ha]
                  rw [← answers_eq] at hx
                  obtain ⟨hx1, hx2⟩ := List.mem_filter.mp hx
                  rw [ha, completeOps_err (hi x hx1) hx2] at h2
                  simp at h2
          · intro hb
            have hb : bb = false := by cases bb with | false => rfl | true => simp at hb
            obtain ⟨_, k2, _⟩ := completeOps_ok h2
            rcases hi with hi | ⟨_, hi⟩
            · exact ⟨r, by simp [hi], k2 hb⟩
            · exfalso
              cases ops with
              | nil => obtain ⟨p, hp, _⟩ := k2 hb; simp at hp
              | cons o os =>
                cases ha : answers r with
                | nil => exact hne ha
                | cons x xs =>
                  have hx : x ∈ answers r := by simp [ha]
                  rw [← answers_eq] at hx
                  obtain ⟨hx1, hx2⟩ := List.mem_filter.mp hx
                  rw [ha, completeOps_err (hi x hx1) hx2] at h2
                  simp at h2
        have hmem : ∀ i s, MEvent.commit i s ∈ evs ++ [.input inp] → MEvent.commit i s ∈ evs := by
          intro i s hm; simpa using hm
        have htx : ∀ j, m'.coord.txns.get j = if i = j then some (.completed (if bb then .succeeded else .failed)) else c.m.coord.txns.get j := by
          intro j; rw [h4]; simp [AMap.get_set]
        constructor
        · intro j s hj
          dsimp only at hj ⊢
          rw [htx] at hj
          rw [h4]
          split at hj
          · rename_i hij; subst hij; exact h.le _ _ hcm
          · exact h.le j s hj
        · intro j hj
          dsimp only at hj ⊢
          rw [htx]
          obtain ⟨ps, hps⟩ := h.opened j hj
          rw [if_neg (by rintro rfl; rw [hcm] at hps; cases hps)]
          exact ⟨ps, hps⟩
        · intro j x hx
          dsimp only at hx ⊢
          obtain ⟨k1, k2, ⟨s, k3⟩, k4, k5⟩ := h.commits j x hx
          refine ⟨k1, by rw [h4]; exact k2, ⟨s, by simp [k3]⟩, fun ho => ?_, fun o ho => ?_⟩
          · rw [htx]
            by_cases hij : i = j
            · rw [if_pos hij]; exact .inr ⟨_, rfl⟩
            · rw [if_neg hij]; exact k4 ho
          · rw [htx]
            obtain ⟨k6, k7⟩ := k5 o ho
            rw [if_neg (by rintro rfl; rw [hcm] at k6; cases k6)]
            exact ⟨k6, k7.push _⟩
        · intro k j hk
          dsimp only at hk ⊢
          rw [h4] at hk ⊢
          dsimp only at hk ⊢
          obtain ⟨hk, hne⟩ := get_erase_some hk
          obtain ⟨k1, ops1, a1, b1, k2, k3⟩ := h.corr k j hk
          have : i ≠ j := by rintro rfl; exact hne (h.inj _ _ _ hcorr hk)
          exact ⟨k1, ops1, a1, b1 ++ [.input inp], by rw [AMap.get_set_ne _ _ this]; exact k2, by simp [k3]⟩
        · intro j ops1 hj
          dsimp only at hj ⊢
          rw [htx] at hj
          split at hj
          · simp at hj
          · rename_i hij
            obtain ⟨k, hk⟩ := h.committing j ops1 hj
            refine ⟨k, ?_⟩
            rw [h4]
            dsimp only
            rw [AMap.get_erase_ne _ (by rintro rfl; rw [hcorr] at hk; cases hk; exact hij rfl)]
            exact hk
        · intro k k' j hk hk'
          rw [h4] at hk hk'
          exact h.inj _ _ _ (get_erase_some hk).1 (get_erase_some hk').1
        · intro j s hm
          obtain ⟨k1, k2, k3, k4⟩ := h.sent j s (hmem j s hm)
          exact ⟨by rw [h4]; exact k1, k2, k3, by rw [h4]; exact k4⟩
        · have : sentCorr (MEvent.input inp : MEvent η) = none := rfl
          simp [List.filterMap_append, this, h.nodup]
        · exact fun i s s' x y => h.once i s s' (hmem i s x) (hmem i s' y)
        · intro j o hj
          dsimp only at hj
          rw [htx] at hj
          split at hj
          · rename_i hij
            simp only [Option.some.injEq, TxnState.completed.injEq] at hj
            rw [← hj, ← hij]; exact hout
          · exact (h.done j o hj).push _
        · exact herr
      · exact absurd hcm (h1 _)

theorem cinv_step {env : TxnEnv α η ω} {evs : List (MEvent η)} {c c' : Client α η ω} {ev : MEvent η} (h : CInv evs c) (hs : MStep env c ev c') :
    CInv (evs ++ [ev]) c' := by
  cases hs with
  | app => exact h.keep (by simp) rfl rfl rfl rfl rfl rfl h.errors
  | @init tables m hs =>
    unfold Manager.init at hs
    obtain ⟨md, _, h2⟩ := Run.bind_eq_ok.mp hs
    simp only [Run.ok.injEq] at h2
    subst h2
    exact h.keep (by simp) rfl rfl rfl rfl rfl rfl h.errors
  | start =>
    have hnew : c.m.coord.txns.get (c.m.coord.txnCounter + 1) = none := by
      cases hg : c.m.coord.txns.get (c.m.coord.txnCounter + 1) with
      | none => rfl
      | some s => have := h.le _ _ hg; omega
    have hmem : ∀ i s, MEvent.commit i s ∈ evs ++ [.start c.m.coord.createTxn.2] → MEvent.commit i s ∈ evs := by
      intro i s hm; simpa using hm
    have hne : ∀ i s, c.m.coord.txns.get i = some s → c.m.coord.txnCounter + 1 ≠ i := by
      rintro i s hi rfl; rw [hnew] at hi; cases hi
    constructor
    · intro i s hi
      simp only [Coordinator.createTxn] at hi ⊢
      rw [AMap.get_set] at hi
      split at hi
      · omega
      · have := h.le i s hi; omega
    · intro i hi
      simp only [Coordinator.createTxn, List.mem_cons] at hi ⊢
      rw [AMap.get_set]
      split
      · exact ⟨_, rfl⟩
      · rename_i hn
        exact h.opened i (hi.resolve_left (fun e => hn e.symm))
    · intro i x hx
      obtain ⟨k1, k2, ⟨s, k3⟩, k4, k5⟩ := h.commits i x hx
      have : c.m.coord.txnCounter + 1 ≠ i := by omega
      simp only [Coordinator.createTxn]
      rw [AMap.get_set_ne _ _ this]
      exact ⟨k1, by omega, ⟨s, by simp [k3]⟩, k4, fun o ho => ⟨(k5 o ho).1, (k5 o ho).2.push _⟩⟩
    · intro corr i hi
      simp only [Coordinator.createTxn] at hi ⊢
      obtain ⟨k1, ops, a, b, k2, k3⟩ := h.corr corr i hi
      exact ⟨k1, ops, a, b ++ [.start c.m.coord.createTxn.2], by rw [AMap.get_set_ne _ _ (hne _ _ k2)]; exact k2, by simp [k3, Coordinator.createTxn]⟩
    · intro i ops hi
      simp only [Coordinator.createTxn] at hi ⊢
      rw [AMap.get_set] at hi
      split at hi
      · simp at hi
      · exact h.committing i ops hi
    · exact h.inj
    · intro i s hm
      obtain ⟨k1, k2, k3, k4⟩ := h.sent i s (hmem i s hm)
      simp only [Coordinator.createTxn, List.mem_cons, not_or]
      exact ⟨by omega, ⟨by omega, k2⟩, k3, k4⟩
    · rw [List.filterMap_append]; simpa [List.filterMap_cons, sentCorr] using h.nodup
    · exact fun i s s' x y => h.once i s s' (hmem i s x) (hmem i s' y)
    · intro i o hi
      simp only [Coordinator.createTxn] at hi
      rw [AMap.get_set] at hi
      split at hi
      · simp at hi
      · exact (h.done i o hi).push _
    · exact h.errors
  | @process i qs hd co ho hs =>
    obtain ⟨ps, hps⟩ := h.opened i ho
    simp only [Coordinator.process, hps, Run.ok.injEq] at hs
    subst hs
    have hmem : ∀ j s, MEvent.commit j s ∈ evs ++ [.process i qs hd] → MEvent.commit j s ∈ evs := by
      intro j s hm; simpa using hm
    have hne : ∀ j s, c.m.coord.txns.get j = some s → (∀ ps, s ≠ .preparing ps) → i ≠ j := by
      rintro j s hj hn rfl; rw [hps] at hj; cases hj; exact hn ps rfl
    constructor
    · intro j s hj
      dsimp only at hj ⊢
      rw [AMap.get_set] at hj
      split at hj
      · rename_i hij; subst hij; exact h.le _ _ hps
      · exact h.le j s hj
    · intro j hj
      dsimp only at hj ⊢
      rw [AMap.get_set]
      split
      · exact ⟨_, rfl⟩
      · exact h.opened j hj
    · intro j x hx
      obtain ⟨k1, k2, ⟨s, k3⟩, k4, k5⟩ := h.commits j x hx
      have hij : i ≠ j := by
        rintro rfl
        cases hx : x.outcome with
        | none => rcases k4 hx with ⟨o, ho⟩ | ⟨o, ho⟩ <;> (rw [hps] at ho; cases ho)
        | some o => rw [(k5 o hx).1] at hps; cases hps
      dsimp only
      rw [AMap.get_set_ne _ _ hij]
      exact ⟨k1, k2, ⟨s, by simp [k3]⟩, k4, fun o ho => ⟨(k5 o ho).1, (k5 o ho).2.push _⟩⟩
    · intro corr j hj
      dsimp only at hj ⊢
      obtain ⟨k1, ops, a, b, k2, k3⟩ := h.corr corr j hj
      exact ⟨k1, ops, a, b ++ [.process i qs hd], by rw [AMap.get_set_ne _ _ (hne _ _ k2 (by simp))]; exact k2, by simp [k3]⟩
    · intro j ops hj
      dsimp only at hj ⊢
      rw [AMap.get_set] at hj
      split at hj
      · simp at hj
      · exact h.committing j ops hj
    · exact h.inj
    · exact fun j s hm => h.sent j s (hmem j s hm)
    · rw [List.filterMap_append]; simpa [List.filterMap_cons, sentCorr] using h.nodup
    · exact fun j s s' x y => h.once j s s' (hmem j s x) (hmem j s' y)
    · intro j o hj
      dsimp only at hj
      rw [AMap.get_set] at hj
      split at hj
      · simp at hj
      · exact (h.done j o hj).push _
    · exact h.errors
  | pending ho hs => exact h.keep (by simp) rfl rfl rfl rfl rfl rfl h.errors
  | @commit i co ho hs =>
    obtain ⟨ps, hps, ha, rfl⟩ := commit_cases hs
    dsimp only
    rw [List.drop_append_of_le_length (Nat.le_refl _), List.drop_length, List.nil_append]
    generalize (ps.flatMap fun p => p.tablets.map fun e => e.2.op) = ops at hs ⊢
    have hnc : ∀ s, MEvent.commit i s ∉ evs := fun s hm => (h.sent i s hm).2.1 ho
    have hmem : ∀ j s, MEvent.commit j s ∈ evs ++ [.commit i [(c.m.coord.correlation + 1, ops)]] →
        (j ≠ i ∧ MEvent.commit j s ∈ evs) ∨ (j = i ∧ s = [(c.m.coord.correlation + 1, ops)]) := by
      intro j s hm
      rcases List.mem_append.mp hm with hm1 | hm
      · exact .inl ⟨by rintro rfl; exact hnc s hm1, hm1⟩
      · simp only [List.mem_singleton, MEvent.commit.injEq] at hm; exact .inr hm
    have hnew : c.m.coord.correlations.get (c.m.coord.correlation + 1) = none := by
      cases hg : c.m.coord.correlations.get (c.m.coord.correlation + 1) with
      | none => rfl
      | some j => have := (h.corr _ _ hg).1; omega
    constructor
    · intro j s hj
      dsimp only at hj ⊢
      rw [AMap.get_set] at hj
      split at hj
      · rename_i hij; subst hij; exact h.le _ _ hps
      · exact h.le j s hj
    · intro j hj
      obtain ⟨hj, hne⟩ := List.mem_filter.mp hj
      have hne : j ≠ i := by simpa using hne
      dsimp only
      rw [AMap.get_set_ne _ _ (Ne.symm hne)]
      exact h.opened j hj
    · intro j x hx
      dsimp only at hx ⊢
      rw [AMap.get_set] at hx
      split at hx
      · rename_i hij
        subst hij
        simp only [Option.some.injEq] at hx
        subst hx
        exact ⟨rfl, h.le _ _ hps, ⟨_, List.mem_append.mpr (.inr (List.mem_singleton.mpr rfl))⟩, fun _ => .inl ⟨ops, by simp⟩, fun o ho => by simp at ho⟩
      · rename_i hij
        obtain ⟨k1, k2, ⟨s, k3⟩, k4, k5⟩ := h.commits j x hx
        rw [AMap.get_set_ne _ _ hij]
        exact ⟨k1, k2, ⟨s, by simp [k3]⟩, k4, fun o ho => ⟨(k5 o ho).1, (k5 o ho).2.push _⟩⟩
    · intro corr j hj
      dsimp only at hj ⊢
      rw [AMap.get_set] at hj
      split at hj
      · rename_i hij
        simp only [Option.some.injEq] at hj
        subst hj
        exact ⟨by omega, ops, evs, [], by simp, by simp [hij]⟩
      · obtain ⟨k1, ops1, a, b, k2, k3⟩ := h.corr corr j hj
        have : i ≠ j := by rintro rfl; rw [hps] at k2; cases k2
        exact ⟨by omega, ops1, a, b ++ [.commit i [(c.m.coord.correlation + 1, ops)]], by rw [AMap.get_set_ne _ _ this]; exact k2, by simp [k3]⟩
    · intro j ops1 hj
      dsimp only at hj ⊢
      rw [AMap.get_set] at hj
      split at hj
      · rename_i hij; exact ⟨c.m.coord.correlation + 1, by simp [hij]⟩
      · obtain ⟨k, hk⟩ := h.committing j ops1 hj
        exact ⟨k, by rw [AMap.get_set_ne _ _ (by rintro rfl; rw [hnew] at hk; cases hk)]; exact hk⟩
    · intro k k' j hk hk'
      dsimp only at hk hk'
      rw [AMap.get_set] at hk hk'
      split at hk <;> split at hk'
      · omega
      · simp only [Option.some.injEq] at hk
        subst hk
        obtain ⟨_, ops1, _, _, k2, _⟩ := h.corr _ _ hk'
        rw [hps] at k2; cases k2
      · simp only [Option.some.injEq] at hk'
        subst hk'
        obtain ⟨_, ops1, _, _, k2, _⟩ := h.corr _ _ hk
        rw [hps] at k2; cases k2
      · exact h.inj _ _ _ hk hk'
    · intro j s hm
      rcases hmem j s hm with ⟨hne, hm⟩ | ⟨rfl, rfl⟩
      · obtain ⟨k1, k2, k3, corr, ops1, k4, k5⟩ := h.sent j s hm
        refine ⟨k1, fun hh => k2 (List.mem_filter.mp hh).1, ?_, corr, ops1, k4, Nat.le_succ_of_le k5⟩
        dsimp only
        rw [AMap.get_set_ne _ _ (Ne.symm hne)]; exact k3
      · refine ⟨h.le _ _ hps, fun hh => ?_, by simp, _, _, rfl, Nat.le_refl _⟩
        have := (List.mem_filter.mp hh).2
        simp at this
    · rw [List.filterMap_append, List.nodup_append]
      refine ⟨h.nodup, by simp [sentCorr], fun x hx y hy => ?_⟩
      simp [sentCorr] at hy
      subst hy
      obtain ⟨j, ops1, hm⟩ := sentCorr_mem hx
      obtain ⟨_, _, _, corr, ops2, k4, k5⟩ := h.sent j _ hm
      simp only [List.cons.injEq, Prod.mk.injEq, and_true] at k4
      omega
    · intro j s s' x y
      rcases hmem j s x with ⟨hne, hm⟩ | ⟨rfl, rfl⟩
      · rcases hmem j s' y with ⟨_, hm'⟩ | ⟨h1, _⟩
        · exact h.once j s s' hm hm'
        · exact absurd h1 hne
      · rcases hmem _ s' y with ⟨h1, _⟩ | ⟨_, h1⟩
        · exact absurd rfl h1
        · exact h1.symm
    · intro j o hj
      dsimp only at hj
      rw [AMap.get_set] at hj
      split at hj
      · simp at hj
      · exact (h.done j o hj).push _
    · exact h.errors
  | @abort i ho =>
    obtain ⟨ps, hps⟩ := h.opened i ho
    have hmem : ∀ j s, MEvent.commit j s ∈ evs ++ [.abort i] → MEvent.commit j s ∈ evs := by
      intro j s hm; simpa using hm
    have hne : ∀ j s, c.m.coord.txns.get j = some s → (∀ ps, s ≠ .preparing ps) → i ≠ j := by
      rintro j s hj hn rfl; rw [hps] at hj; cases hj; exact hn ps rfl
    constructor
    · exact fun j s hj => h.le j s (get_erase_some hj).1
    · intro j hj
      obtain ⟨hj, hn⟩ := List.mem_filter.mp hj
      have hn : j ≠ i := by simpa using hn
      simp only [Coordinator.abort]
      rw [AMap.get_erase_ne _ (Ne.symm hn)]
      exact h.opened j hj
    · intro j x hx
      obtain ⟨k1, k2, ⟨s, k3⟩, k4, k5⟩ := h.commits j x hx
      refine ⟨k1, k2, ⟨s, by simp [k3]⟩, fun hn => ?_, fun o ho => ⟨?_, (k5 o ho).2.push _⟩⟩
      · simp only [Coordinator.abort]
        rcases k4 hn with ⟨o, ho⟩ | ⟨o, ho⟩
        · exact .inl ⟨o, by rw [AMap.get_erase_ne _ (hne _ _ ho (by simp))]; exact ho⟩
        · exact .inr ⟨o, by rw [AMap.get_erase_ne _ (hne _ _ ho (by simp))]; exact ho⟩
      · simp only [Coordinator.abort]
        rw [AMap.get_erase]
        split
        · rfl
        · exact (k5 o ho).1
    · intro corr j hj
      obtain ⟨k1, ops, a, b, k2, k3⟩ := h.corr corr j hj
      exact ⟨k1, ops, a, b ++ [.abort i], by simp only [Coordinator.abort]; rw [AMap.get_erase_ne _ (hne _ _ k2 (by simp))]; exact k2, by simp [k3]⟩
    · exact fun j ops hj => h.committing j ops (get_erase_some hj).1
    · exact h.inj
    · intro j s hm
      obtain ⟨k1, k2, k3, k4⟩ := h.sent j s (hmem j s hm)
      exact ⟨k1, fun hh => k2 (List.mem_filter.mp hh).1, k3, k4⟩
    · rw [List.filterMap_append]; simpa [List.filterMap_cons, sentCorr] using h.nodup
    · exact fun j s s' x y => h.once j s s' (hmem j s x) (hmem j s' y)
    · exact fun j o hj => (h.done j o (get_erase_some hj).1).push _
    · exact h.errors
  | @check i x x' m ho hs =>
    obtain ⟨k1, k2, ⟨s, k3⟩, k4, k5⟩ := h.commits i x ho
    have hmem : ∀ j s, MEvent.commit j s ∈ evs ++ [.check i x'.outcome] → MEvent.commit j s ∈ evs := by
      intro j s hm; simpa using hm
    have hcommits : ∀ j y, (c.commits.set i x').get j = some y → (i = j ∧ y = x') ∨ (i ≠ j ∧ c.commits.get j = some y) := by
      intro j y hy
      rw [AMap.get_set] at hy
      split at hy
      · rename_i hij; exact .inl ⟨hij, by simpa using hy.symm⟩
      · rename_i hij; exact .inr ⟨hij, hy⟩
    unfold Commit.check at hs
    cases hx : x.outcome with
    | some o =>
      simp only [hx, Run.ok.injEq, Prod.mk.injEq] at hs
      obtain ⟨rfl, rfl⟩ := hs
      have hset : ∀ j, (c.commits.set i x).get j = c.commits.get j := by
        intro j
        rw [AMap.get_set]
        split
        · rename_i hij; rw [← hij, ho]
        · rfl
      have hk := h.keep (c' := c) (ev := .check i x.outcome) (by simp) rfl rfl rfl rfl rfl rfl h.errors
      exact ⟨hk.le, hk.opened, fun j y hy => hk.commits j y (by rw [← hset]; exact hy), hk.corr, hk.committing, hk.inj,
        fun j s hm => (by rw [hset]; exact hk.sent j s hm), hk.nodup, hk.once, hk.done, hk.errors⟩
    | none =>
      simp only [hx] at hs
      obtain ⟨⟨co, r⟩, h1, h2⟩ := Run.bind_eq_ok.mp hs
      simp only [Run.ok.injEq, Prod.mk.injEq] at h2
      obtain ⟨rfl, rfl⟩ := h2
      rw [k1] at h1
      rcases k4 hx with ⟨ops, hops⟩ | ⟨o, hops⟩
      · simp only [Coordinator.check, hops, Run.ok.injEq, Prod.mk.injEq] at h1
        obtain ⟨rfl, rfl⟩ := h1
        have hset : ∀ j, (c.commits.set i { x with outcome := none }).get j = c.commits.get j := by
          intro j
          rw [AMap.get_set]
          split
          · rename_i hij
            rw [← hij, ho, ← hx]
          · rfl
        have hk := h.keep (c' := c) (ev := .check i none) (by simp) rfl rfl rfl rfl rfl rfl h.errors
        exact ⟨hk.le, hk.opened, fun j y hy => hk.commits j y (by rw [← hset]; exact hy), hk.corr, hk.committing, hk.inj,
          fun j s hm => (by rw [hset]; exact hk.sent j s hm), hk.nodup, hk.once, hk.done, hk.errors⟩
      · simp only [Coordinator.check, hops, Run.ok.injEq, Prod.mk.injEq] at h1
        obtain ⟨rfl, rfl⟩ := h1
        have hne : ∀ j s, c.m.coord.txns.get j = some s → (∀ o, s ≠ .completed o) → i ≠ j := by
          rintro j s hj hn rfl; rw [hops] at hj; cases hj; exact hn _ rfl
        constructor
        · exact fun j s hj => h.le j s (get_erase_some hj).1
        · intro j hj
          obtain ⟨ps, hps⟩ := h.opened j hj
          exact ⟨ps, by dsimp only; rw [AMap.get_erase_ne _ (hne _ _ hps (by simp))]; exact hps⟩
        · intro j y hy
          rcases hcommits j y hy with ⟨rfl, rfl⟩ | ⟨hij, hy⟩
          · refine ⟨k1, k2, ⟨s, by simp [k3]⟩, by simp, fun o' ho' => ⟨by simp, ?_⟩⟩
            simp only [Option.some.injEq] at ho'
            subst ho'
            exact (h.done _ _ hops).push _
          · obtain ⟨l1, l2, ⟨s', l3⟩, l4, l5⟩ := h.commits j y hy
            dsimp only
            rw [AMap.get_erase_ne _ hij]
            exact ⟨l1, l2, ⟨s', by simp [l3]⟩, l4, fun o ho => ⟨(l5 o ho).1, (l5 o ho).2.push _⟩⟩
        · intro corr j hj
          obtain ⟨l1, ops, a, b, l2, l3⟩ := h.corr corr j hj
          exact ⟨l1, ops, a, b ++ [.check i (some o)], by dsimp only; rw [AMap.get_erase_ne _ (hne _ _ l2 (by simp))]; exact l2, by simp [l3]⟩
        · exact fun j ops hj => h.committing j ops (get_erase_some hj).1
        · exact h.inj
        · intro j s hm
          obtain ⟨l1, l2, l3, l4⟩ := h.sent j s (hmem j s hm)
          refine ⟨l1, l2, ?_, l4⟩
          dsimp only
          rw [AMap.get_set]
          split
          · rfl
          · exact l3
        · rw [List.filterMap_append]; simpa [List.filterMap_cons, sentCorr] using h.nodup
        · exact fun j s s' x y => h.once j s s' (hmem j s x) (hmem j s' y)
        · exact fun j o hj => (h.done j o (get_erase_some hj).1).push _
        · exact h.errors
  | @resolve qs m hs =>
    unfold Manager.resolve at hs
    obtain ⟨md, _, h2⟩ := Run.bind_eq_ok.mp hs
    simp only [Run.ok.injEq] at h2
    subst h2
    exact h.keep (by simp) rfl rfl rfl rfl rfl rfl h.errors
  | @input i m hs =>
    cases i with
    | data r =>
      simp only [Manager.processIn] at hs
      obtain ⟨d, _, h2⟩ := Run.bind_eq_ok.mp hs
      simp only [Run.ok.injEq] at h2
      subst h2
      exact h.keep (by simp) rfl rfl rfl rfl rfl rfl h.errors
    | response corr r => exact opsResponse_inv h hs (.inl rfl)
    | error corr =>
      simp only [Manager.processIn] at hs
      cases hg : c.m.errors.get corr with
      | none =>
        simp only [hg, Run.ok.injEq] at hs
        subst hs
        exact h.keep (by simp) rfl rfl rfl rfl rfl rfl h.errors
      | some r =>
        simp only [hg] at hs
        exact opsResponse_inv h hs (.inr ⟨rfl, h.errors corr r hg⟩)
  | @progress m hs =>
    unfold Manager.makeProgress at hs
    obtain ⟨md, _, h2⟩ := Run.bind_eq_ok.mp hs
    obtain ⟨d, _, h3⟩ := Run.bind_eq_ok.mp h2
    obtain ⟨⟨ts, w⟩, h4, h5⟩ := Run.bind_eq_ok.mp h3
    simp only [Run.ok.injEq] at h5
    subst h5
    obtain ⟨_, _, he⟩ := stepTxns_each h4
    have hmem : ∀ j s, MEvent.commit j s ∈ evs ++ [.progress] → MEvent.commit j s ∈ evs := by
      intro j s hm; simpa using hm
    have hrev : ∀ j s, ts.get j = some s → ∃ s0, c.m.coord.txns.get j = some s0 ∧ (s0 = s ∨ ((∃ ps, s0 = .preparing ps) ∧ ∃ ps, s = .preparing ps)) := by
      intro j s hj
      cases hg : c.m.coord.txns.get j with
      | none => rw [(he j).1 hg] at hj; cases hj
      | some s0 =>
        obtain ⟨s', h6, h7⟩ := (he j).2 s0 hg
        rw [hj] at h6
        cases h6
        refine ⟨s0, rfl, ?_⟩
        cases s0 with
        | preparing ps => obtain ⟨ps', h8, _⟩ := h7; exact .inr ⟨⟨ps, rfl⟩, ps', h8⟩
        | committing ops => exact .inl h7
        | completed o => exact .inl h7
    have hkeep : ∀ j s, c.m.coord.txns.get j = some s → (∀ ps, s ≠ .preparing ps) → ts.get j = some s := by
      intro j s hj hn
      obtain ⟨s', h6, h7⟩ := (he j).2 s hj
      cases s with
      | preparing ps => exact absurd rfl (hn ps)
      | committing ops => rw [h6]; exact congrArg some (Eq.symm h7)
      | completed o => rw [h6]; exact congrArg some (Eq.symm h7)
    constructor
    · intro j s hj
      obtain ⟨s0, h6, _⟩ := hrev j s hj
      exact h.le j s0 h6
    · intro j hj
      obtain ⟨ps, hps⟩ := h.opened j hj
      obtain ⟨s', h6, ps', h7, _⟩ := (he j).2 _ hps
      exact ⟨ps', by rw [← h7]; exact h6⟩
    · intro j x hx
      obtain ⟨k1, k2, ⟨s, k3⟩, k4, k5⟩ := h.commits j x hx
      refine ⟨k1, k2, ⟨s, by simp [k3]⟩, fun hn => ?_, fun o ho => ⟨(he j).1 (k5 o ho).1, (k5 o ho).2.push _⟩⟩
      rcases k4 hn with ⟨o, ho⟩ | ⟨o, ho⟩
      · exact .inl ⟨o, hkeep _ _ ho (by simp)⟩
      · exact .inr ⟨o, hkeep _ _ ho (by simp)⟩
    · intro corr j hj
      obtain ⟨k1, ops, a, b, k2, k3⟩ := h.corr corr j hj
      exact ⟨k1, ops, a, b ++ [.progress], hkeep _ _ k2 (by simp), by simp [k3]⟩
    · intro j ops hj
      obtain ⟨s0, h6, h7 | ⟨_, ps, h7⟩⟩ := hrev j _ hj
      · subst h7; exact h.committing j ops h6
      · cases h7
    · exact h.inj
    · exact fun j s hm => h.sent j s (hmem j s hm)
    · rw [List.filterMap_append]; simpa [List.filterMap_cons, sentCorr] using h.nodup
    · exact fun j s s' x y => h.once j s s' (hmem j s x) (hmem j s' y)
    · intro j o hj
      obtain ⟨s0, h6, h7 | ⟨_, ps, h7⟩⟩ := hrev j _ hj
      · subst h7; exact (h.done j o h6).push _
      · cases h7
    · exact h.errors
  | @take m outs hs =>
    unfold Manager.takeOut at hs
    obtain ⟨es, h1, h2⟩ := Run.bind_eq_ok.mp hs
    simp only [Run.ok.injEq, Prod.mk.injEq] at h2
    obtain ⟨rfl, rfl⟩ := h2
    exact h.keep (by simp) rfl rfl rfl rfl rfl rfl (rememberErrors_ok h.errors h1)

theorem cinv_steps {env : TxnEnv α η ω} {evs more : List (MEvent η)} {c c' : Client α η ω} (h : CInv evs c) (hs : MSteps env c more c') :
    CInv (evs ++ more) c' := by
  induction hs with
  | refl => simpa using h
  | step _ hs ih => rw [← List.append_assoc]; exact cinv_step ih hs

theorem cinv_create (co md d : Nat) (w : ω) : CInv [] (⟨.create co md d w, [], []⟩ : Client α η ω) := by
  constructor <;> simp [Manager.create, Coordinator.create]

theorem history_cinv {env : TxnEnv α η ω} {evs : List (MEvent η)} {c : Client α η ω} (h : MHistory env evs c) : CInv evs c := by
  obtain ⟨co, md, d, w, hs⟩ := h
  simpa using cinv_steps (cinv_create co md d w) hs

end TCP.Cache
