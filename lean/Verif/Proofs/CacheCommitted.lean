import Verif.Proofs.CacheStore

/-!
# The store of the tablet cache uses its transaction manager as a client does
-/

namespace TCP.Cache

open TCP TCP.TabletStore TCP.Cache.Spec

/-- What the store remembers about a transaction is what its client holds. -/
structure TLink (cl : Client Bytes Unit KvCore) (i : Nat) (t : TxnTracker) : Prop where
  opened : ∀ j, t.txn = some j → j = i ∧ i ∈ cl.opened
  commit : ∀ k, t.commit = some k → k.txn = i ∧ cl.commits.get i = some k

theorem commitTxns_sim {tenv : TxnEnv Bytes Unit KvCore} : ∀ {ts : AMap Nat TxnTracker} {cl : Client Bytes Unit KvCore} {y : Coordinator Bytes Unit × AMap Nat TxnTracker},
    commitTxns cl.m.coord ts = .ok y → ts.WF → (∀ e ∈ ts, TLink cl e.1 e.2) →
    ∃ mevs cl', MSteps tenv cl mevs cl' ∧ (∀ e ∈ mevs, ∃ i s, e = MEvent.commit i s) ∧ cl'.m = { cl.m with coord := y.1 } ∧
      (∀ e ∈ y.2, TLink cl' e.1 e.2) ∧ y.2.keys = ts.keys ∧
      (∀ i t, i ∉ ts.keys → TLink cl i t → TLink cl' i t) ∧
      ∀ e ∈ y.2, ∃ t, (e.1, t) ∈ ts ∧ t.responses = e.2.responses ∧ (e.2.commit = t.commit ∨ ∃ s, .commit e.1 s ∈ mevs) := by
  intro ts
  induction ts with
  | nil =>
    intro cl y h _ _
    simp only [commitTxns, Run.ok.injEq] at h
    subst h
    exact ⟨[], cl, .refl, by simp, rfl, by simp, rfl, fun _ _ _ h => h, by simp⟩
  | cons e rest ih =>
    obtain ⟨i, t⟩ := e
    intro cl y h hwf hl
    have hwf' : AMap.WF rest := by
      unfold AMap.WF at hwf ⊢
      simp only [AMap.keys_cons, List.nodup_cons] at hwf
      exact hwf.2
    have hnot : i ∉ AMap.keys rest := by
      unfold AMap.WF at hwf
      simp only [AMap.keys_cons, List.nodup_cons] at hwf
      exact hwf.1
    have hrest : ∀ e ∈ rest, TLink cl e.1 e.2 := fun e he => hl e (by simp [he])
    have hhead := hl (i, t) (by simp)
    have skip : ((commitTxns cl.m.coord rest).bind fun y => Run.ok (y.1, (i, t) :: y.2)) = .ok y →
        ∃ mevs cl', MSteps tenv cl mevs cl' ∧ (∀ e ∈ mevs, ∃ i s, e = MEvent.commit i s) ∧ cl'.m = { cl.m with coord := y.1 } ∧
          (∀ e ∈ y.2, TLink cl' e.1 e.2) ∧ y.2.keys = AMap.keys ((i, t) :: rest) ∧
          (∀ i' t', i' ∉ AMap.keys ((i, t) :: rest) → TLink cl i' t' → TLink cl' i' t') ∧
          ∀ e ∈ y.2, ∃ t', (e.1, t') ∈ (i, t) :: rest ∧ t'.responses = e.2.responses ∧ (e.2.commit = t'.commit ∨ ∃ s, .commit e.1 s ∈ mevs) := by
      intro h
      obtain ⟨z, h1, h2⟩ := Run.bind_eq_ok.mp h
      simp only [Run.ok.injEq] at h2
      obtain ⟨mevs, cl', k1, k2, k3, k4, k5, k6, k7⟩ := ih h1 hwf' hrest
      rw [← h2]
      refine ⟨mevs, cl', k1, k2, k3, ?_, by simp [AMap.keys_cons, k5], fun i' t' hn => k6 i' t' ?_, ?_⟩
      · intro e he
        rcases List.mem_cons.mp he with rfl | he
        · exact k6 i t hnot hhead
        · exact k4 e he
      · simp only [AMap.keys_cons, List.mem_cons, not_or] at hn; exact hn.2
      · intro e he
        rcases List.mem_cons.mp he with rfl | he
        · exact ⟨t, by simp, rfl, .inl rfl⟩
        · obtain ⟨t', g1, g2, g3⟩ := k7 e he
          exact ⟨t', by simp [g1], g2, g3⟩
    cases hk : t.commit with
    | some k => simp only [commitTxns, hk] at h; exact skip h
    | none =>
      cases ht : t.txn with
      | none => simp only [commitTxns, hk, ht] at h; exact skip h
      | some j =>
        simp only [commitTxns, hk, ht] at h
        obtain ⟨b, h1, h2⟩ := Run.bind_eq_ok.mp h
        cases b with
        | true => simp only [if_true] at h2; exact skip h2
        | false =>
          simp only [Bool.false_eq_true, if_false] at h2
          obtain ⟨co', h3, h4⟩ := Run.bind_eq_ok.mp h2
          obtain ⟨z, h5, h6⟩ := Run.bind_eq_ok.mp h4
          simp only [Run.ok.injEq] at h6
          obtain ⟨rfl, ho⟩ := hhead.opened j ht
          have hstep : MStep tenv cl _ _ := MStep.commit ho h3
          have keep : ∀ i' t', i' ≠ j → TLink cl i' t' →
              TLink { m := { cl.m with coord := co' }, opened := cl.opened.filter (· ≠ j), commits := cl.commits.set j ⟨j, none⟩ } i' t' := by
            intro i' t' hne hl'
            constructor
            · intro j' hj'
              obtain ⟨e, m⟩ := hl'.opened j' hj'
              exact ⟨e, by simp [m, hne]⟩
            · intro k hk'
              obtain ⟨e, m⟩ := hl'.commit k hk'
              exact ⟨e, by dsimp only; rw [AMap.get_set_ne _ _ (Ne.symm hne)]; exact m⟩
          have hne : ∀ e ∈ rest, e.1 ≠ j := fun e he hej => hnot (by rw [← hej]; exact List.mem_map_of_mem (f := Prod.fst) he)
          obtain ⟨mevs, cl', k1, k2, k3, k4, k5, k6, k7⟩ := ih (cl := { m := { cl.m with coord := co' }, opened := cl.opened.filter (· ≠ j), commits := cl.commits.set j ⟨j, none⟩ })
            h5 hwf' (fun e he => keep e.1 e.2 (hne e he) (hrest e he))
          rw [← h6]
          refine ⟨_, cl', (MSteps.single hstep).append k1, ?_, k3, ?_, by simp [AMap.keys_cons, k5], ?_, ?_⟩
          · intro e he
            rcases List.mem_append.mp he with he | he
            · rw [List.mem_singleton.mp he]; exact ⟨_, _, rfl⟩
            · exact k2 e he
          · intro e he
            rcases List.mem_cons.mp he with rfl | he
            · refine k6 j _ hnot ⟨by simp, ?_⟩
              intro k hk'
              simp only [Option.some.injEq] at hk'
              subst hk'
              exact ⟨rfl, by simp⟩
            · exact k4 e he
          · intro i' t' hn hl'
            simp only [AMap.keys_cons, List.mem_cons, not_or] at hn
            exact k6 i' t' hn.2 (keep i' t' hn.1 hl')
          · intro e he
            rcases List.mem_cons.mp he with rfl | he
            · exact ⟨t, by simp, rfl, .inr ⟨_, List.mem_append_left _ (List.mem_singleton.mpr rfl)⟩⟩
            · obtain ⟨t', g1, g2, g3⟩ := k7 e he
              refine ⟨t', by simp [g1], g2, ?_⟩
              rcases g3 with g3 | ⟨s, g3⟩
              · exact .inl g3
              · exact .inr ⟨s, by simp [g3]⟩

theorem finalizeTxns_sim {tenv : TxnEnv Bytes Unit KvCore} : ∀ {ts : AMap Nat TxnTracker} {cl : Client Bytes Unit KvCore} {y : Sys × AMap Nat TxnTracker × List UInt32 × List KvResponse},
    finalizeTxns cl.m ts = .ok y → ts.WF → (∀ e ∈ ts, TLink cl e.1 e.2) →
    ∃ mevs cl', MSteps tenv cl mevs cl' ∧ (∀ e ∈ mevs, ∃ i o, e = MEvent.check i o) ∧ cl'.m = y.1 ∧
      (∀ e ∈ y.2.1, TLink cl' e.1 e.2) ∧ y.2.1.WF ∧ (∀ e ∈ y.2.1, e.1 ∈ ts.keys ∧ ∃ t, (e.1, t) ∈ ts ∧ t.responses = e.2.responses ∧ t.commit.isSome = e.2.commit.isSome) ∧
      (∀ i t, i ∉ ts.keys → TLink cl i t → TLink cl' i t) ∧
      ∀ r ∈ y.2.2.2, ∃ e ∈ ts, r ∈ e.2.responses ∧ e.2.commit.isSome ∧ .check e.1 (some .succeeded) ∈ mevs := by
  intro ts
  induction ts with
  | nil =>
    intro cl y h _ _
    simp only [finalizeTxns, Run.ok.injEq] at h
    subst h
    exact ⟨[], cl, .refl, by simp, rfl, by simp, AMap.WF.nil, by simp, fun _ _ _ h => h, by simp⟩
  | cons e rest ih =>
    obtain ⟨i, t⟩ := e
    intro cl y h hwf hl
    have hwf' : AMap.WF rest := by
      unfold AMap.WF at hwf ⊢
      simp only [AMap.keys_cons, List.nodup_cons] at hwf
      exact hwf.2
    have hnot : i ∉ AMap.keys rest := by
      unfold AMap.WF at hwf
      simp only [AMap.keys_cons, List.nodup_cons] at hwf
      exact hwf.1
    have hrest : ∀ e ∈ rest, TLink cl e.1 e.2 := fun e he => hl e (by simp [he])
    have hhead := hl (i, t) (by simp)
    have hcons : ∀ (l : AMap Nat TxnTracker) (t' : TxnTracker), l.WF → (∀ e ∈ l, e.1 ∈ AMap.keys rest ∧ ∃ t, (e.1, t) ∈ rest ∧ t.responses = e.2.responses ∧ t.commit.isSome = e.2.commit.isSome) → AMap.WF ((i, t') :: l) := by
      intro l t' h1 h2
      unfold AMap.WF at h1 ⊢
      simp only [AMap.keys_cons, List.nodup_cons]
      refine ⟨fun hm => ?_, h1⟩
      obtain ⟨e, g1, g2⟩ := List.mem_map.mp hm
      exact hnot (by rw [← g2]; exact (h2 e g1).1)
    cases hk : t.commit with
    | none =>
      simp only [finalizeTxns, hk] at h
      obtain ⟨z, h1, h2⟩ := Run.bind_eq_ok.mp h
      simp only [Run.ok.injEq] at h2
      obtain ⟨mevs, cl', k1, k2, k3, k4, k5, k6, k7, k8⟩ := ih h1 hwf' hrest
      rw [← h2]
      refine ⟨mevs, cl', k1, k2, k3, ?_, hcons _ _ k5 k6, ?_, fun i' t' hn => k7 i' t' ?_, ?_⟩
      · intro e he
        rcases List.mem_cons.mp he with rfl | he
        · exact k7 i t hnot hhead
        · exact k4 e he
      · intro e he
        rcases List.mem_cons.mp he with rfl | he
        · exact ⟨by simp [AMap.keys_cons], t, by simp, rfl, rfl⟩
        · obtain ⟨q1, t', q2, q3⟩ := k6 e he
          simp only [AMap.keys_cons, List.mem_cons]; exact ⟨.inr q1, t', .inr q2, q3⟩
      · simp only [AMap.keys_cons, List.mem_cons, not_or] at hn; exact hn.2
      · intro r hr
        obtain ⟨e, g1, g2, g4, g3⟩ := k8 r hr
        exact ⟨e, by simp [g1], g2, g4, g3⟩
    | some k =>
      simp only [finalizeTxns, hk] at h
      obtain ⟨⟨k', s'⟩, h1, h2⟩ := Run.bind_eq_ok.mp h
      obtain ⟨hki, hkc⟩ := hhead.commit k hk
      have hstep : MStep tenv cl (.check i k'.outcome) { cl with m := s', commits := cl.commits.set i k' } := MStep.check hkc h1
      have hk' : k'.txn = i := by
        unfold Commit.check at h1
        split at h1
        · simp only [Run.ok.injEq, Prod.mk.injEq] at h1; rw [← h1.1]; exact hki
        · obtain ⟨x, _, g⟩ := Run.bind_eq_ok.mp h1
          simp only [Run.ok.injEq, Prod.mk.injEq] at g; rw [← g.1]; exact hki
      have keep : ∀ i' t', i' ≠ i → TLink cl i' t' → TLink { cl with m := s', commits := cl.commits.set i k' } i' t' := by
        intro i' t' hne hl'
        constructor
        · intro j' hj'
          exact hl'.opened j' hj'
        · intro k hk'
          obtain ⟨e, m⟩ := hl'.commit k hk'
          exact ⟨e, by dsimp only; rw [AMap.get_set_ne _ _ (Ne.symm hne)]; exact m⟩
      have hne : ∀ e ∈ rest, e.1 ≠ i := fun e he hej => hnot (by rw [← hej]; exact List.mem_map_of_mem (f := Prod.fst) he)
      cases ho : k'.outcome with
      | none =>
        simp only [ho] at h2
        obtain ⟨z, h3, h4⟩ := Run.bind_eq_ok.mp h2
        simp only [Run.ok.injEq] at h4
        obtain ⟨mevs, cl', k1, k2, k3, k4, k5, k6, k7, k8⟩ := ih (cl := { cl with m := s', commits := cl.commits.set i k' }) h3 hwf'
          (fun e he => keep e.1 e.2 (hne e he) (hrest e he))
        rw [← h4]
        refine ⟨_, cl', (MSteps.single hstep).append k1, ?_, k3, ?_, hcons _ _ k5 k6, ?_, ?_, ?_⟩
        · intro e he
          rcases List.mem_append.mp he with he | he
          · rw [List.mem_singleton.mp he]; exact ⟨_, _, rfl⟩
          · exact k2 e he
        · intro e he
          rcases List.mem_cons.mp he with rfl | he
          · refine k7 i _ hnot ⟨hhead.opened, ?_⟩
            intro k2 hk2
            simp only [Option.some.injEq] at hk2
            subst hk2
            exact ⟨hk', by simp⟩
          · exact k4 e he
        · intro e he
          rcases List.mem_cons.mp he with rfl | he
          · exact ⟨by simp [AMap.keys_cons], t, by simp, rfl, by simp [hk]⟩
          · obtain ⟨q1, t', q2, q3⟩ := k6 e he
            simp only [AMap.keys_cons, List.mem_cons]; exact ⟨.inr q1, t', .inr q2, q3⟩
        · intro i' t' hn hl'
          simp only [AMap.keys_cons, List.mem_cons, not_or] at hn
          exact k7 i' t' hn.2 (keep i' t' hn.1 hl')
        · intro r hr
          obtain ⟨e, g1, g2, g4, g3⟩ := k8 r hr
          exact ⟨e, by simp [g1], g2, g4, by simp [g3]⟩
      | some o =>
        simp only [ho] at h2
        obtain ⟨z, h3, h4⟩ := Run.bind_eq_ok.mp h2
        simp only [Run.ok.injEq] at h4
        obtain ⟨mevs, cl', k1, k2, k3, k4, k5, k6, k7, k8⟩ := ih (cl := { cl with m := s', commits := cl.commits.set i k' }) h3 hwf'
          (fun e he => keep e.1 e.2 (hne e he) (hrest e he))
        rw [← h4]
        refine ⟨_, cl', (MSteps.single hstep).append k1, ?_, k3, k4, k5, ?_, ?_, ?_⟩
        · intro e he
          rcases List.mem_append.mp he with he | he
          · rw [List.mem_singleton.mp he]; exact ⟨_, _, rfl⟩
          · exact k2 e he
        · intro e he
          obtain ⟨q1, t', q2, q3⟩ := k6 e he
          simp only [AMap.keys_cons, List.mem_cons]; exact ⟨.inr q1, t', .inr q2, q3⟩
        · intro i' t' hn hl'
          simp only [AMap.keys_cons, List.mem_cons, not_or] at hn
          exact k7 i' t' hn.2 (keep i' t' hn.1 hl')
        · intro r hr
          dsimp only at hr
          rcases List.mem_append.mp hr with hr | hr
          · cases o with
            | failed => simp at hr
            | succeeded => exact ⟨(i, t), by simp, hr, by simp [hk], by simp [ho]⟩
          · obtain ⟨e, g1, g2, g4, g3⟩ := k8 r hr
            exact ⟨e, by simp [g1], g2, g4, by simp [g3]⟩

/-- The store and its manager against a manager and its clients. -/
structure KLink (s : Sys) (cl : Client Bytes Unit KvCore) : Prop where
  same : cl.m = s
  wf : s.world.shared.txns.WF
  txns : ∀ e ∈ s.world.shared.txns, TLink cl e.1 e.2

theorem KLink.app {tenv : TxnEnv Bytes Unit KvCore} {s : Sys} {cl : Client Bytes Unit KvCore} (h : KLink s cl) {c : KvCore} (hc : c.txns = s.world.shared.txns) :
    ∃ cl', MSteps tenv cl [.app] cl' ∧ KLink (s.withCore c) cl' := by
  obtain ⟨rfl, h2, h3⟩ := h
  refine ⟨_, .single (.app (w := c)), rfl, ?_, ?_⟩
  · simp only [Manager.withCore]; rw [hc]; exact h2
  · simp only [Manager.withCore]; rw [hc]
    exact fun e he => ⟨(h3 e he).opened, (h3 e he).commit⟩

theorem storeProgress_sim {env : KvEnv} {tenv : TxnEnv Bytes Unit KvCore} {s s' : Sys} {cl : Client Bytes Unit KvCore} (h : s.storeProgress env = .ok s') (hl : KLink s cl) :
    ∃ mevs cl', MSteps tenv cl mevs cl' ∧ mevs.filterMap wireM = [] ∧ KLink s' cl' ∧
      (∀ r ∈ s'.world.shared.responses, r ∈ s.world.shared.responses ∨
        ∃ i t, (i, t) ∈ s.world.shared.txns ∧ r ∈ t.responses ∧ .check i (some .succeeded) ∈ mevs) ∧
      ∀ e ∈ s'.world.shared.txns, e.1 ∈ s.world.shared.txns.keys ∨ ∃ qs, .process e.1 qs () ∈ mevs := by
  unfold Manager.storeProgress at h
  obtain ⟨s1, h1, h⟩ := Run.bind_eq_ok.mp h
  obtain ⟨s2, h2, h⟩ := Run.bind_eq_ok.mp h
  obtain ⟨x, h3, h⟩ := Run.bind_eq_ok.mp h
  obtain ⟨y, h4, h⟩ := Run.bind_eq_ok.mp h
  simp only [Run.ok.injEq] at h
  subst h
  have w1 : ∃ mevs cl', MSteps tenv cl mevs cl' ∧ mevs.filterMap wireM = [] ∧ KLink s1 cl' ∧
      s1.world.shared.txns = s.world.shared.txns ∧ s1.world.shared.responses = s.world.shared.responses := by
    unfold Manager.maybeResolve at h1
    dsimp only at h1
    split at h1
    · obtain ⟨s', k1, k2⟩ := Run.bind_eq_ok.mp h1
      split at k2
      · simp only [Run.ok.injEq] at k2
        subst k2
        obtain ⟨cl1, g1, g2⟩ := hl.app (tenv := tenv) (c := { (createQuery env s.world.shared s.world.shared.pending).1 with
          resolving := s.world.shared.resolving.set (createQuery env s.world.shared s.world.shared.pending).2.id s.world.shared.pending, pending := [] }) rfl
        have hsh := resolve_shared k1
        have g3 : MStep tenv cl1 (.resolve [(createQuery env s.world.shared s.world.shared.pending).2]) { cl1 with m := s' } := .resolve (by rw [g2.same]; exact k1)
        refine ⟨_, _, g1.append (.single g3), by simp [List.filterMap_cons, wireM], ⟨rfl, ?_, ?_⟩, ?_, ?_⟩
        · rw [hsh]; exact g2.wf
        · rw [hsh]; exact fun e he => ⟨(g2.txns e he).opened, (g2.txns e he).commit⟩
        · rw [hsh]; rfl
        · rw [hsh]; rfl
      · cases k2
    · simp only [Run.ok.injEq] at h1
      subst h1
      exact ⟨[], cl, .refl, rfl, hl, rfl, rfl⟩
  obtain ⟨mevs1, cl1, w1a, w1b, w1c, w1d, w1e⟩ := w1
  have w2 : ∃ mevs cl', MSteps tenv cl1 mevs cl' ∧ mevs.filterMap wireM = [] ∧ KLink s2 cl' ∧
      (∀ e ∈ s2.world.shared.txns, e ∈ s1.world.shared.txns ∨ e.2.responses = [] ∧ ∃ qs, .process e.1 qs () ∈ mevs) ∧ s2.world.shared.responses = s1.world.shared.responses := by
    obtain ⟨_, n, k2⟩ := collectProcess_weight env (true, 0) s1.world.shared.tablets s1.world.shared
    unfold Manager.maybeStart at h2
    dsimp only at h2
    split at h2
    · simp only [Run.ok.injEq] at h2
      subst h2
      obtain ⟨cl2, g1, g2⟩ := w1c.app (tenv := tenv) (c := { (collectProcess env s1.world.shared s1.world.shared.tablets).1 with
        tablets := (collectProcess env s1.world.shared s1.world.shared.tablets).2.1 }) (by rw [k2])
      refine ⟨_, cl2, g1, by simp [List.filterMap_cons, wireM], g2, ?_, ?_⟩
      · simp only [Manager.withCore, k2]; exact fun e he => .inl he
      · simp only [Manager.withCore, k2]
    · obtain ⟨co, h5, h6⟩ := Run.bind_eq_ok.mp h2
      simp only [Run.ok.injEq] at h6
      subst h6
      have hm := w1c.same
      have e1 : MStep tenv cl1 _ _ := .start
      rw [hm] at e1
      have e2 : MStep tenv { cl1 with m := { s1 with coord := s1.coord.createTxn.1 }, opened := s1.coord.createTxn.2 :: cl1.opened }
          (.process s1.coord.createTxn.2 (collectProcess env s1.world.shared s1.world.shared.tablets).2.2.1 ()) _ := .process (List.mem_cons_self) h5
      have e3 := MSteps.step (MSteps.step (MSteps.single e1) e2) (.app (w := { (collectProcess env s1.world.shared s1.world.shared.tablets).1 with
        tablets := (collectProcess env s1.world.shared s1.world.shared.tablets).2.1,
        txns := (collectProcess env s1.world.shared s1.world.shared.tablets).1.txns.set s1.coord.createTxn.2
          ⟨(collectProcess env s1.world.shared s1.world.shared.tablets).2.2.2, [], [], some s1.coord.createTxn.2, none⟩ }))
      refine ⟨_, _, e3, by simp [List.filterMap_cons, wireM], ⟨rfl, ?_, ?_⟩, ?_, ?_⟩
      · simp only [Manager.withCore, k2]; exact w1c.wf.set _ _
      · intro e he
        simp only [Manager.withCore, k2] at he
        rcases mem_set he with he | he
        · rw [he]
          refine ⟨?_, by simp⟩
          intro j hj
          simp only [Option.some.injEq] at hj
          exact ⟨hj.symm, by simp⟩
        · have := w1c.txns e he
          exact ⟨fun j hj => ⟨(this.opened j hj).1, List.mem_cons_of_mem _ (this.opened j hj).2⟩, this.commit⟩
      · intro e he
        simp only [Manager.withCore, k2] at he
        rcases mem_set he with he | he
        · exact .inr (by rw [he]; exact ⟨rfl, (collectProcess env s1.world.shared s1.world.shared.tablets).2.2.1, by simp⟩)
        · exact .inl he
      · simp only [Manager.withCore, k2]
  obtain ⟨mevs2, cl2, w2a, w2b, w2c, w2d, w2e⟩ := w2
  have hm2 := w2c.same
  obtain ⟨mevs3, cl3, c1, c2, c3, c4, c5, _, c7⟩ := commitTxns_sim (tenv := tenv) (cl := cl2) (by rw [hm2]; exact h3) w2c.wf w2c.txns
  have a1 : MStep tenv cl3 .app _ := .app (w := { s2.world.shared with txns := x.2 })
  have hm3 : ({ cl3.m with world := { cl3.m.world with shared := { s2.world.shared with txns := x.2 } } } : Sys) =
      Manager.withCore { s2 with coord := x.1 } { s2.world.shared with txns := x.2 } := by
    rw [c3, hm2]; rfl
  have hwf3 : AMap.WF x.2 := by unfold AMap.WF; rw [c5]; exact w2c.wf
  obtain ⟨mevs4, cl4, f1, f2, f3, f4, f5, f6, _, f8⟩ := finalizeTxns_sim (tenv := tenv)
    (cl := { cl3 with m := { cl3.m with world := { cl3.m.world with shared := { s2.world.shared with txns := x.2 } } } }) (ts := x.2) (y := y)
    (by rw [hm3]; exact h4) hwf3 (fun e he => ⟨(c4 e he).opened, (c4 e he).commit⟩)
  have hw4 := (finalizeTxns_weight (true, 0) _ _ _ h4).1
  have a2 : MStep tenv cl4 .app _ := .app (w := { y.1.world.shared with txns := y.2.1, tablets := completeTablets y.1.world.shared.tablets y.2.2.1, responses := y.1.world.shared.responses ++ y.2.2.2 })
  refine ⟨_, _, w1a.append (w2a.append (c1.append ((MSteps.single a1).append (f1.append (.single a2))))), ?_, ⟨?_, f5, ?_⟩, ?_, ?_⟩
  · have c2' : mevs3.filterMap wireM = [] := by
      rw [List.filterMap_eq_nil_iff]
      intro e he
      obtain ⟨i, s, rfl⟩ := c2 e he
      rfl
    have f2' : mevs4.filterMap wireM = [] := by
      rw [List.filterMap_eq_nil_iff]
      intro e he
      obtain ⟨i, s, rfl⟩ := f2 e he
      rfl
    simp [List.filterMap_cons, wireM, w1b, w2b, c2', f2']
  · dsimp only; rw [f3]; rfl
  · exact fun e he => ⟨(f4 e he).opened, (f4 e he).commit⟩
  · intro r hr
    simp only [Manager.withCore, hw4] at hr
    rcases List.mem_append.mp hr with hr | hr
    · left; rw [← w1e, ← w2e]; exact hr
    · right
      obtain ⟨e, g1, g2, _, g3⟩ := f8 r hr
      obtain ⟨t, g4, g5, _⟩ := c7 e g1
      rcases w2d _ g4 with g6 | g6
      · exact ⟨e.1, t, by rw [← w1d]; exact g6, by rw [g5]; exact g2, by simp [g3]⟩
      · dsimp only at g6
        rw [← g5, g6.1] at g2
        simp at g2
  · intro e he
    obtain ⟨g1, _⟩ := f6 e he
    rw [c5] at g1
    obtain ⟨e', g2, g3⟩ := List.mem_map.mp g1
    rcases w2d _ g2 with g4 | ⟨_, qs, g4⟩
    · left; rw [← w1d, ← g3]; exact List.mem_map.mpr ⟨e', g4, rfl⟩
    · right; rw [← g3]; exact ⟨qs, by simp [g4]⟩

/-- The trackers of transactions are what the clients hold. -/
def TOk (cl : Client Bytes Unit KvCore) (c : KvCore) : Prop := c.txns.WF ∧ ∀ e ∈ c.txns, TLink cl e.1 e.2

theorem processTablets_tok {env : KvEnv} {cl : Client Bytes Unit KvCore} {txn : Nat} : ∀ (vs : List (Query × UInt32 × Option Bytes)) (c c' : KvCore) (ws : List (Option Bytes)),
    c.processTablets env txn vs = .ok (c', ws) → TOk cl c → TOk cl c' ∧ c'.responses = c.responses := by
  intro vs
  induction vs with
  | nil =>
    intro c c' ws h hk
    simp only [KvCore.processTablets, Run.ok.injEq, Prod.mk.injEq] at h
    rw [← h.1]; exact ⟨hk, rfl⟩
  | cons v rest ih =>
    obtain ⟨q, t, b⟩ := v
    intro c c' ws h hk
    have skip : ((c.processTablets env txn rest).bind fun z => Run.ok (z.1, none :: z.2)) = .ok (c', ws) → TOk cl c' ∧ c'.responses = c.responses := by
      intro h
      obtain ⟨⟨c1, ws1⟩, h1, h2⟩ := Run.bind_eq_ok.mp h
      simp only [Run.ok.injEq, Prod.mk.injEq] at h2
      rw [← h2.1]; exact ih _ _ _ h1 hk
    cases hx : c.txns.get txn with
    | none => simp only [KvCore.processTablets, hx] at h; exact skip h
    | some x =>
      cases ht : c.tablets.get t with
      | none => simp only [KvCore.processTablets, hx, ht] at h; exact skip h
      | some tr =>
        simp only [KvCore.processTablets, hx, ht] at h
        obtain ⟨y, h1, h2⟩ := Run.bind_eq_ok.mp h
        obtain ⟨⟨c1, ws1⟩, h3, h4⟩ := Run.bind_eq_ok.mp h2
        simp only [Run.ok.injEq, Prod.mk.injEq] at h4
        rw [← h4.1]
        refine (fun z => ⟨z.1, z.2.trans rfl⟩) (ih _ _ _ h3 ⟨hk.1.set _ _, ?_⟩)
        intro e he
        rcases mem_set he with he | he
        · rw [he]
          have := hk.2 _ (AMap.mem_of_get hx)
          exact ⟨this.opened, this.commit⟩
        · exact hk.2 e he

/-- The responses handed out so far. -/
def emitted (evs : List KEvent) : List KvResponse := evs.flatMap fun e => match e with | .responses rs => rs | _ => []

theorem _root_.TCP.Cache.Spec.Computed.push {env : KvEnv} {data : DataEnv Bytes} {evict : AMap String (Entry Bytes) → List String} {evs : List KEvent} {i : Nat} {r : KvResponse}
    (h : Computed env data evict evs i r) (more : List KEvent) : Computed env data evict (evs ++ more) i r := by
  obtain ⟨a, b, s, t, rfl, h2, h3⟩ := h
  exact ⟨a, b ++ more, s, t, by simp, h2, h3⟩

/-- A history of the store goes with a history of its manager. -/
def KInv (env : KvEnv) (data : DataEnv Bytes) (evict : AMap String (Entry Bytes) → List String) (evs : List KEvent) (s : Sys) : Prop :=
  ∃ mevs cl, MHistory (txnEnv env data evict) mevs cl ∧ KLink s cl ∧ mevs.filterMap wireM = evs.filterMap wireK ∧
    ∀ r ∈ s.world.shared.responses ++ emitted evs, ∃ i, .check i (some .succeeded) ∈ mevs ∧ Computed env data evict evs i r

theorem kstep_inv {env : KvEnv} {data : DataEnv Bytes} {evict : AMap String (Entry Bytes) → List String} {evs : List KEvent} {s s' : Sys} {ev : KEvent}
    (hh : KHistory env data evict evs s) (hi : KInv env data evict evs s) (h : KStep env (txnEnv env data evict) s ev s') : KInv env data evict (evs ++ [ev]) s' := by
  obtain ⟨mevs, cl, ⟨co, md, d, w, hm⟩, hl, hw, hr⟩ := hi
  -- a step that keeps the responses
  have keep : ∀ {m cl'}, MSteps (txnEnv env data evict) cl m cl' → KLink s' cl' → m.filterMap wireM = [ev].filterMap wireK →
      s'.world.shared.responses = s.world.shared.responses → emitted [ev] = [] → KInv env data evict (evs ++ [ev]) s' := by
    intro m cl' h1 h2 h3 h4 h5
    refine ⟨mevs ++ m, cl', ⟨co, md, d, w, hm.append h1⟩, h2, by rw [List.filterMap_append, List.filterMap_append, hw, h3], ?_⟩
    intro r hr'
    rw [h4, show emitted (evs ++ [ev]) = emitted evs ++ emitted [ev] by simp [emitted], h5, List.append_nil] at hr'
    obtain ⟨i, g1, g2⟩ := hr r hr'
    exact ⟨i, by simp [g1], g2.push _⟩
  cases h with
  | @init _ table a b tables h =>
    obtain ⟨cl1, g1, g2⟩ := hl.app (tenv := txnEnv env data evict) (c := s.world.shared.init table a b) rfl
    have hsh := init_shared h
    have g3 : MStep (txnEnv env data evict) cl1 (.init tables) { cl1 with m := s' } := .init (by rw [g2.same]; exact h)
    refine keep (g1.append (.single g3)) ⟨rfl, ?_, ?_⟩ (by simp [List.filterMap_cons, wireM, wireK]) (by rw [hsh]; rfl) (by simp [emitted])
    · rw [hsh]; exact g2.wf
    · rw [hsh]; exact fun e he => ⟨(g2.txns e he).opened, (g2.txns e he).commit⟩
  | @accept r =>
    obtain ⟨cl1, g1, g2⟩ := hl.app (tenv := txnEnv env data evict) (c := { s.world.shared with pending := s.world.shared.pending ++ [r] }) rfl
    exact keep g1 g2 (by simp [List.filterMap_cons, wireM, wireK]) rfl (by simp [emitted])
  | store h =>
    obtain ⟨m, cl', h1, h2, h3, h4, _⟩ := storeProgress_sim (tenv := txnEnv env data evict) h hl
    refine ⟨mevs ++ m, cl', ⟨co, md, d, w, hm.append h1⟩, h3, by simp [hw, h2, List.filterMap_cons, wireK], ?_⟩
    intro r hr'
    rw [show emitted (evs ++ [.store]) = emitted evs by simp [emitted]] at hr'
    have old : r ∈ s.world.shared.responses ++ emitted evs → ∃ i, .check i (some .succeeded) ∈ mevs ++ m ∧ Computed env data evict (evs ++ [.store]) i r := by
      intro hr'
      obtain ⟨i, g1, g2⟩ := hr r hr'
      exact ⟨i, by simp [g1], g2.push _⟩
    rcases List.mem_append.mp hr' with hr' | hr'
    · rcases h4 r hr' with g | ⟨i, t, g1, g2, g3⟩
      · exact old (by simp [g])
      · exact ⟨i, by simp [g3], evs, [.store], s, t, rfl, hh, AMap.get_of_mem hl.wf g1, g2⟩
    · exact old (by simp [hr'])
  | progress h =>
    have g3 : MStep (txnEnv env data evict) cl .progress { cl with m := s' } := .progress (by rw [hl.same]; exact h)
    have hp := makeProgress_shared (P := fun w => TOk cl w ∧ w.responses = s.world.shared.responses)
      (fun _ w txn vs w' ws hw hh => by
        obtain ⟨k1, k2⟩ := processTablets_tok vs w w' ws hh hw.1
        exact ⟨k1, k2.trans hw.2⟩) h ⟨⟨hl.wf, hl.txns⟩, rfl⟩
    exact keep (.single g3) ⟨rfl, hp.1.1, fun e he => ⟨(hp.1.2 e he).opened, (hp.1.2 e he).commit⟩⟩ (by simp [List.filterMap_cons, wireM, wireK]) hp.2 (by simp [emitted])
  | @input _ i h =>
    unfold Manager.input at h
    obtain ⟨s1, h1, h2⟩ := Run.bind_eq_ok.mp h
    simp only [Run.ok.injEq] at h2
    subst h2
    have g3 : MStep (txnEnv env data evict) cl (.input i) { cl with m := s1 } := .input (by rw [hl.same]; exact h1)
    have hsh := processIn_shared h1
    have hl1 : KLink s1 { cl with m := s1 } := ⟨rfl, by rw [hsh]; exact hl.wf, by rw [hsh]; exact fun e he => ⟨(hl.txns e he).opened, (hl.txns e he).commit⟩⟩
    have hf : (handleCalls s1.world.shared (s1.world.md.calls.drop s.world.md.calls.length)).responses = s1.world.shared.responses ∧
        (handleCalls s1.world.shared (s1.world.md.calls.drop s.world.md.calls.length)).txns = s1.world.shared.txns := handleCalls_frame _ _
    obtain ⟨cl2, g4, g5⟩ := hl1.app (tenv := txnEnv env data evict) hf.2
    exact keep ((MSteps.single g3).append g4) g5 (by simp [List.filterMap_cons, wireM, wireK]) (by simp only [Manager.withCore]; rw [hf.1, hsh]) (by simp [emitted])
  | @take _ outs h =>
    have g3 : MStep (txnEnv env data evict) cl (.take outs) { cl with m := s' } := .take (by rw [hl.same]; exact h)
    have hsh := takeOut_shared h
    exact keep (.single g3) ⟨rfl, by rw [hsh]; exact hl.wf, by rw [hsh]; exact fun e he => ⟨(hl.txns e he).opened, (hl.txns e he).commit⟩⟩
      (by simp [List.filterMap_cons, wireM, wireK]) (by rw [hsh]) (by simp [emitted])
  | responses =>
    obtain ⟨cl1, g1, g2⟩ := hl.app (tenv := txnEnv env data evict) (c := { s.world.shared with responses := [] }) rfl
    refine ⟨mevs ++ [.app], cl1, ⟨co, md, d, w, hm.append g1⟩, g2, by simp [hw, List.filterMap_cons, wireM, wireK], ?_⟩
    intro r hr'
    have : r ∈ s.world.shared.responses ++ emitted evs := by
      simp only [Manager.takeResponses, Manager.withCore, emitted, List.flatMap_append, List.flatMap_cons, List.flatMap_nil, List.append_nil, List.nil_append,
        List.mem_append] at hr' ⊢
      exact hr'.symm
    obtain ⟨i, g1, g2⟩ := hr r this
    exact ⟨i, by simp [g1], g2.push _⟩

theorem khistory_inv {env : KvEnv} {data : DataEnv Bytes} {evict : AMap String (Entry Bytes) → List String} {evs : List KEvent} {s : Sys}
    (h : KHistory env data evict evs s) : KInv env data evict evs s := by
  obtain ⟨co, md, d, h⟩ := h
  induction h with
  | refl =>
    exact ⟨[], ⟨_, [], []⟩, ⟨co, md, d, _, .refl⟩, ⟨rfl, AMap.WF.nil, by simp [Manager.create, KvCore.new]⟩, rfl, by simp [Manager.create, KvCore.new, emitted]⟩
  | step h hs ih => exact kstep_inv ⟨co, md, d, h⟩ ih hs

end TCP.Cache
