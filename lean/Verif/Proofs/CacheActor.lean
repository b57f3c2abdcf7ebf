import Verif.Proofs.CacheStore
import Verif.Spec.Actor

/-!
# Proofs about the tablet cache actor
-/

namespace TCP.Cache

open TCP TCP.TabletStore TCP.Cache.Spec TCP.ActorSpec

/-! ## Nothing is sent unless the manager makes progress -/

theorem maybeResolve_out {c : MetaCache} {id : Nat} {r : Resolve} {y : MetaCache × Resolve} (h : c.maybeResolve id r = .ok y) : y.1.out = c.out := by
  unfold MetaCache.maybeResolve at h
  split at h
  · dsimp only at h
    split at h
    · split at h
      · cases h
      · simp only [Run.ok.injEq] at h; rw [← h]
    · simp only [Run.ok.injEq] at h; rw [← h]
  · simp only [Run.ok.injEq] at h; rw [← h]

theorem mdResolve_out {c c' : MetaCache} {n : Notification} {qs : List Query} (h : c.resolve n qs = .ok c') : c'.out = c.out := by
  unfold MetaCache.resolve at h
  obtain ⟨parts, _, h⟩ := Run.bind_eq_ok.mp h
  obtain ⟨x, _, h⟩ := Run.bind_eq_ok.mp h
  obtain ⟨y, h1, h⟩ := Run.bind_eq_ok.mp h
  simp only [Run.ok.injEq] at h
  rw [← h]
  exact (maybeResolve_out h1).trans rfl

theorem processFresh_out {c c' : MetaCache} {table : String} {idx : Nat} {t : Table} {id : Nat} (h : c.processFresh table idx t id = .ok c') : c'.out = c.out := by
  unfold MetaCache.processFresh at h
  split at h
  · simp only [Run.ok.injEq] at h; rw [← h]
  · dsimp only at h
    obtain ⟨r', _, h⟩ := Run.bind_eq_ok.mp h
    obtain ⟨y, h1, h⟩ := Run.bind_eq_ok.mp h
    simp only [Run.ok.injEq] at h
    rw [← h]
    exact maybeResolve_out h1

theorem notifyAll_out {table : String} {idx : Nat} {t : Table} : ∀ {ids : List Nat} {c c' : MetaCache}, c.notifyAll table idx t ids = .ok c' → c'.out = c.out := by
  intro ids
  induction ids with
  | nil => intro c c' h; simp only [MetaCache.notifyAll, Run.ok.injEq] at h; rw [h]
  | cons id rest ih =>
    intro c c' h
    simp only [MetaCache.notifyAll] at h
    obtain ⟨c1, h1, h⟩ := Run.bind_eq_ok.mp h
    rw [ih h, processFresh_out h1]

theorem processResult_out {c c' : MetaCache} {x : TabletOpResult} (h : c.processResult x = .ok c') : c'.out = c.out := by
  unfold MetaCache.processResult at h
  split at h
  · split at h
    · obtain ⟨y, _, h⟩ := Run.bind_eq_ok.mp h
      exact (notifyAll_out h).trans rfl
    · simp only [Run.ok.injEq] at h; rw [h]
  · cases h

theorem mdProcessIn_out : ∀ {xs : List TabletOpResult} {c c' : MetaCache}, c.processIn xs = .ok c' → c'.out = c.out := by
  intro xs
  induction xs with
  | nil => intro c c' h; simp only [MetaCache.processIn, Run.ok.injEq] at h; rw [h]
  | cons x rest ih =>
    intro c c' h
    simp only [MetaCache.processIn] at h
    obtain ⟨c1, h1, h⟩ := Run.bind_eq_ok.mp h
    rw [ih h, processResult_out h1]

theorem mdUpdateTablet_out {c c' : MetaCache} {table : String} {m : Metadata} {b : Bool} (h : c.updateTablet table m b = .ok c') : c'.out = c.out := by
  unfold MetaCache.updateTablet at h
  split at h
  · obtain ⟨t', _, h⟩ := Run.bind_eq_ok.mp h
    simp only [Run.ok.injEq] at h; rw [← h]
  · simp only [Run.ok.injEq] at h; rw [h]

theorem mdInit_out : ∀ {tables : List (String × UInt32)} {c c' : MetaCache}, c.init tables = .ok c' → c'.out = c.out := by
  intro xs
  induction xs with
  | nil => intro c c' h; simp only [MetaCache.init, Run.ok.injEq] at h; rw [h]
  | cons x rest ih =>
    obtain ⟨n, z⟩ := x
    intro c c' h
    simp only [MetaCache.init] at h
    obtain ⟨c1, h1, h⟩ := Run.bind_eq_ok.mp h
    exact (ih h).trans rfl

theorem dataProcessIn_out {α : Type} {env : DataEnv α} {c c' : DataCache α} {i : DataIn} (h : c.processIn env i = .ok c') : c'.out = c.out := by
  cases i with
  | load corr st b =>
    simp only [DataCache.processIn] at h
    split at h
    · simp only [Run.ok.injEq] at h; rw [← h]
    · obtain ⟨e, _, h⟩ := Run.bind_eq_ok.mp h
      obtain ⟨e', _, h⟩ := Run.bind_eq_ok.mp h
      simp only [Run.ok.injEq] at h; rw [← h]
  | store corr st =>
    simp only [DataCache.processIn] at h
    split at h
    · simp only [Run.ok.injEq] at h; rw [← h]
    · obtain ⟨e, _, h⟩ := Run.bind_eq_ok.mp h
      obtain ⟨e', _, h⟩ := Run.bind_eq_ok.mp h
      simp only [Run.ok.injEq] at h; rw [← h]

/-- The state of the actor, whatever it has been told: nothing to send, and every transaction still waits to be processed. -/
structure Idle (s : Sys) : Prop where
  coord : s.coord.out = []
  md : s.world.md.out = []
  data : s.world.data.out = []
  responses : s.world.shared.responses = []
  txns : ∀ i st, s.coord.txns.get i = some st → ∃ ps, st = .preparing ps ∧ isActive ps = true
  trackers : ∀ e ∈ s.world.shared.txns, e.2.commit = none

theorem coordProcessIn_idle {α η : Type} {c c' : Coordinator α η} {md md' : MetaCache} {corr : Nat} {rs : List TabletOpResult}
    (h : c.processIn md corr rs = .ok (c', md')) (hc : ∀ i st, c.txns.get i = some st → ∃ ps, st = .preparing ps ∧ isActive ps = true) :
    c'.out = c.out ∧ c'.txns = c.txns ∧ md' = md := by
  unfold Coordinator.processIn at h
  split at h
  · simp only [Run.ok.injEq, Prod.mk.injEq] at h; rw [← h.1, ← h.2]; exact ⟨rfl, rfl, rfl⟩
  · dsimp only at h
    split at h
    · rename_i hg
      obtain ⟨ps, h1, _⟩ := hc _ _ hg
      cases h1
    · simp only [Run.ok.injEq, Prod.mk.injEq] at h; rw [← h.1, ← h.2]; exact ⟨rfl, rfl, rfl⟩

theorem opsResponse_idle {m m' : Sys} {corr : Nat} {r : Response} (h : m.opsResponse corr r = .ok m') (hi : Idle m) : Idle m' := by
  unfold Manager.opsResponse at h
  obtain ⟨md, h1, h⟩ := Run.bind_eq_ok.mp h
  have ho := mdProcessIn_out h1
  split at h
  · simp only [Run.ok.injEq] at h
    rw [← h]
    exact ⟨hi.coord, ho.trans hi.md, hi.data, hi.responses, hi.txns, hi.trackers⟩
  · obtain ⟨⟨co, md'⟩, h2, h⟩ := Run.bind_eq_ok.mp h
    simp only [Run.ok.injEq] at h
    obtain ⟨k1, k2, k3⟩ := coordProcessIn_idle h2 hi.txns
    rw [← h]
    refine ⟨k1.trans hi.coord, ?_, hi.data, hi.responses, ?_, hi.trackers⟩
    · dsimp only; rw [k3, ho]; exact hi.md
    · dsimp only; rw [k2]; exact hi.txns

theorem processIn_idle {env : TxnEnv Bytes Unit KvCore} {m m' : Sys} {i : MgrIn} (h : m.processIn env i = .ok m') (hi : Idle m) : Idle m' := by
  have he : ∀ es, Idle { m with errors := es } := fun es => ⟨hi.coord, hi.md, hi.data, hi.responses, hi.txns, hi.trackers⟩
  cases i with
  | data r =>
    simp only [Manager.processIn] at h
    obtain ⟨d, h1, h⟩ := Run.bind_eq_ok.mp h
    simp only [Run.ok.injEq] at h
    rw [← h]
    exact ⟨hi.coord, hi.md, (dataProcessIn_out h1).trans hi.data, hi.responses, hi.txns, hi.trackers⟩
  | response corr r => simp only [Manager.processIn] at h; exact opsResponse_idle h (he _)
  | error corr =>
    simp only [Manager.processIn] at h
    split at h
    · exact opsResponse_idle h (he _)
    · simp only [Run.ok.injEq] at h; rw [← h]; exact hi

theorem Idle.withCore {s : Sys} (h : Idle s) {c : KvCore} (h1 : c.responses = []) (h2 : ∀ e ∈ c.txns, e.2.commit = none) : Idle (s.withCore c) :=
  ⟨h.coord, h.md, h.data, h1, h.txns, h2⟩

theorem input_idle {env : TxnEnv Bytes Unit KvCore} {s s' : Sys} {i : MgrIn} (h : s.input env i = .ok s') (hi : Idle s) : Idle s' := by
  unfold Manager.input at h
  obtain ⟨s1, h1, h⟩ := Run.bind_eq_ok.mp h
  simp only [Run.ok.injEq] at h
  rw [← h]
  have h2 := processIn_idle h1 hi
  obtain ⟨k1, k2⟩ := handleCalls_frame (s1.world.md.calls.drop s.world.md.calls.length) s1.world.shared
  exact h2.withCore (k1.trans h2.responses) (by rw [k2]; exact h2.trackers)

theorem commitTxns_idle {co : Coordinator Bytes Unit} (hc : ∀ i st, co.txns.get i = some st → ∃ ps, st = .preparing ps ∧ isActive ps = true) :
    ∀ {ts : AMap Nat TxnTracker} {y : Coordinator Bytes Unit × AMap Nat TxnTracker}, commitTxns co ts = .ok y → y = (co, ts) := by
  intro ts
  induction ts with
  | nil => intro y h; simp only [commitTxns, Run.ok.injEq] at h; exact h.symm
  | cons e rest ih =>
    obtain ⟨i, t⟩ := e
    intro y h
    have skip : ((commitTxns co rest).bind fun y => Run.ok (y.1, (i, t) :: y.2)) = .ok y → y = (co, (i, t) :: rest) := by
      intro h
      obtain ⟨z, h1, h2⟩ := Run.bind_eq_ok.mp h
      simp only [Run.ok.injEq] at h2
      rw [← h2, ih h1]
    cases hk : t.commit with
    | some k => simp only [commitTxns, hk] at h; exact skip h
    | none =>
      cases ht : t.txn with
      | none => simp only [commitTxns, hk, ht] at h; exact skip h
      | some j =>
        simp only [commitTxns, hk, ht] at h
        obtain ⟨b, h1, h2⟩ := Run.bind_eq_ok.mp h
        unfold Coordinator.hasPending at h1
        split at h1
        · cases h1
        · rename_i ps hg
          obtain ⟨ps', k1, k2⟩ := hc _ _ hg
          cases k1
          rw [k2] at h1
          simp only [Run.ok.injEq] at h1
          subst h1
          simp only [if_true] at h2
          exact skip h2
        · rename_i st _ hg
          obtain ⟨ps', k1, k2⟩ := hc _ _ hg
          rename_i hne
          exact absurd k1 (hne ps')

theorem finalizeTxns_idle {s : Sys} : ∀ {ts : AMap Nat TxnTracker} {y : Sys × AMap Nat TxnTracker × List UInt32 × List KvResponse},
    (∀ e ∈ ts, e.2.commit = none) → finalizeTxns s ts = .ok y → y = (s, ts, [], []) := by
  intro ts
  induction ts with
  | nil => intro y _ h; simp only [finalizeTxns, Run.ok.injEq] at h; exact h.symm
  | cons e rest ih =>
    obtain ⟨i, t⟩ := e
    intro y hn h
    have : t.commit = none := hn (i, t) (by simp)
    simp only [finalizeTxns, this] at h
    obtain ⟨z, h1, h2⟩ := Run.bind_eq_ok.mp h
    simp only [Run.ok.injEq] at h2
    rw [← h2, ih (fun e he => hn e (by simp [he])) h1]

theorem storeProgress_idle {env : KvEnv} {s s' : Sys} (h : s.storeProgress env = .ok s') (hi : Idle s) : Idle s' := by
  unfold Manager.storeProgress at h
  obtain ⟨s1, h1, h⟩ := Run.bind_eq_ok.mp h
  obtain ⟨s2, h2, h⟩ := Run.bind_eq_ok.mp h
  obtain ⟨x, h3, h⟩ := Run.bind_eq_ok.mp h
  obtain ⟨y, h4, h⟩ := Run.bind_eq_ok.mp h
  simp only [Run.ok.injEq] at h
  subst h
  have w1 : Idle s1 := by
    unfold Manager.maybeResolve at h1
    dsimp only at h1
    split at h1
    · obtain ⟨s', k1, k2⟩ := Run.bind_eq_ok.mp h1
      split at k2
      · simp only [Run.ok.injEq] at k2
        subst k2
        unfold Manager.resolve at k1
        obtain ⟨md, k3, k4⟩ := Run.bind_eq_ok.mp k1
        simp only [Run.ok.injEq] at k4
        subst k4
        exact ⟨hi.coord, (mdResolve_out k3).trans hi.md, hi.data, hi.responses, hi.txns, hi.trackers⟩
      · cases k2
    · simp only [Run.ok.injEq] at h1; rw [← h1]; exact hi
  have w2 : Idle s2 := by
    obtain ⟨_, n, k2⟩ := collectProcess_weight env (true, 0) s1.world.shared.tablets s1.world.shared
    unfold Manager.maybeStart at h2
    dsimp only at h2
    split at h2
    · simp only [Run.ok.injEq] at h2
      subst h2
      exact w1.withCore (by simp only [k2]; exact w1.responses) (by simp only [k2]; exact w1.trackers)
    · obtain ⟨co, h5, h6⟩ := Run.bind_eq_ok.mp h2
      simp only [Run.ok.injEq] at h6
      subst h6
      simp only [Coordinator.process, Coordinator.createTxn, AMap.get_set_self, Run.ok.injEq] at h5
      subst h5
      refine Idle.withCore (Idle.mk ?_ ?_ ?_ ?_ ?_ ?_) ?_ ?_
      · exact w1.coord
      · exact w1.md
      · exact w1.data
      · exact w1.responses
      · intro i st hst
        dsimp only at hst
        rw [AMap.get_set] at hst
        split at hst
        · simp only [Option.some.injEq] at hst
          exact ⟨_, hst.symm, by simp [isActive]⟩
        · rename_i hne
          rw [AMap.get_set_ne _ _ hne] at hst
          exact w1.txns i st hst
      · exact w1.trackers
      · simp only [k2]; exact w1.responses
      · intro e he
        simp only [k2] at he
        rcases mem_set he with he | he
        · rw [he]
        · exact w1.trackers e he
  have w3 := commitTxns_idle w2.txns h3
  subst w3
  have w4 := finalizeTxns_idle (s := _) (by exact w2.trackers) h4
  subst w4
  refine Idle.withCore (s := Manager.withCore _ _) (Idle.withCore w2 ?_ ?_) ?_ ?_
  · exact w2.responses
  · exact w2.trackers
  · simp only [Manager.withCore, List.append_nil]; exact w2.responses
  · exact w2.trackers

theorem takeOut_idle {s s' : Sys} {outs : List MgrOut} (h : s.takeOut = .ok (s', outs)) (hi : Idle s) : Idle s' ∧ outs = [] := by
  unfold Manager.takeOut at h
  obtain ⟨es, _, h⟩ := Run.bind_eq_ok.mp h
  simp only [Run.ok.injEq, Prod.mk.injEq] at h
  rw [← h.1, ← h.2]
  exact ⟨⟨rfl, rfl, rfl, hi.responses, hi.txns, hi.trackers⟩, by rw [hi.coord, hi.md, hi.data]; rfl⟩

theorem cacheProgress_idle {env : CacheEnv} {s : Sys} {y : Sys × CommandOutcome} (h : cacheProgress env s = .ok y) (hi : Idle s) :
    Idle y.1 ∧ y.2 = ⟨[], none⟩ := by
  unfold cacheProgress at h
  obtain ⟨s1, h1, h⟩ := Run.bind_eq_ok.mp h
  obtain ⟨⟨s2, outs⟩, h2, h⟩ := Run.bind_eq_ok.mp h
  simp only [Run.ok.injEq] at h
  have w1 := storeProgress_idle h1 hi
  obtain ⟨w2, rfl⟩ := takeOut_idle h2 w1
  rw [← h]
  refine ⟨w2.withCore rfl w2.trackers, ?_⟩
  simp [Manager.takeResponses, w2.responses]

theorem cacheMessage_idle {env : CacheEnv} {s s' : Sys} {c : ActorCommand} (h : cacheMessage env s c = .ok (some s')) (hi : Idle s) : Idle s' := by
  have hin : ∀ i, ((s.input env.txn i).bind fun s' => Run.ok (some s')) = .ok (some s') → Idle s' := by
    intro i h
    obtain ⟨s1, h1, h2⟩ := Run.bind_eq_ok.mp h
    simp only [Run.ok.injEq, Option.some.injEq] at h2
    rw [← h2]; exact input_idle h1 hi
  unfold cacheMessage at h
  split at h
  · cases h
  · cases h
  · simp only [Run.ok.injEq, Option.some.injEq] at h; rw [← h]; exact hi.withCore hi.responses hi.trackers
  · simp only [Run.ok.injEq, Option.some.injEq] at h; rw [← h]; exact hi.withCore hi.responses hi.trackers
  · exact hin _ h
  · exact hin _ h
  · obtain ⟨r, _, h⟩ := Run.bind_eq_ok.mp h
    exact hin _ h
  · exact hin _ h

theorem started_idle {env : CacheEnv} {ctx : ActorCtx} {s : Sys} (h : Started (cacheActor env) cacheInit ctx s) : Idle s := by
  have h0 : Idle cacheInit := by
    constructor <;> simp [cacheInit, Manager.create, Coordinator.create, MetaCache.create, DataCache.create, KvCore.new]
  simp only [Started, cacheActor, cacheOnInit] at h
  split at h
  · simp at h
  · obtain ⟨sc, _, h⟩ := Run.bind_eq_ok.mp h
    obtain ⟨mc, _, h⟩ := Run.bind_eq_ok.mp h
    obtain ⟨s', h1, h⟩ := Run.bind_eq_ok.mp h
    simp only [Run.ok.injEq, Prod.mk.injEq] at h
    rw [← h.1]
    unfold Manager.init at h1
    obtain ⟨md, h2, h3⟩ := Run.bind_eq_ok.mp h1
    simp only [Run.ok.injEq] at h3
    rw [← h3]
    exact ⟨h0.coord, (mdInit_out h2).trans h0.md, h0.data, h0.responses, h0.txns, h0.trackers⟩

theorem steps_idle {env : CacheEnv} {s s' : Sys} {cs : List Call} (h : Steps (cacheActor env) s cs s') (hi : Idle s) :
    Idle s' ∧ (∀ ctx c o, Call.command ctx c (.ok o) ∈ cs → o = ⟨[], none⟩) ∧ ∀ ctx ec ev o, Call.apply ctx ec ev (.ok o) ∈ cs → o = ⟨[]⟩ := by
  induction h with
  | refl => exact ⟨hi, by simp, by simp⟩
  | @step s c0 s1 cs0 s2 h _ ih =>
    cases h with
    | @command ctx c _ res h =>
      have key : Idle s1 ∧ ∀ o, res = .ok o → o = ⟨[], none⟩ := by
        simp only [cacheActor, cacheOnProcess] at h
        split at h
        · obtain ⟨y, h1, h2⟩ := Run.bind_eq_ok.mp h
          simp only [Run.ok.injEq, Prod.mk.injEq] at h2
          obtain ⟨k1, k2⟩ := cacheProgress_idle h1 hi
          rw [← h2.1, ← h2.2]
          exact ⟨k1, by rintro o ⟨⟩; exact k2⟩
        · obtain ⟨o, h1, h2⟩ := Run.bind_eq_ok.mp h
          cases o with
          | none =>
            simp only [Run.ok.injEq, Prod.mk.injEq] at h2
            rw [← h2.1, ← h2.2]
            exact ⟨hi, by simp⟩
          | some s2 =>
            obtain ⟨y, h3, h4⟩ := Run.bind_eq_ok.mp h2
            simp only [Run.ok.injEq, Prod.mk.injEq] at h4
            obtain ⟨k1, k2⟩ := cacheProgress_idle h3 (cacheMessage_idle h1 hi)
            rw [← h4.1, ← h4.2]
            exact ⟨k1, by rintro o ⟨⟩; exact k2⟩
      obtain ⟨h1, h2, h3⟩ := ih key.1
      refine ⟨h1, fun ctx' c' o ho => ?_, fun ctx' ec ev o ho => ?_⟩
      · rcases List.mem_cons.mp ho with e | e
        · simp only [Call.command.injEq] at e; exact key.2 o e.2.2.symm
        · exact h2 ctx' c' o e
      · exact h3 ctx' ec ev o (by simpa using ho)
    | apply h =>
      simp only [cacheActor, Run.ok.injEq, Prod.mk.injEq] at h
      obtain ⟨rfl, rfl⟩ := h
      obtain ⟨h1, h2, h3⟩ := ih hi
      refine ⟨h1, fun ctx' c' o ho => h2 ctx' c' o (by simpa using ho), fun ctx' ec ev o ho => ?_⟩
      rcases List.mem_cons.mp ho with e | e
      · simp only [Call.apply.injEq, Except.ok.injEq] at e; exact e.2.2.2
      · exact h3 ctx' ec ev o e
    | save h =>
      simp only [cacheActor, Run.ok.injEq, Prod.mk.injEq] at h
      obtain ⟨rfl, rfl⟩ := h
      obtain ⟨h1, h2, h3⟩ := ih hi
      exact ⟨h1, fun ctx' c' o ho => h2 ctx' c' o (by simpa using ho), fun ctx' ec ev o ho => h3 ctx' ec ev o (by simpa using ho)⟩
    | load h =>
      simp only [cacheActor, Run.ok.injEq, Prod.mk.injEq] at h
      obtain ⟨rfl, rfl⟩ := h
      obtain ⟨h1, h2, h3⟩ := ih hi
      exact ⟨h1, fun ctx' c' o ho => h2 ctx' c' o (by simpa using ho), fun ctx' ec ev o ho => h3 ctx' ec ev o (by simpa using ho)⟩

end TCP.Cache
