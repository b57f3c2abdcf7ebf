import Verif.Proofs.CacheStore

/-!
# How often the key-value store holds and carries out a request
-/

namespace TCP.Cache

open TCP TCP.TabletStore TCP.Cache.Spec

variable {q0 : KvRequest}

/-- How often a tablet tracker holds the request. -/
def TabletTracker.load (q0 : KvRequest) (t : TabletTracker) : Nat := t.pending.count q0 + sumBy (List.count q0) t.waiting

/-- How often the store holds the request, except in transactions. -/
def KvCore.load (q0 : KvRequest) (c : KvCore) : Nat :=
  c.pending.count q0 + sumBy (List.count q0) c.resolving + sumBy (TabletTracker.load q0) c.tablets

theorem handleResolve_load : ∀ (rs : List (Query × UInt32)) (c : KvCore), (c.handleResolve rs).load q0 ≤ c.load q0 := by
  intro rs
  induction rs with
  | nil => intro c; exact Nat.le_refl _
  | cons x rest ih =>
    obtain ⟨q, t⟩ := x
    intro c
    simp only [KvCore.handleResolve]
    refine Nat.le_trans (ih _) ?_
    simp only [KvCore.load]
    have h1 := sumBy_set (TabletTracker.load q0) c.tablets t
      { (c.tablets.get t).getD (.create c.minProcess) with pending := ((c.tablets.get t).getD (.create c.minProcess)).pending ++ (c.resolving.get q.id).getD [] }
    have h2 := sumBy_erase (List.count q0) c.resolving q.id
    simp only [TabletTracker.load, List.count_append] at h1
    have h3 : ((c.resolving.get q.id).map (List.count q0)).getD 0 = List.count q0 ((c.resolving.get q.id).getD []) := by
      cases c.resolving.get q.id <;> rfl
    have h4 : ((c.tablets.get t).map (fun t : TabletTracker => List.count q0 t.pending + sumBy (List.count q0) t.waiting)).getD 0 =
        List.count q0 ((c.tablets.get t).getD (.create c.minProcess)).pending + sumBy (List.count q0) ((c.tablets.get t).getD (.create c.minProcess)).waiting := by
      cases c.tablets.get t <;> rfl
    have h5 : (fun t : TabletTracker => List.count q0 t.pending + sumBy (List.count q0) t.waiting) = TabletTracker.load q0 := rfl
    rw [h5] at h4
    omega

theorem handleCalls_load : ∀ (cs : List (Nat × List (Query × UInt32))) (c : KvCore), (handleCalls c cs).load q0 ≤ c.load q0 := by
  intro cs
  induction cs with
  | nil => intro c; exact Nat.le_refl _
  | cons x rest ih =>
    intro c
    simp only [handleCalls]
    exact Nat.le_trans (ih _) (handleResolve_load _ c)

theorem processLoop_load (env : KvEnv) (q : Query) : ∀ (rs : List KvRequest) (d : AMap String Bytes),
    ((processLoop env q rs d).1.map Prod.fst).count q0 + (processLoop env q rs d).2.1.count q0 = rs.count q0 := by
  intro rs
  induction rs with
  | nil => intro d; rfl
  | cons r rest ih =>
    intro d
    simp only [processLoop]
    split
    · rename_i x d' hx
      have := ih d'
      simp only [List.map_cons, List.count_cons]
      omega
    · have := ih d
      simp only [List.count_cons]
      omega

theorem processQuery_load {env : KvEnv} {t : TabletTracker} {q : Query} {b : Option Bytes} {x : TabletTracker × List (KvRequest × KvResponse) × Option Bytes}
    (h : t.processQuery env q b = .ok x) : x.1.load q0 + (x.2.1.map Prod.fst).count q0 ≤ t.load q0 := by
  unfold TabletTracker.processQuery at h
  obtain ⟨b', _, h2⟩ := Run.bind_eq_ok.mp h
  obtain ⟨d, _, h4⟩ := Run.bind_eq_ok.mp h2
  cases hr : t.waiting.get q.id with
  | none =>
    simp only [hr, Run.ok.injEq] at h4
    subst h4
    simp
  | some rs =>
    simp only [hr, Run.ok.injEq] at h4
    subst h4
    have h5 := processLoop_load (q0 := q0) env q rs d
    have h6 := sumBy_set (List.count q0) t.waiting q.id (processLoop env q rs d).2.1
    rw [hr] at h6
    simp only [Option.map_some, Option.getD_some] at h6
    simp only [TabletTracker.load]
    omega

/-- The requests transaction `i` has carried out. -/
def KvCore.carried (c : KvCore) (i : Nat) : List KvRequest := ((c.txns.get i).map TxnTracker.requests).getD []

/-- The transactions are the same and have carried out more. -/
def KvLe (c c' : KvCore) : Prop := (∀ i, c.txns.get i = none ↔ c'.txns.get i = none) ∧ ∀ i q, (c.carried i).count q ≤ (c'.carried i).count q

theorem KvLe.refl (c : KvCore) : KvLe c c := ⟨fun _ => Iff.rfl, fun _ _ => Nat.le_refl _⟩

theorem KvLe.trans (a b c : KvCore) (h1 : KvLe a b) (h2 : KvLe b c) : KvLe a c :=
  ⟨fun i => (h1.1 i).trans (h2.1 i), fun i q => Nat.le_trans (h1.2 i q) (h2.2 i q)⟩

/-- A handler carries out requests that the store held. -/
theorem processTablets_load {env : KvEnv} {txn : Nat} : ∀ {vs : List (Query × UInt32 × Option Bytes)} {c c' : KvCore} {ws : List (Option Bytes)},
    c.processTablets env txn vs = .ok (c', ws) → KvLe c c' ∧ (∀ i, i ≠ txn → c'.txns.get i = c.txns.get i) ∧
      ∀ q0, c'.load q0 + (c'.carried txn).count q0 ≤ c.load q0 + (c.carried txn).count q0 := by
  intro vs
  induction vs with
  | nil =>
    intro c c' ws h
    simp only [KvCore.processTablets, Run.ok.injEq, Prod.mk.injEq] at h
    rw [h.1]; exact ⟨.refl _, fun _ _ => rfl, fun _ => Nat.le_refl _⟩
  | cons v rest ih =>
    obtain ⟨q, t, b⟩ := v
    intro c c' ws h
    have skip : ((c.processTablets env txn rest).bind fun z => Run.ok (z.1, none :: z.2)) = .ok (c', ws) →
        KvLe c c' ∧ (∀ i, i ≠ txn → c'.txns.get i = c.txns.get i) ∧ ∀ q0, c'.load q0 + (c'.carried txn).count q0 ≤ c.load q0 + (c.carried txn).count q0 := by
      intro h
      obtain ⟨⟨c1, ws1⟩, h1, h2⟩ := Run.bind_eq_ok.mp h
      simp only [Run.ok.injEq, Prod.mk.injEq] at h2
      rw [← h2.1]; exact ih h1
    cases hx : c.txns.get txn with
    | none => simp only [KvCore.processTablets, hx] at h; exact skip h
    | some x =>
      cases ht : c.tablets.get t with
      | none => simp only [KvCore.processTablets, hx, ht] at h; exact skip h
      | some tr =>
        simp only [KvCore.processTablets, hx, ht] at h
        obtain ⟨y, h1, h2⟩ := Run.bind_eq_ok.mp h
        obtain ⟨⟨c1, ws1⟩, h3, h4⟩ := Run.bind_eq_ok.mp h2
        simp only [Run.ok.injEq, Prod.mk.injEq] at h4
        rw [← h4.1]
        obtain ⟨k1, k2, k3⟩ := ih h3
        have hc : c.carried txn = x.requests := by simp [KvCore.carried, hx]
        refine ⟨.trans _ _ _ ⟨fun i => ?_, fun i q' => ?_⟩ k1, fun i hi => ?_, fun q0 => Nat.le_trans (k3 q0) ?_⟩
        · by_cases hi : i = txn
          · subst hi; simp [hx, AMap.get_set_self]
          · rw [show (AMap.get _ i : Option TxnTracker) = c.txns.get i from AMap.get_set_ne _ _ (Ne.symm hi)]
        · by_cases hi : i = txn
          · subst hi; rw [hc]; simp [KvCore.carried, AMap.get_set_self]
          · have : (c.txns.set txn { x with requests := x.requests ++ y.2.1.map Prod.fst, responses := x.responses ++ y.2.1.map Prod.snd }).get i = c.txns.get i := AMap.get_set_ne _ _ (Ne.symm hi)
            simp [KvCore.carried, this]
        · rw [k2 i hi]; exact AMap.get_set_ne _ _ (Ne.symm hi)
        · have h5 := processQuery_load (q0 := q0) h1
          have h6 := sumBy_set (TabletTracker.load q0) c.tablets t y.1
          rw [ht] at h6
          simp only [Option.map_some, Option.getD_some] at h6
          rw [hc]
          simp only [KvCore.load, KvCore.carried, AMap.get_set_self, Option.map_some, Option.getD_some, List.count_append]
          omega

theorem collectProcess_load (env : KvEnv) : ∀ (ts : AMap UInt32 TabletTracker) (c : KvCore),
    sumBy (TabletTracker.load q0) (collectProcess env c ts).2.1 ≤ sumBy (TabletTracker.load q0) ts := by
  intro ts
  induction ts with
  | nil => intro c; exact Nat.le_refl _
  | cons e rest ih =>
    obtain ⟨t, tr⟩ := e
    intro c
    simp only [collectProcess]
    split
    · have h1 := ih (createQuery env c tr.pending).1
      have h3 := sumBy_set_le (List.count q0) tr.waiting (createQuery env c tr.pending).2.id tr.pending
      simp only [sumBy, TabletTracker.load, List.count_nil] at h1 ⊢
      have h5 : (fun t : TabletTracker => List.count q0 t.pending + sumBy (List.count q0) t.waiting) = TabletTracker.load q0 := rfl
      omega
    · have h1 := ih c
      simp only [sumBy]
      omega

theorem completeTablets_load : ∀ (l : List UInt32) (ts : AMap UInt32 TabletTracker),
    sumBy (TabletTracker.load q0) (completeTablets ts l) = sumBy (TabletTracker.load q0) ts := by
  intro l
  induction l with
  | nil => intro ts; rfl
  | cons t rest ih =>
    intro ts
    simp only [completeTablets]
    cases ht : ts.get t with
    | none => exact ih ts
    | some tr =>
      rw [ih]
      have h := sumBy_set (TabletTracker.load q0) ts t { tr with hasTxn := false }
      rw [ht] at h
      simp only [Option.map_some, Option.getD_some] at h
      have : TabletTracker.load q0 { tr with hasTxn := false } = TabletTracker.load q0 tr := rfl
      omega

theorem commitTxns_carried : ∀ {ts : AMap Nat TxnTracker} {co : Coordinator Bytes Unit} {y : Coordinator Bytes Unit × AMap Nat TxnTracker},
    commitTxns co ts = .ok y → (∀ i, (y.2.get i).map TxnTracker.requests = (ts.get i).map TxnTracker.requests) ∧ y.1.txnCounter = co.txnCounter ∧ y.2.keys = ts.keys := by
  intro ts
  induction ts with
  | nil => intro co y h; simp only [commitTxns, Run.ok.injEq] at h; rw [← h]; exact ⟨fun _ => rfl, rfl, rfl⟩
  | cons e rest ih =>
    obtain ⟨i, t⟩ := e
    intro co y h
    have skip : ((commitTxns co rest).bind fun y => Run.ok (y.1, (i, t) :: y.2)) = .ok y →
        (∀ j, (y.2.get j).map TxnTracker.requests = (AMap.get ((i, t) :: rest) j).map TxnTracker.requests) ∧ y.1.txnCounter = co.txnCounter ∧ y.2.keys = AMap.keys ((i, t) :: rest) := by
      intro h
      obtain ⟨z, h1, h2⟩ := Run.bind_eq_ok.mp h
      simp only [Run.ok.injEq] at h2
      rw [← h2]
      obtain ⟨k1, k2, k3⟩ := ih h1
      refine ⟨fun j => ?_, k2, by simp only [AMap.keys, List.map_cons] at k3 ⊢; rw [k3]⟩
      simp only [AMap.get_cons]
      split
      · rfl
      · exact k1 j
    cases hc : t.commit with
    | some k => simp only [commitTxns, hc] at h; exact skip h
    | none =>
      cases ht : t.txn with
      | none => simp only [commitTxns, hc, ht] at h; exact skip h
      | some j =>
        simp only [commitTxns, hc, ht] at h
        obtain ⟨b, _, h2⟩ := Run.bind_eq_ok.mp h
        cases b with
        | true => simp only [if_true] at h2; exact skip h2
        | false =>
          simp only [Bool.false_eq_true, if_false] at h2
          obtain ⟨co', hco, h3⟩ := Run.bind_eq_ok.mp h2
          obtain ⟨z, h4, h5⟩ := Run.bind_eq_ok.mp h3
          simp only [Run.ok.injEq] at h5
          rw [← h5]
          obtain ⟨k1, k2, k3⟩ := ih h4
          refine ⟨fun j => ?_, k2.trans ?_, by simp only [AMap.keys, List.map_cons] at k3 ⊢; rw [k3]⟩
          · simp only [AMap.get_cons]
            split
            · rfl
            · exact k1 j
          · unfold Coordinator.commit at hco
            split at hco
            · split at hco
              · cases hco
              · split at hco <;> simp only [Run.ok.injEq] at hco <;> rw [← hco]
            · cases hco

theorem check_txnCounter {h h' : Commit} {s s' : Sys} (hs : h.check s = .ok (h', s')) : s'.coord.txnCounter = s.coord.txnCounter := by
  unfold Commit.check at hs
  split at hs
  · simp only [Run.ok.injEq, Prod.mk.injEq] at hs; rw [← hs.2]
  · obtain ⟨x, hx, h2⟩ := Run.bind_eq_ok.mp hs
    simp only [Run.ok.injEq, Prod.mk.injEq] at h2
    rw [← h2.2]
    unfold Coordinator.check at hx
    split at hx <;> first | cases hx; done | (simp only [Run.ok.injEq] at hx; rw [← hx])

theorem finalizeTxns_carried : ∀ {ts : AMap Nat TxnTracker} {s : Sys} {y : Sys × AMap Nat TxnTracker × List UInt32 × List KvResponse}, ts.WF →
    finalizeTxns s ts = .ok y → (∀ i t, y.2.1.get i = some t → (ts.get i).map TxnTracker.requests = some t.requests) ∧ y.1.coord.txnCounter = s.coord.txnCounter := by
  intro ts
  induction ts with
  | nil => intro s y _ h; simp only [finalizeTxns, Run.ok.injEq] at h; rw [← h]; exact ⟨fun _ _ h => by simp at h, rfl⟩
  | cons e rest ih =>
    obtain ⟨i, t⟩ := e
    intro s y hwf h
    have hwf' : AMap.WF rest := by
      unfold AMap.WF at hwf ⊢
      simp only [AMap.keys, List.map_cons, List.nodup_cons] at hwf
      exact hwf.2
    have hni : AMap.get rest i = none := by
      unfold AMap.WF at hwf
      simp only [AMap.keys, List.map_cons, List.nodup_cons] at hwf
      cases hg : AMap.get rest i with
      | none => rfl
      | some v => exact absurd (List.mem_map.mpr ⟨_, AMap.mem_of_get hg, rfl⟩) hwf.1
    cases hc : t.commit with
    | none =>
      simp only [finalizeTxns, hc] at h
      obtain ⟨z, h1, h2⟩ := Run.bind_eq_ok.mp h
      simp only [Run.ok.injEq] at h2
      obtain ⟨k1, k2⟩ := ih hwf' h1
      rw [← h2]
      refine ⟨fun j t' hj => ?_, k2⟩
      simp only [AMap.get_cons] at hj ⊢
      split
      · rename_i e; rw [if_pos e] at hj; simp only [Option.some.injEq] at hj; rw [hj]; rfl
      · rename_i e; rw [if_neg e] at hj; exact k1 j t' hj
    | some k =>
      simp only [finalizeTxns, hc] at h
      obtain ⟨⟨k', s'⟩, h1, h2⟩ := Run.bind_eq_ok.mp h
      have hw := check_txnCounter h1
      cases ho : k'.outcome with
      | none =>
        simp only [ho] at h2
        obtain ⟨z, h3, h4⟩ := Run.bind_eq_ok.mp h2
        simp only [Run.ok.injEq] at h4
        obtain ⟨k1, k2⟩ := ih hwf' h3
        rw [← h4]
        refine ⟨fun j t' hj => ?_, k2.trans hw⟩
        simp only [AMap.get_cons] at hj ⊢
        split
        · rename_i e; rw [if_pos e] at hj; simp only [Option.some.injEq] at hj; rw [← hj]; rfl
        · rename_i e; rw [if_neg e] at hj; exact k1 j t' hj
      | some o =>
        simp only [ho] at h2
        obtain ⟨z, h3, h4⟩ := Run.bind_eq_ok.mp h2
        simp only [Run.ok.injEq] at h4
        obtain ⟨k1, k2⟩ := ih hwf' h3
        rw [← h4]
        refine ⟨fun j t' hj => ?_, k2.trans hw⟩
        simp only [AMap.get_cons]
        split
        · rename_i e
          have := k1 j t' hj
          subst e
          rw [hni] at this
          simp at this
        · exact k1 j t' hj

/-! ## Histories -/

/-- How often the request was accepted. -/
def timesAccepted (evs : List KEvent) (q : KvRequest) : Nat := evs.count (.accept q)

/-- How often each transaction has carried out each request: of the transactions the store still knows it is what they say. -/
def carriedOut (R : Nat → KvRequest → Nat) (c : KvCore) (i : Nat) (q : KvRequest) : Nat := ((c.txns.get i).map fun t => t.requests.count q).getD (R i q)

/-- What the transactions have carried out and what the store holds were accepted. -/
structure Counted (R : Nat → KvRequest → Nat) (evs : List KEvent) (s : Sys) : Prop where
  live : ∀ i t, s.world.shared.txns.get i = some t → ∀ q, R i q = t.requests.count q
  known : ∀ i t, s.world.shared.txns.get i = some t → i ≤ s.coord.txnCounter
  fresh : ∀ i, s.coord.txnCounter < i → ∀ q, R i q = 0
  total : ∀ q (l : List Nat), l.Nodup → (l.map (R · q)).sum + s.world.shared.load q ≤ timesAccepted evs q

theorem sum_map_le {f g : Nat → Nat} (l : List Nat) (h : ∀ i, f i ≤ g i) : (l.map f).sum ≤ (l.map g).sum := by
  induction l with
  | nil => simp
  | cons x l ih => have := h x; simp only [List.map_cons, List.sum_cons]; omega

theorem sum_map_shift {f g : Nat → Nat} {n a b : Nat} (h1 : ∀ i, i ≠ n → f i = g i) (h2 : f n + a ≤ g n + b) (h3 : g n ≤ f n) :
    ∀ l : List Nat, l.Nodup → (l.map f).sum + a ≤ (l.map g).sum + b := by
  intro l
  induction l with
  | nil => intro _; simp; omega
  | cons x l ih =>
    intro hl
    simp only [List.nodup_cons] at hl
    simp only [List.map_cons, List.sum_cons]
    by_cases hx : x = n
    · subst hx
      have : l.map f = l.map g := List.map_congr_left fun i hi => h1 i fun he => hl.1 (he ▸ hi)
      rw [this]; omega
    · rw [h1 x hx]
      have := ih hl.2
      omega

theorem Counted.same {R : Nat → KvRequest → Nat} {evs : List KEvent} {s : Sys} (h : Counted R evs s) (i : Nat) (q : KvRequest) : carriedOut R s.world.shared i q = R i q := by
  unfold carriedOut
  cases ht : s.world.shared.txns.get i with
  | none => rfl
  | some t => simp [h.live i t ht q]

theorem processTablets_counted {env : KvEnv} {R : Nat → KvRequest → Nat} {txn : Nat} {vs : List (Query × UInt32 × Option Bytes)} {c c' : KvCore} {ws : List (Option Bytes)} {n : Nat} {q : KvRequest}
    (h : c.processTablets env txn vs = .ok (c', ws)) (hn : ∀ l : List Nat, l.Nodup → (l.map (carriedOut R c · q)).sum + c.load q ≤ n) :
    ∀ l : List Nat, l.Nodup → (l.map (carriedOut R c' · q)).sum + c'.load q ≤ n := by
  obtain ⟨⟨k0, k1⟩, k2, k3⟩ := processTablets_load h
  intro l hl
  refine Nat.le_trans (sum_map_shift (n := txn) (fun i hi => ?_) ?_ ?_ l hl) (hn l hl)
  · simp only [carriedOut, k2 i hi]
  all_goals
    have h1 := k3 q
    have h2 := k1 txn q
    have h0 := k0 txn
    unfold KvCore.carried at h1 h2
    unfold carriedOut
    cases ha : c.txns.get txn with
    | none =>
      rw [h0.mp ha]
      rw [ha, h0.mp ha] at h1
      simp at h1 ⊢
      try omega
    | some t =>
      cases hb : c'.txns.get txn with
      | none => rw [h0.mpr hb] at ha; cases ha
      | some t' =>
        rw [ha, hb] at h1 h2
        simp at h1 h2 ⊢
        omega

section
variable {env : KvEnv} {data : DataEnv Bytes} {evict : AMap String (Entry Bytes) → List String}

theorem makeProgress_txnCounter {α η ω : Type} {env : TxnEnv α η ω} {m m' : Manager α η ω} (h : m.makeProgress env = .ok m') : m'.coord.txnCounter = m.coord.txnCounter := by
  unfold Manager.makeProgress at h
  obtain ⟨md, _, h⟩ := Run.bind_eq_ok.mp h
  obtain ⟨d, _, h⟩ := Run.bind_eq_ok.mp h
  obtain ⟨⟨ts, w⟩, h1, h⟩ := Run.bind_eq_ok.mp h
  simp only [Run.ok.injEq] at h
  rw [← h]

theorem coordIn_txnCounter {α η : Type} {c : Coordinator α η} {md : MetaCache} {y : Coordinator α η × MetaCache} {corr : Nat} {rs : List TabletOpResult}
    (h : c.processIn md corr rs = .ok y) : y.1.txnCounter = c.txnCounter := by
  unfold Coordinator.processIn at h
  split at h
  · simp only [Run.ok.injEq] at h; rw [← h]
  · dsimp only at h
    split at h
    · obtain ⟨x, _, h⟩ := Run.bind_eq_ok.mp h
      obtain ⟨md', _, h⟩ := Run.bind_eq_ok.mp h
      simp only [Run.ok.injEq] at h; rw [← h]
    · simp only [Run.ok.injEq] at h; rw [← h]

theorem opsResponse_txnCounter {α η ω : Type} {m m' : Manager α η ω} {corr : Nat} {r : Response} (h : m.opsResponse corr r = .ok m') : m'.coord.txnCounter = m.coord.txnCounter := by
  unfold Manager.opsResponse at h
  obtain ⟨md, _, h⟩ := Run.bind_eq_ok.mp h
  split at h
  · simp only [Run.ok.injEq] at h; rw [← h]
  · obtain ⟨x, hx, h⟩ := Run.bind_eq_ok.mp h
    simp only [Run.ok.injEq] at h; rw [← h]; exact coordIn_txnCounter hx

theorem processIn_txnCounter {α η ω : Type} {env : TxnEnv α η ω} {m m' : Manager α η ω} {i : MgrIn} (h : m.processIn env i = .ok m') : m'.coord.txnCounter = m.coord.txnCounter := by
  cases i with
  | data r =>
    simp only [Manager.processIn] at h
    obtain ⟨d, _, h⟩ := Run.bind_eq_ok.mp h
    simp only [Run.ok.injEq] at h; rw [← h]
  | response corr r => simp only [Manager.processIn] at h; exact (opsResponse_txnCounter h).trans rfl
  | error corr =>
    simp only [Manager.processIn] at h
    split at h
    · exact (opsResponse_txnCounter h).trans rfl
    · simp only [Run.ok.injEq] at h; rw [← h]

theorem storeProgress_counted {R : Nat → KvRequest → Nat} {evs : List KEvent} {s s' : Sys} (hc : Counted R evs s) (hwf : s.world.shared.txns.WF) (h : s.storeProgress env = .ok s') : Counted R (evs ++ [.store]) s' := by
  unfold Manager.storeProgress at h
  obtain ⟨s1, h1, h⟩ := Run.bind_eq_ok.mp h
  obtain ⟨s2, h2, h⟩ := Run.bind_eq_ok.mp h
  obtain ⟨x, h3, h⟩ := Run.bind_eq_ok.mp h
  obtain ⟨y, h4, h⟩ := Run.bind_eq_ok.mp h
  simp only [Run.ok.injEq] at h
  subst h
  have w1 : (∀ q, s1.world.shared.load q ≤ s.world.shared.load q) ∧ s1.world.shared.txns = s.world.shared.txns ∧ s1.coord = s.coord := by
    unfold Manager.maybeResolve at h1
    dsimp only at h1
    split at h1
    · obtain ⟨s', k1, k2⟩ := Run.bind_eq_ok.mp h1
      split at k2
      · simp only [Run.ok.injEq] at k2
        subst k2
        unfold Manager.resolve at k1
        obtain ⟨md, _, k4⟩ := Run.bind_eq_ok.mp k1
        simp only [Run.ok.injEq] at k4
        subst k4
        refine ⟨fun q => ?_, rfl, rfl⟩
        have := sumBy_set_le (List.count q) s.world.shared.resolving (createQuery env s.world.shared s.world.shared.pending).2.id s.world.shared.pending
        simp only [Manager.withCore, KvCore.load, List.count_nil, createQuery] at this ⊢
        omega
      · cases k2
    · simp only [Run.ok.injEq] at h1; rw [h1]; exact ⟨fun _ => Nat.le_refl _, rfl, rfl⟩
  obtain ⟨w1a, w1b, w1c⟩ := w1
  have w2 : (∀ q, s2.world.shared.load q ≤ s1.world.shared.load q) ∧
      (∀ i t, s2.world.shared.txns.get i = some t → s1.world.shared.txns.get i = some t ∨ (i = s1.coord.txnCounter + 1 ∧ s2.coord.txnCounter = s1.coord.txnCounter + 1 ∧ t.requests = [])) ∧
      s1.coord.txnCounter ≤ s2.coord.txnCounter ∧ s2.world.shared.txns.WF := by
    obtain ⟨_, n, k2⟩ := collectProcess_weight env (true, 0) s1.world.shared.tablets s1.world.shared
    unfold Manager.maybeStart at h2
    dsimp only at h2
    split at h2
    · simp only [Run.ok.injEq] at h2
      subst h2
      simp only [Manager.withCore, KvCore.load, k2]
      refine ⟨fun q => ?_, fun i t h => .inl h, Nat.le_refl _, by rw [w1b]; exact hwf⟩
      have := collectProcess_load (q0 := q) env s1.world.shared.tablets s1.world.shared
      omega
    · obtain ⟨co, h5, h6⟩ := Run.bind_eq_ok.mp h2
      simp only [Run.ok.injEq] at h6
      subst h6
      have hco : co.txnCounter = s1.coord.txnCounter + 1 := by
        unfold Coordinator.process at h5
        split at h5
        · simp only [Run.ok.injEq] at h5; rw [← h5]; rfl
        · cases h5
      simp only [Manager.withCore, KvCore.load, k2]
      refine ⟨fun q => ?_, fun i t h => ?_, by omega, by rw [w1b]; exact hwf.set _ _⟩
      · have := collectProcess_load (q0 := q) env s1.world.shared.tablets s1.world.shared
        omega
      · rw [AMap.get_set] at h
        split at h
        · rename_i hi
          simp only [Option.some.injEq] at h
          exact .inr ⟨hi.symm, hco, by rw [← h]⟩
        · exact .inl h
  obtain ⟨w2a, w2b, w2c, w2d⟩ := w2
  obtain ⟨w3a, w3b, w3c⟩ := commitTxns_carried h3
  have hwf3 : AMap.WF x.2 := by unfold AMap.WF; rw [w3c]; exact w2d
  obtain ⟨w4a, w4b⟩ := finalizeTxns_carried hwf3 h4
  obtain ⟨w4, w5⟩ := finalizeTxns_weight (true, 0) _ _ _ h4
  have hcnt : y.1.coord.txnCounter = s2.coord.txnCounter := w4b.trans w3b
  have key : ∀ i t, y.2.1.get i = some t → ∃ t0, s2.world.shared.txns.get i = some t0 ∧ t0.requests = t.requests := by
    intro i t ht
    have := w4a i t ht
    rw [show (AMap.get _ i : Option TxnTracker).map TxnTracker.requests = _ from w3a i] at this
    cases hg : s2.world.shared.txns.get i with
    | none => rw [hg] at this; simp at this
    | some t0 => rw [hg] at this; exact ⟨t0, rfl, by simpa using this⟩
  refine ⟨fun i t ht q => ?_, fun i t ht => ?_, fun i hi q => ?_, fun q l hl => ?_⟩
  · obtain ⟨t0, g1, g2⟩ := key i t ht
    rw [← g2]
    rcases w2b i t0 g1 with g | ⟨g, g', g3⟩
    · rw [w1b] at g; exact hc.live i t0 g q
    · rw [g3, hc.fresh i (by rw [g, w1c]; exact Nat.lt_succ_self _) q]; rfl
  · obtain ⟨t0, g1, g2⟩ := key i t ht
    show i ≤ y.1.coord.txnCounter
    rw [hcnt]
    rcases w2b i t0 g1 with g | ⟨g, g', g3⟩
    · rw [w1b] at g
      have := hc.known i t0 g
      rw [w1c] at w2c
      omega
    · omega
  · have hi : y.1.coord.txnCounter < i := hi
    rw [hcnt] at hi
    rw [w1c] at w2c
    exact hc.fresh i (by omega) q
  · have := hc.total q l hl
    have h5 := w1a q
    have h6 := w2a q
    have h7 : timesAccepted (evs ++ [.store]) q = timesAccepted evs q := by simp [timesAccepted]
    rw [h7]
    simp only [Manager.withCore, KvCore.load, w4] at h5 h6 this ⊢
    rw [completeTablets_load]
    omega

theorem kstep_counted {R : Nat → KvRequest → Nat} {evs : List KEvent} {s s' : Sys} {ev : KEvent} (hc : Counted R evs s) (hwf : s.world.shared.txns.WF) (h : KStep env (txnEnv env data evict) s ev s') :
    ∃ R', (∀ i q, R i q ≤ R' i q) ∧ Counted R' (evs ++ [ev]) s' := by
  have more : ∀ q, timesAccepted evs q ≤ timesAccepted (evs ++ [ev]) q := fun q => by simp [timesAccepted]
  have keep : s'.world.shared.txns = s.world.shared.txns → s'.coord.txnCounter = s.coord.txnCounter →
      (∀ q, s'.world.shared.load q + timesAccepted evs q ≤ s.world.shared.load q + timesAccepted (evs ++ [ev]) q) → ∃ R', (∀ i q, R i q ≤ R' i q) ∧ Counted R' (evs ++ [ev]) s' := by
    intro h1 h2 h3
    refine ⟨R, fun _ _ => Nat.le_refl _, ?_, ?_, ?_, fun q l hl => ?_⟩
    · rw [h1]; exact hc.live
    · rw [h1, h2]; exact hc.known
    · rw [h2]; exact hc.fresh
    · have h4 := h3 q
      have h5 := hc.total q l hl
      omega
  cases h with
  | init h =>
    refine keep (by rw [init_shared h]; rfl) ?_ fun q => ?_
    · unfold Manager.init at h
      obtain ⟨es, _, h⟩ := Run.bind_eq_ok.mp h
      simp only [Run.ok.injEq] at h
      rw [← h]; rfl
    · rw [init_shared h]
      have := more q
      simp only [Manager.withCore, KvCore.init, KvCore.load, List.count_nil, sumBy]
      omega
  | @accept r =>
    refine keep rfl rfl fun q => ?_
    simp only [Manager.accept, Manager.withCore, KvCore.load, List.count_append, timesAccepted]
    by_cases hq : r = q
    · subst hq; simp; omega
    · simp [hq]
  | store h => exact ⟨R, fun _ _ => Nat.le_refl _, storeProgress_counted hc hwf h⟩
  | progress h =>
    have hle := makeProgress_shared (P := fun w => KvLe s.world.shared w ∧
        ∀ q (l : List Nat), l.Nodup → (l.map (carriedOut R w · q)).sum + w.load q ≤ timesAccepted evs q)
      (fun _ w txn vs w' ws hw hh => ⟨.trans _ _ _ hw.1 (processTablets_load hh).1, fun q => processTablets_counted hh (hw.2 q)⟩) h
      ⟨.refl _, fun q l hl => by
        rw [show (fun i => carriedOut R s.world.shared i q) = (R · q) from funext fun i => hc.same i q]
        exact hc.total q l hl⟩
    obtain ⟨⟨k1, k2⟩, k4⟩ := hle
    have hcn := makeProgress_txnCounter h
    have kn : ∀ i t, s'.world.shared.txns.get i = some t → i ≤ s.coord.txnCounter := by
      intro i t ht
      cases hg : s.world.shared.txns.get i with
      | none => rw [(k1 i).mp hg] at ht; cases ht
      | some t0 => exact hc.known i t0 hg
    refine ⟨carriedOut R s'.world.shared, fun i q => ?_, fun i t ht q => ?_, fun i t ht => ?_, fun i hi q => ?_, fun q l hl => ?_⟩
    · have h2 := k2 i q
      unfold KvCore.carried at h2
      rw [← hc.same]
      unfold carriedOut
      cases ha : s.world.shared.txns.get i with
      | none => rw [(k1 i).mp ha]; simp
      | some t =>
        cases hb : s'.world.shared.txns.get i with
        | none => rw [(k1 i).mpr hb] at ha; cases ha
        | some t' =>
          rw [ha, hb] at h2
          simpa using h2
    · simp [carriedOut, ht]
    · rw [hcn]; exact kn i t ht
    · rw [hcn] at hi
      unfold carriedOut
      cases hb : s'.world.shared.txns.get i with
      | none => exact hc.fresh i hi q
      | some t' => exact absurd (kn i t' hb) (by omega)
    · exact Nat.le_trans (k4 q l hl) (more q)
  | @input _ i h =>
    unfold Manager.input at h
    obtain ⟨s1, h1, h2⟩ := Run.bind_eq_ok.mp h
    simp only [Run.ok.injEq] at h2
    subst h2
    have hcn := processIn_txnCounter h1
    refine keep ?_ hcn fun q => ?_
    · simp only [Manager.withCore]; rw [(handleCalls_frame _ _).2, processIn_shared h1]
    · have h3 := handleCalls_load (q0 := q) (s1.world.md.calls.drop s.world.md.calls.length) s1.world.shared
      have := more q
      simp only [Manager.withCore]
      rw [processIn_shared h1] at h3 ⊢
      omega
  | take h =>
    refine keep (by rw [takeOut_shared h]) ?_ fun q => ?_
    · unfold Manager.takeOut at h
      obtain ⟨es, _, h⟩ := Run.bind_eq_ok.mp h
      simp only [Run.ok.injEq, Prod.mk.injEq] at h
      rw [← h.1]
    · have := more q
      rw [takeOut_shared h]; omega
  | responses => exact keep rfl rfl fun q => by simp [Manager.takeResponses, Manager.withCore, KvCore.load, timesAccepted]

theorem counted_new {co md d : Nat} : Counted (fun _ _ => 0) [] (.create co md d .new) :=
  ⟨by simp [Manager.create, KvCore.new], by simp [Manager.create, KvCore.new], fun _ _ _ => rfl, fun q l _ => by
    have h0 : (l.map fun _ => 0).sum = 0 := by induction l <;> simp_all
    rw [h0]
    simp [Manager.create, KvCore.new, KvCore.load, sumBy]⟩
end

end TCP.Cache
