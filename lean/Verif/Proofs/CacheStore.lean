import Verif.Spec.CacheStore
import Verif.Proofs.CacheRun

/-!
# Proofs about the key-value store of the tablet cache
-/

namespace TCP.Cache

open TCP TCP.TabletStore TCP.Cache.Spec

theorem flatMap_congr' {α β : Type} {l : List α} {f g : α → List β} (h : ∀ a ∈ l, f a = g a) : l.flatMap f = l.flatMap g := by
  induction l with
  | nil => rfl
  | cons a rest ih =>
    rw [List.flatMap_cons, List.flatMap_cons, h a (by simp), ih fun b hb => h b (by simp [hb])]

/-! ## Processing a batch -/

theorem execReqs_append (d : Dict) (a b : List KvRequest) :
    execReqs d (a ++ b) = ((execReqs (execReqs d a).1 b).1, (execReqs d a).2 ++ (execReqs (execReqs d a).1 b).2) := by
  induction a generalizing d with
  | nil => rfl
  | cons r rest ih => simp [execReqs, ih]

theorem execReqs_length (d : Dict) (rs : List KvRequest) : (execReqs d rs).2.length = rs.length := by
  induction rs generalizing d with
  | nil => rfl
  | cons r rest ih => simp [execReqs, ih]

theorem execReqs_sigs (d : Dict) (rs : List KvRequest) : (execReqs d rs).2.map respSig = rs.map reqSig := by
  induction rs generalizing d with
  | nil => rfl
  | cons r rest ih =>
    simp only [execReqs, List.map_cons, ih]
    cases r <;> rfl

theorem processRequest_spec (env : KvEnv) (q : Query) (d : AMap String Bytes) (r : KvRequest) :
    (env.hash r.key ∈ q.hashes → ∃ d', processRequest env q d r = some ((execReq d.get r).2, d') ∧ d'.get = (execReq d.get r).1 ∧ (r.isPut = false → d' = d)) ∧
    (env.hash r.key ∉ q.hashes → processRequest env q d r = none) := by
  cases r with
  | put corr k v =>
    refine ⟨fun h => ⟨d.set k v, ?_, ?_, by simp [KvRequest.isPut]⟩, fun h => ?_⟩
    · simp only [KvRequest.key] at h
      simp [processRequest, h, execReq]
    · funext j
      simp only [execReq]
      rw [AMap.get_set]
      by_cases e : k = j
      · simp [e]
      · simp [e, Ne.symm e]
    · simp only [KvRequest.key] at h
      simp [processRequest, h]
  | get corr k =>
    refine ⟨fun h => ⟨d, ?_, rfl, fun _ => rfl⟩, fun h => ?_⟩
    · simp only [KvRequest.key] at h
      simp [processRequest, h, execReq]
    · simp only [KvRequest.key] at h
      simp [processRequest, h]

theorem processLoop_spec (env : KvEnv) (q : Query) : ∀ (rs : List KvRequest) (d : AMap String Bytes),
    (processLoop env q rs d).1 = (covered env q rs).zip (execReqs d.get (covered env q rs)).2 ∧
    (processLoop env q rs d).2.1 = rs.filter (fun r => decide (env.hash r.key ∉ q.hashes)) ∧
    (processLoop env q rs d).2.2.1.get = (execReqs d.get (covered env q rs)).1 ∧
    ((processLoop env q rs d).2.2.2 = true ↔ ∃ r ∈ covered env q rs, r.isPut = true) := by
  intro rs
  induction rs with
  | nil => intro d; simp [processLoop, covered, execReqs]
  | cons r rest ih =>
    intro d
    obtain ⟨h1, h2⟩ := processRequest_spec env q d r
    by_cases hq : env.hash r.key ∈ q.hashes
    · obtain ⟨d', h3, h4, _⟩ := h1 hq
      obtain ⟨k1, k2, k3, k4⟩ := ih d'
      have hc : covered env q (r :: rest) = r :: covered env q rest := by simp [covered, hq]
      rw [hc]
      simp only [processLoop, h3]
      refine ⟨by simp [k1, execReqs, h4], by simp [k2, hq], by simp [k3, execReqs, h4], ?_⟩
      simp [k4]
    · obtain ⟨k1, k2, k3, k4⟩ := ih d
      have hc : covered env q (r :: rest) = covered env q rest := by simp [covered, hq]
      rw [hc]
      simp only [processLoop, h2 hq]
      exact ⟨k1, by simp [k2, hq], k3, k4⟩

theorem processQuery_spec (env : KvEnv) {t : TabletTracker} {q : Query} {b : Bytes} {d : AMap String Bytes} (hb : env.dec b = some d) :
    ∃ t' w, t.processQuery env q (some b) = .ok (t', (covered env q ((t.waiting.get q.id).getD [])).zip
        (execReqs d.get (covered env q ((t.waiting.get q.id).getD []))).2, w) ∧
      writes env d.get (covered env q ((t.waiting.get q.id).getD [])) w ∧ t'.pending = t.pending ∧ t'.hasTxn = t.hasTxn ∧ t'.minPending = t.minPending ∧
      (t'.waiting.get q.id).getD [] = ((t.waiting.get q.id).getD []).filter (fun r => decide (env.hash r.key ∉ q.hashes)) ∧
      ∀ j, j ≠ q.id → t'.waiting.get j = t.waiting.get j := by
  cases hr : t.waiting.get q.id with
  | none =>
    refine ⟨t, none, ?_, ⟨?_, by simp⟩, rfl, rfl, rfl, by simp [hr], fun _ _ => rfl⟩
    · simp [TabletTracker.processQuery, hb, hr, covered]
    · simp [covered]
  | some rs =>
    obtain ⟨k1, k2, k3, k4⟩ := processLoop_spec env q rs d
    refine ⟨{ t with waiting := t.waiting.set q.id (processLoop env q rs d).2.1 },
      if (processLoop env q rs d).2.2.2 then some (env.enc (processLoop env q rs d).2.2.1) else none, ?_, ⟨?_, ?_⟩, rfl, rfl, rfl, ?_, ?_⟩
    · simp [TabletTracker.processQuery, hb, hr, k1]
    · rw [Option.getD_some]
      constructor
      · intro h r hr
        cases hp : r.isPut with
        | false => rfl
        | true => rw [k4.mpr ⟨r, hr, hp⟩] at h; simp at h
      · intro h
        split
        · rename_i hu
          obtain ⟨r, h1, h2⟩ := k4.mp hu
          rw [h r h1] at h2; cases h2
        · rfl
    · intro b' h
      split at h
      · simp only [Option.some.injEq] at h
        exact ⟨_, h.symm, k3⟩
      · cases h
    · simp [k2]
    · intro j hj
      dsimp only
      rw [AMap.get_set_ne _ _ (Ne.symm hj)]

theorem waitingFor_set {c : KvCore} {t : UInt32} {tr tr' : TabletTracker} {q : Query} (ht : c.tablets.get t = some tr)
    (ho : ∀ j, j ≠ q.id → tr'.waiting.get j = tr.waiting.get j) {txns : AMap Nat TxnTracker} {q' : Query} {t' : UInt32} (hne : (q'.id, t') ≠ (q.id, t)) :
    waitingFor { c with tablets := c.tablets.set t tr', txns := txns } q' t' = waitingFor c q' t' := by
  unfold waitingFor
  dsimp only
  rw [AMap.get_set]
  by_cases e : t = t'
  · subst e
    have : q'.id ≠ q.id := fun h => hne (by rw [h])
    simp [ht, ho _ this]
  · simp [e]

theorem processTablets_spec (env : KvEnv) (txn : Nat) : ∀ (vs : List (Query × UInt32 × Option Bytes)) (c : KvCore) (x : TxnTracker), c.txns.get txn = some x →
    (vs.map fun v => (v.1.id, v.2.1)).Nodup → (∀ v ∈ vs, (c.tablets.get v.2.1).isSome → ∃ b d, v.2.2 = some b ∧ env.dec b = some d) →
    ∃ c' ws x', c.processTablets env txn vs = .ok (c', ws) ∧ ws.length = vs.length ∧ c'.txns.get txn = some x' ∧
      x'.requests = x.requests ++ vs.flatMap (fun v => covered env v.1 (waitingFor c v.1 v.2.1)) ∧
      x'.responses = x.responses ++ vs.flatMap (viewAnswers env c) ∧
      (∀ (k : Nat) (v : Query × UInt32 × Option Bytes) (w : Option Bytes), vs[k]? = some v → ws[k]? = some w →
        writes env (dictOf env v.2.2) (covered env v.1 (waitingFor c v.1 v.2.1)) w) ∧
      (∀ v ∈ vs, waitingFor c' v.1 v.2.1 = (waitingFor c v.1 v.2.1).filter (fun r => decide (env.hash r.key ∉ v.1.hashes))) ∧
      ∀ q t, (∀ v ∈ vs, (q.id, t) ≠ (v.1.id, v.2.1)) → waitingFor c' q t = waitingFor c q t := by
  intro vs
  induction vs with
  | nil => intro c x hx _ _; exact ⟨c, [], x, rfl, rfl, hx, by simp, by simp, by simp, by simp, by simp⟩
  | cons v rest ih =>
    obtain ⟨q, t, b⟩ := v
    intro c x hx hnd hok
    simp only [List.map_cons, List.nodup_cons, List.mem_map, not_exists, not_and] at hnd
    obtain ⟨hn1, hn2⟩ := hnd
    have hn : ∀ v ∈ rest, (q.id, t) ≠ (v.1.id, v.2.1) := fun v hv e => hn1 v hv e.symm
    cases ht : c.tablets.get t with
    | none =>
      obtain ⟨c', ws, x', h1, h2, h3, h4, h5, h6, h7, h8⟩ := ih c x hx hn2 (fun v hv => hok v (by simp [hv]))
      have hw : waitingFor c q t = [] := by simp [waitingFor, ht]
      refine ⟨c', none :: ws, x', ?_, by simp [h2], h3, ?_, ?_, ?_, ?_, ?_⟩
      · simp [KvCore.processTablets, hx, ht, h1]
      · simp [h4, hw, covered]
      · simp [h5, viewAnswers, hw, covered, execReqs]
      · intro k v w hk1 hk2
        cases k with
        | zero =>
          simp only [List.getElem?_cons_zero, Option.some.injEq] at hk1 hk2
          subst hk1 hk2
          simp [writes, hw, covered]
        | succ k => exact h6 k v w (by simpa using hk1) (by simpa using hk2)
      · intro v hv
        rcases List.mem_cons.mp hv with rfl | hv
        · dsimp only
          rw [h8 q t hn, hw]; rfl
        · exact h7 v hv
      · exact fun q' t' hne => h8 q' t' fun v hv => hne v (by simp [hv])
    | some tr =>
      obtain ⟨b', d, hb1, hb2⟩ := hok (q, t, b) (by simp) (by simp [ht])
      dsimp only at hb1
      subst hb1
      obtain ⟨tr', w0, g1, g2, _, _, _, g3, g4⟩ := processQuery_spec env (t := tr) (q := q) hb2
      have hwq : waitingFor c q t = (tr.waiting.get q.id).getD [] := by simp [waitingFor, ht]
      rw [← hwq] at g1 g2 g3
      have hd : dictOf env (some b') = d.get := by simp [dictOf, hb2]
      have hlen : (covered env q (waitingFor c q t)).length = (execReqs d.get (covered env q (waitingFor c q t))).2.length := (execReqs_length _ _).symm
      obtain ⟨tx, htx⟩ : ∃ tx : AMap Nat TxnTracker, tx = c.txns.set txn ⟨x.tabletIds, x.requests ++ covered env q (waitingFor c q t),
          x.responses ++ (execReqs d.get (covered env q (waitingFor c q t))).2, x.txn, x.commit⟩ := ⟨_, rfl⟩
      obtain ⟨c', ws, x', h1, h2, h3, h4, h5, h6, h7, h8⟩ := ih { c with tablets := c.tablets.set t tr', txns := tx } _
        (by rw [htx]; exact AMap.get_set_self _ _ _) hn2 (fun v hv hs => hok v (by simp [hv]) (by
          dsimp only at hs
          rw [AMap.get_set] at hs
          split at hs
          · rename_i e; rw [← e, ht]; rfl
          · exact hs))
      have hkeep : ∀ (q' : Query) (t' : UInt32), (q'.id, t') ≠ (q.id, t) →
          waitingFor { c with tablets := c.tablets.set t tr', txns := tx } q' t' = waitingFor c q' t' :=
        fun q' t' hne => waitingFor_set ht g4 hne
      have hrest : ∀ v ∈ rest, waitingFor { c with tablets := c.tablets.set t tr', txns := tx } v.1 v.2.1 = waitingFor c v.1 v.2.1 := fun v hv => hkeep v.1 v.2.1 (Ne.symm (hn v hv))
      refine ⟨c', w0 :: ws, x', ?_, by simp [h2], h3, ?_, ?_, ?_, ?_, ?_⟩
      · simp only [KvCore.processTablets, hx, ht, g1, Run.bind_ok]
        rw [List.map_fst_zip (by omega), List.map_snd_zip (by omega), ← htx, h1]
        rfl
      · rw [h4, List.flatMap_cons, List.append_assoc]
        congr 2
        exact flatMap_congr' fun v hv => by rw [hrest v hv]
      · rw [h5, List.flatMap_cons, List.append_assoc]
        congr 2
        · simp [viewAnswers, hd]
        · exact flatMap_congr' fun v hv => by simp only [viewAnswers]; rw [hrest v hv]
      · intro k v w hk1 hk2
        cases k with
        | zero =>
          simp only [List.getElem?_cons_zero, Option.some.injEq] at hk1 hk2
          subst hk1 hk2
          dsimp only
          rw [hd]; exact g2
        | succ k =>
          have hk1' : rest[k]? = some v := by simpa using hk1
          have := h6 k v w hk1' (by simpa using hk2)
          rw [hrest v (List.mem_of_getElem? hk1')] at this
          exact this
      · intro v hv
        rcases List.mem_cons.mp hv with rfl | hv
        · dsimp only
          rw [h8 q t hn]
          conv => lhs; unfold waitingFor
          dsimp only
          rw [AMap.get_set_self]
          exact g3
        · rw [h7 v hv, hrest v hv]
      · intro q' t' hne
        rw [h8 q' t' fun v hv => hne v (by simp [hv])]
        exact hkeep q' t' (hne (q, t, some b') (by simp))

/-! ## Counting requests and responses -/

/-- The sum over the values of a map. -/
def sumBy {κ ν : Type} (f : ν → Nat) : AMap κ ν → Nat
  | [] => 0
  | e :: rest => f e.2 + sumBy f rest

section
variable {κ ν : Type} [DecidableEq κ] (f : ν → Nat)

theorem sumBy_set (m : AMap κ ν) (k : κ) (v : ν) : sumBy f (m.set k v) + ((m.get k).map f).getD 0 = sumBy f m + f v := by
  induction m with
  | nil => simp [sumBy, AMap.set]
  | cons e rest ih =>
    obtain ⟨k', v'⟩ := e
    simp only [AMap.set, AMap.get_cons]
    split
    · simp [sumBy]; omega
    · simp only [sumBy]; omega

theorem sumBy_set_le (m : AMap κ ν) (k : κ) (v : ν) : sumBy f (m.set k v) ≤ sumBy f m + f v := by
  have := sumBy_set f m k v; omega

theorem sumBy_erase_le (m : AMap κ ν) (k : κ) : sumBy f (m.erase k) ≤ sumBy f m := by
  induction m with
  | nil => simp [AMap.erase, sumBy]
  | cons e rest ih =>
    obtain ⟨k', v'⟩ := e
    simp only [AMap.erase, List.filter_cons] at ih ⊢
    split
    · simp only [sumBy]; omega
    · simp only [sumBy]; omega

theorem sumBy_erase (m : AMap κ ν) (k : κ) : sumBy f (m.erase k) + ((m.get k).map f).getD 0 ≤ sumBy f m := by
  induction m with
  | nil => simp [AMap.erase, sumBy]
  | cons e rest ih =>
    obtain ⟨k', v'⟩ := e
    have h2 := sumBy_erase_le f rest k
    simp only [AMap.erase, List.filter_cons, AMap.get_cons] at ih h2 ⊢
    by_cases e : k' = k
    · simp only [e, decide_true, Bool.not_true, Bool.false_eq_true, if_false, if_true, Option.map_some, Option.getD_some, sumBy]; omega
    · simp only [e, decide_false, Bool.not_false, if_true, if_false, sumBy]; omega

end

/-- How many of the requests have the signature. -/
def cntReq (σ : Bool × Nat) (l : List KvRequest) : Nat := (l.filter fun r => decide (reqSig r = σ)).length

/-- How many of the responses have the signature. -/
def cntResp (σ : Bool × Nat) (l : List KvResponse) : Nat := (l.filter fun r => decide (respSig r = σ)).length

@[simp] theorem cntReq_nil (σ : Bool × Nat) : cntReq σ [] = 0 := rfl
@[simp] theorem cntResp_nil (σ : Bool × Nat) : cntResp σ [] = 0 := rfl
@[simp] theorem cntReq_append (σ : Bool × Nat) (a b : List KvRequest) : cntReq σ (a ++ b) = cntReq σ a + cntReq σ b := by simp [cntReq]
@[simp] theorem cntResp_append (σ : Bool × Nat) (a b : List KvResponse) : cntResp σ (a ++ b) = cntResp σ a + cntResp σ b := by simp [cntResp]

/-- Everything held for a signature in a tablet tracker. -/
def TabletTracker.weight (σ : Bool × Nat) (t : TabletTracker) : Nat := cntReq σ t.pending + sumBy (cntReq σ) t.waiting

/-- Everything held for a signature: a request that may be answered, or an answer. -/
def KvCore.weight (σ : Bool × Nat) (c : KvCore) : Nat :=
  cntReq σ c.pending + sumBy (cntReq σ) c.resolving + sumBy (TabletTracker.weight σ) c.tablets + sumBy (fun t => cntResp σ t.responses) c.txns + cntResp σ c.responses

theorem handleResolve_weight (σ : Bool × Nat) : ∀ (rs : List (Query × UInt32)) (c : KvCore), (c.handleResolve rs).weight σ ≤ c.weight σ := by
  intro rs
  induction rs with
  | nil => intro c; exact Nat.le_refl _
  | cons x rest ih =>
    obtain ⟨q, t⟩ := x
    intro c
    simp only [KvCore.handleResolve]
    refine Nat.le_trans (ih _) ?_
    simp only [KvCore.weight]
    have h1 := sumBy_set (TabletTracker.weight σ) c.tablets t
      { (c.tablets.get t).getD (.create c.minProcess) with pending := ((c.tablets.get t).getD (.create c.minProcess)).pending ++ (c.resolving.get q.id).getD [] }
    have h2 := sumBy_erase (cntReq σ) c.resolving q.id
    simp only [TabletTracker.weight, cntReq_append] at h1
    have h3 : ((c.resolving.get q.id).map (cntReq σ)).getD 0 = cntReq σ ((c.resolving.get q.id).getD []) := by
      cases c.resolving.get q.id <;> rfl
    have h4 : ((c.tablets.get t).map (fun t : TabletTracker => cntReq σ t.pending + sumBy (cntReq σ) t.waiting)).getD 0 =
        cntReq σ ((c.tablets.get t).getD (.create c.minProcess)).pending + sumBy (cntReq σ) ((c.tablets.get t).getD (.create c.minProcess)).waiting := by
      cases c.tablets.get t <;> rfl
    have h5 : (fun t : TabletTracker => cntReq σ t.pending + sumBy (cntReq σ) t.waiting) = TabletTracker.weight σ := rfl
    rw [h5] at h4
    omega

theorem handleCalls_weight (σ : Bool × Nat) : ∀ (cs : List (Nat × List (Query × UInt32))) (c : KvCore), (handleCalls c cs).weight σ ≤ c.weight σ := by
  intro cs
  induction cs with
  | nil => intro c; exact Nat.le_refl _
  | cons x rest ih =>
    intro c
    simp only [handleCalls]
    exact Nat.le_trans (ih _) (handleResolve_weight σ _ c)

theorem processRequest_sig {env : KvEnv} {q : Query} {d d' : AMap String Bytes} {r : KvRequest} {x : KvResponse}
    (h : processRequest env q d r = some (x, d')) : respSig x = reqSig r := by
  cases r <;> simp only [processRequest] at h <;> split at h <;> cases h <;> rfl

theorem processLoop_weight (env : KvEnv) (σ : Bool × Nat) (q : Query) : ∀ (rs : List KvRequest) (d : AMap String Bytes),
    cntResp σ ((processLoop env q rs d).1.map Prod.snd) + cntReq σ (processLoop env q rs d).2.1 = cntReq σ rs := by
  intro rs
  induction rs with
  | nil => intro d; rfl
  | cons r rest ih =>
    intro d
    simp only [processLoop]
    split
    · rename_i x d' hx
      have := ih d'
      have hs := processRequest_sig hx
      simp only [cntResp, cntReq, List.map_cons, List.filter_cons, hs] at this ⊢
      split <;> simp_all <;> omega
    · have := ih d
      simp only [cntResp, cntReq, List.filter_cons] at this ⊢
      split <;> simp_all <;> omega

theorem processQuery_weight {env : KvEnv} (σ : Bool × Nat) {t : TabletTracker} {q : Query} {b : Option Bytes} {x : TabletTracker × List (KvRequest × KvResponse) × Option Bytes}
    (h : t.processQuery env q b = .ok x) : x.1.weight σ + cntResp σ (x.2.1.map Prod.snd) ≤ t.weight σ := by
  unfold TabletTracker.processQuery at h
  obtain ⟨b', _, h2⟩ := Run.bind_eq_ok.mp h
  obtain ⟨d, _, h4⟩ := Run.bind_eq_ok.mp h2
  cases hr : t.waiting.get q.id with
  | none =>
    simp only [hr, Run.ok.injEq] at h4
    subst h4
    simp
  | some rs =>
    simp only [hr, Run.ok.injEq] at h4
    subst h4
    have h5 := processLoop_weight env σ q rs d
    have h6 := sumBy_set (cntReq σ) t.waiting q.id (processLoop env q rs d).2.1
    rw [hr] at h6
    simp only [Option.map_some, Option.getD_some] at h6
    simp only [TabletTracker.weight]
    omega

theorem processTablets_weight {env : KvEnv} (σ : Bool × Nat) (txn : Nat) : ∀ (vs : List (Query × UInt32 × Option Bytes)) (c c' : KvCore) (ws : List (Option Bytes)),
    c.processTablets env txn vs = .ok (c', ws) → c'.weight σ ≤ c.weight σ := by
  intro vs
  induction vs with
  | nil =>
    intro c c' ws h
    simp only [KvCore.processTablets, Run.ok.injEq, Prod.mk.injEq] at h
    rw [h.1]; exact Nat.le_refl _
  | cons v rest ih =>
    obtain ⟨q, t, b⟩ := v
    intro c c' ws h
    have skip : ((c.processTablets env txn rest).bind fun z => Run.ok (z.1, none :: z.2)) = .ok (c', ws) → c'.weight σ ≤ c.weight σ := by
      intro h
      obtain ⟨⟨c1, ws1⟩, h1, h2⟩ := Run.bind_eq_ok.mp h
      simp only [Run.ok.injEq, Prod.mk.injEq] at h2
      rw [← h2.1]; exact ih _ _ _ h1
    cases hx : c.txns.get txn with
    | none => simp only [KvCore.processTablets, hx] at h; exact skip h
    | some x =>
      cases ht : c.tablets.get t with
      | none => simp only [KvCore.processTablets, hx, ht] at h; exact skip h
      | some tr =>
        simp only [KvCore.processTablets, hx, ht] at h
        obtain ⟨y, h1, h2⟩ := Run.bind_eq_ok.mp h
        obtain ⟨⟨c1, ws1⟩, h3, h4⟩ := Run.bind_eq_ok.mp h2
        simp only [Run.ok.injEq, Prod.mk.injEq] at h4
        rw [← h4.1]
        refine Nat.le_trans (ih _ _ _ h3) ?_
        have h5 := processQuery_weight σ h1
        have h6 := sumBy_set (TabletTracker.weight σ) c.tablets t y.1
        have h7 := sumBy_set (fun t : TxnTracker => cntResp σ t.responses) c.txns txn
          { x with requests := x.requests ++ y.2.1.map Prod.fst, responses := x.responses ++ y.2.1.map Prod.snd }
        rw [ht] at h6
        rw [hx] at h7
        simp only [Option.map_some, Option.getD_some, cntResp_append] at h6 h7
        simp only [KvCore.weight]
        omega

theorem collectProcess_weight (env : KvEnv) (σ : Bool × Nat) : ∀ (ts : AMap UInt32 TabletTracker) (c : KvCore),
    sumBy (TabletTracker.weight σ) (collectProcess env c ts).2.1 ≤ sumBy (TabletTracker.weight σ) ts ∧
    ∃ n, (collectProcess env c ts).1 = { c with queryCounter := n } := by
  intro ts
  induction ts with
  | nil => intro c; exact ⟨Nat.le_refl _, c.queryCounter, rfl⟩
  | cons e rest ih =>
    obtain ⟨t, tr⟩ := e
    intro c
    simp only [collectProcess]
    split
    · obtain ⟨h1, n, h2⟩ := ih (createQuery env c tr.pending).1
      refine ⟨?_, n, by rw [h2]; rfl⟩
      have h3 := sumBy_set_le (cntReq σ) tr.waiting (createQuery env c tr.pending).2.id tr.pending
      simp only [sumBy, TabletTracker.weight, cntReq_nil] at h1 ⊢
      have h5 : (fun t : TabletTracker => cntReq σ t.pending + sumBy (cntReq σ) t.waiting) = TabletTracker.weight σ := rfl
      omega
    · obtain ⟨h1, n, h2⟩ := ih c
      refine ⟨?_, n, h2⟩
      simp only [sumBy]
      omega

theorem completeTablets_weight (σ : Bool × Nat) : ∀ (l : List UInt32) (ts : AMap UInt32 TabletTracker),
    sumBy (TabletTracker.weight σ) (completeTablets ts l) = sumBy (TabletTracker.weight σ) ts := by
  intro l
  induction l with
  | nil => intro ts; rfl
  | cons t rest ih =>
    intro ts
    simp only [completeTablets]
    cases ht : ts.get t with
    | none => exact ih ts
    | some tr =>
      rw [ih]
      have h := sumBy_set (TabletTracker.weight σ) ts t { tr with hasTxn := false }
      rw [ht] at h
      simp only [Option.map_some, Option.getD_some] at h
      have : TabletTracker.weight σ { tr with hasTxn := false } = TabletTracker.weight σ tr := rfl
      omega

theorem commitTxns_weight (σ : Bool × Nat) : ∀ (ts : AMap Nat TxnTracker) (co : Coordinator Bytes Unit) (y : Coordinator Bytes Unit × AMap Nat TxnTracker),
    commitTxns co ts = .ok y → sumBy (fun t => cntResp σ t.responses) y.2 = sumBy (fun t => cntResp σ t.responses) ts := by
  intro ts
  induction ts with
  | nil => intro co y h; simp only [commitTxns, Run.ok.injEq] at h; rw [← h]
  | cons e rest ih =>
    obtain ⟨i, t⟩ := e
    intro co y h
    have skip : ((commitTxns co rest).bind fun y => Run.ok (y.1, (i, t) :: y.2)) = .ok y →
        sumBy (fun t => cntResp σ t.responses) y.2 = sumBy (fun t => cntResp σ t.responses) ((i, t) :: rest) := by
      intro h
      obtain ⟨z, h1, h2⟩ := Run.bind_eq_ok.mp h
      simp only [Run.ok.injEq] at h2
      rw [← h2]
      simp only [sumBy]
      rw [ih _ _ h1]
    cases hc : t.commit with
    | some k => simp only [commitTxns, hc] at h; exact skip h
    | none =>
      cases ht : t.txn with
      | none => simp only [commitTxns, hc, ht] at h; exact skip h
      | some j =>
        simp only [commitTxns, hc, ht] at h
        obtain ⟨b, _, h2⟩ := Run.bind_eq_ok.mp h
        cases b with
        | true => simp only [if_true] at h2; exact skip h2
        | false =>
          simp only [Bool.false_eq_true, if_false] at h2
          obtain ⟨co', _, h3⟩ := Run.bind_eq_ok.mp h2
          obtain ⟨z, h4, h5⟩ := Run.bind_eq_ok.mp h3
          simp only [Run.ok.injEq] at h5
          rw [← h5]
          simp only [sumBy]
          rw [ih _ _ h4]

theorem check_world {h h' : Commit} {s s' : Manager α η ω} (hs : h.check s = .ok (h', s')) : s'.world = s.world := by
  unfold Commit.check at hs
  split at hs
  · simp only [Run.ok.injEq, Prod.mk.injEq] at hs; rw [← hs.2]
  · obtain ⟨x, _, h2⟩ := Run.bind_eq_ok.mp hs
    simp only [Run.ok.injEq, Prod.mk.injEq] at h2
    rw [← h2.2]

theorem finalizeTxns_weight (σ : Bool × Nat) : ∀ (ts : AMap Nat TxnTracker) (s : Sys) (y : Sys × AMap Nat TxnTracker × List UInt32 × List KvResponse),
    finalizeTxns s ts = .ok y → y.1.world = s.world ∧
      sumBy (fun t => cntResp σ t.responses) y.2.1 + cntResp σ y.2.2.2 ≤ sumBy (fun t => cntResp σ t.responses) ts := by
  intro ts
  induction ts with
  | nil => intro s y h; simp only [finalizeTxns, Run.ok.injEq] at h; rw [← h]; exact ⟨rfl, Nat.le_refl _⟩
  | cons e rest ih =>
    obtain ⟨i, t⟩ := e
    intro s y h
    cases hc : t.commit with
    | none =>
      simp only [finalizeTxns, hc] at h
      obtain ⟨z, h1, h2⟩ := Run.bind_eq_ok.mp h
      simp only [Run.ok.injEq] at h2
      obtain ⟨k1, k2⟩ := ih _ _ h1
      rw [← h2]
      simp only [sumBy]
      exact ⟨k1, by omega⟩
    | some k =>
      simp only [finalizeTxns, hc] at h
      obtain ⟨⟨k', s'⟩, h1, h2⟩ := Run.bind_eq_ok.mp h
      have hw := check_world h1
      cases ho : k'.outcome with
      | none =>
        simp only [ho] at h2
        obtain ⟨z, h3, h4⟩ := Run.bind_eq_ok.mp h2
        simp only [Run.ok.injEq] at h4
        obtain ⟨k1, k2⟩ := ih _ _ h3
        rw [← h4]
        simp only [sumBy]
        exact ⟨k1.trans hw, by omega⟩
      | some o =>
        simp only [ho] at h2
        obtain ⟨z, h3, h4⟩ := Run.bind_eq_ok.mp h2
        simp only [Run.ok.injEq] at h4
        obtain ⟨k1, k2⟩ := ih _ _ h3
        rw [← h4]
        simp only [sumBy, cntResp_append]
        refine ⟨k1.trans hw, ?_⟩
        cases o <;> simp <;> omega

theorem storeProgress_weight {env : KvEnv} (σ : Bool × Nat) {s s' : Sys} (h : s.storeProgress env = .ok s') :
    s'.world.shared.weight σ ≤ s.world.shared.weight σ := by
  unfold Manager.storeProgress at h
  obtain ⟨s1, h1, h⟩ := Run.bind_eq_ok.mp h
  obtain ⟨s2, h2, h⟩ := Run.bind_eq_ok.mp h
  obtain ⟨x, h3, h⟩ := Run.bind_eq_ok.mp h
  obtain ⟨y, h4, h⟩ := Run.bind_eq_ok.mp h
  simp only [Run.ok.injEq] at h
  subst h
  have w1 : s1.world.shared.weight σ ≤ s.world.shared.weight σ := by
    unfold Manager.maybeResolve at h1
    dsimp only at h1
    split at h1
    · obtain ⟨s', k1, k2⟩ := Run.bind_eq_ok.mp h1
      split at k2
      · simp only [Run.ok.injEq] at k2
        subst k2
        unfold Manager.resolve at k1
        obtain ⟨md, _, k4⟩ := Run.bind_eq_ok.mp k1
        simp only [Run.ok.injEq] at k4
        subst k4
        have := sumBy_set_le (cntReq σ) s.world.shared.resolving (createQuery env s.world.shared s.world.shared.pending).2.id s.world.shared.pending
        simp only [Manager.withCore, KvCore.weight, cntReq_nil, createQuery] at this ⊢
        omega
      · cases k2
    · simp only [Run.ok.injEq] at h1; rw [h1]; exact Nat.le_refl _
  have w2 : s2.world.shared.weight σ ≤ s1.world.shared.weight σ := by
    obtain ⟨k1, n, k2⟩ := collectProcess_weight env σ s1.world.shared.tablets s1.world.shared
    unfold Manager.maybeStart at h2
    dsimp only at h2
    split at h2
    · simp only [Run.ok.injEq] at h2
      subst h2
      simp only [Manager.withCore, KvCore.weight, k2]
      omega
    · obtain ⟨co, _, h6⟩ := Run.bind_eq_ok.mp h2
      simp only [Run.ok.injEq] at h6
      subst h6
      simp only [Manager.withCore, KvCore.weight, k2]
      have := sumBy_set_le (fun t : TxnTracker => cntResp σ t.responses) s1.world.shared.txns s1.coord.createTxn.2
        ⟨(collectProcess env s1.world.shared s1.world.shared.tablets).2.2.2, [], [], some s1.coord.createTxn.2, none⟩
      simp only [cntResp_nil] at this
      omega
  have w3 := commitTxns_weight σ _ _ _ h3
  obtain ⟨w4, w5⟩ := finalizeTxns_weight σ _ _ _ h4
  simp only [Manager.withCore, KvCore.weight] at w1 w2 w4 w5 ⊢
  rw [w4]
  dsimp only
  rw [completeTablets_weight, cntResp_append]
  omega

section
variable {α η ω : Type} {env : TxnEnv α η ω} {P : ω → Prop}

theorem procStep_shared (hP : ∀ h w txn vs w' ws, P w → env.handle h w txn vs = .ok (w', ws) → P w') {i : Nat} {p p' : Proc α η} {w w' : World α ω}
    (h : p.step env i w = .ok (p', w')) (hw : P w.shared) : P w'.shared := by
  unfold Proc.step at h
  split at h
  · obtain ⟨c, _, h2⟩ := Run.bind_eq_ok.mp h
    simp only [Run.ok.injEq, Prod.mk.injEq] at h2
    rw [← h2.2]; exact hw
  · split at h
    · simp only [Run.ok.injEq, Prod.mk.injEq] at h; rw [← h.2]; exact hw
    · obtain ⟨c, _, h2⟩ := Run.bind_eq_ok.mp h
      simp only [Run.ok.injEq, Prod.mk.injEq] at h2
      rw [← h2.2]; exact hw
  · split at h
    · simp only [Run.ok.injEq, Prod.mk.injEq] at h; rw [← h.2]; exact hw
    · simp only [Run.ok.injEq, Prod.mk.injEq] at h; rw [← h.2]; exact hw
    · obtain ⟨ts, _, h2⟩ := Run.bind_eq_ok.mp h
      obtain ⟨⟨w1, ws⟩, h3, h4⟩ := Run.bind_eq_ok.mp h2
      obtain ⟨y, _, h6⟩ := Run.bind_eq_ok.mp h4
      simp only [Run.ok.injEq, Prod.mk.injEq] at h6
      rw [← h6.2]
      exact hP _ _ _ _ _ _ hw h3
  · simp only [Run.ok.injEq, Prod.mk.injEq] at h; rw [← h.2]; exact hw
  · split at h <;> (simp only [Run.ok.injEq, Prod.mk.injEq] at h; rw [← h.2]; exact hw)
  · simp only [Run.ok.injEq, Prod.mk.injEq] at h; rw [← h.2]; exact hw
  · simp only [Run.ok.injEq, Prod.mk.injEq] at h; rw [← h.2]; exact hw

theorem stepProcs_shared (hP : ∀ h w txn vs w' ws, P w → env.handle h w txn vs = .ok (w', ws) → P w') {i : Nat} : ∀ {ps ps' : List (Proc α η)} {w w' : World α ω},
    stepProcs env i ps w = .ok (ps', w') → P w.shared → P w'.shared := by
  intro ps
  induction ps with
  | nil => intro ps' w w' h hw; simp only [stepProcs, Run.ok.injEq, Prod.mk.injEq] at h; rw [← h.2]; exact hw
  | cons p rest ih =>
    intro ps' w w' h hw
    simp only [stepProcs] at h
    obtain ⟨⟨p1, w1⟩, h1, h2⟩ := Run.bind_eq_ok.mp h
    obtain ⟨⟨ps2, w2⟩, h3, h4⟩ := Run.bind_eq_ok.mp h2
    simp only [Run.ok.injEq, Prod.mk.injEq] at h4
    rw [← h4.2]
    exact ih h3 (procStep_shared hP h1 hw)

theorem stepTxns_shared (hP : ∀ h w txn vs w' ws, P w → env.handle h w txn vs = .ok (w', ws) → P w') : ∀ {ts ts' : AMap Nat (TxnState α η)} {w w' : World α ω},
    stepTxns env ts w = .ok (ts', w') → P w.shared → P w'.shared := by
  intro ts
  induction ts with
  | nil => intro ps' w w' h hw; simp only [stepTxns, Run.ok.injEq, Prod.mk.injEq] at h; rw [← h.2]; exact hw
  | cons e rest ih =>
    obtain ⟨i, s⟩ := e
    intro ps' w w' h hw
    cases s with
    | preparing ps =>
      simp only [stepTxns] at h
      obtain ⟨⟨p1, w1⟩, h1, h2⟩ := Run.bind_eq_ok.mp h
      obtain ⟨⟨ps2, w2⟩, h3, h4⟩ := Run.bind_eq_ok.mp h2
      simp only [Run.ok.injEq, Prod.mk.injEq] at h4
      rw [← h4.2]
      exact ih h3 (stepProcs_shared hP h1 hw)
    | committing ops =>
      simp only [stepTxns] at h
      obtain ⟨⟨ps2, w2⟩, h3, h4⟩ := Run.bind_eq_ok.mp h
      simp only [Run.ok.injEq, Prod.mk.injEq] at h4
      rw [← h4.2]
      exact ih h3 hw
    | completed o =>
      simp only [stepTxns] at h
      obtain ⟨⟨ps2, w2⟩, h3, h4⟩ := Run.bind_eq_ok.mp h
      simp only [Run.ok.injEq, Prod.mk.injEq] at h4
      rw [← h4.2]
      exact ih h3 hw

/-- What the handlers preserve is preserved when the manager makes progress. -/
theorem makeProgress_shared (hP : ∀ h w txn vs w' ws, P w → env.handle h w txn vs = .ok (w', ws) → P w') {m m' : Manager α η ω}
    (h : m.makeProgress env = .ok m') (hw : P m.world.shared) : P m'.world.shared := by
  unfold Manager.makeProgress at h
  obtain ⟨md, _, h⟩ := Run.bind_eq_ok.mp h
  obtain ⟨d, _, h⟩ := Run.bind_eq_ok.mp h
  obtain ⟨⟨ts, w⟩, h1, h⟩ := Run.bind_eq_ok.mp h
  simp only [Run.ok.injEq] at h
  rw [← h]
  exact stepTxns_shared hP h1 hw

theorem opsResponse_shared {m m' : Manager α η ω} {corr : Nat} {r : Response} (h : m.opsResponse corr r = .ok m') : m'.world.shared = m.world.shared := by
  unfold Manager.opsResponse at h
  obtain ⟨md, _, h⟩ := Run.bind_eq_ok.mp h
  split at h
  · simp only [Run.ok.injEq] at h; rw [← h]
  · obtain ⟨x, _, h⟩ := Run.bind_eq_ok.mp h
    simp only [Run.ok.injEq] at h; rw [← h]

theorem processIn_shared {m m' : Manager α η ω} {i : MgrIn} (h : m.processIn env i = .ok m') : m'.world.shared = m.world.shared := by
  cases i with
  | data r =>
    simp only [Manager.processIn] at h
    obtain ⟨d, _, h⟩ := Run.bind_eq_ok.mp h
    simp only [Run.ok.injEq] at h; rw [← h]
  | response corr r => simp only [Manager.processIn] at h; exact (opsResponse_shared h).trans rfl
  | error corr =>
    simp only [Manager.processIn] at h
    split at h
    · exact (opsResponse_shared h).trans rfl
    · simp only [Run.ok.injEq] at h; rw [← h]

theorem takeOut_shared {m m' : Manager α η ω} {outs : List MgrOut} (h : m.takeOut = .ok (m', outs)) : m'.world.shared = m.world.shared := by
  unfold Manager.takeOut at h
  obtain ⟨es, _, h⟩ := Run.bind_eq_ok.mp h
  simp only [Run.ok.injEq, Prod.mk.injEq] at h
  rw [← h.1]

theorem init_shared {m m' : Manager α η ω} {tables : List (String × UInt32)} (h : m.init tables = .ok m') : m'.world.shared = m.world.shared := by
  unfold Manager.init at h
  obtain ⟨es, _, h⟩ := Run.bind_eq_ok.mp h
  simp only [Run.ok.injEq] at h
  rw [← h]

theorem resolve_shared {m m' : Manager α η ω} {qs : List Query} (h : m.resolve qs = .ok m') : m'.world.shared = m.world.shared := by
  unfold Manager.resolve at h
  obtain ⟨es, _, h⟩ := Run.bind_eq_ok.mp h
  simp only [Run.ok.injEq] at h
  rw [← h]

end

theorem kstep_weight {env : KvEnv} {data : DataEnv Bytes} {evict : AMap String (Entry Bytes) → List String} (σ : Bool × Nat) {s s' : Sys} {ev : KEvent}
    (h : KStep env (txnEnv env data evict) s ev s') :
    s'.world.shared.weight σ + answered [ev] σ ≤ s.world.shared.weight σ + accepted [ev] σ := by
  cases h with
  | init h =>
    rw [init_shared h]
    simp only [Manager.withCore, KvCore.init, KvCore.weight, cntReq_nil, sumBy, answered, accepted, List.flatMap_cons, List.flatMap_nil, List.append_nil,
      List.length_nil, List.filter_cons, List.filter_nil, Bool.false_eq_true, if_false]
    omega
  | @accept r =>
    simp only [Manager.accept, Manager.withCore, KvCore.weight, cntReq, List.filter_append, List.length_append, answered, accepted, List.flatMap_cons, List.flatMap_nil, List.append_nil,
      List.length_nil, List.filter_cons, List.filter_nil]
    split <;> simp <;> omega
  | store h =>
    have := storeProgress_weight σ h
    simp only [answered, accepted, List.flatMap_cons, List.flatMap_nil, List.append_nil, List.length_nil]
    omega
  | progress h =>
    have := makeProgress_shared (P := fun w => w.weight σ ≤ s.world.shared.weight σ)
      (fun _ w txn vs w' ws hw hh => Nat.le_trans (processTablets_weight σ txn vs w w' ws hh) hw) h (Nat.le_refl _)
    simp only [answered, accepted, List.flatMap_cons, List.flatMap_nil, List.append_nil, List.length_nil]
    omega
  | input h =>
    unfold Manager.input at h
    obtain ⟨s1, h1, h2⟩ := Run.bind_eq_ok.mp h
    simp only [Run.ok.injEq] at h2
    subst h2
    have := handleCalls_weight σ (s1.world.md.calls.drop s.world.md.calls.length) s1.world.shared
    rw [processIn_shared h1] at this
    simp only [Manager.withCore, processIn_shared h1]
    simp only [answered, accepted, List.flatMap_cons, List.flatMap_nil, List.append_nil, List.length_nil]
    omega
  | take h =>
    rw [takeOut_shared h]
    simp only [answered, accepted, List.flatMap_cons, List.flatMap_nil, List.append_nil, List.length_nil]
    omega
  | responses =>
    simp only [Manager.takeResponses, Manager.withCore, KvCore.weight, cntResp_nil, answered, accepted, List.flatMap_cons, List.flatMap_nil, List.append_nil,
      List.length_nil, List.filter_cons, List.filter_nil, Bool.false_eq_true, if_false, cntResp]
    omega

theorem ksteps_weight {env : KvEnv} {data : DataEnv Bytes} {evict : AMap String (Entry Bytes) → List String} (σ : Bool × Nat) {s s' : Sys} {evs : List KEvent}
    (h : KSteps env (txnEnv env data evict) s evs s') :
    s'.world.shared.weight σ + answered evs σ ≤ s.world.shared.weight σ + accepted evs σ := by
  induction h with
  | refl => simp [answered, accepted]
  | step h hs ih =>
    have h1 := kstep_weight σ hs
    rw [show ∀ a b, answered (a ++ b) σ = answered a σ + answered b σ by simp [answered],
      show ∀ a b, accepted (a ++ b) σ = accepted a σ + accepted b σ by simp [accepted]]
    omega

theorem handleResolve_frame : ∀ (rs : List (Query × UInt32)) (c : KvCore), (c.handleResolve rs).responses = c.responses ∧ (c.handleResolve rs).txns = c.txns := by
  intro rs
  induction rs with
  | nil => intro c; exact ⟨rfl, rfl⟩
  | cons x rest ih => intro c; obtain ⟨q, t⟩ := x; simp only [KvCore.handleResolve]; exact ih _

theorem handleCalls_frame : ∀ (cs : List (Nat × List (Query × UInt32))) (c : KvCore), (handleCalls c cs).responses = c.responses ∧ (handleCalls c cs).txns = c.txns := by
  intro cs
  induction cs with
  | nil => intro c; exact ⟨rfl, rfl⟩
  | cons x rest ih =>
    intro c
    simp only [handleCalls]
    obtain ⟨h1, h2⟩ := ih (c.handleResolve x.2)
    obtain ⟨h3, h4⟩ := handleResolve_frame x.2 c
    exact ⟨h1.trans h3, h2.trans h4⟩

end TCP.Cache
