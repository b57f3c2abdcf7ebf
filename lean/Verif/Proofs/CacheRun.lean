import Verif.Proofs.CacheWorld
import Verif.Proofs.CacheMetadata
import Verif.Props.CacheData

/-! # Consequences for the histories of the transaction manager, and running one -/

namespace TCP.Cache

open TCP TCP.TabletStore TCP.Cache.Spec

variable {α η ω : Type}

/-! ## Histories -/

theorem _root_.TCP.Cache.Spec.MSteps.single {env : TxnEnv α η ω} {c c' : Client α η ω} {ev : MEvent η} (h : MStep env c ev c') : MSteps env c [ev] c' := .step .refl h

theorem _root_.TCP.Cache.Spec.MSteps.append {env : TxnEnv α η ω} {a b : List (MEvent η)} {c c' c'' : Client α η ω} (h : MSteps env c a c') (k : MSteps env c' b c'') :
    MSteps env c (a ++ b) c'' := by
  induction k with
  | refl => simpa using h
  | step _ hs ih => rw [← List.append_assoc]; exact .step ih hs

theorem _root_.TCP.Cache.Spec.MSteps.split {env : TxnEnv α η ω} {l : List (MEvent η)} {c c' : Client α η ω} (h : MSteps env c l c') : ∀ {a b : List (MEvent η)} {ev : MEvent η},
    l = a ++ ev :: b → ∃ c1 c2, MSteps env c a c1 ∧ MStep env c1 ev c2 ∧ MSteps env c2 b c' := by
  induction h with
  | refl => intro a b ev he; simp at he
  | @step evs c' e c'' h hs ih =>
    intro a b ev he
    rcases List.eq_nil_or_concat b with rfl | ⟨b', x, rfl⟩
    · obtain ⟨rfl, h2⟩ := List.append_inj' he (by simp)
      simp only [List.cons.injEq, and_true] at h2
      subst h2
      exact ⟨_, _, h, hs, .refl⟩
    · rw [List.concat_eq_append] at he
      have he' : evs ++ [e] = (a ++ ev :: b') ++ [x] := by rw [he]; simp
      obtain ⟨rfl, h2⟩ := List.append_inj' he' (by simp)
      simp only [List.cons.injEq, and_true] at h2
      subst h2
      obtain ⟨c1, c2, k1, k2, k3⟩ := ih rfl
      exact ⟨c1, c2, k1, k2, by rw [List.concat_eq_append]; exact .step k3 hs⟩

theorem _root_.TCP.Cache.Spec.MHistory.split {env : TxnEnv α η ω} {a b : List (MEvent η)} {ev : MEvent η} {c : Client α η ω} (h : MHistory env (a ++ ev :: b) c) :
    ∃ c1 c2, MHistory env a c1 ∧ MStep env c1 ev c2 ∧ MSteps env c2 b c := by
  obtain ⟨co, md, d, w, h⟩ := h
  obtain ⟨c1, c2, h1, h2, h3⟩ := h.split rfl
  exact ⟨c1, c2, ⟨co, md, d, w, h1⟩, h2, h3⟩

theorem _root_.TCP.Cache.Spec.MHistory.extend {env : TxnEnv α η ω} {a b : List (MEvent η)} {c c' : Client α η ω} (h : MHistory env a c) (k : MSteps env c b c') :
    MHistory env (a ++ b) c' := by
  obtain ⟨co, md, d, w, h⟩ := h
  exact ⟨co, md, d, w, h.append k⟩

/-! ## Outcomes -/

theorem Justified.append {evs : List (MEvent η)} {i : Nat} {o : Outcome} (h : Justified evs i o) (more : List (MEvent η)) : Justified (evs ++ more) i o := by
  induction more generalizing evs with
  | nil => simpa using h
  | cons e rest ih => rw [show evs ++ e :: rest = (evs ++ [e]) ++ rest by simp]; exact ih (h.push e)

theorem check_step {env : TxnEnv α η ω} {i : Nat} {x : Option Outcome} {c c' : Client α η ω} (h : MStep env c (.check i x) c') :
    (c.commits.get i).isSome ∧ ∃ k, c'.commits.get i = some k ∧ k.outcome = x := by
  cases h with
  | check ho hs => exact ⟨by simp [ho], _, by simp, rfl⟩

theorem check_justified {env : TxnEnv α η ω} {evs : List (MEvent η)} {c : Client α η ω} (h : MHistory env evs c) {i : Nat} {o : Outcome}
    (hc : .check i (some o) ∈ evs) : Justified evs i o := by
  obtain ⟨a, b, rfl⟩ := List.append_of_mem hc
  obtain ⟨c1, c2, h1, h2, _⟩ := h.split
  have hi := cinv_step (history_cinv h1) h2
  obtain ⟨_, k, h3, h4⟩ := check_step h2
  have := ((hi.commits i k h3).2.2.2.2 o h4).2
  rw [show a ++ .check i (some o) :: b = (a ++ [.check i (some o)]) ++ b by simp]
  exact this.append b

/-- A known outcome stays. -/
theorem outcome_stays {env : TxnEnv α η ω} {evs more : List (MEvent η)} {c c' : Client α η ω} (hc : CInv evs c) (h : MSteps env c more c') {i : Nat} {k : Commit}
    (hk : c.commits.get i = some k) (ho : k.outcome.isSome) : c'.commits.get i = some k ∧ ∀ x, .check i x ∈ more → x = k.outcome := by
  induction h with
  | refl => exact ⟨hk, by simp⟩
  | @step evs' c1 ev c2 h1 hs ih =>
    obtain ⟨h2, h3⟩ := ih
    have hc1 := cinv_steps hc h1
    have hold : ∀ x, .check i x ∈ evs' ++ [ev] → (∀ x, ev ≠ .check i x) → x = k.outcome := by
      intro x hx hne
      rcases List.mem_append.mp hx with hx | hx
      · exact h3 x hx
      · exact absurd (List.mem_singleton.mp hx).symm (hne x)
    cases hs with
    | app => exact ⟨h2, fun x hx => hold x hx (by simp)⟩
    | init _ => exact ⟨h2, fun x hx => hold x hx (by simp)⟩
    | start => exact ⟨h2, fun x hx => hold x hx (by simp)⟩
    | process _ _ => exact ⟨h2, fun x hx => hold x hx (by simp)⟩
    | pending _ _ => exact ⟨h2, fun x hx => hold x hx (by simp)⟩
    | abort _ => exact ⟨h2, fun x hx => hold x hx (by simp)⟩
    | resolve _ => exact ⟨h2, fun x hx => hold x hx (by simp)⟩
    | input _ => exact ⟨h2, fun x hx => hold x hx (by simp)⟩
    | progress _ => exact ⟨h2, fun x hx => hold x hx (by simp)⟩
    | take _ => exact ⟨h2, fun x hx => hold x hx (by simp)⟩
    | @commit j co hj hs =>
      have : j ≠ i := by
        rintro rfl
        obtain ⟨_, _, ⟨s, hm⟩, _⟩ := hc1.commits _ k h2
        exact (hc1.sent _ s hm).2.1 hj
      exact ⟨by dsimp only; rw [AMap.get_set_ne _ _ this]; exact h2, fun x hx => hold x hx (by simp)⟩
    | @check j y y' m hj hs =>
      by_cases hji : j = i
      · subst hji
        rw [h2] at hj
        cases hj
        obtain ⟨o, hko⟩ := Option.isSome_iff_exists.mp ho
        simp only [Commit.check, hko, Run.ok.injEq, Prod.mk.injEq] at hs
        obtain ⟨rfl, rfl⟩ := hs
        refine ⟨by simp, fun x hx => ?_⟩
        rcases List.mem_append.mp hx with hx | hx
        · exact h3 x hx
        · simpa using hx
      · exact ⟨by dsimp only; rw [AMap.get_set_ne _ _ hji]; exact h2, fun x hx => hold x hx (by simp [hji])⟩

theorem commit_step {env : TxnEnv α η ω} {i : Nat} {s : List (Nat × List TabletOp)} {c c' : Client α η ω} (h : MStep env c (.commit i s) c') :
    i ∈ c.opened ∧ ∃ ps, c.m.coord.txns.get i = some (.preparing ps) ∧ isActive ps = false ∧
      s = [(c.m.coord.correlation + 1, ps.flatMap fun p => p.tablets.map fun e => e.2.op)] := by
  generalize he : MEvent.commit i s = ev at h
  cases h with
  | commit ho hs =>
    simp only [MEvent.commit.injEq] at he
    obtain ⟨rfl, rfl⟩ := he
    obtain ⟨ps, h1, h2, rfl⟩ := commit_cases hs
    refine ⟨ho, ps, h1, h2, ?_⟩
    dsimp only
    rw [List.drop_append_of_le_length (Nat.le_refl _), List.drop_length, List.nil_append]
  | _ => simp at he

/-- The ops a transaction sends are checks and updates. -/
theorem commit_ops {env : TxnEnv α η ω} {evs : List (MEvent η)} {c : Client α η ω} (h : MHistory env evs c) {i corr : Nat} {ops : List TabletOp}
    (hc : .commit i [(corr, ops)] ∈ evs) : ∀ o ∈ ops, (∃ j v, o.op = some (.check j v)) ∨ ∃ m, o.op = some (.update (some m)) := by
  obtain ⟨a, b, rfl⟩ := List.append_of_mem hc
  obtain ⟨c1, c2, h1, h2, _⟩ := h.split
  obtain ⟨_, ps, _, _, h3⟩ := commit_step h2
  simp only [List.cons.injEq, Prod.mk.injEq, and_true] at h3
  intro o ho
  rw [h3.2] at ho
  obtain ⟨p, _, ho⟩ := List.mem_flatMap.mp ho
  obtain ⟨e, _, rfl⟩ := List.mem_map.mp ho
  unfold TabletState.op
  dsimp only
  split
  · exact .inr ⟨_, rfl⟩
  · exact .inl ⟨_, _, rfl⟩

/-! ## Transactions that cannot be committed -/

theorem process_step {env : TxnEnv α η ω} {i : Nat} {qs : List Query} {x : η} {c c' : Client α η ω} (h : MStep env c (.process i qs x) c') : i ∈ c.opened := by
  cases h with
  | process ho _ => exact ho

theorem active_of {ps : List (Proc α η)} {p : Proc α η} (hp : p ∈ ps) (h : p.status ≠ .completed) : isActive ps = true := by
  unfold isActive
  rw [List.any_eq_true]
  exact ⟨p, hp, by simpa using h⟩

theorem commit_active {c : Coordinator α η} {i : Nat} {ps : List (Proc α η)} (h : c.txns.get i = some (.preparing ps)) (ha : isActive ps = true) :
    c.hasPending i = .ok true ∧ c.commit i = .panic := by
  simp [Coordinator.hasPending, Coordinator.commit, h, ha]

theorem read_only_stuck {env : TxnEnv α η ω} (hsane : Sane env) {evs : List (MEvent η)} {c : Client α η ω} (h : MHistory env evs c) {i : Nat} {qs : List Query}
    {x : η} (hp : .process i qs x ∈ evs) (hr : ReadOnly env x) : (i ∈ c.opened → c.m.coord.hasPending i = .ok true ∧ c.m.coord.commit i = .panic) ∧
    (∀ s, .commit i s ∉ evs) := by
  have key : ∀ {evs : List (MEvent η)} {c : Client α η ω}, MHistory env evs c → .process i qs x ∈ evs → ∀ ps, c.m.coord.txns.get i = some (.preparing ps) → isActive ps = true := by
    intro evs c h hp ps hps
    obtain ⟨devs, hw⟩ := history_winv hsane h
    obtain ⟨p, h1, rfl⟩ := hw.handled i qs x ps hp hps
    exact active_of h1 ((hw.procs i ps (AMap.mem_of_get hps) p h1).ro hr).1
  constructor
  · intro ho
    obtain ⟨ps, hps⟩ := (history_cinv h).opened i ho
    exact commit_active hps (key h hp ps hps)
  · intro s hm
    obtain ⟨a, b, rfl⟩ := List.append_of_mem hm
    obtain ⟨c1, c2, h1, h2, h3⟩ := h.split
    rcases List.mem_append.mp hp with hp | hp
    · obtain ⟨_, ps, h4, h5, _⟩ := commit_step h2
      rw [key h1 hp ps h4] at h5; cases h5
    · rcases List.mem_cons.mp hp with hp | hp
      · simp at hp
      · obtain ⟨b1, b2, rfl⟩ := List.append_of_mem hp
        obtain ⟨c3, c4, h4, h5, _⟩ := h3.split rfl
        have hi := cinv_steps (cinv_step (history_cinv h1) h2) h4
        exact (hi.sent i s (by simp)).2.1 (process_step h5)

/-- A transaction with a failed process request, perhaps aborted meanwhile. -/
structure Stuck (c : Client α η ω) (i : Nat) : Prop where
  txn : (∃ ps, c.m.coord.txns.get i = some (.preparing ps) ∧ ∃ p ∈ ps, p.status = .failed) ∨ (c.m.coord.txns.get i = none ∧ i ≤ c.m.coord.txnCounter)
  commits : c.commits.get i = none

theorem stuck_step {env : TxnEnv α η ω} {evs : List (MEvent η)} {c c' : Client α η ω} {ev : MEvent η} {i : Nat} (hc : CInv evs c) (h : Stuck c i)
    (hs : MStep env c ev c') : Stuck c' i ∧ (∀ s, ev ≠ .commit i s) ∧ ∀ x, ev ≠ .check i x := by
  cases hs with
  | app => exact ⟨⟨h.txn, h.commits⟩, by simp, by simp⟩
  | @init tables m hs =>
    unfold Manager.init at hs
    obtain ⟨md, _, h2⟩ := Run.bind_eq_ok.mp hs
    simp only [Run.ok.injEq] at h2
    subst h2
    exact ⟨⟨h.txn, h.commits⟩, by simp, by simp⟩
  | start =>
    refine ⟨⟨?_, h.commits⟩, by simp, by simp⟩
    simp only [Coordinator.createTxn]
    rcases h.txn with ⟨ps, h1, h2⟩ | ⟨h1, h2⟩
    · have := hc.le i _ h1
      exact .inl ⟨ps, by rw [AMap.get_set_ne _ _ (by omega)]; exact h1, h2⟩
    · exact .inr ⟨by rw [AMap.get_set_ne _ _ (by omega)]; exact h1, by omega⟩
  | @process j qs hd co ho hs =>
    obtain ⟨ps, hps⟩ := hc.opened j ho
    simp only [Coordinator.process, hps, Run.ok.injEq] at hs
    subst hs
    refine ⟨⟨?_, h.commits⟩, by simp, by simp⟩
    dsimp only
    by_cases hij : j = i
    · subst hij
      rcases h.txn with ⟨ps', h1, p, h2, h3⟩ | ⟨h1, h2⟩
      · rw [hps] at h1
        cases h1
        exact .inl ⟨_, by rw [AMap.get_set_self], p, by simp [h2], h3⟩
      · rw [hps] at h1; cases h1
    · rw [AMap.get_set_ne _ _ hij]; exact h.txn
  | pending _ _ => exact ⟨h, by simp, by simp⟩
  | @commit j co ho hs =>
    obtain ⟨ps, hps, ha, rfl⟩ := commit_cases hs
    have hij : j ≠ i := by
      rintro rfl
      rcases h.txn with ⟨ps', h1, p, h2, h3⟩ | ⟨h1, h2⟩
      · rw [hps] at h1
        cases h1
        rw [active_of h2 (by simp [h3])] at ha; cases ha
      · rw [hps] at h1; cases h1
    refine ⟨⟨?_, by dsimp only; rw [AMap.get_set_ne _ _ hij]; exact h.commits⟩, fun s => ?_, by simp⟩
    · dsimp only
      rw [AMap.get_set_ne _ _ hij]; exact h.txn
    · simp only [ne_eq, MEvent.commit.injEq, not_and]; exact fun e => absurd e hij
  | @abort j ho =>
    refine ⟨⟨?_, h.commits⟩, by simp, by simp⟩
    simp only [Coordinator.abort]
    by_cases hij : j = i
    · subst hij
      obtain ⟨ps, hps⟩ := hc.opened _ ho
      exact .inr ⟨by rw [AMap.get_erase]; simp, hc.le _ _ hps⟩
    · rw [AMap.get_erase_ne _ hij]; exact h.txn
  | @check j y y' m hj hs =>
    have hij : j ≠ i := by rintro rfl; rw [h.commits] at hj; cases hj
    refine ⟨⟨?_, by dsimp only; rw [AMap.get_set_ne _ _ hij]; exact h.commits⟩, by simp, fun x => ?_⟩
    · unfold Commit.check at hs
      cases hx : y.outcome with
      | some o =>
        simp only [hx, Run.ok.injEq, Prod.mk.injEq] at hs
        obtain ⟨rfl, rfl⟩ := hs
        exact h.txn
      | none =>
        simp only [hx] at hs
        obtain ⟨⟨co, r⟩, h1, h2⟩ := Run.bind_eq_ok.mp hs
        simp only [Run.ok.injEq, Prod.mk.injEq] at h2
        obtain ⟨rfl, rfl⟩ := h2
        have hy := (hc.commits j y hj).1
        rw [hy] at h1
        unfold Coordinator.check at h1
        split at h1
        · simp at h1
        · simp at h1
        · simp only [Run.ok.injEq, Prod.mk.injEq] at h1
          obtain ⟨rfl, rfl⟩ := h1
          exact h.txn
        · simp only [Run.ok.injEq, Prod.mk.injEq] at h1
          obtain ⟨rfl, rfl⟩ := h1
          dsimp only
          rw [AMap.get_erase_ne _ hij]
          exact h.txn
    · simp only [ne_eq, MEvent.check.injEq, not_and]; exact fun e => absurd e hij
  | @resolve qs m hs =>
    unfold Manager.resolve at hs
    obtain ⟨md, _, h2⟩ := Run.bind_eq_ok.mp hs
    simp only [Run.ok.injEq] at h2
    subst h2
    exact ⟨⟨h.txn, h.commits⟩, by simp, by simp⟩
  | @input inp m hs =>
    refine ⟨⟨?_, h.commits⟩, by simp, by simp⟩
    have hresp : ∀ {corr r es}, { c.m with errors := es }.opsResponse corr r = .ok m →
        (∃ ps, m.coord.txns.get i = some (.preparing ps) ∧ ∃ p ∈ ps, p.status = .failed) ∨ (m.coord.txns.get i = none ∧ i ≤ m.coord.txnCounter) := by
      intro corr r es hs
      obtain ⟨_, _, _, md, _, hr⟩ := opsResponse_cases hs
      rcases hr with ⟨_, hr, _⟩ | ⟨_, hr⟩
      · rw [hr]; exact h.txn
      · rcases processIn_cases hr with ⟨_, hr⟩ | ⟨j, _, ⟨ops, b, l, h1, _, _, hr⟩ | ⟨_, hr⟩⟩
        · rw [hr]; exact h.txn
        · have hij : j ≠ i := by
            rintro rfl
            dsimp only at h1
            rcases h.txn with ⟨ps', h2, _⟩ | ⟨h2, _⟩ <;> (rw [h1] at h2; cases h2)
          rw [hr]
          dsimp only
          rw [AMap.get_set_ne _ _ hij]; exact h.txn
        · rw [hr]; exact h.txn
    cases inp with
    | data r =>
      simp only [Manager.processIn] at hs
      obtain ⟨d, _, h2⟩ := Run.bind_eq_ok.mp hs
      simp only [Run.ok.injEq] at h2
      subst h2
      exact h.txn
    | response corr r => exact hresp hs
    | error corr =>
      simp only [Manager.processIn] at hs
      cases hg : c.m.errors.get corr with
      | none =>
        simp only [hg, Run.ok.injEq] at hs
        subst hs
        exact h.txn
      | some r =>
        simp only [hg] at hs
        exact hresp hs
  | @progress m hs =>
    unfold Manager.makeProgress at hs
    obtain ⟨md, _, h2⟩ := Run.bind_eq_ok.mp hs
    obtain ⟨d, hd, h3⟩ := Run.bind_eq_ok.mp h2
    obtain ⟨⟨ts, w⟩, h4, h5⟩ := Run.bind_eq_ok.mp h3
    simp only [Run.ok.injEq] at h5
    subst h5
    refine ⟨⟨?_, h.commits⟩, by simp, by simp⟩
    dsimp only
    obtain ⟨_, _, he⟩ := stepTxns_each h4
    rcases h.txn with ⟨ps, h1, p, h2, h3⟩ | ⟨h1, h2⟩
    · obtain ⟨s', h6, ps', rfl, hlen, hall⟩ := (he i).2 _ h1
      obtain ⟨k, hk, hk2⟩ := List.mem_iff_getElem.mp h2
      have hk' : k < ps'.length := by omega
      obtain ⟨w1, w2, _, hst, _⟩ := hall k p ps'[k] (by rw [← hk2]; exact List.getElem?_eq_getElem hk) (List.getElem?_eq_getElem hk')
      simp only [Proc.step, h3, Run.ok.injEq, Prod.mk.injEq] at hst
      exact .inl ⟨ps', h6, ps'[k], List.getElem_mem hk', by rw [← hst.1]; exact h3⟩
    · exact .inr ⟨(he i).1 h1, h2⟩
  | @take m outs hs =>
    unfold Manager.takeOut at hs
    obtain ⟨es, h1, h2⟩ := Run.bind_eq_ok.mp hs
    simp only [Run.ok.injEq, Prod.mk.injEq] at h2
    obtain ⟨rfl, rfl⟩ := h2
    exact ⟨⟨h.txn, h.commits⟩, by simp, by simp⟩

theorem stuck_steps {env : TxnEnv α η ω} {evs more : List (MEvent η)} {c c' : Client α η ω} {i : Nat} (hc : CInv evs c) (h : Stuck c i)
    (hs : MSteps env c more c') : Stuck c' i ∧ (∀ s, .commit i s ∉ more) ∧ ∀ x, .check i x ∉ more := by
  induction hs with
  | refl => exact ⟨h, by simp, by simp⟩
  | @step evs' c1 ev c2 h1 hs ih =>
    obtain ⟨k1, k2, k3⟩ := ih
    obtain ⟨l1, l2, l3⟩ := stuck_step (cinv_steps hc h1) k1 hs
    refine ⟨l1, fun s hm => ?_, fun x hm => ?_⟩
    · rcases List.mem_append.mp hm with hm | hm
      · exact k2 s hm
      · exact l2 s (List.mem_singleton.mp hm).symm
    · rcases List.mem_append.mp hm with hm | hm
      · exact k3 x hm
      · exact l3 x (List.mem_singleton.mp hm).symm

/-! ## The metadata cache of a manager -/

theorem step_md {env : TxnEnv α η ω} {i : Nat} {p p' : Proc α η} {w w' : World α ω} (h : p.step env i w = .ok (p', w')) (hi : CacheInv w.md.tables) :
    CacheInv w'.md.tables := by
  unfold Proc.step at h
  cases hs : p.status with
  | pending qs =>
    simp only [hs] at h
    obtain ⟨c, h1, h2⟩ := Run.bind_eq_ok.mp h
    simp only [Run.ok.injEq, Prod.mk.injEq] at h2
    obtain ⟨rfl, rfl⟩ := h2
    exact (feed_evolves (i := .resolve .source qs) h1).inv hi
  | resolving id =>
    simp only [hs] at h
    split at h
    · simp only [Run.ok.injEq, Prod.mk.injEq] at h; obtain ⟨rfl, rfl⟩ := h; exact hi
    · obtain ⟨d, h1, h2⟩ := Run.bind_eq_ok.mp h
      simp only [Run.ok.injEq, Prod.mk.injEq] at h2
      obtain ⟨rfl, rfl⟩ := h2
      exact hi
  | loading id =>
    simp only [hs] at h
    split at h
    · simp only [Run.ok.injEq, Prod.mk.injEq] at h; obtain ⟨rfl, rfl⟩ := h; exact hi
    · simp only [Run.ok.injEq, Prod.mk.injEq] at h; obtain ⟨rfl, rfl⟩ := h; exact hi
    · obtain ⟨ts, h1, h2⟩ := Run.bind_eq_ok.mp h
      obtain ⟨x, h3, h4⟩ := Run.bind_eq_ok.mp h2
      obtain ⟨y, h5, h6⟩ := Run.bind_eq_ok.mp h4
      simp only [Run.ok.injEq, Prod.mk.injEq] at h6
      obtain ⟨rfl, rfl⟩ := h6
      exact hi
  | storing o =>
    cases o with
    | none => simp only [hs, Run.ok.injEq, Prod.mk.injEq] at h; obtain ⟨rfl, rfl⟩ := h; exact hi
    | some id =>
      simp only [hs] at h
      split at h <;> (simp only [Run.ok.injEq, Prod.mk.injEq] at h; obtain ⟨rfl, rfl⟩ := h; exact hi)
  | completed => simp only [hs, Run.ok.injEq, Prod.mk.injEq] at h; obtain ⟨rfl, rfl⟩ := h; exact hi
  | failed => simp only [hs, Run.ok.injEq, Prod.mk.injEq] at h; obtain ⟨rfl, rfl⟩ := h; exact hi

theorem stepProcs_md {env : TxnEnv α η ω} {i : Nat} : ∀ {ps ps' : List (Proc α η)} {w w' : World α ω}, stepProcs env i ps w = .ok (ps', w') →
    CacheInv w.md.tables → CacheInv w'.md.tables := by
  intro ps
  induction ps with
  | nil => intro ps' w w' h hi; simp only [stepProcs, Run.ok.injEq, Prod.mk.injEq] at h; obtain ⟨rfl, rfl⟩ := h; exact hi
  | cons p rest ih =>
    intro ps' w w' h hi
    unfold stepProcs at h
    obtain ⟨⟨p1, w1⟩, h1, h2⟩ := Run.bind_eq_ok.mp h
    obtain ⟨⟨ps1, w2⟩, h3, h4⟩ := Run.bind_eq_ok.mp h2
    simp only [Run.ok.injEq, Prod.mk.injEq] at h4
    obtain ⟨rfl, rfl⟩ := h4
    exact ih h3 (step_md h1 hi)

theorem stepTxns_md {env : TxnEnv α η ω} : ∀ {ts ts' : AMap Nat (TxnState α η)} {w w' : World α ω}, stepTxns env ts w = .ok (ts', w') →
    CacheInv w.md.tables → CacheInv w'.md.tables := by
  intro ts
  induction ts with
  | nil => intro ts' w w' h hi; simp only [stepTxns, Run.ok.injEq, Prod.mk.injEq] at h; obtain ⟨rfl, rfl⟩ := h; exact hi
  | cons x rest ih =>
    obtain ⟨i, s⟩ := x
    intro ts' w w' h hi
    cases s with
    | preparing ps =>
      unfold stepTxns at h
      obtain ⟨⟨ps1, w1⟩, h1, h2⟩ := Run.bind_eq_ok.mp h
      obtain ⟨⟨ts1, w2⟩, h3, h4⟩ := Run.bind_eq_ok.mp h2
      simp only [Run.ok.injEq, Prod.mk.injEq] at h4
      obtain ⟨rfl, rfl⟩ := h4
      exact ih h3 (stepProcs_md h1 hi)
    | committing ops =>
      unfold stepTxns at h
      obtain ⟨⟨ts1, w2⟩, h3, h4⟩ := Run.bind_eq_ok.mp h
      simp only [Run.ok.injEq, Prod.mk.injEq] at h4
      obtain ⟨rfl, rfl⟩ := h4
      exact ih h3 hi
    | completed o =>
      unfold stepTxns at h
      obtain ⟨⟨ts1, w2⟩, h3, h4⟩ := Run.bind_eq_ok.mp h
      simp only [Run.ok.injEq, Prod.mk.injEq] at h4
      obtain ⟨rfl, rfl⟩ := h4
      exact ih h3 hi

theorem init_cacheInv : ∀ {cfg : List (String × UInt32)} {c c' : MetaCache}, c.init cfg = .ok c' → CacheInv c.tables → CacheInv c'.tables := by
  intro cfg
  induction cfg with
  | nil => intro c c' h hi; simp only [MetaCache.init, Run.ok.injEq] at h; subst h; exact hi
  | cons e rest ih =>
    obtain ⟨k, size⟩ := e
    intro c c' h hi
    obtain ⟨t0, h1, h2⟩ := Run.bind_eq_ok.mp h
    refine ih h2 ?_
    intro n t ht
    simp only [AMap.get_set] at ht
    split at ht
    · rename_i hk
      cases ht
      obtain ⟨p1, p2, p3, _⟩ := create_inv h1
      exact ⟨p1, p3.trans hk⟩
    · exact hi n t ht

theorem updateTablets_inv : ∀ {l : List (String × Metadata × Bool)} {md md' : MetaCache}, updateTablets md l = .ok md' → CacheInv md.tables → CacheInv md'.tables := by
  intro l
  induction l with
  | nil => intro md md' h hi; simp only [updateTablets, Run.ok.injEq] at h; subst h; exact hi
  | cons e rest ih =>
    obtain ⟨t, m, b⟩ := e
    intro md md' h hi
    unfold updateTablets at h
    obtain ⟨md1, h1, h2⟩ := Run.bind_eq_ok.mp h
    exact ih h2 ((updateTablet_evolves h1).inv hi)

theorem updateTablets_total : ∀ {l : List (String × Metadata × Bool)} {md : MetaCache}, CacheInv md.tables → ∃ md', updateTablets md l = .ok md' := by
  intro l
  induction l with
  | nil => intro md _; exact ⟨md, rfl⟩
  | cons e rest ih =>
    obtain ⟨t, m, b⟩ := e
    intro md hi
    have : ∃ md1, md.updateTablet t m b = .ok md1 := by
      unfold MetaCache.updateTablet
      cases ht : md.tables.get t with
      | none => exact ⟨md, rfl⟩
      | some tb =>
        simp only [Table.updateTablet, mapRegion_ok (hi t tb ht).1.size, Run.bind_ok]
        cases tb.regions.get (m.tabletId.toNat / tb.size.toNat) <;> exact ⟨_, rfl⟩
    obtain ⟨md1, h1⟩ := this
    obtain ⟨md2, h2⟩ := ih ((updateTablet_evolves h1).inv hi)
    exact ⟨md2, by unfold updateTablets; rw [h1]; exact h2⟩

theorem opsResponse_md {m m' : Manager α η ω} {corr : Nat} {r : Response} (h : m.opsResponse corr r = .ok m') (hi : CacheInv m.world.md.tables) :
    CacheInv m'.world.md.tables := by
  obtain ⟨_, _, _, md, h1, hr⟩ := opsResponse_cases h
  have hmd : CacheInv md.tables := (processIn_evolves h1).inv hi
  rcases hr with ⟨_, _, hr⟩ | ⟨_, hr⟩
  · rw [hr]; exact hmd
  · unfold Coordinator.processIn at hr
    split at hr
    · simp only [Run.ok.injEq, Prod.mk.injEq] at hr; rw [← hr.2]; exact hmd
    · dsimp only at hr
      split at hr
      · obtain ⟨x, _, h3⟩ := Run.bind_eq_ok.mp hr
        obtain ⟨md1, h4, h5⟩ := Run.bind_eq_ok.mp h3
        simp only [Run.ok.injEq, Prod.mk.injEq] at h5
        rw [← h5.2]; exact updateTablets_inv h4 hmd
      · simp only [Run.ok.injEq, Prod.mk.injEq] at hr; rw [← hr.2]; exact hmd

theorem md_step {env : TxnEnv α η ω} {c c' : Client α η ω} {ev : MEvent η} (h : MStep env c ev c') (hi : CacheInv c.m.world.md.tables) :
    CacheInv c'.m.world.md.tables := by
  cases h with
  | app => exact hi
  | @init tables m hs =>
    unfold Manager.init at hs
    obtain ⟨md, h1, h2⟩ := Run.bind_eq_ok.mp hs
    simp only [Run.ok.injEq] at h2
    subst h2
    exact init_cacheInv h1 hi
  | start => exact hi
  | process _ _ => exact hi
  | pending _ _ => exact hi
  | commit _ _ => exact hi
  | abort _ => exact hi
  | @check j y y' m hj hs =>
    unfold Commit.check at hs
    cases hx : y.outcome with
    | some o =>
      simp only [hx, Run.ok.injEq, Prod.mk.injEq] at hs
      obtain ⟨rfl, rfl⟩ := hs
      exact hi
    | none =>
      simp only [hx] at hs
      obtain ⟨⟨co, r⟩, h1, h2⟩ := Run.bind_eq_ok.mp hs
      simp only [Run.ok.injEq, Prod.mk.injEq] at h2
      obtain ⟨rfl, rfl⟩ := h2
      exact hi
  | @resolve qs m hs =>
    unfold Manager.resolve at hs
    obtain ⟨md, h1, h2⟩ := Run.bind_eq_ok.mp hs
    simp only [Run.ok.injEq] at h2
    subst h2
    exact (feed_evolves (i := .resolve .handler qs) h1).inv hi
  | @input inp m hs =>
    cases inp with
    | data r =>
      simp only [Manager.processIn] at hs
      obtain ⟨d, _, h2⟩ := Run.bind_eq_ok.mp hs
      simp only [Run.ok.injEq] at h2
      subst h2
      exact hi
    | response corr r => exact opsResponse_md hs hi
    | error corr =>
      simp only [Manager.processIn] at hs
      cases hg : c.m.errors.get corr with
      | none =>
        simp only [hg, Run.ok.injEq] at hs
        subst hs
        exact hi
      | some r =>
        simp only [hg] at hs
        exact opsResponse_md hs hi
  | @progress m hs =>
    unfold Manager.makeProgress at hs
    obtain ⟨md, h1, h2⟩ := Run.bind_eq_ok.mp hs
    obtain ⟨d, hd, h3⟩ := Run.bind_eq_ok.mp h2
    obtain ⟨⟨ts, w⟩, h4, h5⟩ := Run.bind_eq_ok.mp h3
    simp only [Run.ok.injEq] at h5
    subst h5
    exact stepTxns_md h4 ((feed_evolves (i := .progress) h1).inv hi)
  | @take m outs hs =>
    unfold Manager.takeOut at hs
    obtain ⟨es, h1, h2⟩ := Run.bind_eq_ok.mp hs
    simp only [Run.ok.injEq, Prod.mk.injEq] at h2
    obtain ⟨rfl, rfl⟩ := h2
    exact hi

theorem history_md {env : TxnEnv α η ω} {evs : List (MEvent η)} {c : Client α η ω} (h : MHistory env evs c) : CacheInv c.m.world.md.tables := by
  obtain ⟨co, md, d, w, h⟩ := h
  have h0 : CacheInv (MetaCache.create md).tables := by simp [CacheInv, MetaCache.create]
  have key : ∀ {c0 c1 : Client α η ω} {l : List (MEvent η)}, MSteps env c0 l c1 → CacheInv c0.m.world.md.tables → CacheInv c1.m.world.md.tables := by
    intro c0 c1 l hs
    induction hs with
    | refl => exact fun h => h
    | step _ hs ih => exact fun h => md_step hs (ih h)
  exact key h h0

/-! ## Running a manager -/

/-- A command to a manager. -/
inductive Cmd (η : Type) where
  | init (tables : List (String × UInt32))
  | start
  | process (txn : Nat) (qs : List Query) (h : η)
  | pending (txn : Nat)
  | commit (txn : Nat)
  | abort (txn : Nat)
  | check (txn : Nat)
  | resolve (qs : List Query)
  | input (i : MgrIn)
  | progress
  | take

/-- Running one command. -/
def exec (env : TxnEnv α η ω) (c : Client α η ω) : Cmd η → Run (Client α η ω × MEvent η)
  | .init tables => (c.m.init tables).bind fun m => .ok ({ c with m := m }, .init tables)
  | .start => .ok ({ c with m := { c.m with coord := c.m.coord.createTxn.1 }, opened := c.m.coord.createTxn.2 :: c.opened }, .start c.m.coord.createTxn.2)
  | .process i qs h => if i ∈ c.opened then (c.m.coord.process i qs h).bind fun co => .ok ({ c with m := { c.m with coord := co } }, .process i qs h) else .panic
  | .pending i => if i ∈ c.opened then (c.m.coord.hasPending i).bind fun b => .ok (c, .pending i b) else .panic
  | .commit i => if i ∈ c.opened then (c.m.coord.commit i).bind fun co =>
      .ok ({ m := { c.m with coord := co }, opened := c.opened.filter (· ≠ i), commits := c.commits.set i ⟨i, none⟩ }, .commit i (co.out.drop c.m.coord.out.length))
    else .panic
  | .abort i => if i ∈ c.opened then .ok ({ c with m := { c.m with coord := c.m.coord.abort i }, opened := c.opened.filter (· ≠ i) }, .abort i) else .panic
  | .check i => match c.commits.get i with
    | some h => (h.check c.m).bind fun x => .ok ({ c with m := x.2, commits := c.commits.set i x.1 }, .check i x.1.outcome)
    | none => .panic
  | .resolve qs => (c.m.resolve qs).bind fun m => .ok ({ c with m := m }, .resolve qs)
  | .input i => (c.m.processIn env i).bind fun m => .ok ({ c with m := m }, .input i)
  | .progress => (c.m.makeProgress env).bind fun m => .ok ({ c with m := m }, .progress)
  | .take => c.m.takeOut.bind fun x => .ok ({ c with m := x.1 }, .take x.2)

theorem exec_sound {env : TxnEnv α η ω} {c c' : Client α η ω} {x : Cmd η} {ev : MEvent η} (h : exec env c x = .ok (c', ev)) : MStep env c ev c' := by
  cases x with
  | init tables =>
    obtain ⟨m, h1, h2⟩ := Run.bind_eq_ok.mp h
    simp only [Run.ok.injEq, Prod.mk.injEq] at h2
    obtain ⟨rfl, rfl⟩ := h2
    exact .init h1
  | start =>
    simp only [exec, Run.ok.injEq, Prod.mk.injEq] at h
    obtain ⟨rfl, rfl⟩ := h
    exact .start
  | process i qs hd =>
    simp only [exec] at h
    split at h
    · rename_i ho
      obtain ⟨m, h1, h2⟩ := Run.bind_eq_ok.mp h
      simp only [Run.ok.injEq, Prod.mk.injEq] at h2
      obtain ⟨rfl, rfl⟩ := h2
      exact .process ho h1
    · simp at h
  | pending i =>
    simp only [exec] at h
    split at h
    · rename_i ho
      obtain ⟨m, h1, h2⟩ := Run.bind_eq_ok.mp h
      simp only [Run.ok.injEq, Prod.mk.injEq] at h2
      obtain ⟨rfl, rfl⟩ := h2
      exact .pending ho h1
    · simp at h
  | commit i =>
    simp only [exec] at h
    split at h
    · rename_i ho
      obtain ⟨m, h1, h2⟩ := Run.bind_eq_ok.mp h
      simp only [Run.ok.injEq, Prod.mk.injEq] at h2
      obtain ⟨rfl, rfl⟩ := h2
      exact .commit ho h1
    · simp at h
  | abort i =>
    simp only [exec] at h
    split at h
    · rename_i ho
      simp only [Run.ok.injEq, Prod.mk.injEq] at h
      obtain ⟨rfl, rfl⟩ := h
      exact .abort ho
    · simp at h
  | check i =>
    simp only [exec] at h
    split at h
    · rename_i k ho
      obtain ⟨⟨k', m⟩, h1, h2⟩ := Run.bind_eq_ok.mp h
      simp only [Run.ok.injEq, Prod.mk.injEq] at h2
      obtain ⟨rfl, rfl⟩ := h2
      exact .check ho h1
    · simp at h
  | resolve qs =>
    obtain ⟨m, h1, h2⟩ := Run.bind_eq_ok.mp h
    simp only [Run.ok.injEq, Prod.mk.injEq] at h2
    obtain ⟨rfl, rfl⟩ := h2
    exact .resolve h1
  | input i =>
    obtain ⟨m, h1, h2⟩ := Run.bind_eq_ok.mp h
    simp only [Run.ok.injEq, Prod.mk.injEq] at h2
    obtain ⟨rfl, rfl⟩ := h2
    exact .input h1
  | progress =>
    obtain ⟨m, h1, h2⟩ := Run.bind_eq_ok.mp h
    simp only [Run.ok.injEq, Prod.mk.injEq] at h2
    obtain ⟨rfl, rfl⟩ := h2
    exact .progress h1
  | take =>
    obtain ⟨⟨m, outs⟩, h1, h2⟩ := Run.bind_eq_ok.mp h
    simp only [Run.ok.injEq, Prod.mk.injEq] at h2
    obtain ⟨rfl, rfl⟩ := h2
    exact .take h1

/-- Running commands. -/
def execAll (env : TxnEnv α η ω) (c : Client α η ω) : List (Cmd η) → Run (Client α η ω × List (MEvent η))
  | [] => .ok (c, [])
  | x :: rest => (exec env c x).bind fun y => (execAll env y.1 rest).bind fun z => .ok (z.1, y.2 :: z.2)

theorem execAll_sound {env : TxnEnv α η ω} : ∀ {cmds : List (Cmd η)} {c c' : Client α η ω} {evs : List (MEvent η)},
    execAll env c cmds = .ok (c', evs) → MSteps env c evs c' := by
  intro cmds
  induction cmds with
  | nil =>
    intro c c' evs h
    simp only [execAll, Run.ok.injEq, Prod.mk.injEq] at h
    obtain ⟨rfl, rfl⟩ := h
    exact .refl
  | cons x rest ih =>
    intro c c' evs h
    obtain ⟨⟨c1, ev⟩, h1, h2⟩ := Run.bind_eq_ok.mp h
    obtain ⟨⟨c2, evs2⟩, h3, h4⟩ := Run.bind_eq_ok.mp h2
    simp only [Run.ok.injEq, Prod.mk.injEq] at h4
    obtain ⟨rfl, rfl⟩ := h4
    exact (MSteps.single (exec_sound h1)).append (ih h3)

/-! ## Requests that have not been answered -/

theorem rememberErrors_keeps {l : List (Nat × List TabletOp)} : ∀ {es es' : AMap Nat Response}, rememberErrors es l = .ok es' →
    (∀ k v, es.get k = some v → es'.get k = some v) ∧ ∀ e ∈ l, es'.get e.1 = some ⟨false, e.2.map failedResult⟩ := by
  induction l with
  | nil => intro es es' h; simp only [rememberErrors, Run.ok.injEq] at h; subst h; exact ⟨fun _ _ h => h, by simp⟩
  | cons e rest ih =>
    obtain ⟨corr, ops⟩ := e
    intro es es' h
    unfold rememberErrors at h
    split at h
    · simp at h
    · rename_i hn
      obtain ⟨h1, h2⟩ := ih h
      refine ⟨fun k v hk => h1 k v ?_, fun e he => ?_⟩
      · rw [AMap.get_set_ne _ _ (by rintro rfl; simp [hk] at hn)]; exact hk
      · rcases List.mem_cons.mp he with rfl | he
        · exact h1 _ _ (by simp)
        · exact h2 e he

/-- What is known about a request of a transaction that was not answered. -/
def EInv (evs : List (MEvent η)) (c : Client α η ω) : Prop := ∀ i corr ops, .commit i [(corr, ops)] ∈ evs → Unanswered evs corr →
  c.m.coord.correlations.get corr = some i ∧ c.m.coord.txns.get i = some (.committing ops) ∧
  ((corr, ops) ∈ c.m.coord.out ∨ c.m.errors.get corr = some ⟨false, ops.map failedResult⟩)

theorem _root_.TCP.Cache.Spec.Unanswered.prefix {a b : List (MEvent η)} {corr : Nat} (h : Unanswered (a ++ b) corr) : Unanswered a corr :=
  fun x hx => h x (by simp [hx])

theorem EInv.keep {evs : List (MEvent η)} {c c' : Client α η ω} (h : EInv evs c) {ev : MEvent η} (hev : ∀ i s, ev ≠ .commit i s)
    (hk : ∀ i corr ops, .commit i [(corr, ops)] ∈ evs → Unanswered (evs ++ [ev]) corr → c.m.coord.correlations.get corr = some i →
      c.m.coord.txns.get i = some (.committing ops) → ((corr, ops) ∈ c.m.coord.out ∨ c.m.errors.get corr = some ⟨false, ops.map failedResult⟩) →
      c'.m.coord.correlations.get corr = some i ∧ c'.m.coord.txns.get i = some (.committing ops) ∧
        ((corr, ops) ∈ c'.m.coord.out ∨ c'.m.errors.get corr = some ⟨false, ops.map failedResult⟩)) : EInv (evs ++ [ev]) c' := by
  intro i corr ops hm hu
  rcases List.mem_append.mp hm with hm | hm
  · obtain ⟨h1, h2, h3⟩ := h i corr ops hm hu.prefix
    exact hk i corr ops hm hu h1 h2 h3
  · exact absurd (List.mem_singleton.mp hm).symm (hev _ _)

theorem opsResponse_einv {evs : List (MEvent η)} {c : Client α η ω} (hc : CInv evs c) (h : EInv evs c) {corr : Nat} {r : Response} {m' : Manager α η ω} {inp : MgrIn}
    (hs : { c.m with errors := c.m.errors.erase corr }.opsResponse corr r = .ok m') (hu : ∀ k, Unanswered (evs ++ [.input inp]) k → k ≠ corr) :
    EInv (evs ++ [.input inp]) { c with m := m' } := by
  refine h.keep (by simp) ?_
  intro i k ops hm hun h1 h2 h3
  have hne := hu k hun
  obtain ⟨_, _, he, md, _, hr⟩ := opsResponse_cases hs
  have h3' : (k, ops) ∈ c.m.coord.out ∨ m'.errors.get k = some ⟨false, ops.map failedResult⟩ := by
    rcases h3 with h3 | h3
    · exact .inl h3
    · right; rw [he]; dsimp only; rw [AMap.get_erase_ne _ (Ne.symm hne)]; exact h3
  rcases hr with ⟨_, hr, _⟩ | ⟨_, hr⟩
  · dsimp only; rw [hr]; exact ⟨h1, h2, h3'⟩
  · rcases processIn_cases hr with ⟨_, hr⟩ | ⟨j, hj, ⟨ops1, b, l, _, _, _, hr⟩ | ⟨_, hr⟩⟩
    · dsimp only; rw [hr]; exact ⟨h1, h2, h3'⟩
    · dsimp only at hj ⊢
      rw [hr]
      have hij : j ≠ i := by rintro rfl; exact hne (hc.inj _ _ _ h1 hj)
      exact ⟨by dsimp only; rw [AMap.get_erase_ne _ (Ne.symm hne)]; exact h1, by dsimp only; rw [AMap.get_set_ne _ _ hij]; exact h2, h3'⟩
    · dsimp only
      rw [hr]
      exact ⟨by dsimp only; rw [AMap.get_erase_ne _ (Ne.symm hne)]; exact h1, h2, h3'⟩

theorem einv_step {env : TxnEnv α η ω} {evs : List (MEvent η)} {c c' : Client α η ω} {ev : MEvent η} (hc : CInv evs c) (h : EInv evs c)
    (hs : MStep env c ev c') : EInv (evs ++ [ev]) c' := by
  cases hs with
  | app => exact h.keep (by simp) fun i k ops _ _ h1 h2 h3 => ⟨h1, h2, h3⟩
  | @init tables m hs =>
    unfold Manager.init at hs
    obtain ⟨md, _, h2⟩ := Run.bind_eq_ok.mp hs
    simp only [Run.ok.injEq] at h2
    subst h2
    exact h.keep (by simp) fun i k ops _ _ h1 h2 h3 => ⟨h1, h2, h3⟩
  | start =>
    refine h.keep (by simp) fun i k ops _ _ h1 h2 h3 => ⟨h1, ?_, h3⟩
    have := hc.le _ _ h2
    simp only [Coordinator.createTxn]
    rw [AMap.get_set_ne _ _ (by omega)]; exact h2
  | @process j qs hd co ho hs =>
    obtain ⟨ps, hps⟩ := hc.opened j ho
    simp only [Coordinator.process, hps, Run.ok.injEq] at hs
    subst hs
    refine h.keep (by simp) fun i k ops _ _ h1 h2 h3 => ⟨h1, ?_, h3⟩
    dsimp only
    rw [AMap.get_set_ne _ _ (by rintro rfl; rw [hps] at h2; cases h2)]; exact h2
  | pending _ _ => exact h.keep (by simp) fun i k ops _ _ h1 h2 h3 => ⟨h1, h2, h3⟩
  | @commit j co ho hs =>
    obtain ⟨ps, hps, ha, rfl⟩ := commit_cases hs
    dsimp only
    rw [List.drop_append_of_le_length (Nat.le_refl _), List.drop_length, List.nil_append]
    generalize (ps.flatMap fun p => p.tablets.map fun e => e.2.op) = ops0 at hs ⊢
    intro i k ops hm hu
    rcases List.mem_append.mp hm with hm | hm
    · obtain ⟨h1, h2, h3⟩ := h i k ops hm hu.prefix
      have hij : j ≠ i := by rintro rfl; rw [hps] at h2; cases h2
      obtain ⟨_, _, _, corr, ops', h4, h5⟩ := hc.sent i _ hm
      simp only [List.cons.injEq, Prod.mk.injEq, and_true] at h4
      have hk : c.m.coord.correlation + 1 ≠ k := by omega
      refine ⟨by dsimp only; rw [AMap.get_set_ne _ _ hk]; exact h1, by dsimp only; rw [AMap.get_set_ne _ _ hij]; exact h2, ?_⟩
      rcases h3 with h3 | h3
      · exact .inl (by simp [h3])
      · exact .inr h3
    · simp only [List.mem_singleton, MEvent.commit.injEq, List.cons.injEq, Prod.mk.injEq, and_true] at hm
      obtain ⟨rfl, rfl, rfl⟩ := hm
      exact ⟨by simp, by simp, .inl (by simp)⟩
  | @abort j ho =>
    obtain ⟨ps, hps⟩ := hc.opened j ho
    refine h.keep (by simp) fun i k ops _ _ h1 h2 h3 => ⟨h1, ?_, h3⟩
    simp only [Coordinator.abort]
    rw [AMap.get_erase_ne _ (by rintro rfl; rw [hps] at h2; cases h2)]; exact h2
  | @check j y y' m hj hs =>
    unfold Commit.check at hs
    cases hx : y.outcome with
    | some o =>
      simp only [hx, Run.ok.injEq, Prod.mk.injEq] at hs
      obtain ⟨rfl, rfl⟩ := hs
      exact h.keep (by simp) fun i k ops _ _ h1 h2 h3 => ⟨h1, h2, h3⟩
    | none =>
      simp only [hx] at hs
      obtain ⟨⟨co, r⟩, h1, h2⟩ := Run.bind_eq_ok.mp hs
      simp only [Run.ok.injEq, Prod.mk.injEq] at h2
      obtain ⟨rfl, rfl⟩ := h2
      unfold Coordinator.check at h1
      split at h1
      · simp at h1
      · simp at h1
      · simp only [Run.ok.injEq, Prod.mk.injEq] at h1
        obtain ⟨rfl, rfl⟩ := h1
        exact h.keep (by simp) fun i k ops _ _ h1 h2 h3 => ⟨h1, h2, h3⟩
      · rename_i o ho
        simp only [Run.ok.injEq, Prod.mk.injEq] at h1
        obtain ⟨rfl, rfl⟩ := h1
        refine h.keep (by simp) fun i k ops _ _ h1 h2 h3 => ⟨h1, ?_, h3⟩
        dsimp only
        rw [AMap.get_erase_ne _ (by intro e; rw [e, h2] at ho; cases ho)]; exact h2
  | @resolve qs m hs =>
    unfold Manager.resolve at hs
    obtain ⟨md, _, h2⟩ := Run.bind_eq_ok.mp hs
    simp only [Run.ok.injEq] at h2
    subst h2
    exact h.keep (by simp) fun i k ops _ _ h1 h2 h3 => ⟨h1, h2, h3⟩
  | @input inp m hs =>
    cases inp with
    | data r =>
      simp only [Manager.processIn] at hs
      obtain ⟨d, _, h2⟩ := Run.bind_eq_ok.mp hs
      simp only [Run.ok.injEq] at h2
      subst h2
      exact h.keep (by simp) fun i k ops _ _ h1 h2 h3 => ⟨h1, h2, h3⟩
    | response corr r =>
      refine opsResponse_einv hc h hs fun k hu => ?_
      rintro rfl
      exact (hu _ (List.mem_append.mpr (.inr (List.mem_singleton.mpr rfl)))).2 r rfl
    | error corr =>
      simp only [Manager.processIn] at hs
      cases hg : c.m.errors.get corr with
      | none =>
        simp only [hg, Run.ok.injEq] at hs
        subst hs
        exact h.keep (by simp) fun i k ops _ _ h1 h2 h3 => ⟨h1, h2, h3⟩
      | some r =>
        simp only [hg] at hs
        refine opsResponse_einv hc h hs fun k hu => ?_
        rintro rfl
        exact (hu _ (List.mem_append.mpr (.inr (List.mem_singleton.mpr rfl)))).1 rfl
  | @progress m hs =>
    unfold Manager.makeProgress at hs
    obtain ⟨md, h1, h2⟩ := Run.bind_eq_ok.mp hs
    obtain ⟨d, hd, h3⟩ := Run.bind_eq_ok.mp h2
    obtain ⟨⟨ts, w⟩, h4, h5⟩ := Run.bind_eq_ok.mp h3
    simp only [Run.ok.injEq] at h5
    subst h5
    refine h.keep (by simp) fun i k ops _ _ h1 h2 h3 => ⟨h1, ?_, h3⟩
    obtain ⟨s', h6, h7⟩ := ((stepTxns_each h4).2.2 i).2 _ h2
    dsimp only
    rw [h6]; exact congrArg some (Eq.symm h7)
  | @take m outs hs =>
    unfold Manager.takeOut at hs
    obtain ⟨es, h1, h2⟩ := Run.bind_eq_ok.mp hs
    simp only [Run.ok.injEq, Prod.mk.injEq] at h2
    obtain ⟨rfl, rfl⟩ := h2
    obtain ⟨k1, k2⟩ := rememberErrors_keeps h1
    refine h.keep (by simp) fun i k ops _ _ h1 h2 h3 => ⟨h1, h2, .inr ?_⟩
    rcases h3 with h3 | h3
    · exact k2 (k, ops) (by simp [h3])
    · exact k1 _ _ h3

theorem history_einv {env : TxnEnv α η ω} {evs : List (MEvent η)} {c : Client α η ω} (h : MHistory env evs c) : EInv evs c := by
  obtain ⟨co, md, d, w, h⟩ := h
  have key : ∀ {c0 c1 : Client α η ω} {l : List (MEvent η)}, MSteps env c0 l c1 → CInv [] c0 → EInv [] c0 → EInv l c1 := by
    intro c0 c1 l hs
    induction hs with
    | refl => exact fun _ h => h
    | step h1 hs ih => exact fun h0 h => einv_step (by simpa using cinv_steps h0 h1) (ih h0 h) hs
  exact key h (cinv_create co md d w) (by simp [EInv])

/-- After a request was taken, its error response is remembered. -/
theorem taken_errors {env : TxnEnv α η ω} {evs : List (MEvent η)} {c : Client α η ω} (h : MHistory env evs c) {i corr : Nat} {ops : List TabletOp}
    (hm : .commit i [(corr, ops)] ∈ evs) (hu : Unanswered evs corr) (ho : (corr, ops) ∉ c.m.coord.out) :
    c.m.errors.get corr = some ⟨false, ops.map failedResult⟩ := ((history_einv h i corr ops hm hu).2.2).resolve_left ho

/-! ## Progress -/

theorem outstanding_progress {devs : List (Event α)} {d d' : DataCache α} {policy : AMap String (Entry α) → List String}
    (h : d.makeProgress policy = .ok d') {r : DataOut} (ho : Outstanding (devs ++ [.progress]) d' r) : Outstanding devs d r := by
  rcases ho with ho | ⟨a, outs, b, h1, h2, h3⟩
  · left
    unfold DataCache.makeProgress at h
    obtain ⟨x, _, h2⟩ := Run.bind_eq_ok.mp h
    simp only [Run.ok.injEq] at h2
    rw [← h2] at ho; exact ho
  · right
    rcases List.eq_nil_or_concat b with rfl | ⟨b', x, rfl⟩
    · obtain ⟨_, h5⟩ := List.append_inj' h1 (by simp)
      simp at h5
    · rw [List.concat_eq_append] at h1 h3
      have h1' : devs ++ [.progress] = (a ++ .take outs :: b') ++ [x] := by rw [h1]; simp
      obtain ⟨h4, h5⟩ := List.append_inj' h1' (by simp)
      exact ⟨a, outs, b', h4, h2, fun y hy => h3 y (by simp [hy])⟩

/-- How a process request advances when the storage has answered everything. -/
theorem progress_advances {env : TxnEnv α η ω} (hsane : Sane env) {evs : List (MEvent η)} {c : Client α η ω} (h : MHistory env evs c)
    (hout : ∀ r, ¬ MOutstanding evs c r) {m' : Manager α η ω} (hs : c.m.makeProgress env = .ok m') {i : Nat} {ps : List (Proc α η)}
    (hi : c.m.coord.txns.get i = some (.preparing ps)) : ∃ ps', m'.coord.txns.get i = some (.preparing ps') ∧ ps'.length = ps.length ∧
      ∀ (k : Nat) (p p' : Proc α η), ps[k]? = some p → ps'[k]? = some p' → Advanced c.m.world.md.cells p p' := by
  obtain ⟨devs, hw⟩ := history_winv hsane h
  unfold Manager.makeProgress at hs
  obtain ⟨md, hmd, h2⟩ := Run.bind_eq_ok.mp hs
  obtain ⟨d, hd, h3⟩ := Run.bind_eq_ok.mp h2
  obtain ⟨⟨ts, w⟩, h4, h5⟩ := Run.bind_eq_ok.mp h3
  simp only [Run.ok.injEq] at h5
  subst h5
  obtain ⟨_, _, he⟩ := stepTxns_each h4
  obtain ⟨s', h6, ps', rfl, hlen, hall⟩ := (he i).2 _ hi
  refine ⟨ps', h6, hlen, fun k p p' hk hk' => ?_⟩
  obtain ⟨w1, w2, hg, hst, _⟩ := hall k p p' hk hk'
  have hp : PInv env devs c.m.world.data p := hw.procs i ps (AMap.mem_of_get hi) p (List.mem_of_getElem? hk)
  have hmdc : md.cells = c.m.world.md.cells := by
    unfold MetaCache.makeProgress at hmd
    obtain ⟨x, _, hx⟩ := Run.bind_eq_ok.mp hmd
    simp only [Run.ok.injEq] at hx
    rw [← hx]
    split <;> rfl
  have hh : History env.data (devs ++ [.progress]) d := hw.hist.progress hsane hd
  have hno : ∀ r, ¬ Outstanding (devs ++ [.progress]) d r := fun r hr => hout r (outstanding_lift hw (outstanding_progress hd hr))
  unfold Advanced
  unfold Proc.step at hst
  cases hs : p.status with
  | pending qs =>
    simp only [hs] at hst
    obtain ⟨x, _, h8⟩ := Run.bind_eq_ok.mp hst
    simp only [Run.ok.injEq, Prod.mk.injEq] at h8
    rw [← h8.1]; exact ⟨rfl, _, rfl⟩
  | resolving id =>
    simp only [hs] at hst
    have hhand : p'.handler = p.handler := by
      cases hc : w1.md.cells.get id with
      | none => simp only [hc, Run.ok.injEq, Prod.mk.injEq] at hst; rw [hst.1]
      | some res =>
        simp only [hc] at hst
        obtain ⟨x, _, h8⟩ := Run.bind_eq_ok.mp hst
        simp only [Run.ok.injEq, Prod.mk.injEq] at h8
        rw [← h8.1]
    refine ⟨hhand, fun hc => ?_⟩
    obtain ⟨res, hres⟩ := Option.isSome_iff_exists.mp hc
    rw [← hmdc] at hres
    rw [hg.cells id res hres] at hst
    simp only at hst
    obtain ⟨x, _, h8⟩ := Run.bind_eq_ok.mp hst
    simp only [Run.ok.injEq, Prod.mk.injEq] at h8
    rw [← h8.1]; exact ⟨_, rfl⟩
  | loading id =>
    simp only [hs] at hst
    have hcases : (w1.data.cells.loads.get id = none ∧ p' = p) ∨ (p'.handler = p.handler ∧ (p'.status = .failed ∨ ∃ x, p'.status = .storing x)) := by
      cases hc : w1.data.cells.loads.get id with
      | none => simp only [hc, Run.ok.injEq, Prod.mk.injEq] at hst; exact .inl ⟨rfl, hst.1.symm⟩
      | some o =>
        cases o with
        | none => simp only [hc, Run.ok.injEq, Prod.mk.injEq] at hst; rw [← hst.1]; exact .inr ⟨rfl, .inl rfl⟩
        | some res =>
          simp only [hc] at hst
          obtain ⟨x, _, h8⟩ := Run.bind_eq_ok.mp hst
          obtain ⟨y, _, h9⟩ := Run.bind_eq_ok.mp h8
          obtain ⟨z, _, h10⟩ := Run.bind_eq_ok.mp h9
          simp only [Run.ok.injEq, Prod.mk.injEq] at h10
          rw [← h10.1]; exact .inr ⟨rfl, .inr ⟨_, rfl⟩⟩
    refine ⟨?_, fun hne => ?_⟩
    · rcases hcases with ⟨_, rfl⟩ | ⟨h8, _⟩
      · rfl
      · exact h8
    · obtain ⟨_, ms, now, h8, h9⟩ := hp.load id hs
      rcases Props.C50_answered hw.hist hsane hd h8 (h9 hne) with ⟨x, hx⟩ | ⟨m, _, r, hr, _⟩
      · have := (hg.keeps (devs ++ [.progress]) hh).1 id x hx
        rcases hcases with ⟨h10, _⟩ | ⟨_, h10⟩
        · rw [h10] at this; cases this
        · exact h10
      · exact absurd hr (hno r)
  | storing o =>
    cases o with
    | none =>
      simp only [hs, Run.ok.injEq, Prod.mk.injEq] at hst
      rw [← hst.1]; exact ⟨rfl, rfl⟩
    | some id =>
      simp only [hs] at hst
      have hcases : (w1.data.cells.stores.get id = none ∧ p' = p) ∨ (p'.handler = p.handler ∧ (p'.status = .completed ∨ p'.status = .failed)) := by
        cases hc : w1.data.cells.stores.get id with
        | none => simp only [hc, Run.ok.injEq, Prod.mk.injEq] at hst; exact .inl ⟨rfl, hst.1.symm⟩
        | some o =>
          cases o with
          | none => simp only [hc, Run.ok.injEq, Prod.mk.injEq] at hst; rw [← hst.1]; exact .inr ⟨rfl, .inr rfl⟩
          | some u => simp only [hc, Run.ok.injEq, Prod.mk.injEq] at hst; rw [← hst.1]; exact .inr ⟨rfl, .inl rfl⟩
      refine ⟨?_, fun hne => ?_⟩
      · rcases hcases with ⟨_, rfl⟩ | ⟨h8, _⟩
        · rfl
        · exact h8
      · obtain ⟨data, ms, h8, h9⟩ := hp.store id hs
        rcases Props.C50_store_answered hw.hist hsane hd h8 (h9 hne) with ⟨x, hx⟩ | ⟨m, _, r, hr, _⟩
        · have := (hg.keeps (devs ++ [.progress]) hh).2 id x hx
          rcases hcases with ⟨h10, _⟩ | ⟨_, h10⟩
          · rw [h10] at this; cases this
          · exact h10
        · exact absurd hr (hno r)
  | completed =>
    simp only [hs, Run.ok.injEq, Prod.mk.injEq] at hst
    rw [← hst.1]; exact ⟨rfl, hs⟩
  | failed =>
    simp only [hs, Run.ok.injEq, Prod.mk.injEq] at hst
    rw [← hst.1]; exact ⟨rfl, hs⟩

end TCP.Cache
