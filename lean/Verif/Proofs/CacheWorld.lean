import Verif.Proofs.CacheManager

/-! # Proofs about the process requests of the transaction manager -/

namespace TCP.Cache

open TCP TCP.TabletStore TCP.Cache.Spec

variable {α η ω : Type}

/-- No tablet was written. -/
def Clean (ts : AMap Nat (TabletState α)) : Prop := ∀ e ∈ ts, e.2.tablet.updated = none ∧ e.2.tablet.dirty = false

/-- What is known about a process request. -/
structure PInv (env : TxnEnv α η ω) (devs : List (Event α)) (d : DataCache α) (p : Proc α η) : Prop where
  start : ((∃ qs, p.status = .pending qs) ∨ ∃ id, p.status = .resolving id) → p.tablets = []
  load : ∀ id, p.status = .loading id → Clean p.tablets ∧ ∃ ms now, .load ms id now ∈ devs ∧ (p.tablets ≠ [] → ms ≠ [])
  store : ∀ id, p.status = .storing (some id) → ∃ data ms, .store data ms (some id) ∈ devs ∧ ((∃ e ∈ p.tablets, e.2.tablet.dirty = true) → ms ≠ [])
  ro : ReadOnly env p.handler → p.status ≠ .completed ∧ p.status ≠ .storing none ∧ ∀ id, p.status = .storing (some id) → Dead d id

theorem PInv.mono {env : TxnEnv α η ω} {devs more : List (Event α)} {d d' : DataCache α} {p : Proc α η} (h : PInv env devs d p)
    (hd : ∀ id, Dead d id → Dead d' id) : PInv env (devs ++ more) d' p where
  start := h.start
  load := fun id hs => by
    obtain ⟨h1, ms, now, h2, h3⟩ := h.load id hs
    exact ⟨h1, ms, now, by simp [h2], h3⟩
  store := fun id hs => by
    obtain ⟨data, ms, h2, h3⟩ := h.store id hs
    exact ⟨data, ms, by simp [h2], h3⟩
  ro := fun hr => ⟨(h.ro hr).1, (h.ro hr).2.1, fun id hs => hd id ((h.ro hr).2.2 id hs)⟩

theorem mem_set {κ ν : Type} [DecidableEq κ] {k : κ} {v : ν} : ∀ {m : AMap κ ν} {e : κ × ν}, e ∈ m.set k v → e = (k, v) ∨ e ∈ m := by
  intro m
  induction m with
  | nil => intro e h; simp [AMap.set] at h; exact .inl h
  | cons x rest ih =>
    obtain ⟨k', v'⟩ := x
    intro e h
    unfold AMap.set at h
    split at h
    · rcases List.mem_cons.mp h with h | h
      · exact .inl h
      · exact .inr (List.mem_cons_of_mem _ h)
    · rcases List.mem_cons.mp h with h | h
      · exact .inr (by simp [h])
      · rcases ih h with h | h
        · exact .inl h
        · exact .inr (List.mem_cons_of_mem _ h)

theorem trackTablets_clean : ∀ {res : List (Query × Metadata)} {ts : AMap Nat (TabletState α)}, Clean ts → Clean (trackTablets ts res) := by
  intro res
  induction res with
  | nil => intro ts h; exact h
  | cons x rest ih =>
    obtain ⟨q, m⟩ := x
    intro ts h
    refine ih ?_
    intro e he
    rcases mem_set he with rfl | he
    · exact ⟨rfl, rfl⟩
    · exact h e he

theorem initTablets_clean : ∀ {res : List (Metadata × α)} {ts ts' : AMap Nat (TabletState α)}, initTablets ts res = .ok ts' → Clean ts → Clean ts' := by
  intro res
  induction res with
  | nil => intro ts ts' h hc; simp only [initTablets, Run.ok.injEq] at h; subst h; exact hc
  | cons x rest ih =>
    obtain ⟨m, v⟩ := x
    intro ts ts' h hc
    unfold initTablets at h
    obtain ⟨s, h1, h2⟩ := Run.bind_eq_ok.mp h
    refine ih h2 ?_
    intro e he
    rcases mem_set he with rfl | he
    · cases hg : AMap.get ts (tabletKey m) with
      | none => simp [hg] at h1
      | some s0 =>
        simp only [hg, Run.unwrap_some, Run.ok.injEq] at h1
        subst h1
        have := hc _ (AMap.mem_of_get hg)
        exact ⟨this.1, this.2⟩
    · exact hc e he

theorem applySets_none : ∀ {ts : AMap Nat (TabletState α)} {sets : List (Option α)}, (∀ s ∈ sets, s = none) → applySets ts sets = ts := by
  intro ts
  induction ts with
  | nil => intro sets _; cases sets <;> rfl
  | cons x rest ih =>
    obtain ⟨k, s⟩ := x
    intro sets h
    cases sets with
    | nil => rfl
    | cons o sets =>
      have := h o (by simp)
      subst this
      have hr : ∀ s ∈ sets, s = none := fun s hs => h s (List.mem_cons_of_mem _ hs)
      simp [applySets, ih hr]

theorem takeWrites_clean {ts : AMap Nat (TabletState α)} (h : Clean ts) : takeWrites ts = [] := by
  unfold takeWrites
  rw [List.filterMap_eq_nil_iff]
  intro e he
  simp [(h e he).1]

/-- A dirty tablet has an update until it is written. -/
theorem applySets_dirty : ∀ {ts : AMap Nat (TabletState α)} {sets : List (Option α)}, Clean ts →
    ∀ e ∈ applySets ts sets, e.2.tablet.dirty = true → e.2.tablet.updated.isSome := by
  intro ts
  induction ts with
  | nil => intro sets _ e he; cases sets <;> simp [applySets] at he
  | cons x rest ih =>
    obtain ⟨k, s⟩ := x
    intro sets h e he hd
    have hc : Clean rest := fun e he => h e (List.mem_cons_of_mem _ he)
    have h0 := h (k, s) (by simp)
    cases sets with
    | nil =>
      simp only [applySets] at he
      rw [(h e he).2] at hd; cases hd
    | cons o sets =>
      cases o with
      | none =>
        simp only [applySets, List.mem_cons] at he
        rcases he with rfl | he
        · rw [h0.2] at hd; cases hd
        · exact ih hc e he hd
      | some v =>
        simp only [applySets, List.mem_cons] at he
        rcases he with rfl | he
        · rfl
        · exact ih hc e he hd

theorem putMetadata_dirty : ∀ {ts : AMap Nat (TabletState α)} {ms : List Metadata} {e}, e ∈ putMetadata ts ms → e.2.tablet.dirty = true →
    ∃ e0 ∈ ts, e0.2.tablet.dirty = true := by
  intro ts
  induction ts with
  | nil => intro ms e he; cases ms <;> simp [putMetadata] at he
  | cons x rest ih =>
    obtain ⟨k, s⟩ := x
    intro ms e he hd
    unfold putMetadata at he
    split at he
    all_goals
      rcases List.mem_cons.mp he with rfl | he
      · exact ⟨(k, s), by simp, hd⟩
      · obtain ⟨e0, h1, h2⟩ := ih he hd
        exact ⟨e0, List.mem_cons_of_mem _ h1, h2⟩

theorem prepareWrites_length' {env : DataEnv α} : ∀ {data : List (Metadata × α)} {ms : List Metadata} {o}, prepareWrites env data = .ok (ms, o) → ms.length = data.length := by
  intro data
  induction data with
  | nil => intro ms o h; simp only [prepareWrites, Run.ok.injEq, Prod.mk.injEq] at h; rw [← h.1]; rfl
  | cons x rest ih =>
    obtain ⟨m, v⟩ := x
    intro ms o h
    unfold prepareWrites at h
    obtain ⟨y, h1, h2⟩ := Run.bind_eq_ok.mp h
    cases y with
    | none => simp only [Run.ok.injEq, Prod.mk.injEq] at h2; rw [← h2.1]; simp
    | some y =>
      obtain ⟨m', b⟩ := y
      obtain ⟨⟨ms', o'⟩, h3, h4⟩ := Run.bind_eq_ok.mp h2
      simp only [Run.ok.injEq, Prod.mk.injEq] at h4
      rw [← h4.1]
      simp [ih h3]

theorem store_length {env : DataEnv α} {d d' : DataCache α} {data : List (Metadata × α)} {ms : List Metadata} {b : Bool}
    (h : d.store env data = .ok (d', ms, b)) : ms.length = data.length := by
  unfold DataCache.store at h
  obtain ⟨⟨ms0, o⟩, h1, h2⟩ := Run.bind_eq_ok.mp h
  cases o with
  | none =>
    simp only [Run.ok.injEq, Prod.mk.injEq] at h2
    rw [← h2.2.1]; exact prepareWrites_length' h1
  | some bs =>
    simp only at h2
    obtain ⟨c1, _, h4⟩ := Run.bind_eq_ok.mp h2
    obtain ⟨c2, _, h6⟩ := Run.bind_eq_ok.mp h4
    simp only [Run.ok.injEq, Prod.mk.injEq] at h6
    rw [← h6.2.1]; exact prepareWrites_length' h1

theorem trackTablets_nil {res : List (Query × Metadata)} (h : trackTablets ([] : AMap Nat (TabletState α)) res ≠ []) : res.map Prod.snd ≠ [] := by
  intro hn
  cases res with
  | nil => exact h rfl
  | cons x rest => simp at hn

/-- A process request stays well-behaved when it advances. -/
theorem step_pinv {env : TxnEnv α η ω} {devs : List (Event α)} {i : Nat} {p p' : Proc α η} {w w' : World α ω} (hh : History env.data devs w.data)
    (hp : PInv env devs w.data p) (h : p.step env i w = .ok (p', w')) :
    p'.handler = p.handler ∧ ∃ more, (∀ e ∈ more, Called e) ∧ History env.data (devs ++ more) w'.data ∧ PInv env (devs ++ more) w'.data p' := by
  unfold Proc.step at h
  cases hs : p.status with
  | pending qs =>
    simp only [hs] at h
    obtain ⟨c, _, h2⟩ := Run.bind_eq_ok.mp h
    simp only [Run.ok.injEq, Prod.mk.injEq] at h2
    obtain ⟨rfl, rfl⟩ := h2
    refine ⟨rfl, [], by simp, by simpa using hh, ?_⟩
    exact ⟨fun _ => hp.start (.inl ⟨qs, hs⟩), by simp, by simp, by simp⟩
  | resolving id =>
    simp only [hs] at h
    cases hc : w.md.cells.get id with
    | none =>
      simp only [hc, Run.ok.injEq, Prod.mk.injEq] at h
      obtain ⟨rfl, rfl⟩ := h
      exact ⟨rfl, [], by simp, by simpa using hh, hp.mono (fun _ x => x)⟩
    | some res =>
      simp only [hc] at h
      obtain ⟨d, h1, h2⟩ := Run.bind_eq_ok.mp h
      simp only [Run.ok.injEq, Prod.mk.injEq] at h2
      obtain ⟨rfl, rfl⟩ := h2
      have ht : p.tablets = [] := hp.start (.inr ⟨id, hs⟩)
      refine ⟨rfl, [.load (res.map Prod.snd) d.batchCounter (firstReady w.data (res.map Prod.snd))], by simp [Called], hh.load h1, ?_⟩
      refine ⟨by simp, fun j hj => ?_, by simp, by simp⟩
      simp only [ProcStatus.loading.injEq] at hj
      subst hj
      rw [ht]
      exact ⟨trackTablets_clean (by simp [Clean]), _, _, List.mem_append.mpr (.inr (List.mem_singleton.mpr rfl)), trackTablets_nil⟩
  | loading id =>
    simp only [hs] at h
    cases hc : w.data.cells.loads.get id with
    | none =>
      simp only [hc, Run.ok.injEq, Prod.mk.injEq] at h
      obtain ⟨rfl, rfl⟩ := h
      exact ⟨rfl, [], by simp, by simpa using hh, hp.mono (fun _ x => x)⟩
    | some o =>
      cases o with
      | none =>
        simp only [hc, Run.ok.injEq, Prod.mk.injEq] at h
        obtain ⟨rfl, rfl⟩ := h
        exact ⟨rfl, [], by simp, by simpa using hh, ⟨by simp, by simp, by simp, by simp⟩⟩
      | some res =>
        simp only [hc] at h
        obtain ⟨ts, h1, h2⟩ := Run.bind_eq_ok.mp h
        obtain ⟨⟨w1, sets⟩, h3, h4⟩ := Run.bind_eq_ok.mp h2
        obtain ⟨⟨d, ms, b⟩, h5, h6⟩ := Run.bind_eq_ok.mp h4
        simp only [Run.ok.injEq, Prod.mk.injEq] at h6
        obtain ⟨rfl, rfl⟩ := h6
        have hc1 : Clean ts := initTablets_clean h1 (hp.load id hs).1
        refine ⟨rfl, [.store (takeWrites (applySets ts sets)) ms (if b then some d.batchCounter else none)], by simp [Called], hh.store h5, ?_⟩
        refine ⟨by simp, by simp, fun j hj => ?_, fun hr => ⟨by simp, ?_, ?_⟩⟩
        · simp only [ProcStatus.storing.injEq] at hj
          refine ⟨takeWrites (applySets ts sets), ms, by simp [hj], ?_⟩
          rintro ⟨e, he, hd⟩
          obtain ⟨e0, h7, h8⟩ := putMetadata_dirty he hd
          obtain ⟨v, hv⟩ := Option.isSome_iff_exists.mp (applySets_dirty hc1 e0 h7 h8)
          have hm : (e0.2.tablet.metadata, v) ∈ takeWrites (applySets ts sets) := List.mem_filterMap.mpr ⟨e0, h7, by simp [hv]⟩
          intro hn
          have := store_length h5
          rw [hn] at this
          have := List.length_pos_of_mem hm
          simp at *
          omega
        · have hsets : ∀ s ∈ sets, s = none := hr _ _ _ _ _ h3
          rw [applySets_none hsets, takeWrites_clean hc1] at h5
          obtain ⟨rfl, _, _⟩ := store_nil h5
          simp
        · have hsets : ∀ s ∈ sets, s = none := hr _ _ _ _ _ h3
          rw [applySets_none hsets, takeWrites_clean hc1] at h5
          obtain ⟨rfl, _, rfl⟩ := store_nil h5
          intro j hj
          simp only [if_true, ProcStatus.storing.injEq, Option.some.injEq] at hj
          subst hj
          exact fresh_dead hh
  | storing o =>
    cases o with
    | none =>
      simp only [hs, Run.ok.injEq, Prod.mk.injEq] at h
      obtain ⟨rfl, rfl⟩ := h
      exact ⟨rfl, [], by simp, by simpa using hh, ⟨by simp, by simp, by simp, by simp⟩⟩
    | some id =>
      simp only [hs] at h
      cases hc : w.data.cells.stores.get id with
      | none =>
        simp only [hc, Run.ok.injEq, Prod.mk.injEq] at h
        obtain ⟨rfl, rfl⟩ := h
        exact ⟨rfl, [], by simp, by simpa using hh, hp.mono (fun _ x => x)⟩
      | some o =>
        cases o with
        | none =>
          simp only [hc, Run.ok.injEq, Prod.mk.injEq] at h
          obtain ⟨rfl, rfl⟩ := h
          exact ⟨rfl, [], by simp, by simpa using hh, ⟨by simp, by simp, by simp, by simp⟩⟩
        | some u =>
          simp only [hc, Run.ok.injEq, Prod.mk.injEq] at h
          obtain ⟨rfl, rfl⟩ := h
          refine ⟨rfl, [], by simp, by simpa using hh, ⟨by simp, by simp, by simp, fun hr => ?_⟩⟩
          have := ((hp.ro hr).2.2 id hs).store
          rw [hc] at this; cases this
  | completed =>
    simp only [hs, Run.ok.injEq, Prod.mk.injEq] at h
    obtain ⟨rfl, rfl⟩ := h
    exact ⟨rfl, [], by simp, by simpa using hh, hp.mono (fun _ x => x)⟩
  | failed =>
    simp only [hs, Run.ok.injEq, Prod.mk.injEq] at h
    obtain ⟨rfl, rfl⟩ := h
    exact ⟨rfl, [], by simp, by simpa using hh, hp.mono (fun _ x => x)⟩

theorem stepProcs_pinv {env : TxnEnv α η ω} {i : Nat} : ∀ {ps ps' : List (Proc α η)} {devs : List (Event α)} {w w' : World α ω},
    History env.data devs w.data → (∀ p ∈ ps, PInv env devs w.data p) → stepProcs env i ps w = .ok (ps', w') →
    ps'.map Proc.handler = ps.map Proc.handler ∧
    ∃ more, (∀ e ∈ more, Called e) ∧ History env.data (devs ++ more) w'.data ∧ ∀ p ∈ ps', PInv env (devs ++ more) w'.data p := by
  intro ps
  induction ps with
  | nil =>
    intro ps' devs w w' hh _ h
    simp only [stepProcs, Run.ok.injEq, Prod.mk.injEq] at h
    obtain ⟨rfl, rfl⟩ := h
    exact ⟨rfl, [], by simp, by simpa using hh, by simp⟩
  | cons p rest ih =>
    intro ps' devs w w' hh hp h
    unfold stepProcs at h
    obtain ⟨⟨p1, w1⟩, h1, h2⟩ := Run.bind_eq_ok.mp h
    obtain ⟨⟨ps1, w2⟩, h3, h4⟩ := Run.bind_eq_ok.mp h2
    simp only [Run.ok.injEq, Prod.mk.injEq] at h4
    obtain ⟨rfl, rfl⟩ := h4
    obtain ⟨k0, m1, k1, k2, k3⟩ := step_pinv hh (hp p (by simp)) h1
    have hg := step_grows h1
    obtain ⟨l0, m2, l1, l2, l3⟩ := ih k2 (fun q hq => (hp q (by simp [hq])).mono hg.dead) h3
    have hg2 := (stepProcs_each h3).1
    refine ⟨by simp [k0, l0], m1 ++ m2, ?_, by simpa using l2, ?_⟩
    · intro e he
      rcases List.mem_append.mp he with he | he
      · exact k1 e he
      · exact l1 e he
    · intro q hq
      rw [← List.append_assoc]
      rcases List.mem_cons.mp hq with rfl | hq
      · exact k3.mono hg2.dead
      · exact l3 q hq

/-- All process requests of all transactions. -/
def AllP (env : TxnEnv α η ω) (devs : List (Event α)) (d : DataCache α) (ts : AMap Nat (TxnState α η)) : Prop :=
  ∀ i ps, (i, TxnState.preparing ps) ∈ ts → ∀ p ∈ ps, PInv env devs d p

theorem AllP.mono {env : TxnEnv α η ω} {devs more : List (Event α)} {d d' : DataCache α} {ts : AMap Nat (TxnState α η)} (h : AllP env devs d ts)
    (hd : ∀ id, Dead d id → Dead d' id) : AllP env (devs ++ more) d' ts := fun i ps hi p hp => (h i ps hi p hp).mono hd

/-- The process requests of a transaction, by their handlers. -/
def handlers : TxnState α η → List η
  | .preparing ps => ps.map Proc.handler
  | _ => []

theorem stepTxns_pinv {env : TxnEnv α η ω} : ∀ {ts ts' : AMap Nat (TxnState α η)} {devs : List (Event α)} {w w' : World α ω},
    History env.data devs w.data → AllP env devs w.data ts → stepTxns env ts w = .ok (ts', w') →
    ts'.map (fun e => (e.1, handlers e.2)) = ts.map (fun e => (e.1, handlers e.2)) ∧
    ∃ more, (∀ e ∈ more, Called e) ∧ History env.data (devs ++ more) w'.data ∧ AllP env (devs ++ more) w'.data ts' := by
  intro ts
  induction ts with
  | nil =>
    intro ts' devs w w' hh _ h
    simp only [stepTxns, Run.ok.injEq, Prod.mk.injEq] at h
    obtain ⟨rfl, rfl⟩ := h
    exact ⟨rfl, [], by simp, by simpa using hh, by simp [AllP]⟩
  | cons x rest ih =>
    obtain ⟨i, s⟩ := x
    intro ts' devs w w' hh ha h
    have har : AllP env devs w.data rest := fun j ps hj => ha j ps (List.mem_cons_of_mem _ hj)
    cases s with
    | preparing ps =>
      unfold stepTxns at h
      obtain ⟨⟨ps1, w1⟩, h1, h2⟩ := Run.bind_eq_ok.mp h
      obtain ⟨⟨ts1, w2⟩, h3, h4⟩ := Run.bind_eq_ok.mp h2
      simp only [Run.ok.injEq, Prod.mk.injEq] at h4
      obtain ⟨rfl, rfl⟩ := h4
      obtain ⟨k0, m1, k1, k2, k3⟩ := stepProcs_pinv hh (ha i ps (by simp)) h1
      have hg := (stepProcs_each h1).1
      obtain ⟨l0, m2, l1, l2, l3⟩ := ih k2 (har.mono hg.dead) h3
      have hg2 := (stepTxns_each h3).1
      refine ⟨by rw [List.map_cons, List.map_cons, l0]; simp only [handlers, k0], m1 ++ m2, ?_, by simpa using l2, ?_⟩
      · intro e he
        rcases List.mem_append.mp he with he | he
        · exact k1 e he
        · exact l1 e he
      · intro j qs hj q hq
        rw [← List.append_assoc]
        rcases List.mem_cons.mp hj with hj | hj
        · simp only [Prod.mk.injEq, TxnState.preparing.injEq] at hj
          obtain ⟨rfl, rfl⟩ := hj
          exact (k3 q hq).mono hg2.dead
        · exact l3 j qs hj q hq
    | committing ops =>
      unfold stepTxns at h
      obtain ⟨⟨ts1, w2⟩, h3, h4⟩ := Run.bind_eq_ok.mp h
      simp only [Run.ok.injEq, Prod.mk.injEq] at h4
      obtain ⟨rfl, rfl⟩ := h4
      obtain ⟨l0, m2, l1, l2, l3⟩ := ih hh har h3
      refine ⟨by simp [l0], m2, l1, l2, ?_⟩
      intro j qs hj
      rcases List.mem_cons.mp hj with hj | hj
      · simp at hj
      · exact l3 j qs hj
    | completed o =>
      unfold stepTxns at h
      obtain ⟨⟨ts1, w2⟩, h3, h4⟩ := Run.bind_eq_ok.mp h
      simp only [Run.ok.injEq, Prod.mk.injEq] at h4
      obtain ⟨rfl, rfl⟩ := h4
      obtain ⟨l0, m2, l1, l2, l3⟩ := ih hh har h3
      refine ⟨by simp [l0], m2, l1, l2, ?_⟩
      intro j qs hj
      rcases List.mem_cons.mp hj with hj | hj
      · simp at hj
      · exact l3 j qs hj

/-! ## Histories -/

/-- The exchanges with the storage. -/
inductive IO where
  | out (l : List DataOut)
  | inp (r : DataIn)

def ioD : Event α → Option IO
  | .take outs => some (.out outs)
  | .response r => some (.inp r)
  | _ => none

def MgrOut.data? : MgrOut → Option DataOut
  | .data r => some r
  | .ops _ _ => none

def ioM : MEvent η → Option IO
  | .take outs => some (.out (outs.filterMap MgrOut.data?))
  | .input (.data r) => some (.inp r)
  | _ => none

theorem called_io {more : List (Event α)} (h : ∀ e ∈ more, Called e) : more.filterMap ioD = [] := by
  rw [List.filterMap_eq_nil_iff]
  intro e he
  have := h e he
  cases e <;> simp [Called] at this <;> rfl

structure WInv (env : TxnEnv α η ω) (evs : List (MEvent η)) (c : Client α η ω) (devs : List (Event α)) : Prop where
  hist : History env.data devs c.m.world.data
  io : devs.filterMap ioD = evs.filterMap ioM
  procs : AllP env devs c.m.world.data c.m.coord.txns
  wf : c.m.coord.txns.WF
  known : ∀ i qs h, .process i qs h ∈ evs → i ≤ c.m.coord.txnCounter
  handled : ∀ i qs h ps, .process i qs h ∈ evs → c.m.coord.txns.get i = some (.preparing ps) → ∃ p ∈ ps, p.handler = h

theorem mem_erase {κ ν : Type} [DecidableEq κ] {m : AMap κ ν} {k : κ} {e : κ × ν} (h : e ∈ m.erase k) : e ∈ m := by
  unfold AMap.erase at h
  exact (List.mem_filter.mp h).1

theorem handlers_get {ts ts' : AMap Nat (TxnState α η)} (h : ts'.map (fun e => (e.1, handlers e.2)) = ts.map (fun e => (e.1, handlers e.2))) (i : Nat) :
    (ts'.get i).map handlers = (ts.get i).map handlers := by
  induction ts generalizing ts' with
  | nil => simp at h; subst h; rfl
  | cons x rest ih =>
    obtain ⟨k, s⟩ := x
    cases ts' with
    | nil => simp at h
    | cons x' rest' =>
      obtain ⟨k', s'⟩ := x'
      simp only [List.map_cons, List.cons.injEq, Prod.mk.injEq] at h
      obtain ⟨⟨rfl, h1⟩, h2⟩ := h
      simp only [AMap.get_cons]
      split
      · simp [h1]
      · exact ih h2

/-- Steps that leave the transactions and the data cache. -/
theorem WInv.keep {env : TxnEnv α η ω} {evs : List (MEvent η)} {c c' : Client α η ω} {devs : List (Event α)} (h : WInv env evs c devs)
    {ev : MEvent η} (hio : ioM ev = none) (hev : ∀ i qs x, ev ≠ .process i qs x) (h1 : c'.m.coord.txns = c.m.coord.txns)
    (h2 : c.m.coord.txnCounter = c'.m.coord.txnCounter) (h3 : c'.m.world.data = c.m.world.data) : WInv env (evs ++ [ev]) c' devs := by
  have hmem : ∀ i qs x, MEvent.process i qs x ∈ evs ++ [ev] → MEvent.process i qs x ∈ evs := by
    intro i qs x hm
    rcases List.mem_append.mp hm with hm | hm
    · exact hm
    · exact absurd (List.mem_singleton.mp hm).symm (hev i qs x)
  constructor
  · rw [h3]; exact h.hist
  · rw [List.filterMap_append, h.io]; simp [List.filterMap_cons, hio]
  · rw [h1, h3]; exact h.procs
  · rw [h1]; exact h.wf
  · intro i qs x hm; rw [← h2]; exact h.known i qs x (hmem i qs x hm)
  · intro i qs x ps hm hp; rw [h1] at hp; exact h.handled i qs x ps (hmem i qs x hm) hp

/-- A transaction changes to a state without process requests, or disappears. -/
theorem WInv.drop {env : TxnEnv α η ω} {evs : List (MEvent η)} {c c' : Client α η ω} {devs : List (Event α)} (h : WInv env evs c devs)
    {ev : MEvent η} (hio : ioM ev = none) (hev : ∀ i qs x, ev ≠ .process i qs x) (hwf : c'.m.coord.txns.WF)
    (h1 : ∀ i ps, (i, TxnState.preparing ps) ∈ c'.m.coord.txns → (i, TxnState.preparing ps) ∈ c.m.coord.txns)
    (h2 : c.m.coord.txnCounter = c'.m.coord.txnCounter) (h3 : c'.m.world.data = c.m.world.data) : WInv env (evs ++ [ev]) c' devs := by
  have hmem : ∀ i qs x, MEvent.process i qs x ∈ evs ++ [ev] → MEvent.process i qs x ∈ evs := by
    intro i qs x hm
    rcases List.mem_append.mp hm with hm | hm
    · exact hm
    · exact absurd (List.mem_singleton.mp hm).symm (hev i qs x)
  constructor
  · rw [h3]; exact h.hist
  · rw [List.filterMap_append, h.io]; simp [List.filterMap_cons, hio]
  · rw [h3]; exact fun i ps hi => h.procs i ps (h1 i ps hi)
  · exact hwf
  · intro i qs x hm; rw [← h2]; exact h.known i qs x (hmem i qs x hm)
  · intro i qs x ps hm hp
    exact h.handled i qs x ps (hmem i qs x hm) (AMap.get_of_mem h.wf (h1 i ps (AMap.mem_of_get hp)))

theorem opsResponse_winv {env : TxnEnv α η ω} {evs : List (MEvent η)} {c : Client α η ω} {devs : List (Event α)} (h : WInv env evs c devs)
    {corr : Nat} {r : Response} {m' : Manager α η ω} {es : AMap Nat Response} {inp : MgrIn} (hio : ioM (.input inp : MEvent η) = none)
    (hs : { c.m with errors := es }.opsResponse corr r = .ok m') : WInv env (evs ++ [.input inp]) { c with m := m' } devs := by
  obtain ⟨hd, _, _, md, _, hc⟩ := opsResponse_cases hs
  rcases hc with ⟨_, hc, _⟩ | ⟨_, hc⟩
  · exact h.keep hio (by simp) (by simp [hc]) (by simp [hc]) hd
  · rcases processIn_cases hc with ⟨_, hc⟩ | ⟨i, _, hc⟩
    · exact h.keep hio (by simp) (by simp [hc]) (by simp [hc]) hd
    · rcases hc with ⟨ops, b, l, _, _, _, hc⟩ | ⟨_, hc⟩
      · refine h.drop hio (by simp) ?_ ?_ (by simp [hc]) hd
        · simp only [hc]; exact h.wf.set _ _
        · intro j ps hj
          simp only [hc] at hj
          rcases mem_set hj with hj | hj
          · simp at hj
          · exact hj
      · exact h.keep hio (by simp) (by simp [hc]) (by simp [hc]) hd

theorem winv_step {env : TxnEnv α η ω} (hsane : Sane env) {evs : List (MEvent η)} {c c' : Client α η ω} {ev : MEvent η} {devs : List (Event α)}
    (hc : CInv evs c) (h : WInv env evs c devs) (hs : MStep env c ev c') : ∃ devs', WInv env (evs ++ [ev]) c' devs' := by
  cases hs with
  | app => exact ⟨devs, h.keep rfl (by simp) rfl rfl rfl⟩
  | @init tables m hs =>
    unfold Manager.init at hs
    obtain ⟨md, _, h2⟩ := Run.bind_eq_ok.mp hs
    simp only [Run.ok.injEq] at h2
    subst h2
    exact ⟨devs, h.keep rfl (by simp) rfl rfl rfl⟩
  | start =>
    refine ⟨devs, h.hist, ?_, ?_, h.wf.set _ _, ?_, ?_⟩
    · rw [List.filterMap_append, h.io]; simp [List.filterMap_cons, ioM]
    · intro i ps hi p hp
      rcases mem_set hi with hi | hi
      · simp only [Prod.mk.injEq, TxnState.preparing.injEq] at hi
        rw [hi.2] at hp; simp at hp
      · exact h.procs i ps hi p hp
    · intro i qs x hm
      have := h.known i qs x (by simpa using hm)
      simp only [Coordinator.createTxn]
      omega
    · intro i qs x ps hm hp
      have hk := h.known i qs x (by simpa using hm)
      simp only [Coordinator.createTxn] at hp
      rw [AMap.get_set_ne _ _ (by omega)] at hp
      exact h.handled i qs x ps (by simpa using hm) hp
  | @process i qs hd co ho hs =>
    obtain ⟨ps, hps⟩ := hc.opened i ho
    simp only [Coordinator.process, hps, Run.ok.injEq] at hs
    subst hs
    refine ⟨devs, h.hist, ?_, ?_, h.wf.set _ _, ?_, ?_⟩
    · rw [List.filterMap_append, h.io]; simp [List.filterMap_cons, ioM]
    · intro j ps' hj p hp
      rcases mem_set hj with hj | hj
      · simp only [Prod.mk.injEq, TxnState.preparing.injEq] at hj
        obtain ⟨rfl, rfl⟩ := hj
        rcases List.mem_append.mp hp with hp | hp
        · exact h.procs _ ps (AMap.mem_of_get hps) p hp
        · rw [List.mem_singleton.mp hp]
          exact ⟨fun _ => rfl, by simp, by simp, by simp⟩
      · exact h.procs j ps' hj p hp
    · intro j qs' x hm
      rcases List.mem_append.mp hm with hm1 | hm1
      · exact h.known j qs' x hm1
      · simp only [List.mem_singleton, MEvent.process.injEq] at hm1
        obtain ⟨rfl, rfl, rfl⟩ := hm1
        exact hc.le _ _ hps
    · intro j qs' x ps' hm hp
      dsimp only at hp
      rw [AMap.get_set] at hp
      rcases List.mem_append.mp hm with hm1 | hm1
      · split at hp
        · rename_i hij
          subst hij
          simp only [Option.some.injEq, TxnState.preparing.injEq] at hp
          subst hp
          obtain ⟨p, h1, h2⟩ := h.handled _ qs' x ps hm1 hps
          exact ⟨p, by simp [h1], h2⟩
        · exact h.handled j qs' x ps' hm1 hp
      · simp only [List.mem_singleton, MEvent.process.injEq] at hm1
        obtain ⟨rfl, rfl, rfl⟩ := hm1
        simp only [if_true, Option.some.injEq, TxnState.preparing.injEq] at hp
        subst hp
        exact ⟨_, List.mem_append.mpr (.inr (List.mem_singleton.mpr rfl)), rfl⟩
  | pending ho hs => exact ⟨devs, h.keep rfl (by simp) rfl rfl rfl⟩
  | @commit i co ho hs =>
    obtain ⟨ps, hps, ha, rfl⟩ := commit_cases hs
    refine ⟨devs, h.drop rfl (by simp) (h.wf.set _ _) ?_ rfl rfl⟩
    intro j ps' hj
    rcases mem_set hj with hj | hj
    · simp at hj
    · exact hj
  | @abort i ho => exact ⟨devs, h.drop rfl (by simp) (h.wf.erase _) (fun j ps hj => mem_erase hj) rfl rfl⟩
  | @check i x x' m ho hs =>
    unfold Commit.check at hs
    cases hx : x.outcome with
    | some o =>
      simp only [hx, Run.ok.injEq, Prod.mk.injEq] at hs
      obtain ⟨rfl, rfl⟩ := hs
      exact ⟨devs, h.keep rfl (by simp) rfl rfl rfl⟩
    | none =>
      simp only [hx] at hs
      obtain ⟨⟨co, r⟩, h1, h2⟩ := Run.bind_eq_ok.mp hs
      simp only [Run.ok.injEq, Prod.mk.injEq] at h2
      obtain ⟨rfl, rfl⟩ := h2
      unfold Coordinator.check at h1
      split at h1
      · simp at h1
      · simp at h1
      · simp only [Run.ok.injEq, Prod.mk.injEq] at h1
        obtain ⟨rfl, rfl⟩ := h1
        exact ⟨devs, h.keep rfl (by simp) rfl rfl rfl⟩
      · simp only [Run.ok.injEq, Prod.mk.injEq] at h1
        obtain ⟨rfl, rfl⟩ := h1
        exact ⟨devs, h.drop rfl (by simp) (h.wf.erase _) (fun j ps hj => mem_erase hj) rfl rfl⟩
  | @resolve qs m hs =>
    unfold Manager.resolve at hs
    obtain ⟨md, _, h2⟩ := Run.bind_eq_ok.mp hs
    simp only [Run.ok.injEq] at h2
    subst h2
    exact ⟨devs, h.keep rfl (by simp) rfl rfl rfl⟩
  | @input i m hs =>
    cases i with
    | data r =>
      simp only [Manager.processIn] at hs
      obtain ⟨d, h1, h2⟩ := Run.bind_eq_ok.mp hs
      simp only [Run.ok.injEq] at h2
      subst h2
      refine ⟨devs ++ [.response r], h.hist.response h1, ?_, ?_, h.wf, ?_, ?_⟩
      · rw [List.filterMap_append, List.filterMap_append, h.io]; simp [List.filterMap_cons, ioM, ioD]
      · exact h.procs.mono fun id hd => processIn_dead h1 hd
      · exact fun j qs x hm => h.known j qs x (by simpa using hm)
      · exact fun j qs x ps hm hp => h.handled j qs x ps (by simpa using hm) hp
    | response corr r => exact ⟨devs, opsResponse_winv h rfl hs⟩
    | error corr =>
      simp only [Manager.processIn] at hs
      cases hg : c.m.errors.get corr with
      | none =>
        simp only [hg, Run.ok.injEq] at hs
        subst hs
        exact ⟨devs, h.keep rfl (by simp) rfl rfl rfl⟩
      | some r =>
        simp only [hg] at hs
        exact ⟨devs, opsResponse_winv h rfl hs⟩
  | @progress m hs =>
    unfold Manager.makeProgress at hs
    obtain ⟨md, _, h2⟩ := Run.bind_eq_ok.mp hs
    obtain ⟨d, hd, h3⟩ := Run.bind_eq_ok.mp h2
    obtain ⟨⟨ts, w⟩, h4, h5⟩ := Run.bind_eq_ok.mp h3
    simp only [Run.ok.injEq] at h5
    subst h5
    have hh : History env.data (devs ++ [.progress]) d := h.hist.progress hsane hd
    have ha : AllP env (devs ++ [.progress]) d c.m.coord.txns := h.procs.mono fun id hx => makeProgress_dead hd hx
    obtain ⟨k0, more, k1, k2, k3⟩ := stepTxns_pinv (w := ⟨md, d, c.m.world.shared⟩) hh ha h4
    obtain ⟨_, hk, _⟩ := stepTxns_each h4
    refine ⟨devs ++ [.progress] ++ more, k2, ?_, k3, ?_, ?_, ?_⟩
    · rw [List.filterMap_append, List.filterMap_append, List.filterMap_append, h.io, called_io k1]; simp [List.filterMap_cons, ioM, ioD]
    · have := h.wf
      unfold AMap.WF at this ⊢
      dsimp only
      rw [hk]; exact this
    · exact fun j qs x hm => h.known j qs x (by simpa using hm)
    · intro j qs x ps hm hp
      dsimp only at hp
      have hg := handlers_get k0 j
      rw [hp] at hg
      cases hj : c.m.coord.txns.get j with
      | none => rw [hj] at hg; simp at hg
      | some s =>
        rw [hj] at hg
        simp only [Option.map_some, Option.some.injEq, handlers] at hg
        cases s with
        | preparing ps0 =>
          obtain ⟨p, h6, h7⟩ := h.handled j qs x ps0 (by simpa using hm) hj
          have : x ∈ ps0.map Proc.handler := List.mem_map.mpr ⟨p, h6, h7⟩
          simp only [handlers] at hg
          rw [← hg] at this
          obtain ⟨p', h8, h9⟩ := List.mem_map.mp this
          exact ⟨p', h8, h9⟩
        | committing ops =>
          obtain ⟨s', h6, h7⟩ := ((stepTxns_each h4).2.2 j).2 _ hj
          rw [hp] at h6
          cases h6
          cases h7
        | completed o =>
          obtain ⟨s', h6, h7⟩ := ((stepTxns_each h4).2.2 j).2 _ hj
          rw [hp] at h6
          cases h6
          cases h7
  | @take m outs hs =>
    unfold Manager.takeOut at hs
    obtain ⟨es, h1, h2⟩ := Run.bind_eq_ok.mp hs
    simp only [Run.ok.injEq, Prod.mk.injEq] at h2
    obtain ⟨rfl, rfl⟩ := h2
    refine ⟨devs ++ [.take c.m.world.data.out], h.hist.take, ?_, ?_, h.wf, ?_, ?_⟩
    · rw [List.filterMap_append, List.filterMap_append, h.io]
      have e1 : ∀ l : List (Nat × List TabletOp), (l.map (fun x => MgrOut.ops x.1 x.2)).filterMap MgrOut.data? = [] := by
        intro l; rw [List.filterMap_map, List.filterMap_eq_nil_iff]; intro x _; rfl
      have e2 : ∀ l : List DataOut, (l.map MgrOut.data).filterMap MgrOut.data? = l := by
        intro l; rw [List.filterMap_map]; exact List.filterMap_some
      simp only [List.filterMap_cons, ioM, ioD, List.filterMap_append, e1, e2, List.nil_append]
      rfl
    · exact h.procs.mono fun id hd => ⟨hd.le, hd.batch, hd.load, hd.store⟩
    · exact fun j qs x hm => h.known j qs x (by simpa using hm)
    · exact fun j qs x ps hm hp => h.handled j qs x ps (by simpa using hm) hp

theorem winv_steps {env : TxnEnv α η ω} (hsane : Sane env) {evs more : List (MEvent η)} {c c' : Client α η ω} {devs : List (Event α)} (hc : CInv evs c)
    (h : WInv env evs c devs) (hs : MSteps env c more c') : ∃ devs', WInv env (evs ++ more) c' devs' := by
  induction hs with
  | refl => exact ⟨devs, by simpa using h⟩
  | step h1 hs ih =>
    obtain ⟨d', ih⟩ := ih
    rw [← List.append_assoc]
    exact winv_step hsane (cinv_steps hc h1) ih hs

theorem history_winv {env : TxnEnv α η ω} (hsane : Sane env) {evs : List (MEvent η)} {c : Client α η ω} (h : MHistory env evs c) : ∃ devs, WInv env evs c devs := by
  obtain ⟨co, md, d, w, hs⟩ := h
  have h0 : WInv env [] (⟨.create co md d w, [], []⟩ : Client α η ω) [] :=
    ⟨.create, rfl, by simp [AllP, Manager.create, Coordinator.create], AMap.WF.nil, by simp, by simp⟩
  simpa using winv_steps hsane (cinv_create co md d w) h0 hs

/-- What the storage has not answered, seen from the manager. -/
theorem outstanding_lift {env : TxnEnv α η ω} {evs : List (MEvent η)} {c : Client α η ω} {devs : List (Event α)} (h : WInv env evs c devs) {r : DataOut}
    (ho : Outstanding devs c.m.world.data r) : MOutstanding evs c r := by
  rcases ho with ho | ⟨a, outs, b, h1, h2, h3⟩
  · exact .inl ho
  · right
    have hio := h.io
    rw [h1, List.filterMap_append, List.filterMap_cons] at hio
    simp only [ioD] at hio
    obtain ⟨a', b', e1, e2, e3⟩ := List.filterMap_eq_append_iff.mp hio.symm
    obtain ⟨b1, ev, b2, e4, e5, e6, e7⟩ := List.filterMap_eq_cons_iff.mp e3
    cases ev with
    | take outs' =>
      simp only [ioM, Option.some.injEq, IO.out.injEq] at e6
      subst e6
      refine ⟨a' ++ b1, outs', b2, by simp [e1, e4], ?_, ?_⟩
      · obtain ⟨o, h4, h5⟩ := List.mem_filterMap.mp h2
        cases o with
        | data r' => simp only [MgrOut.data?, Option.some.injEq] at h5; subst h5; exact h4
        | ops _ _ => simp [MgrOut.data?] at h5
      · intro x hx
        have : IO.inp x ∈ b2.filterMap ioM := List.mem_filterMap.mpr ⟨_, hx, rfl⟩
        rw [e7] at this
        obtain ⟨e, h4, h5⟩ := List.mem_filterMap.mp this
        cases e with
        | response y => simp only [ioD, Option.some.injEq, IO.inp.injEq] at h5; subst h5; exact h3 _ h4
        | _ => simp [ioD] at h5
    | input inp => cases inp <;> simp [ioM] at e6
    | _ => simp [ioM] at e6

end TCP.Cache
