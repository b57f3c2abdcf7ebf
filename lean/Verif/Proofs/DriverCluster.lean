import Verif.Proofs.DriverFeed

/-! # Replicas of a cluster agree -/

namespace TCP.Drv

open TCP TCP.ActorSpec TCP.DrvSpec

variable {σ ρ κ H V : Type} {S : Sys σ ρ κ H}

/-! ## The state of the actor -/

/-- What an interaction does to the state of the actor. -/
def Acts (A : Actor σ) : Ev H → σ → σ → Prop
  | .actor c, s, s' => Step A s c s'
  | .actorInit ctx res, s, s' => A.onInit ctx s = .ok (s', res)
  | .actorShutdown ctx, s, s' => A.onShutdown ctx s = .ok s'
  | _, s, s' => s = s'

theorem Atom.acts {d d' : Driver σ ρ κ H} (h : Atom S d d') : ∃ new, d'.trace = d.trace ++ new ∧ Trail (Acts S.A) new d.actor d'.actor := by
  cases h with
  | quiet h => exact ⟨[], by simp [h.trace], h.actor.symm⟩
  | setup h => exact ⟨[], by simp [h.trace], h.actor.symm⟩
  | @actor a' c h hc => exact ⟨[.actor c], rfl, a', h, rfl⟩
  | @raft r' ev h =>
    refine ⟨[ev], rfl, d.actor, ?_, rfl⟩
    cases ev <;> first | rfl | exact h.elim
  | tick => exact ⟨_, rfl, d.actor, rfl, rfl⟩
  | @comm c' ev h =>
    refine ⟨[ev], rfl, d.actor, ?_, rfl⟩
    cases ev <;> first | rfl | exact h.elim
  | out => exact ⟨_, rfl, d.actor, rfl, rfl⟩
  | init h => exact ⟨_, rfl, _, h, rfl⟩
  | started => exact ⟨[], by simp, rfl⟩
  | stopped h => exact ⟨_, rfl, _, h, rfl⟩
  | lameduck => exact ⟨[], by simp, rfl⟩

theorem Star.acts {d d' : Driver σ ρ κ H} (h : Star S d d') : ∃ new, d'.trace = d.trace ++ new ∧ Trail (Acts S.A) new d.actor d'.actor := by
  induction h with
  | refl => exact ⟨[], by simp, rfl⟩
  | step h _ ih =>
    obtain ⟨n1, t1, a1⟩ := h.acts
    obtain ⟨n2, t2, a2⟩ := ih
    exact ⟨n1 ++ n2, by rw [t2, t1, List.append_assoc], trail_append.2 ⟨_, a1, a2⟩⟩

/-- Kinds of interactions with the actor. -/
def actorCallKinds : List K := [.actorInit, .actorShutdown, .command, .apply, .save, .load]

theorem acts_none {A : Actor σ} {t : List (Ev H)} (h : ∀ e ∈ t, kind e ∉ actorCallKinds) {s s' : σ} (g : Trail (Acts A) t s s') : s' = s := by
  induction t generalizing s with
  | nil => exact Eq.symm g
  | cons e t ih =>
    obtain ⟨s1, h1, h2⟩ := g
    have := ih (fun x hx => h x (List.mem_cons_of_mem _ hx)) h2
    subst this
    have he := h e List.mem_cons_self
    cases e with
    | actor c => cases c <;> exact absurd (by simp [kind, actorCallKinds]) he
    | actorInit => exact absurd (by simp [kind, actorCallKinds]) he
    | actorShutdown => exact absurd (by simp [kind, actorCallKinds]) he
    | _ => exact Eq.symm h1

/-! ## What the actor saw determines its state -/

/-- What an observation does to the replicated part of the state. -/
def Sees (A : Actor σ) (view : σ → V) (step : V → Nat → ActorEvent → V) : List Obs → V → V → Prop
  | [], v, v' => v = v'
  | .apply i _ ev :: os, v, v' => Sees A view step os (step v i ev) v'
  | .load b :: os, _, v' => ∃ ctx t t', A.onLoadSnapshot ctx t b = .ok (t', .ok ()) ∧ Sees A view step os (view t') v'

theorem sees_append {A : Actor σ} {view : σ → V} {step : V → Nat → ActorEvent → V} {a b : List Obs} {v v' : V} :
    Sees A view step (a ++ b) v v' ↔ ∃ w, Sees A view step a v w ∧ Sees A view step b w v' := by
  induction a generalizing v with
  | nil => simp [Sees]
  | cons o a ih =>
    cases o with
    | apply i w ev => simp only [List.cons_append, Sees, ih]
    | load d =>
      simp only [List.cons_append, Sees, ih]
      constructor
      · rintro ⟨ctx, t, t', h, w, h1, h2⟩; exact ⟨w, ⟨ctx, t, t', h, h1⟩, h2⟩
      · rintro ⟨w, ⟨ctx, t, t', h, h1⟩, h2⟩; exact ⟨ctx, t, t', h, w, h1, h2⟩

theorem acts_sees {A : Actor σ} {view : σ → V} {step : V → Nat → ActorEvent → V} (hd : Deterministic A view step) {t : List (Ev H)}
    (hc : ∀ e ∈ t, Clean e) (hi : ∀ e ∈ t, kind e ≠ .actorInit) {s s' : σ} (g : Trail (Acts A) t s s') :
    Sees A view step (observed t) (view s) (view s') := by
  induction t generalizing s with
  | nil => cases g; rfl
  | cons e t ih =>
    obtain ⟨s1, h1, h2⟩ := g
    have ih' := ih (fun x hx => hc x (List.mem_cons_of_mem _ hx)) (fun x hx => hi x (List.mem_cons_of_mem _ hx)) h2
    have he := hc e List.mem_cons_self
    have same : observation e = none → view s1 = view s → Sees A view step (observed (e :: t)) (view s) (view s') := by
      intro ho hv
      rw [show observed (e :: t) = observed t by simp [observed, ho], ← hv]
      exact ih'
    cases e with
    | actor c =>
      cases h1 with
      | @command ctx c _ res h =>
        cases res with
        | error => exact he.elim
        | ok o => exact same rfl (hd.command h)
      | @apply ctx ec ev _ res h =>
        cases res with
        | error => exact he.elim
        | ok o =>
          show Sees A view step (observed t) (step (view s) ec.index ev) (view s')
          rw [← hd.apply h]; exact ih'
      | @save ctx _ res h =>
        cases res with
        | error => exact he.elim
        | ok o => exact same rfl (hd.save h)
      | @load ctx b _ res h =>
        cases res with
        | error => exact he.elim
        | ok o => exact ⟨ctx, s, s1, h, ih'⟩
    | actorInit => exact absurd rfl (hi _ List.mem_cons_self)
    | actorShutdown ctx => exact same rfl (hd.shutdown h1)
    | _ => cases h1; exact same rfl rfl

/-! ## The state the log prescribes -/

theorem payload_events (dec : Bytes → Option LogEntry) (i j : Nat) (e : Entry) :
    (payload dec i e).map events = (payload dec j e).map events := by
  unfold payload
  split
  · rfl
  · split
    · rfl
    · split <;> rfl

theorem payloads_events (dec : Bytes → Option LogEntry) (i j : Nat) (es : List Entry) :
    (payloads dec i es).map events = (payloads dec j es).map events := by
  induction es with
  | nil => rfl
  | cons e es ih =>
    have he := payload_events dec i j e
    simp only [payloads]
    cases h1 : payload dec i e <;> cases h2 : payload dec j e <;> cases h3 : payloads dec i es <;> cases h4 : payloads dec j es <;>
      simp_all [events]

theorem sees_payload {A : Actor σ} {view : σ → V} {step : V → Nat → ActorEvent → V} {ps : List Obs}
    (h : ∀ o ∈ ps, ∃ i w ev, o = .apply i w ev) {v v' : V} (g : Sees A view step ps v v') : v' = replay step v (events ps) := by
  induction ps generalizing v with
  | nil => exact Eq.symm g
  | cons p ps ih =>
    obtain ⟨i, w, ev, rfl⟩ := h p List.mem_cons_self
    exact ih (fun o ho => h o (List.mem_cons_of_mem _ ho)) g

/-- The replicated state at an index of the log, if `v` is the one at index 1. -/
def At (dec : Bytes → Option LogEntry) (log : Nat → Entry) (step : V → Nat → ActorEvent → V) (v : V) (n : Nat) (w : V) : Prop :=
  ∃ ps, payloads dec 0 (segment log 1 (n - 1)) = some ps ∧ w = replay step v (events ps)

theorem at_one {dec : Bytes → Option LogEntry} {log : Nat → Entry} {step : V → Nat → ActorEvent → V} {v : V} : At dec log step v 1 v :=
  ⟨[], rfl, rfl⟩

theorem at_det {dec : Bytes → Option LogEntry} {log : Nat → Entry} {step : V → Nat → ActorEvent → V} {v w w' : V} {n : Nat}
    (h : At dec log step v n w) (g : At dec log step v n w') : w = w' := by
  obtain ⟨p, hp, rfl⟩ := h
  obtain ⟨q, hq, rfl⟩ := g
  rw [hp] at hq
  cases hq; rfl

theorem at_next {dec : Bytes → Option LogEntry} {id : Nat} {log : Nat → Entry} {A : Actor σ} {view : σ → V}
    {step : V → Nat → ActorEvent → V} {v w w' : V} {n k : Nat} (hn : 1 ≤ n) (h : At dec log step v n w) {ps : List Obs}
    (hp : payloads dec id (segment log n k) = some ps) (hs : Sees A view step ps w w') : At dec log step v (n + k) w' := by
  obtain ⟨p, hp0, rfl⟩ := h
  have := sees_payload (payload_apply hp) hs
  subst this
  have he := payloads_events dec id 0 (segment log n k)
  rw [hp] at he
  cases hq : payloads dec 0 (segment log n k) with
  | none => rw [hq] at he; simp at he
  | some q =>
    rw [hq] at he
    simp only [Option.map_some, Option.some.injEq] at he
    refine ⟨p ++ q, ?_, ?_⟩
    · rw [show n + k - 1 = (n - 1) + k by omega, segment_append, show 1 + (n - 1) = n by omega]
      exact payloads_append hp0 hq
    · rw [he]
      simp [replay, events, List.filterMap_append, List.foldl_append]

/-- Loading the data gives the state of an index. -/
def Good (S : Sys σ ρ κ H) (log : Nat → Entry) (view : σ → V) (step : V → Nat → ActorEvent → V) (v : V) (i : Nat) (b : Bytes) : Prop :=
  ∀ {ctx t t'}, S.A.onLoadSnapshot ctx t b = .ok (t', .ok ()) → At S.E.decEntry log step v i (view t')

theorem segment_first {log : Nat → Entry} (hl : ∀ i, (log i).index = i) {a k : Nat} {batch : List Entry} (hb : batch.Perm (segment log a k))
    (h2 : ∀ e ∈ batch, 2 ≤ e.index) : k = 0 ∨ 1 ≤ a := by
  cases k with
  | zero => exact .inl rfl
  | succ k =>
    right
    have : log (a + 1) ∈ segment log a (k + 1) := by simp only [segment, List.mem_map, List.mem_range]; exact ⟨0, by omega, rfl⟩
    have := h2 _ (hb.mem_iff.2 this)
    rw [hl] at this
    omega

/-- A part of a trace takes the state of one index to the state of another. -/
theorem follow_at {log : Nat → Entry} (hl : ∀ i, (log i).index = i) {view : σ → V} {step : V → Nat → ActorEvent → V} {v v0 : V} {id : Nat}
    {t : List (Ev H)} (ht : ∀ e ∈ t, kind e ≠ .raftInit) {o o' : List Obs} {a a' b : Nat} {y : Nat × Nat}
    (hf : Trail (Feed S.E.decEntry id) t (o, a) (o', a')) (hg : Trail (Follows log) t (b, a) y)
    (hfirst : ∀ e ∈ t.flatMap delivered, 2 ≤ e.index)
    (hsnap : ∀ r, .ready r ∈ t → r.snapshot.metadata.index ≠ 0 → Good S log view step v r.snapshot.metadata.index r.snapshot.data)
    (h : ∀ w, Sees S.A view step o v0 w → 1 ≤ a → At S.E.decEntry log step v a w) :
    ∀ w, Sees S.A view step o' v0 w → 1 ≤ a' → At S.E.decEntry log step v a' w := by
  induction t generalizing o a b with
  | nil => cases hf; exact h
  | cons e t ih =>
    obtain ⟨⟨o1, a1⟩, f1, hf⟩ := hf
    obtain ⟨⟨b1, c1⟩, g1, hg⟩ := hg
    have ht' : ∀ e ∈ t, kind e ≠ .raftInit := fun x hx => ht x (List.mem_cons_of_mem _ hx)
    have hfirst' : ∀ e ∈ t.flatMap delivered, 2 ≤ e.index := fun x hx => hfirst x (by rw [List.flatMap_cons]; exact List.mem_append_right _ hx)
    have hfirst0 : ∀ x ∈ delivered e, 2 ≤ x.index := fun x hx => hfirst x (by rw [List.flatMap_cons]; exact List.mem_append_left _ hx)
    have hsnap' : ∀ r, .ready r ∈ t → r.snapshot.metadata.index ≠ 0 → Good S log view step v r.snapshot.metadata.index r.snapshot.data :=
      fun r hr => hsnap r (List.mem_cons_of_mem _ hr)
    have other : (o1, a1) = (o, a) → (b1, c1) = (b, a) → ∀ w, Sees S.A view step o' v0 w → 1 ≤ a' → At S.E.decEntry log step v a' w := by
      intro h1 h2
      cases h1; cases h2
      exact ih ht' hf hg hfirst' hsnap' h
    have adv : ∀ {o : List Obs} {a k : Nat} {ps : List Obs} {batch : List Entry}, batch.Perm (segment log a k) → (∀ e ∈ batch, 2 ≤ e.index) →
        payloads S.E.decEntry id (segment log a k) = some ps →
        (∀ w, Sees S.A view step o v0 w → 1 ≤ a → At S.E.decEntry log step v a w) →
        ∀ w, Sees S.A view step (o ++ ps) v0 w → 1 ≤ a + k → At S.E.decEntry log step v (a + k) w := by
      intro o a k ps batch hb h2 hps h w hw hle
      obtain ⟨u, hu, hw⟩ := sees_append.1 hw
      have h1 : 1 ≤ a := by rcases segment_first hl hb h2 with rfl | h <;> omega
      exact at_next h1 (h u hu h1) hps hw
    cases e with
    | raftInit => exact absurd rfl (ht _ List.mem_cons_self)
    | ready r =>
      obtain ⟨es, ps, hes, hps, hy⟩ := f1
      obtain ⟨k, hk, hz⟩ := g1
      have := inOrder_segment hl hes hk
      subst this
      simp only [Prod.mk.injEq] at hy hz
      obtain ⟨rfl, rfl⟩ := hy
      obtain ⟨rfl, rfl⟩ := hz
      rw [lastIndex_segment hl (loadIndex r.snapshot a) k] at hf
      refine ih ht' hf hg hfirst' hsnap' (adv hk hfirst0 hps ?_)
      unfold loads loadIndex
      split
      · rw [List.append_nil]; exact h
      · rename_i hz
        intro w hw _
        obtain ⟨u, _, ctx, x, x', hx, rfl⟩ := sees_append.1 hw
        exact hsnap r List.mem_cons_self hz hx
    | light l =>
      obtain ⟨es, ps, hes, hps, hy⟩ := f1
      obtain ⟨k, hk, hz⟩ := g1
      have := inOrder_segment hl hes hk
      subst this
      simp only [Prod.mk.injEq] at hy hz
      obtain ⟨rfl, rfl⟩ := hy
      obtain ⟨rfl, rfl⟩ := hz
      rw [lastIndex_segment hl a k] at hf
      exact ih ht' hf hg hfirst' hsnap' (adv hk hfirst0 hps h)
    | _ => exact other f1 g1

/-! ## Snapshots that are created -/

theorem runRaft_created {d d' : Driver σ ρ κ H} (h : runRaft S d = .ok (d', .ok ())) :
    ∃ new, d'.trace = d.trace ++ new ∧ ∀ i c b, .storeCreate i c b ∈ new → i = d'.applied ∧
      ∃ ctx s, S.A.onSaveSnapshot ctx s = .ok (d'.actor, .ok b) := by
  unfold runRaft at h
  have h := neutral_get h
  split at h
  · simp only [M.pure_def, M.pure, Run.ok.injEq, Prod.mk.injEq, and_true] at h
    rw [h]; exact ⟨[], by simp, by simp⟩
  · obtain ⟨d1, _, h1, g1⟩ := M.bind_okOk h
    obtain ⟨d2, _, h2, g2⟩ := M.bind_okOk g1
    obtain ⟨d3, _, h3, g3⟩ := M.bind_okOk g2
    have no : ∀ {t : List (Ev H)}, (∀ e ∈ t, kind e ≠ .create) → ∀ i c b, .storeCreate i c b ∈ t → False := by
      intro t ht i c b hm
      exact ht _ hm rfl
    obtain ⟨n1, t1, k1⟩ := adds_processProposals.run _ _ _ h1
    obtain ⟨n2, t2, k2⟩ := adds_processSnapshotProgress.run _ _ _ h2
    obtain ⟨n4, t4, k4⟩ := adds_processSnapshotSending.run _ _ _ g3
    have sa : d'.actor = d3.actor := by
      obtain ⟨n, t, ha⟩ := ((reaches_processSnapshotSending d3).run _ _ g3).acts
      have : n = n4 := List.append_cancel_left (t.symm.trans t4)
      subst this
      refine acts_none (fun e he => ?_) ha
      have := k4 e he
      generalize kind e = k at this
      revert this; revert k; decide
    have sp : d'.applied = d3.applied := (neutral_processSnapshotSending.plain g3).1
    have e1 : ∀ e ∈ n1, kind e ≠ .create := fun e he => by
      have := k1 e he
      generalize kind e = k at this
      revert this; revert k; decide
    have e2 : ∀ e ∈ n2, kind e ≠ .create := fun e he => by
      have := k2 e he
      generalize kind e = k at this
      revert this; revert k; decide
    have e4 : ∀ e ∈ n4, kind e ≠ .create := fun e he => by
      have := k4 e he
      generalize kind e = k at this
      revert this; revert k; decide
    suffices ∃ n3, d3.trace = d2.trace ++ n3 ∧ ∀ i c b, .storeCreate i c b ∈ n3 → i = d3.applied ∧
        ∃ ctx s, S.A.onSaveSnapshot ctx s = .ok (d3.actor, .ok b) by
      obtain ⟨n3, t3, k3⟩ := this
      refine ⟨n1 ++ n2 ++ n3 ++ n4, by rw [t4, t3, t2, t1]; simp, fun i c b hm => ?_⟩
      rw [sa, sp]
      simp only [List.mem_append] at hm
      rcases hm with ((hm | hm) | hm) | hm
      · exact (no e1 _ _ _ hm).elim
      · exact (no e2 _ _ _ hm).elim
      · exact k3 _ _ _ hm
      · exact (no e4 _ _ _ hm).elim
    unfold processStateMachine at h3
    have h3 := neutral_get h3
    split at h3
    · obtain ⟨c1, _, p1, q1⟩ := M.bind_okOk h3
      obtain ⟨c2, _, p2, q2⟩ := M.bind_okOk q1
      obtain ⟨m1, u1, w1⟩ := adds_advanceRaft.run _ _ _ p1
      obtain ⟨m3, u3, w3⟩ := adds_stashLeaderState.run _ _ _ q2
      have f1 : ∀ e ∈ m1, kind e ≠ .create := fun e he => by
        have := w1 e he
        generalize kind e = k at this
        revert this; revert k; decide
      have f3 : ∀ e ∈ m3, kind e ≠ .create := fun e he => by
        have := w3 e he
        generalize kind e = k at this
        revert this; revert k; decide
      have za : d3.actor = c2.actor := by
        obtain ⟨n, t, ha⟩ := ((reaches_stashLeaderState c2).run _ _ q2).acts
        have : n = m3 := List.append_cancel_left (t.symm.trans u3)
        subst this
        refine acts_none (fun e he => ?_) ha
        have := w3 e he
        generalize kind e = k at this
        revert this; revert k; decide
      have zp : d3.applied = c2.applied := (neutral_stashLeaderState.plain q2).1
      obtain ⟨ap, _, _, ⟨t, _⟩ | ⟨data, hsave, t⟩⟩ := maybeCreateSnapshot_ok p2
      · refine ⟨m1 ++ m3, by rw [u3, t, u1, List.append_assoc], fun i c b hm => ?_⟩
        rcases List.mem_append.1 hm with hm | hm
        · exact (no f1 _ _ _ hm).elim
        · exact (no f3 _ _ _ hm).elim
      · refine ⟨m1 ++ [.actor (.save c1.ctx (.ok data)), .storeCreate c1.applied c1.conf data] ++ m3, by rw [u3, t, u1]; simp, fun i c b hm => ?_⟩
        simp only [List.mem_append, List.mem_cons, List.not_mem_nil, or_false, reduceCtorEq, false_or, Ev.storeCreate.injEq] at hm
        rcases hm with (hm | ⟨rfl, rfl, rfl⟩) | hm
        · exact (no f1 _ _ _ hm).elim
        · rw [za, zp, ap]
          exact ⟨rfl, _, _, hsave⟩
        · exact (no f3 _ _ _ hm).elim
    · simp only [M.pure_def, M.pure, Run.ok.injEq, Prod.mk.injEq, and_true] at h3
      rw [h3]; exact ⟨[], by simp, by simp⟩

theorem body_created {m : Option (InMsg H)} {d d' : Driver σ ρ κ H} (hs : d.state ≠ .created) (h : body S m d = .ok (d', .ok ())) :
    ∃ new, d'.trace = d.trace ++ new ∧ ∀ i c b, .storeCreate i c b ∈ new → i = d'.applied ∧
      ∃ ctx s, S.A.onSaveSnapshot ctx s = .ok (d'.actor, .ok b) := by
  have hm : ∀ r, m ≠ some (.startReplica r) := by
    rintro r rfl
    exact start_after_created hs h
  unfold body at h
  obtain ⟨d1, c, h1, g1⟩ := M.bind_okOk h
  obtain ⟨d2, _, h2, g2⟩ := M.bind_okOk g1
  obtain ⟨n2, t2, k2⟩ := (adds_runActor c).run _ _ _ h2
  obtain ⟨n3, t3, k3⟩ := runRaft_created g2
  obtain ⟨n1, t1, k1⟩ : ∃ new, d1.trace = d.trace ++ new ∧ ∀ e ∈ new, kind e ≠ .create := by
    cases m with
    | none =>
      simp only [dispatchOpt, M.pure_def, M.pure, Run.ok.injEq, Prod.mk.injEq] at h1
      rw [h1.1]; exact ⟨[], by simp, by simp⟩
    | some m =>
      obtain ⟨n, t, k⟩ := (adds_dispatch m).run _ _ _ h1
      refine ⟨n, t, fun e he => ?_⟩
      have := k e he
      generalize kind e = k at this
      revert this; revert k; decide
  refine ⟨n1 ++ n2 ++ n3, by rw [t3, t2, t1]; simp, fun i c b hmem => ?_⟩
  simp only [List.mem_append] at hmem
  rcases hmem with (hmem | hmem) | hmem
  · exact absurd rfl (k1 _ hmem)
  · exact absurd (k2 _ hmem) (by simp [kind])
  · exact k3 _ _ _ hmem

/-! ## Clusters -/

/-- A call on a started replica, seen from the cluster. -/
theorem call_started {log : Nat → Entry} (hl : ∀ i, (log i).index = i) {view : σ → V} {step : V → Nat → ActorEvent → V} {v : V}
    (hd : Deterministic S.A view step) {m : Option (InMsg H)} {d d' : Driver σ ρ κ H} (hs : d.state ≠ .created) (he : d.ephemeral = false)
    (h : body S m d = .ok (d', .ok ())) {b : Nat} {y : Nat × Nat} {new : List (Ev H)} (ht : d'.trace = d.trace ++ new)
    (hg : Trail (Follows log) new (b, d.applied) y) (hfirst : ∀ e ∈ new.flatMap delivered, 2 ≤ e.index)
    (hsnap : ∀ r, .ready r ∈ new → r.snapshot.metadata.index ≠ 0 → Good S log view step v r.snapshot.metadata.index r.snapshot.data)
    (ha : 1 ≤ d.applied → At S.E.decEntry log step v d.applied (view d.actor)) :
    (1 ≤ d'.applied → At S.E.decEntry log step v d'.applied (view d'.actor)) ∧
    (∀ i c x, .storeCreate i c x ∈ new → i = d'.applied ∧ (1 ≤ i → Good S log view step v i x)) ∧ ∀ e ∈ new, kind e ≠ .raftInit := by
  obtain ⟨_, n1, t1, f1, _, c1⟩ := moves_body hs he h
  obtain ⟨n2, t2, k2⟩ := body_noInit hs h
  obtain ⟨n3, t3, k3⟩ := body_created hs h
  obtain ⟨n4, t4, k4⟩ := ((reaches_body m d).run _ _ h).acts
  have e1 : n1 = new := List.append_cancel_left (t1.symm.trans ht)
  have e2 : n2 = new := List.append_cancel_left (t2.symm.trans ht)
  have e3 : n3 = new := List.append_cancel_left (t3.symm.trans ht)
  have e4 : n4 = new := List.append_cancel_left (t4.symm.trans ht)
  rw [e1] at f1 c1
  rw [e2] at k2
  rw [e3] at k3
  rw [e4] at k4
  have hr : ∀ e ∈ new, kind e ≠ .raftInit := fun e he hk => k2 e he (by rw [hk]; decide)
  have hsees := acts_sees hd c1 (fun e he hk => k2 e he (by rw [hk]; decide)) k4
  have key := follow_at (S := S) hl (v0 := view d.actor) hr (f1 []) hg hfirst hsnap (v := v) (by
    intro w hw h1
    cases hw
    exact ha h1) (view d'.actor) hsees
  refine ⟨key, fun i c x hx => ?_, hr⟩
  obtain ⟨rfl, ctx, s, hsave⟩ := k3 i c x hx
  refine ⟨rfl, fun h1 ctx' t t' hload => ?_⟩
  rw [hd.load hsave hload, ← hd.save hsave]
  exact key h1

/-- What is true of all replicas of a cluster. -/
structure ClusterInv (S : Sys σ ρ κ H) (log : Nat → Entry) (founder : Nat) (view : σ → V) (step : V → Nat → ActorEvent → V)
    (ds : Nat → Driver σ ρ κ H) (v : V) : Prop where
  runs : ∀ p, ∃ d0 outs, Fresh d0 ∧ Runs S d0 outs (ds p)
  normal : ∀ p, (ds p).ephemeral = false
  pos : ∀ p, ∃ y, Trail (Follows log) (ds p).trace (0, 0) y
  first : ∀ p, ∀ e ∈ (ds p).trace.flatMap delivered, 2 ≤ e.index
  found : ∀ p id b, .raftInit id b true (.ok ()) ∈ (ds p).trace → p = founder
  actor : ∀ p, 1 ≤ (ds p).applied → At S.E.decEntry log step v (ds p).applied (view (ds p).actor)
  good : ∀ i b, Created ds i b → 1 ≤ i → Good S log view step v i b
  snaps : ∀ p r, .ready r ∈ (ds p).trace → r.snapshot.metadata.index ≠ 0 → Good S log view step v r.snapshot.metadata.index r.snapshot.data

/-- The position is the index applied. -/
theorem runs_position {log : Nat → Entry} (hl : ∀ i, (log i).index = i) {d0 d : Driver σ ρ κ H} {outs} (h0 : Fresh d0) (h : Runs S d0 outs d)
    (he : d.ephemeral = false) {b c : Nat} (hg : Trail (Follows log) d.trace (0, 0) (b, c)) :
    c = d.applied ∧ Position S.E.decEntry d.id log (observed d.trace) d.applied b := by
  have hinv := (runs_log h0 h).1
  have hf := hinv.feed he
  rcases hinv.shape he with ht | ⟨ctx, x, l, i, tail, ht, hk⟩
  · rw [ht] at hf hg ⊢
    simp only [Trail, Prod.mk.injEq] at hf hg
    obtain ⟨_, ha⟩ := hf
    obtain ⟨rfl, rfl⟩ := hg
    rw [← ha]
    exact ⟨rfl, Nat.le_refl _, rfl⟩
  · have ho : observed d.trace = observed tail := by rw [ht, observed_append]; rfl
    rw [ht] at hf hg
    obtain ⟨⟨o1, a1⟩, f1, f2⟩ := trail_append.1 hf
    obtain ⟨⟨b1, c1⟩, g1, g2⟩ := trail_append.1 hg
    have : c1 = a1 ∧ Position S.E.decEntry d.id log o1 a1 b1 := by
      obtain ⟨_, rfl, _, rfl, _, hfi, _, rfl, hfe⟩ := f1
      obtain ⟨_, rfl, _, rfl, _, hgi, _, rfl, hge⟩ := g1
      cases hfe
      cases hge
      cases l with
      | true => cases hfi; cases hgi; exact ⟨rfl, Nat.le_refl _, rfl⟩
      | false => cases hfi; cases hgi; exact ⟨rfl, Nat.le_refl _, rfl⟩
    obtain ⟨rfl, hp⟩ := this
    rw [← ht] at f2
    exact follow hl hk f2 g2 hp

/-- A snapshot a trace created. -/
def Creates (t : List (Ev H)) (i : Nat) (b : Bytes) : Prop := (∃ c, .storeCreate i c b ∈ t) ∨ (i = 1 ∧ ∃ id, .raftInit id b true (.ok ()) ∈ t)

theorem ClusterInv.after {log : Nat → Entry} {view : σ → V} {step : V → Nat → ActorEvent → V} {founder : Nat}
    {ds : Nat → Driver σ ρ κ H} {v : V} (I : ClusterInv S log founder view step ds v) {p : Nat} {d : Driver σ ρ κ H}
    (hr : ∃ d0 outs, Fresh d0 ∧ Runs S d0 outs d) (he : d.ephemeral = false) (hlog : ∃ y, Trail (Follows log) d.trace (0, 0) y)
    (hfirst : ∀ e ∈ d.trace.flatMap delivered, 2 ≤ e.index) (hfound : ∀ id b, .raftInit id b true (.ok ()) ∈ d.trace → p = founder)
    (ha : 1 ≤ d.applied → At S.E.decEntry log step v d.applied (view d.actor))
    (hsnap : ∀ r, .ready r ∈ d.trace → r.snapshot.metadata.index ≠ 0 → .ready r ∈ (ds p).trace ∨ Created ds r.snapshot.metadata.index r.snapshot.data)
    (hg : ∀ i b, Creates d.trace i b → 1 ≤ i → Good S log view step v i b) : ClusterInv S log founder view step (update ds p d) v := by
  have hu : ∀ q, (update ds p d q = d ∧ q = p) ∨ update ds p d q = ds q := by
    intro q
    by_cases hq : q = p
    · exact .inl ⟨by simp [DrvSpec.update, hq], hq⟩
    · exact .inr (by simp [DrvSpec.update, hq])
  refine ⟨fun q => ?_, fun q => ?_, fun q => ?_, fun q => ?_, fun q id b hb => ?_, fun q h1 => ?_, fun i b hc h1 => ?_, fun q r hm hz => ?_⟩
  · rcases hu q with ⟨h, _⟩ | h <;> rw [h]
    · exact hr
    · exact I.runs q
  · rcases hu q with ⟨h, _⟩ | h <;> rw [h]
    · exact he
    · exact I.normal q
  · rcases hu q with ⟨h, _⟩ | h <;> rw [h]
    · exact hlog
    · exact I.pos q
  · rcases hu q with ⟨h, _⟩ | h <;> rw [h]
    · exact hfirst
    · exact I.first q
  · rcases hu q with ⟨h, hq⟩ | h <;> rw [h] at hb
    · rw [hq]; exact hfound id b hb
    · exact I.found q id b hb
  · rcases hu q with ⟨h, _⟩ | h <;> rw [h] at h1 ⊢
    · exact ha h1
    · exact I.actor q h1
  · obtain ⟨q, hq⟩ := hc
    rcases hu q with ⟨h, _⟩ | h <;> rw [h] at hq
    · exact hg i b hq h1
    · exact I.good i b ⟨q, hq⟩ h1
  · rcases hu q with ⟨h, _⟩ | h <;> rw [h] at hm
    · rcases hsnap r hm hz with h | h
      · exact I.snaps p r h hz
      · exact I.good _ _ h (by omega)
    · exact I.snaps q r hm hz

/-- A call other than the one that founds the cluster keeps the invariant. -/
theorem cluster_call {log : Nat → Entry} (hl : ∀ i, (log i).index = i) {view : σ → V} {step : V → Nat → ActorEvent → V}
    (hd : Deterministic S.A view step) {founder : Nat} {ds : Nat → Driver σ ρ κ H} {p instant : Nat} {m : Option (Option (InMsg H))}
    {d : Driver σ ρ κ H} {out} (hs : receive S instant m (ds p) = .ok (d, .ok out)) (he : d.ephemeral = false)
    (hlog : ∃ y, Trail (Follows log) d.trace (0, 0) y) (hfirst : ∀ e ∈ d.trace.flatMap delivered, 2 ≤ e.index)
    (hsnap : ∀ r, .ready r ∈ d.trace → r.snapshot.metadata.index ≠ 0 → .ready r ∈ (ds p).trace ∨ Created ds r.snapshot.metadata.index r.snapshot.data)
    (hfound : ∀ id b, .raftInit id b true (.ok ()) ∈ d.trace → p = founder) {v : V} (I : ClusterInv S log founder view step ds v)
    (hv : (ds p).state = .created → ∀ ctx a b, S.A.onInit ctx (ds p).actor = .ok (a, .ok ()) →
      (∃ id, .raftInit id b true (.ok ()) ∈ d.trace) → .actorInit ctx (.ok ()) ∈ d.trace → v = view a) :
    ClusterInv S log founder view step (update ds p d) v := by
  obtain ⟨d0, outs, h0, hr⟩ := I.runs p
  refine I.after ⟨d0, _, h0, hr.snoc hs⟩ he hlog hfirst hfound ?_ hsnap ?_
  all_goals
    have hc := runs_created h0 hr
    obtain ⟨⟨b0, c0⟩, hpos⟩ := I.pos p
    have hap := (runs_position hl h0 hr (I.normal p) hpos).1
    have hold : ∀ {i b}, Creates (ds p).trace i b → Created ds i b := fun h => ⟨p, h⟩
    have key : (1 ≤ d.applied → At S.E.decEntry log step v d.applied (view d.actor)) ∧
        ∀ i b, Creates d.trace i b → 1 ≤ i → Good S log view step v i b := by
      cases receive_outcome hs with
      | unknown => exact ⟨I.actor p, fun i b h => I.good i b (hold h)⟩
      | @done m' d2 c' os hm hb ho =>
        have noout : ∀ {e : Ev H}, e ∈ os.map (fun m => Ev.out (.comm m)) → kind e = .oComm := out_kind
        obtain ⟨y, hy⟩ := hlog
        obtain ⟨y2, hy2, _⟩ := trail_append.1 hy
        have hfirst2 : ∀ e ∈ d2.trace.flatMap delivered, 2 ≤ e.index := fun e h => hfirst e (by
          simp only [List.flatMap_append]; exact List.mem_append_left _ h)
        have hsnap2 : ∀ r, .ready r ∈ d2.trace → r.snapshot.metadata.index ≠ 0 → .ready r ∈ (ds p).trace ∨ Created ds r.snapshot.metadata.index r.snapshot.data :=
          fun r h => hsnap r (List.mem_append_left _ h)
        have fin : (∀ i b, Creates d2.trace i b → 1 ≤ i → Good S log view step v i b) →
            ∀ i b, Creates (d2.trace ++ os.map fun m => Ev.out (.comm m)) i b → 1 ≤ i → Good S log view step v i b := by
          intro h i b hcr
          refine h i b ?_
          rcases hcr with ⟨c, hm⟩ | ⟨h1, hm⟩
          · rcases List.mem_append.1 hm with hm | hm
            · exact .inl ⟨c, hm⟩
            · exact absurd (noout hm) (by simp [kind])
          · obtain ⟨id, hm⟩ := hm; rcases List.mem_append.1 hm with hm | hm
            · exact .inr ⟨h1, id, hm⟩
            · exact absurd (noout hm) (by simp [kind])
        by_cases hst : (ds p).state = .created
        · obtain ⟨ht, ha, _, hpr, hu, _⟩ := hc.inv hst
          obtain ⟨r, ctx, a1, a2, b, d3, _, f1, f2, f3, hst3, e3, f4, f5, f6, f7, hb'⟩ :=
            start_body (S := S) (d := presetState S instant (ds p)) hst hu hb he
          have ht' : (presetState S instant (ds p)).trace = [] := ht
          have ha' : (presetState S instant (ds p)).applied = 0 := ha
          rw [ht', List.nil_append] at f7
          rw [ha'] at f4
          have hsn : d3.state ≠ .created := by rw [hst3]; simp
          obtain ⟨new, hnew, _⟩ := body_noInit hsn hb'
          have ha3 : 1 ≤ d3.applied → At S.E.decEntry log step v d3.applied (view d3.actor) := by
            intro h1
            rw [f4] at h1 ⊢
            cases hlead : r.isLeader with
            | false => rw [hlead] at h1; exact absurd h1 (by simp)
            | true =>
              have : v = view a1 := hv hst ctx a1 b f1 (by simp [hnew, f7, hlead]) (by simp [hnew, f7])
              rw [f3, hd.save f2, this]
              exact at_one
          have hgb : r.isLeader = true → Good S log view step v 1 b := by
            intro hlead ctx' t t' hload
            have : v = view a1 := hv hst ctx a1 b f1 (by simp [hnew, f7, hlead]) (by simp [hnew, f7])
            rw [hd.load f2 hload, this]
            exact at_one
          rw [hnew] at hy2
          obtain ⟨⟨b3, c3⟩, g3, g4⟩ := trail_append.1 hy2
          have hc3 : c3 = d3.applied := by
            rw [f4]
            rw [f7] at g3
            obtain ⟨_, rfl, _, rfl, _, hgi, _, rfl, hge⟩ := g3
            cases hge
            cases hlead : r.isLeader with
            | true => rw [hlead] at hgi; cases hgi; rfl
            | false => rw [hlead] at hgi; cases hgi; rfl
          subst hc3
          have hf3 : ∀ e ∈ new.flatMap delivered, 2 ≤ e.index := fun e h => hfirst2 e (by
            rw [hnew, List.flatMap_append]; exact List.mem_append_right _ h)
          have hs3 : ∀ r, .ready r ∈ new → r.snapshot.metadata.index ≠ 0 → Good S log view step v r.snapshot.metadata.index r.snapshot.data := by
            intro q hq hz
            rcases hsnap2 q (by rw [hnew]; exact List.mem_append_right _ hq) hz with h | h
            · rw [ht] at h; simp at h
            · exact I.good _ _ h (by omega)
          obtain ⟨k1, k2, k3⟩ := call_started (S := S) hl hd hsn e3 hb' hnew g4 hf3 hs3 ha3
          refine ⟨k1, fin fun i x hcr h1 => ?_⟩
          rw [hnew, f7] at hcr
          rcases hcr with ⟨c, hm⟩ | ⟨rfl, hm⟩
          · rcases List.mem_append.1 hm with hm | hm
            · simp at hm
            · exact (k2 i c x hm).2 h1
          · obtain ⟨id, hm⟩ := hm
            rcases List.mem_append.1 hm with hm | hm
            · simp only [List.mem_cons, reduceCtorEq, Ev.raftInit.injEq, List.not_mem_nil, or_false, false_or, and_true] at hm
              obtain ⟨_, rfl, hlead⟩ := hm
              exact hgb hlead.symm
            · exact absurd rfl (k3 _ hm)
        · obtain ⟨new, hnew, _⟩ := body_noInit (S := S) (d := presetState S instant (ds p)) hst hb
          have hnew' : d2.trace = (ds p).trace ++ new := hnew
          rw [hnew'] at hy2
          obtain ⟨⟨b3, c3⟩, g3, g4⟩ := trail_append.1 hy2
          have hc3 := (runs_position hl h0 hr (I.normal p) g3).1
          subst hc3
          have hf3 : ∀ e ∈ new.flatMap delivered, 2 ≤ e.index := fun e h => hfirst2 e (by
            rw [hnew', List.flatMap_append]; exact List.mem_append_right _ h)
          have hs3 : ∀ r, .ready r ∈ new → r.snapshot.metadata.index ≠ 0 → Good S log view step v r.snapshot.metadata.index r.snapshot.data := by
            intro q hq hz
            rcases hsnap2 q (by rw [hnew']; exact List.mem_append_right _ hq) hz with h | h
            · exact I.snaps p q h hz
            · exact I.good _ _ h (by omega)
          obtain ⟨k1, k2, k3⟩ := call_started (S := S) (d := presetState S instant (ds p)) hl hd hst (I.normal p) hb hnew g4 hf3 hs3 (I.actor p)
          refine ⟨k1, fin fun i x hcr h1 => ?_⟩
          rw [hnew'] at hcr
          rcases hcr with ⟨c, hm⟩ | ⟨rfl, hm⟩
          · rcases List.mem_append.1 hm with hm | hm
            · exact I.good i x (hold (.inl ⟨c, hm⟩)) h1
            · exact (k2 i c x hm).2 h1
          · obtain ⟨id, hm⟩ := hm; rcases List.mem_append.1 hm with hm | hm
            · exact I.good 1 x (hold (.inr ⟨rfl, id, hm⟩)) h1
            · exact absurd rfl (k3 _ hm)
  · exact key.1
  · exact key.2

theorem cluster_inv {log : Nat → Entry} (hl : ∀ i, (log i).index = i) {view : σ → V} {step : V → Nat → ActorEvent → V}
    (hd : Deterministic S.A view step) {founder : Nat} {ds : Nat → Driver σ ρ κ H} (h : Cluster S log founder ds) :
    (∃ v, ClusterInv S log founder view step ds v) ∧ ((ds founder).state = .created → ∀ v, ClusterInv S log founder view step ds v) := by
  induction h with
  | @init ds0 h =>
    have all : ∀ v, ClusterInv S log founder view step ds0 v := by
      intro v
      refine ⟨fun p => ⟨_, _, h p, .nil⟩, fun p => ?_, fun p => ?_, fun p => ?_, fun p id b hb => ?_, fun p h1 => ?_, fun i b hc h1 => ?_, fun p r hm => ?_⟩
      · obtain ⟨a, r, c, e⟩ := h p
        rw [e]; rfl
      · obtain ⟨a, r, c, e⟩ := h p
        rw [e]; exact ⟨_, rfl⟩
      · obtain ⟨a, r, c, e⟩ := h p
        rw [e]; intro e he; simp [Driver.new] at he
      · obtain ⟨a, r, c, e⟩ := h p
        rw [e] at hb; simp [Driver.new] at hb
      · obtain ⟨a, r, c, e⟩ := h p
        rw [e] at h1; simp [Driver.new] at h1
      · obtain ⟨p, hp⟩ := hc
        obtain ⟨a, r, c, e⟩ := h p
        rw [e] at hp; simp [Driver.new] at hp
      · obtain ⟨a, r, c, e⟩ := h p
        rw [e] at hm; simp [Driver.new] at hm
    exact ⟨⟨view (ds0 0).actor, all _⟩, fun _ => all⟩
  | @call ds p instant m d out h hs he hlog hfirst hsnap hfound ih =>
    obtain ⟨⟨v, I⟩, J⟩ := ih
    by_cases hp : p = founder
    · subst hp
      have hupd : update ds p d p = d := by simp [update]
      by_cases hst : (ds p).state = .created
      · obtain ⟨d0, outs, h0, hr⟩ := I.runs p
        have hc := (runs_created h0 hr).inv hst
        cases receive_outcome hs with
        | unknown hm =>
          have hnone : ∀ e, e ∉ (presetState S instant (ds p)).trace := by
            intro e he
            have : (presetState S instant (ds p)).trace = [] := hc.1
            rw [this] at he; simp at he
          have all : ∀ v, ClusterInv S log p view step ds v → ClusterInv S log p view step (update ds p (presetState S instant (ds p))) v :=
            fun v I => cluster_call hl hd hs he hlog hfirst hsnap hfound I fun _ _ _ b _ hb => absurd hb.choose_spec (hnone _)
          exact ⟨⟨v, all v I⟩, fun _ w => all w (J hst w)⟩
        | @done m' d2 c' os hm hb ho =>
          have hne := body_state (d := presetState S instant (ds p)) hst hc.2.2.2.2.1 hb
          refine ⟨?_, fun h => absurd (by rw [hupd] at h; exact h) hne⟩
          obtain ⟨r, ctx, a1, a2, b, d3, _, f1, _, _, hst3, e3, _, _, _, f7, hb'⟩ :=
            start_body (S := S) (d := presetState S instant (ds p)) hst hc.2.2.2.2.1 hb he
          have ht' : (presetState S instant (ds p)).trace = [] := hc.1
          rw [ht', List.nil_append] at f7
          have hsn : d3.state ≠ .created := by rw [hst3]; simp
          obtain ⟨new, hnew, hk⟩ := body_noInit hsn hb'
          refine ⟨view a1, cluster_call hl hd hs he hlog hfirst hsnap hfound (J hst (view a1)) fun _ ctx' a b' hi _ hin => ?_⟩
          have : ctx' = ctx := by
            simp only [hnew, f7] at hin
            rcases List.mem_append.1 hin with hin | hin
            · rcases List.mem_append.1 hin with hin | hin
              · simpa using hin
              · exact absurd (hk _ hin) (by simp [kind])
            · exact absurd (out_kind hin) (by simp [kind])
          subst this
          rw [show S.A.onInit ctx' (ds p).actor = .ok (a1, .ok ()) from f1] at hi
          cases hi; rfl
      · refine ⟨⟨v, cluster_call hl hd hs he hlog hfirst hsnap hfound I fun h => absurd h hst⟩, fun h => ?_⟩
        rw [hupd] at h
        obtain ⟨d2, hstar, hd2⟩ := receive_star hs
        have hlc := hstar.lifecycle.1 hst
        rcases hd2 with e | ⟨_, _, _, _, e⟩ <;> rw [e] at h <;> exact absurd h hlc
    · have hupd : update ds p d founder = ds founder := by simp [update, Ne.symm hp]
      have all : ∀ v, ClusterInv S log founder view step ds v → ClusterInv S log founder view step (update ds p d) v := fun v I =>
        cluster_call hl hd hs he hlog hfirst hsnap hfound I fun _ _ _ b _ hb => absurd (hfound _ b hb.choose_spec) hp
      exact ⟨⟨v, all v I⟩, fun hc w => all w (J (by rw [← hupd]; exact hc) w)⟩

end TCP.Drv
