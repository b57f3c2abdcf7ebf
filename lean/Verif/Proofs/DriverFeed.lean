import Verif.Proofs.DriverLog

/-! # The log over whole histories -/

namespace TCP.Drv

open TCP TCP.ActorSpec TCP.DrvSpec

variable {σ ρ κ H α β s : Type} {S : Sys σ ρ κ H}

/-! ## Calls -/

theorem ephemeral_dispatch {m : Option (InMsg H)} (hm : ∀ r, m ≠ some (.startReplica r)) {d d' : Driver σ ρ κ H} {r}
    (h : dispatchOpt S m d = .ok (d', r)) (hs : d.state ≠ .created) : d'.ephemeral = d.ephemeral ∧ d'.id = d.id := by
  cases m with
  | none =>
    simp only [dispatchOpt, M.pure_def, M.pure, Run.ok.injEq, Prod.mk.injEq] at h
    rw [h.1]; exact ⟨rfl, rfl⟩
  | some m =>
    have := ((reaches_dispatch m d).run _ _ h).sameId hs
    exact ⟨this.ephemeral, this.id⟩

theorem start_after_created {r : StartReq} {d d' : Driver σ ρ κ H} (hs : d.state ≠ .created)
    (h : body S (some (.startReplica r)) d = .ok (d', .ok ())) : False := by
  unfold body at h
  obtain ⟨d1, c, h1, _⟩ := M.bind_okOk h
  unfold dispatchOpt dispatch at h1
  obtain ⟨d2, _, h2, _⟩ := M.bind_okOk h1
  unfold processStart at h2
  obtain ⟨d3, _, h3, _⟩ := M.bind_okOk h2
  exact hs (checkState_ok h3).2

/-- A call on a replica that is started. -/
theorem moves_body {m : Option (InMsg H)} {d d' : Driver σ ρ κ H} (hs : d.state ≠ .created) (he : d.ephemeral = false)
    (h : body S m d = .ok (d', .ok ())) : Moves S d d' := by
  have hm : ∀ r, m ≠ some (.startReplica r) := by
    rintro r rfl
    exact start_after_created hs h
  unfold body at h
  obtain ⟨d1, c, h1, g1⟩ := M.bind_okOk h
  obtain ⟨d2, _, h2, g2⟩ := M.bind_okOk g1
  have m1 : Moves S d d1 := by
    cases m with
    | none =>
      simp only [dispatchOpt, M.pure_def, M.pure, Run.ok.injEq, Prod.mk.injEq] at h1
      rw [h1.1]; exact .refl _
    | some m => exact (neutral_dispatch fun r hr => hm r (by rw [hr])).moves h1
  have e1 := (ephemeral_dispatch hm h1 hs).1
  exact m1.trans ((moves_runActor (e1.trans he) h2).trans (moves_runRaft g2))

/-- A first successful call starts the replica; if it takes part in replication, this is what happened. -/
theorem start_body_dispatched {m : Option (InMsg H)} {d d' : Driver σ ρ κ H} (hs : d.state = .created) (hu : Unstarted d)
    (h : body S m d = .ok (d', .ok ())) (he : d'.ephemeral = false) :
    ∃ r ctx a1 a2 b d1, m = some (.startReplica r) ∧ S.A.onInit ctx d.actor = .ok (a1, .ok ()) ∧
      S.A.onSaveSnapshot ctx a1 = .ok (a2, .ok b) ∧ d1.actor = a2 ∧ d1.state = .started ∧ d1.ephemeral = false ∧
      d1.applied = (if r.isLeader then 1 else d.applied) ∧ d1.id = r.idHint ∧ d1.proposals = d.proposals ∧
      d1.trace = d.trace ++ [.actorInit ctx (.ok ()), .actor (.save ctx (.ok b)), .raftInit r.idHint b r.isLeader (.ok ()), .out (.startReplica r.idHint)] ∧
      body S none d1 = .ok (d', .ok ()) ∧ dispatchOpt S m d = .ok (d1, .ok none) := by
  obtain ⟨r, rfl⟩ := body_unstarted hs hu h
  unfold body at h
  obtain ⟨d1, c, h1, g1⟩ := M.bind_okOk h
  obtain ⟨d2, _, h2, g2⟩ := M.bind_okOk g1
  have hd := h1
  unfold dispatchOpt dispatch at hd
  obtain ⟨d3, _, h3, h4⟩ := M.bind_okOk hd
  simp only [M.pure_def, M.pure, Run.ok.injEq, Prod.mk.injEq, Except.ok.injEq] at h4
  obtain ⟨rfl, rfl⟩ := h4
  have hst := processStart_started h3
  have hsn : d3.state ≠ .created := by rw [hst]; simp
  have k2 := (reaches_runActor _ _).run _ _ h2
  have k3 := (reaches_runRaft _).run _ _ g2
  have e3 : d3.ephemeral = false := by
    rw [← he, (k3.sameId (k2.lifecycle.1 hsn)).ephemeral, (k2.sameId hsn).ephemeral]
  obtain ⟨ctx, a1, a2, b, f1, f2, f3, f4, f5, f6, f7⟩ := processStart_ok h3 e3
  refine ⟨r, ctx, a1, a2, b, d3, rfl, f1, f2, f3, hst, e3, f4, f5, f6, f7, ?_, h1⟩
  unfold body
  rw [show dispatchOpt S none = Pure.pure none from rfl, M.bind_run (d1 := d3) (a := none) rfl, M.bind_run h2]
  exact g2

theorem start_body {m : Option (InMsg H)} {d d' : Driver σ ρ κ H} (hs : d.state = .created) (hu : Unstarted d)
    (h : body S m d = .ok (d', .ok ())) (he : d'.ephemeral = false) :
    ∃ r ctx a1 a2 b d1, m = some (.startReplica r) ∧ S.A.onInit ctx d.actor = .ok (a1, .ok ()) ∧
      S.A.onSaveSnapshot ctx a1 = .ok (a2, .ok b) ∧ d1.actor = a2 ∧ d1.state = .started ∧ d1.ephemeral = false ∧
      d1.applied = (if r.isLeader then 1 else d.applied) ∧ d1.id = r.idHint ∧ d1.proposals = d.proposals ∧
      d1.trace = d.trace ++ [.actorInit ctx (.ok ()), .actor (.save ctx (.ok b)), .raftInit r.idHint b r.isLeader (.ok ()), .out (.startReplica r.idHint)] ∧
      body S none d1 = .ok (d', .ok ()) := by
  obtain ⟨r, ctx, a1, a2, b, d1, h1, h2, h3, h4, h5, h6, h7, h8, h9, h10, h11, _⟩ := start_body_dispatched hs hu h he
  exact ⟨r, ctx, a1, a2, b, d1, h1, h2, h3, h4, h5, h6, h7, h8, h9, h10, h11⟩

theorem out_kind {outs : List (Comm.OutMsg H)} {e : Ev H} (h : e ∈ outs.map fun m => Ev.out (.comm m)) : kind e = .oComm := by
  obtain ⟨_, _, rfl⟩ := List.mem_map.1 h
  rfl

/-- A call that returned `Ok` on a started replica. -/
theorem moves_receive {instant : Nat} {m : Option (Option (InMsg H))} {d d' : Driver σ ρ κ H} {out} (hs : d.state ≠ .created)
    (he : d.ephemeral = false) (h : receive S instant m d = .ok (d', .ok out)) : Moves S d d' := by
  have hp : Moves S d (presetState S instant d) := moves_plain (new := []) rfl rfl rfl (by simp [presetState]) (by simp)
  cases receive_outcome h with
  | unknown => exact hp
  | @done m' d2 c' outs hm hb ho =>
    refine hp.trans ((moves_body (d := presetState S instant d) hs he hb).trans ?_)
    exact moves_plain (new := outs.map fun m => .out (.comm m)) rfl rfl rfl rfl fun e he => by rw [out_kind he]; decide

/-! ## Pending proposals -/

/-- No proposals wait. -/
def NoProposals (d : Driver σ ρ κ H) : Prop := d.proposals = []

theorem noprop_sendRaftMessages (ms : List RaftMsg) : Pres NoProposals (sendRaftMessages S ms) := by
  induction ms with
  | nil => exact pres_pure
  | cons b bs ih => exact pres_bind (by unfold sendRaftMessage; pres) fun _ => ih
theorem noprop_applyEntries (es : List Entry) : Pres NoProposals (applyEntries S es) := by
  induction es with
  | nil => exact pres_pure
  | cons b bs ih => exact pres_bind (by unfold applyEntry; pres) fun _ => ih
theorem noprop_processReady : Pres NoProposals (processReady S) := by
  unfold processReady
  refine pres_bind (pres_raft fun _ _ _ h => h) fun ready => ?_
  refine pres_bind (noprop_sendRaftMessages _) fun _ => ?_
  refine pres_bind (by pres) fun _ => ?_
  refine pres_bind (by unfold restoreRaftSnapshot; pres) fun _ => ?_
  refine pres_bind (noprop_applyEntries _) fun _ => ?_
  refine pres_bind (noprop_sendRaftMessages _) fun _ => ?_
  refine pres_bind (by pres) fun _ => ?_
  refine pres_bind (pres_raft fun _ _ _ h => h) fun light => ?_
  refine pres_bind (noprop_sendRaftMessages _) fun _ => ?_
  exact pres_bind (noprop_applyEntries _) fun _ => pres_raftU fun _ _ h => h

theorem runRaft_noprop {d d' : Driver σ ρ κ H} (he : d.ephemeral = false) (h : runRaft S d = .ok (d', .ok ())) : d'.proposals = [] := by
  unfold runRaft at h
  have h := neutral_get h
  rw [he, if_neg (by simp)] at h
  obtain ⟨d1, _, h1, g1⟩ := M.bind_okOk h
  obtain ⟨d2, _, h2, g2⟩ := M.bind_okOk g1
  obtain ⟨d3, _, h3, g3⟩ := M.bind_okOk g2
  unfold processProposals at h1
  have h1 := neutral_get h1
  obtain ⟨d4, _, h4, h5⟩ := M.bind_okOk h1
  have e4 := modify_ok h4
  have p1 : d1.proposals = [] := by rw [(proposeAll_ok h5).2.2.1, e4]
  have p2 : d2.proposals = [] := by rw [← p1]; exact (neutral_processSnapshotProgress.plain h2).2.2.1
  have p3 : d3.proposals = [] := by
    refine Pres.run (I := NoProposals) (m := processStateMachine S) ?_ _ _ _ p2 h3
    unfold processStateMachine
    refine pres_bind pres_get fun _ => ?_
    split
    · refine pres_bind ?_ fun _ => pres_bind ?_ fun _ => ?_
      · unfold advanceRaft
        refine pres_bind pres_get fun _ => pres_bind (pres_when ?_) fun _ => pres_bind pres_ask fun _ => pres_when noprop_processReady
        unfold triggerRaftTick; pres
      · unfold maybeCreateSnapshot; pres
      · exact ⟨fun d d' r hi h => ((neutral_stashLeaderState.plain h).2.2.1).trans hi⟩
    · exact pres_pure
  rw [← p3]
  exact (neutral_processSnapshotSending.plain g3).2.2.1

/-! ## Histories -/

/-- What the trace of a replica that takes part in replication looks like. -/
structure LogInv (S : Sys σ ρ κ H) (d : Driver σ ρ κ H) : Prop where
  feed : d.ephemeral = false → Trail (Feed S.E.decEntry d.id) d.trace ([], 0) (observed d.trace, d.applied)
  proposals : d.ephemeral = false → (d.trace.filterMap requested).map (encode S d.id) = d.trace.filterMap proposal ∧ d.proposals = []
  clean : d.ephemeral = false → ∀ e ∈ d.trace, Clean e
  shape : d.ephemeral = false → d.trace = [] ∨ ∃ ctx b l i tail,
    d.trace = [.actorInit ctx (.ok ()), .actor (.save ctx (.ok b)), .raftInit i b l (.ok ()), .out (.startReplica i)] ++ tail ∧
      ∀ e ∈ tail, kind e ≠ .raftInit

theorem body_noInit {m : Option (InMsg H)} {d d' : Driver σ ρ κ H} (hs : d.state ≠ .created)
    (h : body S m d = .ok (d', .ok ())) : ∃ new, d'.trace = d.trace ++ new ∧ ∀ e ∈ new, kind e ∉ [K.raftInit, .actorInit] := by
  have hm : ∀ r, m ≠ some (.startReplica r) := by
    rintro r rfl
    exact start_after_created hs h
  unfold body at h
  obtain ⟨d1, c, h1, g1⟩ := M.bind_okOk h
  obtain ⟨d2, _, h2, g2⟩ := M.bind_okOk g1
  obtain ⟨n2, t2, k2⟩ := (adds_runActor c).run _ _ _ h2
  obtain ⟨n3, t3, k3⟩ := adds_runRaft.run _ _ _ g2
  obtain ⟨n1, t1, k1⟩ : ∃ new, d1.trace = d.trace ++ new ∧ ∀ e ∈ new, kind e ∉ [K.raftInit, .actorInit] := by
    cases m with
    | none =>
      simp only [dispatchOpt, M.pure_def, M.pure, Run.ok.injEq, Prod.mk.injEq] at h1
      rw [h1.1]; exact ⟨[], by simp, by simp⟩
    | some m =>
      obtain ⟨L, hL, hk⟩ := (neutral_dispatch (S := S) (m := m) fun r hr => hm r (by rw [hr])).adds
      obtain ⟨n, t, k⟩ := hL.run _ _ _ h1
      exact ⟨n, t, fun e he hi => hk (kind e) (by revert hi; generalize kind e = q; revert q; decide) (k e he)⟩
  refine ⟨n1 ++ n2 ++ n3, by rw [t3, t2, t1]; simp, fun e he => ?_⟩
  rcases List.mem_append.1 he with he | he
  · rcases List.mem_append.1 he with he | he
    · exact k1 e he
    · have := k2 e he
      generalize kind e = k at this
      revert this; revert k; decide
  · have := k3 e he
    generalize kind e = k at this
    revert this; revert k; decide

theorem noRaftInit {d d' : Driver σ ρ κ H} (h : ∃ new, d'.trace = d.trace ++ new ∧ ∀ e ∈ new, kind e ∉ [K.raftInit, .actorInit]) :
    ∃ new, d'.trace = d.trace ++ new ∧ ∀ e ∈ new, kind e ≠ .raftInit := by
  obtain ⟨n, t, k⟩ := h
  exact ⟨n, t, fun e he hk => k e he (by rw [hk]; decide)⟩

theorem body_proposals {m : Option (InMsg H)} {d d' : Driver σ ρ κ H} (hs : d.state ≠ .created) (he : d.ephemeral = false)
    (h : body S m d = .ok (d', .ok ())) : d'.proposals = [] := by
  have hm : ∀ r, m ≠ some (.startReplica r) := by
    rintro r rfl
    exact start_after_created hs h
  unfold body at h
  obtain ⟨d1, c, h1, g1⟩ := M.bind_okOk h
  obtain ⟨d2, _, h2, g2⟩ := M.bind_okOk g1
  refine runRaft_noprop ?_ g2
  have e1 := ephemeral_dispatch hm h1 hs
  have hs1 : d1.state ≠ .created := by
    cases m with
    | none =>
      simp only [dispatchOpt, M.pure_def, M.pure, Run.ok.injEq, Prod.mk.injEq] at h1
      rw [← h1.1]; exact hs
    | some m => exact ((reaches_dispatch m d).run _ _ h1).lifecycle.1 hs
  rw [(((reaches_runActor _ _).run _ _ h2).sameId hs1).ephemeral, e1.1, he]

/-- A call on a started replica keeps the invariant. -/
theorem LogInv.moves {d d' : Driver σ ρ κ H} (g : LogInv S d) (he : d.ephemeral = false) (hm : Moves S d d') (hp : d'.proposals = [])
    (ht : d.trace ≠ [])
    (hn : ∃ new, d'.trace = d.trace ++ new ∧ ∀ e ∈ new, kind e ≠ .raftInit) : LogInv S d' := by
  obtain ⟨hi, new, t, f, p, c⟩ := hm
  obtain ⟨new', t', hk⟩ := hn
  have : new' = new := List.append_cancel_left (t'.symm.trans t)
  subst this
  refine ⟨fun _ => ?_, fun _ => ⟨?_, hp⟩, fun _ e h => ?_, fun _ => ?_⟩
  · rw [t, hi, observed_append]
    exact trail_append.2 ⟨_, g.feed he, f _⟩
  · obtain ⟨p1, p2⟩ := g.proposals he
    rw [p2, hp, List.nil_append, List.append_nil] at p
    rw [t, hi, List.filterMap_append, List.filterMap_append, List.map_append, p1, p]
  · rw [t] at h
    exact (List.mem_append.1 h).elim (g.clean he e) (c e)
  · rcases g.shape he with h | ⟨ctx, b, l, i, tail, h1, h2⟩
    · exact absurd h ht
    · refine .inr ⟨ctx, b, l, i, tail ++ new', by rw [t, h1, List.append_assoc], fun e he => ?_⟩
      exact (List.mem_append.1 he).elim (h2 e) (hk e)

theorem runs_log {d0 d : Driver σ ρ κ H} {outs} (h0 : Fresh d0) (h : Runs S d0 outs d) : LogInv S d ∧ (d.state ≠ .created → d.ephemeral = false → d.trace ≠ []) := by
  induction h with
  | nil =>
    obtain ⟨a, r, c, rfl⟩ := h0
    exact ⟨⟨fun _ => rfl, fun _ => ⟨rfl, rfl⟩, fun _ e he => by simp [Driver.new] at he, fun _ => .inl rfl⟩, fun h => absurd rfl h⟩
  | @snoc _ d1 instant _ _ _ hr hs ih =>
    have hc := runs_created h0 hr
    obtain ⟨ih, hne⟩ := ih
    have hp : LogInv S (presetState S instant d1) := ⟨ih.feed, ih.proposals, ih.clean, ih.shape⟩
    cases receive_outcome hs with
    | unknown => exact ⟨hp, hne⟩
    | @done m' d2 c' outs hm hb ho =>
      have key : LogInv S d2 ∧ (d2.ephemeral = false → d2.trace ≠ []) := by
        by_cases he2 : d2.ephemeral = false
        rotate_left
        · exact ⟨⟨fun h => absurd h he2, fun h => absurd h he2, fun h => absurd h he2, fun h => absurd h he2⟩, fun h => absurd h he2⟩
        by_cases hd : d1.state = .created
        · obtain ⟨ht, ha, _, hpr, hu, _⟩ := hc.inv hd
          obtain ⟨r, ctx, a1, a2, b, d3, _, _, _, _, hst, e3, f4, f5, f6, f7, hb'⟩ :=
            start_body (S := S) (d := presetState S instant d1) hd hu hb he2
          have ht' : (presetState S instant d1).trace = [] := ht
          have ha' : (presetState S instant d1).applied = 0 := ha
          have hp' : (presetState S instant d1).proposals = [] := hpr
          rw [ht', List.nil_append] at f7
          rw [ha'] at f4
          rw [hp'] at f6
          have l3 : LogInv S d3 := by
            refine ⟨fun _ => ?_, fun _ => ?_, fun _ => ?_, fun _ => ?_⟩
            · rw [f7, f4]
              refine ⟨_, rfl, _, rfl, ([], if r.isLeader then 1 else 0), ?_, _, rfl, rfl⟩
              cases r.isLeader <;> rfl
            · rw [f7, f6]; exact ⟨rfl, rfl⟩
            · rw [f7]; simp [Clean]
            · rw [f7]; exact .inr ⟨_, _, _, _, [], rfl, by simp⟩
          have hsn : d3.state ≠ .created := by rw [hst]; simp
          have hb3 := noRaftInit (body_noInit hsn hb')
          refine ⟨l3.moves e3 (moves_body hsn e3 hb') (body_proposals hsn e3 hb') (by rw [f7]; simp) hb3, fun _ => ?_⟩
          obtain ⟨n, t, _⟩ := hb3
          rw [t, f7]; simp
        · have he1 : d1.ephemeral = false := by
            rw [← he2]
            exact (((reaches_body m' (presetState S instant d1)).run _ _ hb).sameId hd).ephemeral.symm
          have hb3 := noRaftInit (body_noInit (S := S) (d := presetState S instant d1) hd hb)
          have hne1 := hne hd he1
          refine ⟨hp.moves he1 (moves_body (d := presetState S instant d1) hd he1 hb) (body_proposals (d := presetState S instant d1) hd he1 hb)
            hne1 hb3, fun _ => ?_⟩
          obtain ⟨n, t, _⟩ := hb3
          rw [t, show (presetState S instant d1).trace = d1.trace from rfl]
          simp [hne1]
      have fin : Moves S d2 { d2 with comm := c', messages := [], trace := d2.trace ++ outs.map fun m => .out (.comm m) } :=
        moves_plain (new := outs.map fun m => .out (.comm m)) rfl rfl rfl rfl fun e he => by rw [out_kind he]; decide
      by_cases he2 : d2.ephemeral = false
      · refine ⟨key.1.moves he2 fin (key.1.proposals he2).2 (key.2 he2) ⟨_, rfl, fun e he => by rw [out_kind he]; decide⟩, fun _ _ => ?_⟩
        simp [key.2 he2]
      · exact ⟨⟨fun h => absurd h he2, fun h => absurd h he2, fun h => absurd h he2, fun h => absurd h he2⟩, fun _ h => absurd h he2⟩

/-! ## A log without gaps -/

theorem segment_succ (log : Nat → Entry) (b k : Nat) : segment log b (k + 1) = segment log b k ++ [log (b + 1 + k)] := by
  simp [segment, List.range_succ]

theorem segment_append (log : Nat → Entry) (b j k : Nat) : segment log b (j + k) = segment log b j ++ segment log (b + j) k := by
  induction k with
  | zero => simp [segment]
  | succ k ih =>
    rw [← Nat.add_assoc, segment_succ, ih, segment_succ, List.append_assoc, show b + 1 + (j + k) = b + j + 1 + k by omega]

theorem segment_sorted {log : Nat → Entry} (hl : ∀ i, (log i).index = i) (b k : Nat) :
    (segment log b k).Pairwise fun x y => x.index < y.index := by
  induction k with
  | zero => simp [segment]
  | succ k ih =>
    rw [segment_succ, List.pairwise_append]
    refine ⟨ih, by simp, fun x hx y hy => ?_⟩
    rw [List.mem_singleton.1 hy, hl]
    simp only [segment, List.mem_map, List.mem_range] at hx
    obtain ⟨i, hi, rfl⟩ := hx
    rw [hl]; omega

/-- The order of a batch is the order of the log. -/
theorem inOrder_segment {log : Nat → Entry} (hl : ∀ i, (log i).index = i) {es batch : List Entry} {b k : Nat} (h : InOrder es batch)
    (hb : batch.Perm (segment log b k)) : es = segment log b k := by
  have hp := h.1.trans hb
  refine List.Perm.eq_of_pairwise (le := fun x y => x.index ≤ y.index) ?_ h.2 ((segment_sorted hl b k).imp Nat.le_of_lt) hp
  intro x y hx hy h1 h2
  have hx' := hp.mem_iff.1 hx
  simp only [segment, List.mem_map, List.mem_range] at hx' hy
  obtain ⟨i, _, rfl⟩ := hx'
  obtain ⟨j, _, rfl⟩ := hy
  rw [hl, hl] at h1 h2
  rw [show i = j by omega]

theorem lastIndex_segment {log : Nat → Entry} (hl : ∀ i, (log i).index = i) (b k : Nat) : lastIndex b (segment log b k) = b + k := by
  cases k with
  | zero => rfl
  | succ k => rw [segment_succ, lastIndex, List.foldl_append]; simp [hl]; omega

theorem payloads_append {dec : Bytes → Option LogEntry} {id : Nat} {a b : List Entry} {x y : List Obs} (h : payloads dec id a = some x)
    (g : payloads dec id b = some y) : payloads dec id (a ++ b) = some (x ++ y) := by
  induction a generalizing x with
  | nil =>
    simp only [payloads, Option.some.injEq] at h
    subst h; exact g
  | cons e a ih =>
    rw [payloads] at h
    rw [List.cons_append, payloads]
    cases h1 : payload dec id e with
    | none => rw [h1] at h; simp at h
    | some u =>
      cases h2 : payloads dec id a with
      | none => rw [h1, h2] at h; simp at h
      | some v =>
        rw [h1, h2] at h
        simp only [Option.some.injEq] at h
        rw [ih h2, ← h, List.append_assoc]

/-- Payloads are events, not snapshots. -/
theorem payload_apply {dec : Bytes → Option LogEntry} {id : Nat} {es : List Entry} {ps : List Obs} (h : payloads dec id es = some ps) :
    ∀ o ∈ ps, ∃ i w ev, o = .apply i w ev := by
  induction es generalizing ps with
  | nil =>
    simp only [payloads, Option.some.injEq] at h
    subst h; simp
  | cons e es ih =>
    rw [payloads] at h
    cases h1 : payload dec id e with
    | none => rw [h1] at h; simp at h
    | some u =>
      cases h2 : payloads dec id es with
      | none => rw [h1, h2] at h; simp at h
      | some v =>
        rw [h1, h2] at h
        simp only [Option.some.injEq] at h
        subst h
        intro o ho
        rcases List.mem_append.1 ho with ho | ho
        · unfold payload at h1
          split at h1
          · simp only [Option.some.injEq] at h1; subst h1; simp at ho
          · split at h1
            · simp only [Option.some.injEq] at h1; subst h1; simp at ho
            · split at h1
              · simp only [Option.some.injEq] at h1; subst h1
                rw [List.mem_singleton.1 ho]; exact ⟨_, _, _, rfl⟩
              · simp at h1
        · exact ih h2 o ho

theorem sinceLoad_append_apply {os ps : List Obs} (h : ∀ o ∈ ps, ∃ i w ev, o = .apply i w ev) : sinceLoad (os ++ ps) = sinceLoad os ++ ps := by
  unfold sinceLoad
  rw [List.foldl_append]
  generalize List.foldl _ _ os = acc
  induction ps generalizing acc with
  | nil => simp
  | cons p ps ih =>
    obtain ⟨i, w, ev, rfl⟩ := h p List.mem_cons_self
    rw [List.foldl_cons, ih fun o ho => h o (List.mem_cons_of_mem _ ho), List.append_assoc]
    rfl

theorem sinceLoad_load (os : List Obs) (b : Bytes) : sinceLoad (os ++ [.load b]) = [] := by
  simp [sinceLoad, List.foldl_append]

/-- Where the log of a replica is. -/
structure Position (dec : Bytes → Option LogEntry) (id : Nat) (log : Nat → Entry) (o : List Obs) (a b : Nat) : Prop where
  le : b ≤ a
  seen : payloads dec id (segment log b (a - b)) = some (sinceLoad o)

theorem position_next {dec : Bytes → Option LogEntry} {id : Nat} {log : Nat → Entry} {o : List Obs} {a b k : Nat} {ps : List Obs}
    (h : Position dec id log o a b) (hp : payloads dec id (segment log a k) = some ps) : Position dec id log (o ++ ps) (a + k) b := by
  refine ⟨Nat.le_trans h.le (Nat.le_add_right _ _), ?_⟩
  have hle := h.le
  rw [sinceLoad_append_apply (payload_apply hp), show a + k - b = (a - b) + k by omega, segment_append,
    show b + (a - b) = a by omega]
  exact payloads_append h.seen hp

theorem position_load {dec : Bytes → Option LogEntry} {id : Nat} {log : Nat → Entry} (o : List Obs) (d : Bytes) (i : Nat) :
    Position dec id log (o ++ [.load d]) i i :=
  ⟨Nat.le_refl _, by rw [Nat.sub_self, sinceLoad_load]; rfl⟩

theorem follow {dec : Bytes → Option LogEntry} {id : Nat} {log : Nat → Entry} (hl : ∀ i, (log i).index = i) {t : List (Ev H)}
    (ht : ∀ e ∈ t, kind e ≠ .raftInit) {o o' : List Obs} {a a' b b' c : Nat} (hf : Trail (Feed dec id) t (o, a) (o', a'))
    (hg : Trail (Follows log) t (b, a) (b', c)) (h : Position dec id log o a b) : c = a' ∧ Position dec id log o' a' b' := by
  induction t generalizing o a b with
  | nil => cases hf; cases hg; exact ⟨rfl, h⟩
  | cons e t ih =>
    obtain ⟨⟨o1, a1⟩, f1, hf⟩ := hf
    obtain ⟨⟨b1, c1⟩, g1, hg⟩ := hg
    have ht' : ∀ e ∈ t, kind e ≠ .raftInit := fun x hx => ht x (List.mem_cons_of_mem _ hx)
    have other : (o1, a1) = (o, a) → (b1, c1) = (b, a) → c = a' ∧ Position dec id log o' a' b' := by
      intro h1 h2
      cases h1; cases h2
      exact ih ht' hf hg h
    cases e with
    | raftInit => exact absurd rfl (ht _ List.mem_cons_self)
    | ready r =>
      obtain ⟨es, ps, hes, hps, hy⟩ := f1
      obtain ⟨k, hk, hz⟩ := g1
      have := inOrder_segment hl hes hk
      subst this
      simp only [Prod.mk.injEq] at hy hz
      obtain ⟨rfl, rfl⟩ := hy
      obtain ⟨rfl, rfl⟩ := hz
      have hlast := lastIndex_segment hl (loadIndex r.snapshot a) k
      rw [hlast] at hf
      refine ih ht' hf hg ?_
      refine position_next ?_ hps
      unfold loads loadIndex
      split
      · rw [List.append_nil]; exact h
      · exact position_load _ _ _
    | light l =>
      obtain ⟨es, ps, hes, hps, hy⟩ := f1
      obtain ⟨k, hk, hz⟩ := g1
      have := inOrder_segment hl hes hk
      subst this
      simp only [Prod.mk.injEq] at hy hz
      obtain ⟨rfl, rfl⟩ := hy
      obtain ⟨rfl, rfl⟩ := hz
      rw [lastIndex_segment hl a k] at hf
      exact ih ht' hf hg (position_next h hps)
    | _ => exact other f1 g1

end TCP.Drv
