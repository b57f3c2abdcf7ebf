import Verif.Spec.Report
import Verif.Proofs.Answered
import Verif.Props.DriverLog

/-! # C110: reports about the state of a replica -/

namespace TCP.ReportProps

open TCP TCP.Drv TCP.DrvSpec TCP.DrvExample TCP.DrvProps TCP.ActorSpec

variable {σ ρ κ H : Type} {S : Sys σ ρ κ H}

theorem stateReports_append (a b : List (OutMsg H)) : stateReports (a ++ b) = stateReports a ++ stateReports b :=
  List.filterMap_append

theorem adds_stateReports {L : List K} {m : M (Driver σ ρ κ H) α} (h : Adds L m) (hk : K.oState ∉ L) {d d' : Driver σ ρ κ H} {r}
    (hr : m d = .ok (d', r)) : ∃ new, d'.trace = d.trace ++ new ∧ stateReports (outMessages new) = [] := by
  obtain ⟨new, ht, hn⟩ := h.run _ _ _ hr
  refine ⟨new, ht, ?_⟩
  clear ht
  induction new with
  | nil => rfl
  | cons e new ih =>
    rw [show e :: new = [e] ++ new from rfl, outMessages_append, stateReports_append,
      ih fun x hx => hn x (List.mem_cons_of_mem _ hx), List.append_nil]
    have he := hn e List.mem_cons_self
    cases e with
    | out m =>
      cases m with
      | replicaState => exact absurd he hk
      | _ => rfl
    | _ => rfl

theorem stateReports_comm (outs : List (Comm.OutMsg H)) : stateReports (outs.map OutMsg.comm) = [] := by
  induction outs with
  | nil => rfl
  | cons o outs ih => simp_all [stateReports]

theorem stateReports_rest {c : Option ActorCommand} {d d' : Driver σ ρ κ H} {r}
    (h : (do runActor S c; runRaft S : M (Driver σ ρ κ H) Unit) d = .ok (d', r)) :
    ∃ new, d'.trace = d.trace ++ new ∧ stateReports (outMessages new) = [] :=
  adds_stateReports (L := [.command, .apply, .oApp, .commTick] ++ raftKinds)
    (adds_bind ((adds_runActor c).mono (by decide)) fun _ => adds_runRaft.mono (by decide)) (by decide) h

theorem dispatch_noReport {m : InMsg H} (hm : m ≠ .getReplicaState) {d d' : Driver σ ρ κ H} {r}
    (h : dispatch S m d = .ok (d', r)) : ∃ new, d'.trace = d.trace ++ new ∧ stateReports (outMessages new) = [] := by
  have key : ∀ {L : List K} {x : M (Driver σ ρ κ H) Unit}, Adds L x → K.oState ∉ L →
      (x >>= fun _ => Pure.pure (none : Option ActorCommand)) d = .ok (d', r) →
      ∃ new, d'.trace = d.trace ++ new ∧ stateReports (outMessages new) = [] := fun hx hL h =>
    adds_stateReports (adds_bind hx fun _ => adds_pure) hL h
  cases m with
  | startReplica q => exact key (adds_processStart q) (by decide) h
  | stopReplica => exact key adds_processStop (by decide) h
  | enterLameduck =>
    refine key (L := []) (adds_modify ?_) (by decide) h
    intro _; rfl
  | changeCluster a b c => exact key (adds_processChangeCluster a b c) (by decide) h
  | checkCluster => exact key adds_processCheckCluster (by decide) h
  | systemMessage a b c => exact key (adds_processSystemMessage a b c) (by decide) h
  | snapshotRequest a b c p => exact key (adds_processSnapshotRequest a b c p) (by decide) h
  | snapshotResponse a b c p => exact key (adds_processSnapshotResponse a b c p) (by decide) h
  | snapshotFailure a b => exact key (adds_processSnapshotFailure a b) (by decide) h
  | getReplicaState => exact absurd rfl hm
  | handshake a x => exact key (adds_processHandshake a x) (by decide) h
  | appMessage c => exact adds_stateReports (adds_pure (L := [])) (by decide) h

theorem dispatch_report {d d1 : Driver σ ρ κ H} {c} (h : dispatch S .getReplicaState d = .ok (d1, .ok c)) :
    d.state = .started ∧ ∃ i n, d1.trace = d.trace ++ [.out (.replicaState i n)] ∧
      ((d.ephemeral = true ∧ i = 0 ∧ n = 0) ∨ (d.ephemeral = false ∧ i = d.applied ∧ S.R.latestSnapshotSize d.raft = .ok n)) := by
  unfold dispatch at h
  obtain ⟨d2, _, g2, hp⟩ := M.bind_okOk h
  clear h
  simp only [M.pure_def, M.pure, Run.ok.injEq, Prod.mk.injEq] at hp
  rw [hp.1] at g2
  unfold processGetReplicaState at g2
  obtain ⟨d3, _, h3, g3⟩ := M.bind_okOk g2
  obtain ⟨rfl, hs⟩ := checkState_ok h3
  refine ⟨hs, ?_⟩
  obtain ⟨d4, x, h4, g4⟩ := M.bind_okOk g3
  simp only [M.get, Run.ok.injEq, Prod.mk.injEq, Except.ok.injEq] at h4
  obtain ⟨rfl, rfl⟩ := h4
  split at g4
  · rename_i he
    simp only [stash, M.modify, Run.ok.injEq, Prod.mk.injEq] at g4
    exact ⟨0, 0, by rw [← g4.1], .inl ⟨he, rfl, rfl⟩⟩
  · rename_i he
    obtain ⟨d5, n, h5, g5⟩ := M.bind_okOk g4
    simp only [askRaft, Run.bind_eq_ok, Run.ok.injEq, Prod.mk.injEq, Except.ok.injEq] at h5
    obtain ⟨n', hn, rfl, rfl⟩ := h5
    simp only [stash, M.modify, Run.ok.injEq, Prod.mk.injEq] at g5
    exact ⟨_, n', by rw [← g5.1], .inr ⟨by simpa using he, rfl, hn⟩⟩

/-- C110: a request for the state of a started replica is answered in that call, once, with the applied index and the size of the latest
snapshot at the time of the call (zeros if the replica does not replicate).  `d.messages = []` holds between successful calls,
see `C31_empty`. -/
theorem C110_one_report {instant : Nat} {d d' : Driver σ ρ κ H} {outs : List (OutMsg H)} (hm : d.messages = [])
    (h : receive S instant (some (some .getReplicaState)) d = .ok (d', .ok (some outs))) :
    ∃ i n, stateReports outs = [(i, n)] ∧
      ((d.ephemeral = true ∧ i = 0 ∧ n = 0) ∨ (d.ephemeral = false ∧ i = d.applied ∧ S.R.latestSnapshotSize d.raft = .ok n)) := by
  obtain ⟨nw, ht, ho, _⟩ := receive_sent h
  cases receive_outcome h with
  | @done m' d2 c' os hm' hb hto =>
    have : m' = some .getReplicaState := by
      cases m' with
      | none => cases hm'
      | some x => simp only [Option.map_some, Option.some.injEq] at hm'; rw [hm']
    subst this
    unfold body at hb
    obtain ⟨d1, c, h1, h2⟩ := M.bind_okOk hb
    obtain ⟨n2, t2, a2⟩ := stateReports_rest h2
    obtain ⟨_, i, n, t1, hin⟩ := dispatch_report h1
    refine ⟨i, n, ?_, hin⟩
    have : nw = [.out (.replicaState i n)] ++ n2 ++ os.map fun m => .out (.comm m) := by
      have h3 : d.trace ++ nw = d.trace ++ ([.out (.replicaState i n)] ++ n2 ++ os.map fun m => .out (.comm m)) := by
        rw [← ht]; simp only [t2, t1, List.append_assoc]; rfl
      exact List.append_cancel_left h3
    rw [ho, hm, List.nil_append, this]
    simp only [outMessages_append, stateReports_append, a2, List.append_nil]
    rw [outMessages_comm, stateReports_comm, List.append_nil]
    rfl

/-- C110: nothing is reported unasked. -/
theorem C110_only_reports {instant : Nat} {m : Option (Option (InMsg H))} {d d' : Driver σ ρ κ H} {outs : List (OutMsg H)}
    (hm : d.messages = []) (hn : m ≠ some (some .getReplicaState))
    (h : receive S instant m d = .ok (d', .ok (some outs))) : stateReports outs = [] := by
  obtain ⟨nw, ht, ho, _⟩ := receive_sent h
  cases receive_outcome h with
  | @done m' d2 c' os hm' hb hto =>
    unfold body at hb
    obtain ⟨d1, c, h1, h2⟩ := M.bind_okOk hb
    obtain ⟨n2, t2, a2⟩ := stateReports_rest h2
    have h3 : ∃ n1, d1.trace = d.trace ++ n1 ∧ stateReports (outMessages n1) = [] := by
      cases m' with
      | none => exact adds_stateReports (d := presetState S instant d) (adds_pure (L := [])) (by decide) h1
      | some x => exact dispatch_noReport (d := presetState S instant d) (m := x) (fun hx => hn (by rw [hm', hx]; rfl)) h1
    obtain ⟨n1, t1, a1⟩ := h3
    have : nw = n1 ++ n2 ++ os.map fun m => .out (.comm m) := by
      have h3 : d.trace ++ nw = d.trace ++ (n1 ++ n2 ++ os.map fun m => .out (.comm m)) := by
        rw [← ht]; simp only [t2, t1, List.append_assoc]
      exact List.append_cancel_left h3
    rw [ho, hm, List.nil_append, this]
    simp only [outMessages_append, stateReports_append, a1, a2, List.append_nil]
    simp only [outMessages_comm, stateReports_comm, List.nil_append]

theorem advances_le {log : Nat → Entry} {t : List (Ev H)} {x y : Nat × Nat} (h : Trail (Advances log) t x y) : x.2 ≤ y.2 := by
  induction t generalizing x with
  | nil => cases h; exact Nat.le_refl _
  | cons e t ih =>
    obtain ⟨z, ⟨h1, hle⟩, h2⟩ := h
    refine Nat.le_trans ?_ (ih h2)
    cases e with
    | ready r =>
      obtain ⟨k, _, rfl⟩ := h1
      exact Nat.le_trans hle (Nat.le_add_right _ _)
    | _ => exact hle

/-- C110: the report is true.  If consensus delivers a log, the index reported by a replica is the one up to which consensus has delivered
it, and since the last snapshot (index `b`) its application has seen exactly the entries up to this index. -/
theorem C110_true {log : Nat → Entry} (hl : ∀ i, (log i).index = i) {d0 d d' : Driver σ ρ κ H} {outs} (h0 : Fresh d0) (h : Runs S d0 outs d)
    (he : d.ephemeral = false) {b a : Nat} (hg : Trail (Follows log) d.trace (0, 0) (b, a)) {instant : Nat} {os : List (OutMsg H)}
    (hr : receive S instant (some (some .getReplicaState)) d = .ok (d', .ok (some os))) :
    (∃ n, stateReports os = [(a, n)] ∧ S.R.latestSnapshotSize d.raft = .ok n) ∧ b ≤ a ∧
      payloads S.E.decEntry d.id (segment log b (a - b)) = some (sinceLoad (observed d.trace)) := by
  obtain ⟨ha, hb, hp⟩ := C22_log hl h0 h he hg
  obtain ⟨i, n, h1, h2 | h2⟩ := C110_one_report (C31_empty h0 h) hr
  · rw [he] at h2; cases h2.1
  · exact ⟨⟨n, by rw [h1, h2.2.1, ha], h2.2.2⟩, hb, hp⟩

/-- C110: if consensus never goes back in the log, the indices a replica reports never decrease. -/
theorem C110_grows {log : Nat → Entry} (hl : ∀ i, (log i).index = i) {d0 d1 d2 d3 : Driver σ ρ κ H} {o1 o2} {t1 t2 : Nat}
    {os os' : List (OutMsg H)} {d1' : Driver σ ρ κ H} (h0 : Fresh d0) (h1 : Runs S d0 o1 d1)
    (hr1 : receive S t1 (some (some .getReplicaState)) d1 = .ok (d1', .ok (some os))) (h2 : Runs S d1' o2 d2)
    (hr2 : receive S t2 (some (some .getReplicaState)) d2 = .ok (d3, .ok (some os'))) {y : Nat × Nat}
    (hg : Trail (Advances log) d2.trace (0, 0) y) {i n j k : Nat} (hi : (i, n) ∈ stateReports os) (hj : (j, k) ∈ stateReports os') : i ≤ j := by
  have hs : d1.state = .started := by
    cases receive_outcome hr1 with
    | @done m' d2 c' os hm' hb hto =>
      have : m' = some .getReplicaState := by
        cases m' with
        | none => cases hm'
        | some x => simp only [Option.map_some, Option.some.injEq] at hm'; rw [hm']
      subst this
      unfold body at hb
      obtain ⟨d1, c, g1, _⟩ := M.bind_okOk hb
      exact (dispatch_report g1).1
  have hs' : d1.state ≠ .created := by rw [hs]; simp
  have h12 : Runs S d1 (some os :: o2) d2 := runs_append (o1 := [some os]) (Runs.snoc (outs := []) .nil hr1) h2
  have hall := runs_append h1 h12
  obtain ⟨i', n', e1, f1⟩ := C110_one_report (C31_empty h0 h1) hr1
  obtain ⟨j', k', e2, f2⟩ := C110_one_report (C31_empty h0 hall) hr2
  rw [e1, List.mem_singleton, Prod.mk.injEq] at hi
  rw [e2, List.mem_singleton, Prod.mk.injEq] at hj
  rw [hi.1, hj.1]
  rcases f1 with ⟨_, rfl, _⟩ | ⟨he, rfl, _⟩
  · exact Nat.zero_le _
  obtain ⟨_, he2, _, new, ht, _⟩ := runs_moves hs' he h12
  rcases f2 with ⟨hx, _⟩ | ⟨_, rfl, _⟩
  · rw [he2] at hx; cases hx
  have hf := runs_position hl h0 hall he2 (advances_follows (y := (y.1, y.2)) hg)
  rw [ht] at hg
  obtain ⟨⟨b, a⟩, g1, g2⟩ := trail_append.1 hg
  have hp := runs_position hl h0 h1 he (advances_follows g1)
  have := advances_le g2
  rw [← hf.1, ← hp.1]
  exact this

/-- C110 is not vacuous: a replica that has got a snapshot and an entry is asked, twice. -/
example : ∃ d outs, Runs sys follower outs d ∧ d.ephemeral = false ∧ Trail (Advances log) d.trace (0, 0) (3, 4) ∧
    stateReports (outs.flatMap fun o => o.getD []) = [(4, 7), (4, 7)] := by
  have h : check follower [(1, some (some (.startReplica { startReq false false with idHint := 2 }))), (2, none), (3, some (some .getReplicaState)),
      (4, some (some .getReplicaState))] (fun d rs => allOk rs && decide (d.ephemeral = false ∧ follows d.trace (0, 0) = some (3, 4) ∧
        stateReports (rs.flatMap fun r => match r with | .ok o => o.getD [] | _ => []) = [(4, 7), (4, 7)])) = true := by decide +kernel
  obtain ⟨d, outs, hr, hp⟩ := check_runs h
  obtain ⟨h1, h2, h3⟩ := of_decide_eq_true hp
  refine ⟨d, outs, hr, h1, follows_sound h2, ?_⟩
  rw [← h3, List.flatMap_map]

end TCP.ReportProps
