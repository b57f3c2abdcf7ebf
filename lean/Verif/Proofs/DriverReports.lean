import Verif.Proofs.DriverReplies

/-! # Cluster reports, stopped replicas, where consensus messages come from -/

namespace TCP.Drv

open TCP TCP.ActorSpec TCP.DrvSpec

variable {σ ρ κ H α β : Type} {S : Sys σ ρ κ H}

/-! ## Cluster reports -/

theorem clusterReports_append (a b : List (OutMsg H)) : clusterReports (a ++ b) = clusterReports a ++ clusterReports b :=
  List.filterMap_append

theorem Adds.clusterReports {L : List K} {m : M (Driver σ ρ κ H) α} (h : Adds L m) (hk : K.oCheck ∉ L) {d d' : Driver σ ρ κ H} {r}
    (hr : m d = .ok (d', r)) : ∃ new, d'.trace = d.trace ++ new ∧ clusterReports (outMessages new) = [] := by
  obtain ⟨new, ht, hn⟩ := h.run _ _ _ hr
  refine ⟨new, ht, ?_⟩
  clear ht
  induction new with
  | nil => rfl
  | cons e new ih =>
    rw [show e :: new = [e] ++ new from rfl, outMessages_append, clusterReports_append,
      ih fun x hx => hn x (List.mem_cons_of_mem _ hx), List.append_nil]
    have he := hn e List.mem_cons_self
    cases e with
    | out m =>
      cases m with
      | checkCluster => exact absurd he hk
      | _ => rfl
    | _ => rfl

theorem clusterReports_comm (outs : List (Comm.OutMsg H)) : clusterReports (outs.map OutMsg.comm) = [] := by
  induction outs with
  | nil => rfl
  | cons o outs ih => simp_all [DrvSpec.clusterReports]

/-- The last two consensus states the driver has seen. -/
def Seen (x y : RaftState) (d : Driver σ ρ κ H) : Prop := d.prevRaftState = x ∧ d.raftState = y

section
variable {x y : RaftState}

theorem seen_applyEntries (es : List Entry) : Pres (Seen x y) (applyEntries S es) := by
  induction es with
  | nil => exact pres_pure
  | cons b bs ih => exact pres_bind (by unfold applyEntry; pres) fun _ => ih
theorem seen_sendRaftMessages (es : List RaftMsg) : Pres (Seen x y) (sendRaftMessages S es) := by
  induction es with
  | nil => exact pres_pure
  | cons b bs ih => exact pres_bind (by unfold sendRaftMessage; pres) fun _ => ih
theorem seen_processReady : Pres (Seen x y) (processReady S) := by
  unfold processReady
  refine pres_bind (pres_raft fun _ _ _ h => h) fun ready => ?_
  refine pres_bind (seen_sendRaftMessages _) fun _ => ?_
  refine pres_bind (pres_opt fun _ => pres_raftU fun _ _ h => h) fun _ => ?_
  refine pres_bind (by unfold restoreRaftSnapshot; pres) fun _ => ?_
  refine pres_bind (seen_applyEntries _) fun _ => ?_
  refine pres_bind (seen_sendRaftMessages _) fun _ => ?_
  refine pres_bind (pres_when (by pres)) fun _ => ?_
  refine pres_bind (pres_raft fun _ _ _ h => h) fun light => ?_
  refine pres_bind (seen_sendRaftMessages _) fun _ => ?_
  refine pres_bind (seen_applyEntries _) fun _ => ?_
  exact pres_raftU fun _ _ h => h
theorem seen_advanceRaft : Pres (Seen x y) (advanceRaft S) := by
  unfold advanceRaft
  refine pres_bind pres_get fun _ => ?_
  refine pres_bind (pres_when (by unfold triggerRaftTick; pres)) fun _ => ?_
  exact pres_bind pres_ask fun _ => pres_when seen_processReady
theorem seen_maybeCreateSnapshot : Pres (Seen x y) (maybeCreateSnapshot S) := by unfold maybeCreateSnapshot; pres
theorem seen_reportAll (rs : List (Nat × Snap.Status)) : Pres (Seen x y) (reportAll S rs) := by
  induction rs with
  | nil => exact pres_pure
  | cons b bs ih => exact pres_bind (pres_raftU fun _ _ h => h) fun _ => ih
theorem seen_proposeAll (bs : List Bytes) : Pres (Seen x y) (proposeAll S bs) := by
  induction bs with
  | nil => exact pres_pure
  | cons b bs ih => exact pres_bind (by unfold makeRaftProposal; pres) fun _ => ih
theorem seen_processProposals : Pres (Seen x y) (processProposals S) := by
  unfold processProposals
  refine pres_bind pres_get fun _ => pres_bind (pres_modify fun _ h => h) fun _ => seen_proposeAll _
theorem seen_processSnapshotProgress : Pres (Seen x y) (processSnapshotProgress S) := by
  unfold processSnapshotProgress; pres
theorem seen_startAll (ms : List RaftMsg) : Pres (Seen x y) (startAll ms : M (Driver σ ρ κ H) Unit) := by
  induction ms with
  | nil => exact pres_pure
  | cons b bs ih => exact pres_bind (pres_snap fun _ _ _ h _ => h) fun _ => ih
theorem seen_sendAll (ms : List Comm.Outgoing) : Pres (Seen x y) (sendAll S ms) := by
  induction ms with
  | nil => exact pres_pure
  | cons b bs ih => exact pres_bind (pres_comm fun _ _ h => h) fun _ => ih
theorem seen_processSnapshotSending : Pres (Seen x y) (processSnapshotSending S) := by
  unfold processSnapshotSending
  refine pres_bind pres_get fun _ => ?_
  refine pres_bind (pres_modify fun _ h => h) fun _ => ?_
  refine pres_bind (pres_snap fun _ _ _ h _ => h) fun _ => ?_
  split
  · exact pres_bind (seen_startAll _) fun _ => pres_bind (pres_snap fun _ _ _ h _ => h) fun _ => seen_sendAll _
  · exact seen_reportAll _
theorem seen_runActor (c : Option ActorCommand) : Pres (Seen x y) (runActor S c) := by
  unfold runActor processAppMessage checkState
  pres

theorem seen_dispatch {m : InMsg H} (hm : ∀ r, m ≠ .startReplica r) (hc : m ≠ .checkCluster) : Pres (Seen x y) (dispatch S m) := by
  have cs : ∀ {l}, Pres (Seen x y) (checkState l : M (Driver σ ρ κ H) Unit) := by intro l; unfold checkState; pres
  have ce : Pres (Seen x y) (checkNonEphemeral : M (Driver σ ρ κ H) Unit) := by unfold checkNonEphemeral; pres
  cases m with
  | startReplica r => exact absurd rfl (hm r)
  | checkCluster => exact absurd rfl hc
  | stopReplica => unfold dispatch processStop; pres
  | enterLameduck => unfold dispatch; pres
  | changeCluster a b c =>
    unfold dispatch processChangeCluster changeStatus makeConfChangeProposal
    refine pres_bind (pres_bind cs fun _ => pres_bind ce fun _ => ?_) fun _ => pres_pure
    pres
  | systemMessage a b p =>
    unfold dispatch processSystemMessage
    refine pres_bind (pres_bind cs fun _ => pres_bind ce fun _ => ?_) fun _ => pres_pure
    refine pres_bind (pres_comm fun _ _ h => h) fun up => ?_
    split
    · pres
    · unfold makeRaftStep; pres
    · pres
    · pres
  | snapshotRequest a b c p =>
    unfold dispatch processSnapshotRequest
    refine pres_bind (pres_bind ce fun _ => ?_) fun _ => pres_pure
    refine pres_bind (pres_comm fun _ _ h => h) fun up => ?_
    split
    · pres
    · exact pres_bind (pres_snap fun _ _ _ h _ => h) fun _ => pres_comm fun _ _ h => h
    · pres
  | snapshotResponse a b c p =>
    unfold dispatch processSnapshotResponse
    refine pres_bind (pres_bind ce fun _ => ?_) fun _ => pres_pure
    refine pres_bind (pres_comm fun _ _ h => h) fun up => ?_
    split
    · pres
    · exact pres_snap fun _ _ _ h _ => h
    · pres
  | snapshotFailure a b =>
    unfold dispatch processSnapshotFailure
    refine pres_bind (pres_bind ce fun _ => ?_) fun _ => pres_pure
    exact pres_snap fun _ _ _ h _ => h
  | getReplicaState =>
    unfold dispatch processGetReplicaState
    refine pres_bind (pres_bind cs fun _ => ?_) fun _ => pres_pure
    pres
  | handshake a h =>
    unfold dispatch processHandshake
    refine pres_bind (pres_bind cs fun _ => ?_) fun _ => pres_pure
    pres
  | appMessage c => unfold dispatch; pres

end

/-! ### The consensus layer stays initialised -/

/-- The consensus layer has a node. -/
def Node (S : Sys σ ρ κ H) (d : Driver σ ρ κ H) : Prop := S.R.initialized d.raft = true

theorem pres_raftI {I : Driver σ ρ κ H → Prop} {f : ρ → Run (ρ × β)} {ev : β → Ev H}
    (h : ∀ d r' b, I d → f d.raft = .ok (r', b) → I { d with raft := r', trace := d.trace ++ [ev b] }) : Pres I (callRaft f ev) := ⟨by
  intro d d' r hi hd
  simp only [callRaft, Run.bind_eq_ok, Run.ok.injEq, Prod.mk.injEq] at hd
  obtain ⟨x, hx, hd, _⟩ := hd
  rw [← hd]; exact h _ _ _ hi hx⟩

theorem node_report (hk : KeepsNode S.R) (i : Nat) (s : Snap.Status) (ev : Ev H) :
    Pres (Node S) (callRaftU (fun x => S.R.reportSnapshot x i s) ev) := by
  unfold callRaftU
  refine pres_raftI fun d r' b hi hf => ?_
  simp only [Run.bind_eq_ok, Run.ok.injEq, Prod.mk.injEq] at hf
  obtain ⟨x, hx, hf, _⟩ := hf
  rw [← hf]
  exact hk.report _ _ _ _ hi hx
theorem node_proposeAll (hk : KeepsNode S.R) (bs : List Bytes) : Pres (Node S) (proposeAll S bs) := by
  induction bs with
  | nil => exact pres_pure
  | cons b bs ih =>
    refine pres_bind ?_ fun _ => ih
    unfold makeRaftProposal
    refine pres_bind (pres_raftI fun d r' b hi hf => hk.proposal _ _ _ _ hi hf) fun r => ?_
    split
    · exact pres_pure
    · exact pres_panic
theorem node_processProposals (hk : KeepsNode S.R) : Pres (Node S) (processProposals S) := by
  unfold processProposals
  exact pres_bind pres_get fun _ => pres_bind (pres_modify fun _ h => h) fun _ => node_proposeAll hk _
theorem node_processSnapshotProgress (hk : KeepsNode S.R) : Pres (Node S) (processSnapshotProgress S) := by
  unfold processSnapshotProgress
  refine pres_bind pres_get fun d => ?_
  split
  · exact pres_pure
  refine pres_bind (pres_snap fun _ _ _ h _ => h) fun b => ?_
  split
  · refine pres_bind (pres_snap fun _ _ _ h _ => h) fun r => ?_
    split
    · exact node_report hk _ _ _
    · exact pres_pure
  · refine pres_bind (pres_snap fun _ _ _ h _ => h) fun r => ?_
    split
    · exact pres_bind (pres_raftI fun d r' b hi hf => hk.step _ _ _ _ hi hf) fun _ => pres_pure
    · exact pres_pure
theorem node_runActor (c : Option ActorCommand) : Pres (Node S) (runActor S c) := by
  unfold runActor processAppMessage checkState
  pres
theorem node_dispatch (hk : KeepsNode S.R) {m : InMsg H} (hm : ∀ r, m ≠ .startReplica r) : Pres (Node S) (dispatch S m) := by
  have cs : ∀ {l}, Pres (Node S) (checkState l : M (Driver σ ρ κ H) Unit) := by intro l; unfold checkState; pres
  have ce : Pres (Node S) (checkNonEphemeral : M (Driver σ ρ κ H) Unit) := by unfold checkNonEphemeral; pres
  have cp : ∀ i b, Pres (Node S) (makeConfChangeProposal S i b) := by
    intro i b
    unfold makeConfChangeProposal
    refine pres_bind (pres_raftI fun d r' b hi hf => hk.change _ _ _ _ hi hf) fun r => ?_
    split
    · exact pres_pure
    · exact pres_pure
    · exact pres_fail
  cases m with
  | startReplica r => exact absurd rfl (hm r)
  | checkCluster =>
    unfold dispatch processCheckCluster
    exact pres_bind (pres_bind cs fun _ => pres_bind ce fun _ => pres_modify fun _ h => h) fun _ => pres_pure
  | stopReplica => unfold dispatch processStop; pres
  | enterLameduck => unfold dispatch; pres
  | changeCluster a b c =>
    unfold dispatch processChangeCluster changeStatus
    refine pres_bind (pres_bind cs fun _ => pres_bind ce fun _ => pres_bind ?_ fun _ => pres_stash fun _ h => h) fun _ => pres_pure
    split
    · exact cp _ _
    · split
      · exact cp _ _
      · exact pres_pure
  | systemMessage a b p =>
    unfold dispatch processSystemMessage
    refine pres_bind (pres_bind cs fun _ => pres_bind ce fun _ => ?_) fun _ => pres_pure
    refine pres_bind (pres_comm fun _ _ h => h) fun up => ?_
    split
    · pres
    · unfold makeRaftStep
      split
      · exact pres_pure
      · exact pres_bind (pres_raftI fun d r' b hi hf => hk.step _ _ _ _ hi hf) fun _ => pres_orFail
    · pres
    · pres
  | snapshotRequest a b c p =>
    unfold dispatch processSnapshotRequest
    refine pres_bind (pres_bind ce fun _ => ?_) fun _ => pres_pure
    refine pres_bind (pres_comm fun _ _ h => h) fun up => ?_
    split
    · pres
    · exact pres_bind (pres_snap fun _ _ _ h _ => h) fun _ => pres_comm fun _ _ h => h
    · pres
  | snapshotResponse a b c p =>
    unfold dispatch processSnapshotResponse
    refine pres_bind (pres_bind ce fun _ => ?_) fun _ => pres_pure
    refine pres_bind (pres_comm fun _ _ h => h) fun up => ?_
    split
    · pres
    · exact pres_snap fun _ _ _ h _ => h
    · pres
  | snapshotFailure a b =>
    unfold dispatch processSnapshotFailure
    refine pres_bind (pres_bind ce fun _ => ?_) fun _ => pres_pure
    exact pres_snap fun _ _ _ h _ => h
  | getReplicaState =>
    unfold dispatch processGetReplicaState
    refine pres_bind (pres_bind cs fun _ => ?_) fun _ => pres_pure
    pres
  | handshake a h =>
    unfold dispatch processHandshake
    refine pres_bind (pres_bind cs fun _ => ?_) fun _ => pres_pure
    pres
  | appMessage c => unfold dispatch; pres

/-- The consensus state as the driver reports it: the members are known to the leader only. -/
def reported (d : Driver σ ρ κ H) (st : RaftState) : RaftState :=
  if st.leaderId = d.id then { st with cluster := d.conf.voters } else st

/-- What a report is made of. -/
def Status (S : Sys σ ρ κ H) (st : RaftState) (voters : List Nat) (me : Nat) (d : Driver σ ρ κ H) : Prop :=
  S.R.state d.raft = .ok st ∧ d.conf.voters = voters ∧ d.id = me

section
variable {st : RaftState} {voters : List Nat} {me : Nat}

theorem status_reportAll (hk : KeepsNode S.R) (rs : List (Nat × Snap.Status)) : Pres (Status S st voters me) (reportAll S rs) := by
  induction rs with
  | nil => exact pres_pure
  | cons b bs ih =>
    refine pres_bind (pres_raftI fun d r' x h hf => ?_) fun _ => ih
    simp only [Run.bind_eq_ok, Run.ok.injEq, Prod.mk.injEq] at hf
    obtain ⟨r1, h1, rfl, _⟩ := hf
    exact ⟨(hk.status _ _ _ _ h1).trans h.1, h.2⟩
theorem status_startAll (ms : List RaftMsg) : Pres (Status S st voters me) (startAll ms : M (Driver σ ρ κ H) Unit) := by
  induction ms with
  | nil => exact pres_pure
  | cons b bs ih => exact pres_bind (pres_snap fun _ _ _ h _ => h) fun _ => ih
theorem status_sendAll (ms : List Comm.Outgoing) : Pres (Status S st voters me) (sendAll S ms) := by
  induction ms with
  | nil => exact pres_pure
  | cons b bs ih => exact pres_bind (pres_comm fun _ _ h => h) fun _ => ih
theorem status_processSnapshotSending (hk : KeepsNode S.R) : Pres (Status S st voters me) (processSnapshotSending S) := by
  unfold processSnapshotSending
  refine pres_bind pres_get fun _ => ?_
  refine pres_bind (pres_modify fun _ h => h) fun _ => ?_
  refine pres_bind (pres_snap fun _ _ _ h _ => h) fun _ => ?_
  split
  · exact pres_bind (status_startAll _) fun _ => pres_bind (pres_snap fun _ _ _ h _ => h) fun _ => status_sendAll _
  · exact status_reportAll hk _
theorem status_stashLeaderState (hk : KeepsNode S.R) : Pres (Status S st voters me) (stashLeaderState S) := by
  unfold stashLeaderState
  refine pres_bind (by unfold getRaftState; pres) fun _ => ?_
  refine pres_bind (pres_modify fun _ h => h) fun _ => ?_
  refine pres_bind pres_get fun _ => ?_
  split
  · exact pres_pure
  · refine pres_bind (pres_modify fun _ h => h) fun _ => pres_bind ?_ fun _ => ?_
    · unfold updateSnapshotClusterChange
      refine pres_bind pres_get fun _ => ?_
      split
      · exact pres_pure
      · exact pres_bind (pres_snap fun _ _ _ h _ => h) fun _ => status_reportAll hk _
    · pres

end

theorem getRaftState_ok {d d' : Driver σ ρ κ H} {r} (h : getRaftState S d = .ok (d', r)) :
    ∃ st0, S.R.state d.raft = .ok st0 ∧ d' = d ∧ r = .ok (reported d st0) := by
  unfold getRaftState at h
  rcases M.bind_ok h with ⟨e, h1, _⟩ | ⟨d1, st0, h1, h2⟩
  · simp [askRaft, Run.bind_eq_ok] at h1
  · simp only [askRaft, Run.bind_eq_ok, Run.ok.injEq, Prod.mk.injEq, Except.ok.injEq] at h1
    obtain ⟨x, hx, rfl, rfl⟩ := h1
    rw [M.bind_run (d1 := d) (a := d) rfl] at h2
    simp only [M.pure_def, M.pure, Run.ok.injEq, Prod.mk.injEq] at h2
    exact ⟨x, hx, h2.1.symm, h2.2.symm⟩

/-- Reporting: exactly when the state differs from the one seen before. -/
theorem stashLeaderState_ok {d d' : Driver σ ρ κ H} (h : stashLeaderState S d = .ok (d', .ok ())) :
    ∃ st0 new, S.R.state d.raft = .ok st0 ∧ d'.raftState = reported d st0 ∧ d'.prevRaftState = d'.raftState ∧ d'.trace = d.trace ++ new ∧
      clusterReports (outMessages new) = if d.prevRaftState = reported d st0 then [] else [reported d st0] := by
  unfold stashLeaderState at h
  obtain ⟨d1, st, h1, h⟩ := M.bind_okOk h
  obtain ⟨st0, hst, rfl, hr⟩ := getRaftState_ok h1
  simp only [Except.ok.injEq] at hr
  subst hr
  rw [M.bind_run (d1 := { d1 with raftState := reported d1 st0 }) (a := ()) rfl] at h
  rw [M.bind_run (d1 := { d1 with raftState := reported d1 st0 }) (a := { d1 with raftState := reported d1 st0 }) rfl] at h
  refine ⟨st0, ?_⟩
  simp only at h
  split at h
  · rename_i hp
    simp only [M.pure_def, M.pure, Run.ok.injEq, Prod.mk.injEq, and_true] at h
    refine ⟨[], hst, by rw [← h], by rw [← h]; exact hp, by rw [← h]; simp, ?_⟩
    rw [if_pos hp]
    rfl
  · rename_i hp
    rw [M.bind_run (d1 := { d1 with raftState := reported d1 st0, prevRaftState := reported d1 st0 }) (a := ()) rfl] at h
    obtain ⟨d2, _, h2, h⟩ := M.bind_okOk h
    have hseen : Pres (Seen (reported d1 st0) (reported d1 st0)) (updateSnapshotClusterChange S) := by
      unfold updateSnapshotClusterChange
      refine pres_bind pres_get fun _ => ?_
      split
      · pres
      · exact pres_bind (pres_snap fun _ _ _ h _ => h) fun _ => seen_reportAll _
    have hs2 := hseen.run _ _ _ ⟨rfl, rfl⟩ h2
    obtain ⟨n1, t1, c1⟩ := adds_updateSnapshotClusterChange.clusterReports (by decide) h2
    rw [M.bind_run (d1 := d2) (a := d2) rfl] at h
    obtain ⟨d3, _, h3, h⟩ := M.bind_okOk h
    simp only [changeComm, M.modify, Run.ok.injEq, Prod.mk.injEq, and_true] at h3
    simp only [stash, M.modify, Run.ok.injEq, Prod.mk.injEq, and_true] at h
    refine ⟨n1 ++ [.commCluster d2.conf.voters, .out (.checkCluster (reported d1 st0))], hst, ?_, ?_, ?_, ?_⟩
    · rw [← h, ← h3]; exact hs2.2
    · rw [← h, ← h3]; exact hs2.1.trans hs2.2.symm
    · rw [← h, ← h3, ← hs2.2]
      have : d2.trace = d1.trace ++ n1 := t1
      simp [this]
    · rw [outMessages_append, clusterReports_append, c1, if_neg hp]
      rfl

theorem baseline_other {m : Option (InMsg H)} (h : m ≠ some .checkCluster) (prev : RaftState) : baseline m prev = prev := by
  unfold baseline
  split
  · exact absurd rfl h
  · rfl

/-- One call on a started replica. -/
theorem body_reports {m : Option (InMsg H)} {d d' : Driver σ ρ κ H} (hm : ∀ q, m ≠ some (.startReplica q))
    (hk : KeepsNode S.R) (hi : S.R.initialized d.raft = true) (he : d.ephemeral = false) (hs : d.state ≠ .created) (h : body S m d = .ok (d', .ok ())) :
    ∃ new, d'.trace = d.trace ++ new ∧
      (∃ st0, S.R.state d'.raft = .ok st0 ∧ d'.raftState = reported d' st0 ∧ d'.id = d.id ∧ d'.prevRaftState = d'.raftState ∧
        clusterReports (outMessages new) =
          if baseline m d.prevRaftState = d'.raftState then [] else [d'.raftState]) := by
  unfold body at h
  obtain ⟨d1, c, h1, h⟩ := M.bind_okOk h
  obtain ⟨d2, _, h2, h⟩ := M.bind_okOk h
  -- what dispatching does
  have hx : ∃ n1, d1.trace = d.trace ++ n1 ∧ clusterReports (outMessages n1) = [] ∧ Star S d d1 ∧ Node S d1 ∧
      Seen (baseline m d.prevRaftState) d.raftState d1 := by
    have hadd : ∃ n1, d1.trace = d.trace ++ n1 ∧ clusterReports (outMessages n1) = [] := by
      cases m with
      | none => exact Adds.clusterReports (adds_pure (L := [])) (by decide) h1
      | some m => exact (adds_dispatch m).clusterReports (by decide) h1
    obtain ⟨n1, t1, c1⟩ := hadd
    refine ⟨n1, t1, c1, ?_, ?_, ?_⟩
    · cases m with
      | none => exact (reaches_pure (S := S)).run _ _ h1
      | some m => exact (reaches_dispatch m d).run _ _ h1
    · cases m with
      | none => exact (pres_pure (I := Node S)).run _ _ _ hi h1
      | some m => exact (node_dispatch hk (m := m) (fun q hq => hm q (by rw [hq]))).run _ _ _ hi h1
    · by_cases hc : m = some .checkCluster
      · subst hc
        unfold dispatchOpt dispatch processCheckCluster at h1
        obtain ⟨da, _, ha, h1⟩ := M.bind_okOk h1
        simp only [M.pure_def, M.pure, Run.ok.injEq, Prod.mk.injEq] at h1
        rw [h1.1] at ha
        obtain ⟨db, _, hb, ha2⟩ := M.bind_okOk ha
        have hb' := checkState_ok hb
        obtain ⟨dc, _, hd, ha3⟩ := M.bind_okOk ha2
        have hd' := checkNonEphemeral_ok hd
        simp only [M.modify, Run.ok.injEq, Prod.mk.injEq] at ha3
        rw [← ha3.1, hd'.1, hb'.1]
        exact ⟨rfl, rfl⟩
      · rw [baseline_other hc]
        cases m with
        | none => exact (pres_pure (I := Seen d.prevRaftState d.raftState)).run _ _ _ ⟨rfl, rfl⟩ h1
        | some m =>
          exact (seen_dispatch (S := S) (m := m) (fun q hq => hm q (by rw [hq])) (fun hq => hc (by rw [hq]))).run _ _ _ ⟨rfl, rfl⟩ h1
  obtain ⟨n1, t1, c1, s1, i1, e1⟩ := hx
  obtain ⟨n2, t2, c2⟩ := (adds_runActor c).clusterReports (by decide) h2
  have e2 := (seen_runActor c).run _ _ _ e1 h2
  have s2 := (reaches_runActor c d1).run _ _ h2
  have i2 : SameId d d2 := (s1.trans s2).sameId hs
  unfold runRaft at h
  rw [M.bind_run (d1 := d2) (a := d2) rfl, i2.ephemeral, he] at h
  simp only [Bool.false_eq_true, if_false] at h
  obtain ⟨d3, _, h3, h⟩ := M.bind_okOk h
  obtain ⟨d4, _, h4, h⟩ := M.bind_okOk h
  obtain ⟨d5, _, h5, h6⟩ := M.bind_okOk h
  obtain ⟨n3, t3, c3⟩ := adds_processProposals.clusterReports (by decide) h3
  obtain ⟨n4, t4, c4⟩ := adds_processSnapshotProgress.clusterReports (by decide) h4
  obtain ⟨n6, t6, c6⟩ := adds_processSnapshotSending.clusterReports (by decide) h6
  have e4 := seen_processSnapshotProgress.run _ _ _ (seen_processProposals.run _ _ _ e2 h3) h4
  have i4 := (node_processSnapshotProgress hk).run _ _ _ ((node_processProposals hk).run _ _ _ ((node_runActor c).run _ _ _ i1 h2) h3) h4
  have s4 : Star S d d4 := (s1.trans s2).trans (((reaches_processProposals _).run _ _ h3).trans ((reaches_processSnapshotProgress _).run _ _ h4))
  have e6 : d'.raftState = d5.raftState := (seen_processSnapshotSending.run _ _ _ (show Seen d5.prevRaftState d5.raftState d5 from ⟨rfl, rfl⟩) h6).2
  have e7 : d'.prevRaftState = d5.prevRaftState := (seen_processSnapshotSending.run _ _ _ (show Seen d5.prevRaftState d5.raftState d5 from ⟨rfl, rfl⟩) h6).1
  unfold processStateMachine at h5
  rw [M.bind_run (d1 := d4) (a := d4) rfl] at h5
  split at h5
  · obtain ⟨d7, _, h7, h5⟩ := M.bind_okOk h5
    obtain ⟨d8, _, h8, h5⟩ := M.bind_okOk h5
    obtain ⟨n7, t7, c7⟩ := adds_advanceRaft.clusterReports (by decide) h7
    obtain ⟨n8, t8, c8⟩ := adds_maybeCreateSnapshot.clusterReports (by decide) h8
    have e8 := seen_maybeCreateSnapshot.run _ _ _ (seen_advanceRaft.run _ _ _ e4 h7) h8
    have s8 : Star S d d8 := s4.trans (((reaches_advanceRaft _).run _ _ h7).trans ((reaches_maybeCreateSnapshot _).run _ _ h8))
    obtain ⟨st0, n9, hst, hr, hp, t9, c9⟩ := stashLeaderState_ok h5
    have hfin : Status S st0 d8.conf.voters d8.id d' :=
      (status_processSnapshotSending hk).run _ _ _ ((status_stashLeaderState hk).run _ _ _ ⟨hst, rfl, rfl⟩ h5) h6
    refine ⟨n1 ++ n2 ++ n3 ++ n4 ++ n7 ++ n8 ++ n9 ++ n6, by rw [t6, t9, t8, t7, t4, t3, t2, t1]; simp [List.append_assoc],
      ⟨st0, hfin.1, by rw [e6, hr, reported, reported, hfin.2.1, hfin.2.2], hfin.2.2.trans (s8.sameId hs).id, e7.trans (hp.trans e6.symm), ?_⟩⟩
    simp only [outMessages_append, clusterReports_append, c1, c2, c3, c4, c6, c7, c8, c9, List.nil_append, List.append_nil, e6, hr, e8.1]
  · rename_i hi
    exact absurd i4 hi

/-! ## Stopped replicas -/

theorem star_stopped {d d' : Driver σ ρ κ H} (h : Star S d d') (hs : d.state = .stopped) :
    d'.state = .stopped ∧ ∃ new, d'.trace = d.trace ++ new ∧
      ∀ e ∈ new, ¬ IsCommand e ∧ (∀ ctx r, e ≠ .actorInit ctx r) ∧ (∀ ctx, e ≠ .actorShutdown ctx) := by
  refine h.all (I := fun d => d.state = .stopped) hs ?_
  intro a b hab ha
  refine ⟨hab.lifecycle.2 ha, ?_⟩
  cases hab with
  | quiet h => exact ⟨[], by simp [h.trace], by simp⟩
  | setup h => exact ⟨[], by simp [h.trace], by simp⟩
  | @actor a' c h hc =>
    refine ⟨_, rfl, ?_⟩
    simp only [List.mem_singleton, forall_eq]
    refine ⟨?_, by simp, by simp⟩
    cases c with
    | command ctx c res => exact absurd (hc.2.symm.trans ha) (by simp)
    | _ => simp [IsCommand]
  | @raft r' ev h => exact ⟨_, rfl, by cases ev <;> simp_all [IsCommand, RaftEv]⟩
  | @comm r' ev h => exact ⟨_, rfl, by cases ev <;> simp_all [IsCommand, CommEv]⟩
  | tick => exact ⟨_, rfl, by simp [IsCommand]⟩
  | out => exact ⟨_, rfl, by simp [IsCommand]⟩
  | init _ hc => rw [ha] at hc; cases hc
  | started hc => rw [ha] at hc; cases hc
  | stopped _ hc => exact absurd ha hc
  | lameduck => exact ⟨[], by simp, by simp⟩

theorem receive_stopped {instant : Nat} {m : Option (Option (InMsg H))} {d d' : Driver σ ρ κ H}
    {r : Except PalErr (Option (List (OutMsg H)))} (hs : d.state = .stopped) (h : receive S instant m d = .ok (d', r)) :
    d'.state = .stopped ∧ ∃ new, d'.trace = d.trace ++ new ∧
      ∀ e ∈ new, ¬ IsCommand e ∧ (∀ ctx r, e ≠ .actorInit ctx r) ∧ (∀ ctx, e ≠ .actorShutdown ctx) := by
  obtain ⟨d2, hst, hd⟩ := receive_star h
  obtain ⟨h1, new, ht, hn⟩ := star_stopped hst hs
  rcases hd with rfl | ⟨c', outs, _, _, rfl⟩
  · exact ⟨h1, new, ht, hn⟩
  · refine ⟨h1, new ++ outs.map fun m => .out (.comm m), by simp only [ht, List.append_assoc]; rfl, ?_⟩
    intro e he
    rcases List.mem_append.1 he with he | he
    · exact hn e he
    · obtain ⟨o, _, rfl⟩ := List.mem_map.1 he
      simp [IsCommand]

/-- Kinds of interactions with the actor. -/
def actorKinds : List K := [.actorInit, .actorShutdown, .command, .apply, .save, .load]

theorem Adds.noActor {L : List K} {m : M (Driver σ ρ κ H) α} (h : Adds L m) (hk : ∀ k ∈ actorKinds, k ∉ L) {d d' : Driver σ ρ κ H} {r}
    (hr : m d = .ok (d', r)) : ∃ new, d'.trace = d.trace ++ new ∧ ∀ e ∈ new, ¬ TouchesActor e := by
  obtain ⟨new, ht, hn⟩ := h.run _ _ _ hr
  refine ⟨new, ht, fun e he ha => ?_⟩
  have := hn e he
  cases e with
  | actor c => cases c <;> exact hk _ (by simp [actorKinds, kind]) this
  | actorInit => exact hk _ (by simp [actorKinds, kind]) this
  | actorShutdown => exact hk _ (by simp [actorKinds, kind]) this
  | _ => exact ha

/-- A stopped replica without replication leaves its actor alone. -/
theorem receive_stopped_ephemeral {instant : Nat} {m : Option (Option (InMsg H))} {d d' : Driver σ ρ κ H}
    {r : Except PalErr (Option (List (OutMsg H)))} (hs : d.state = .stopped) (he : d.ephemeral = true)
    (h : receive S instant m d = .ok (d', r)) : d'.actor = d.actor ∧ ∃ new, d'.trace = d.trace ++ new ∧ ∀ e ∈ new, ¬ TouchesActor e := by
  -- dispatching
  have hd : ∀ {m : Option (InMsg H)} {d d1 : Driver σ ρ κ H} {r}, d.state = .stopped → d.ephemeral = true →
      dispatchOpt S m d = .ok (d1, r) → d1.actor = d.actor ∧ ∃ new, d1.trace = d.trace ++ new ∧ ∀ e ∈ new, ¬ TouchesActor e := by
    intro m d d1 r hs he h1
    have refuse : ∀ {x : M (Driver σ ρ κ H) Unit} {e}, x d = .ok (d, .error e) →
        (x >>= fun _ => Pure.pure (none : Option ActorCommand)) d = .ok (d1, r) →
        d1.actor = d.actor ∧ ∃ new, d1.trace = d.trace ++ new ∧ ∀ e ∈ new, ¬ TouchesActor e := by
      intro x e hx h
      rw [M.bind_run_error hx] at h
      simp only [Run.ok.injEq, Prod.mk.injEq] at h
      exact ⟨by rw [← h.1], [], by simp [← h.1], by simp⟩
    have hns : d.state ≠ .started := by rw [hs]; simp
    cases m with
    | none =>
      simp only [dispatchOpt, M.pure_def, M.pure, Run.ok.injEq, Prod.mk.injEq] at h1
      exact ⟨by rw [← h1.1], [], by simp [← h1.1], by simp⟩
    | some m =>
      cases m with
      | startReplica q => exact refuse (M.bind_run_error (checkState_fail (by rw [hs]; simp))) h1
      | changeCluster a b c => exact refuse (M.bind_run_error (checkState_fail hns)) h1
      | checkCluster => exact refuse (M.bind_run_error (checkState_fail hns)) h1
      | systemMessage a b c => exact refuse (M.bind_run_error (checkState_fail hns)) h1
      | snapshotRequest a b c p => exact refuse (M.bind_run_error (checkNonEphemeral_fail he)) h1
      | snapshotResponse a b c p => exact refuse (M.bind_run_error (checkNonEphemeral_fail he)) h1
      | snapshotFailure a b => exact refuse (M.bind_run_error (checkNonEphemeral_fail he)) h1
      | getReplicaState => exact refuse (M.bind_run_error (checkState_fail hns)) h1
      | handshake a x => exact refuse (M.bind_run_error (checkState_fail hns)) h1
      | stopReplica =>
        have : processStop S d = .ok (d, .ok ()) := by
          unfold processStop
          rw [M.bind_run (d1 := d) (a := d) rfl, if_pos hs]
          rfl
        change (processStop S >>= fun _ => Pure.pure (none : Option ActorCommand)) d = _ at h1
        rw [M.bind_run this] at h1
        simp only [M.pure_def, M.pure, Run.ok.injEq, Prod.mk.injEq] at h1
        exact ⟨by rw [← h1.1], [], by simp [← h1.1], by simp⟩
      | enterLameduck =>
        change (M.modify (fun d => { d with lameduck := true }) >>= fun _ => Pure.pure (none : Option ActorCommand)) d = _ at h1
        rw [M.bind_run (d1 := { d with lameduck := true }) (a := ()) rfl] at h1
        simp only [M.pure_def, M.pure, Run.ok.injEq, Prod.mk.injEq] at h1
        exact ⟨by rw [← h1.1], [], by simp [← h1.1], by simp⟩
      | appMessage c =>
        simp only [dispatchOpt, dispatch, M.pure_def, M.pure, Run.ok.injEq, Prod.mk.injEq] at h1
        exact ⟨by rw [← h1.1], [], by simp [← h1.1], by simp⟩
  have hb : ∀ {m : Option (InMsg H)} {d1 : Driver σ ρ κ H} {r}, body S m (presetState S instant d) = .ok (d1, r) →
      d1.actor = d.actor ∧ ∃ new, d1.trace = d.trace ++ new ∧ ∀ e ∈ new, ¬ TouchesActor e := by
    intro m d1 r h
    unfold body at h
    rcases M.bind_ok h with ⟨e, h1, _⟩ | ⟨d2, c, h1, h2⟩
    · exact hd (d := presetState S instant d) hs he h1
    · have h3 := hd (d := presetState S instant d) hs he h1
      have hst : Star S (presetState S instant d) d2 := by
        cases m with
        | none => exact (reaches_pure (S := S)).run _ _ h1
        | some m => exact (reaches_dispatch m _).run _ _ h1
      have hs2 : d2.state = .stopped := hst.lifecycle.2 hs
      have he2 : d2.ephemeral = true := (hst.sameId (by rw [show (presetState S instant d).state = d.state from rfl, hs]; simp)).ephemeral.trans he
      have hra : runActor S c d2 = .ok (d2, .ok ()) := by
        unfold runActor
        rw [M.bind_run (d1 := d2) (a := d2) rfl, if_neg (by rw [hs2]; simp)]
        rfl
      have hrr : runRaft S d2 = .ok (d2, .ok ()) := by
        unfold runRaft
        rw [M.bind_run (d1 := d2) (a := d2) rfl, if_pos he2]
        rfl
      rw [M.bind_run hra, hrr] at h2
      simp only [Run.ok.injEq, Prod.mk.injEq] at h2
      rw [← h2.1]
      exact h3
  cases receive_outcome h with
  | unknown => exact ⟨rfl, [], by simp [presetState], by simp⟩
  | failed _ h1 => exact hb h1
  | done _ h1 ho =>
    obtain ⟨ha, new, ht, hn⟩ := hb h1
    refine ⟨ha, new ++ _, by simp only [ht, List.append_assoc]; rfl, ?_⟩
    intro e he
    rcases List.mem_append.1 he with he | he
    · exact hn e he
    · obtain ⟨o, _, rfl⟩ := List.mem_map.1 he
      simp [TouchesActor]

/-! ## Messages stepped into consensus -/

/-- Every consensus message the method steps satisfies the predicate. -/
structure StepsOnly (P : RaftMsg → Prop) (m : M (Driver σ ρ κ H) α) (d : Driver σ ρ κ H) : Prop where
  run : ∀ d' r, m d = .ok (d', r) → ∃ new, d'.trace = d.trace ++ new ∧ ∀ x, Ev.step x ∈ new → P x

theorem Adds.noSteps {P : RaftMsg → Prop} {L : List K} {m : M (Driver σ ρ κ H) α} (h : Adds L m) (hk : K.step ∉ L)
    (d : Driver σ ρ κ H) : StepsOnly P m d := ⟨by
  intro d' r hr
  obtain ⟨new, ht, hn⟩ := h.run _ _ _ hr
  exact ⟨new, ht, fun x hx => absurd (hn _ hx) hk⟩⟩

theorem steps_bind {P : RaftMsg → Prop} {m : M (Driver σ ρ κ H) α} {f : α → M (Driver σ ρ κ H) β} {d : Driver σ ρ κ H}
    (h1 : StepsOnly P m d) (h2 : ∀ a d1, m d = .ok (d1, .ok a) → StepsOnly P (f a) d1) : StepsOnly P (m >>= f) d := ⟨by
  intro d' r h
  rcases M.bind_ok h with ⟨e, hm, _⟩ | ⟨d1, a, hm, hf⟩
  · exact h1.run _ _ hm
  · obtain ⟨n1, t1, c1⟩ := h1.run _ _ hm
    obtain ⟨n2, t2, c2⟩ := (h2 a _ hm).run _ _ hf
    exact ⟨n1 ++ n2, by rw [t2, t1, List.append_assoc], fun x hx => (List.mem_append.1 hx).elim (c1 x) (c2 x)⟩⟩

/-- Where a consensus message stepped during a call comes from. -/
def StepSource (S : Sys σ ρ κ H) (m : Option (InMsg H)) (id : Nat) (x : RaftMsg) : Prop :=
  (∃ rcp snd pl k k' rcp' snd' p, m = some (.systemMessage rcp snd pl) ∧
    S.C.processIn k (.data ⟨.system, rcp, snd, pl⟩) = .ok (k', .ok (some (.data ⟨.system, rcp', snd', some p⟩))) ∧
    S.E.decRaft p.contents = some x) ∨
  (x.to = id ∧ x.type = .snapshot)

theorem steps_systemMessage {rcp snd : Nat} {pl : Option Comm.Payload} {id : Nat} (d : Driver σ ρ κ H) :
    StepsOnly (StepSource S (some (.systemMessage rcp snd pl)) id) (processSystemMessage S rcp snd pl) d := by
  unfold processSystemMessage
  refine steps_bind ((adds_checkState _).noSteps (by decide) d) fun _ d1 h1 => ?_
  refine steps_bind (adds_checkNonEphemeral.noSteps (by decide) d1) fun _ d2 h2 => ?_
  refine steps_bind ((adds_comm (L := [.commIn]) (by simp [kind])).noSteps (by decide) d2) fun up d3 h3 => ?_
  simp only [callComm, Run.bind_eq_ok, Run.ok.injEq, Prod.mk.injEq] at h3
  obtain ⟨x, hx, _, hr⟩ := h3
  split
  · exact (adds_pure (L := [])).noSteps (by decide) d3
  · rename_i rcp' snd' p
    unfold makeRaftStep
    split
    · exact (adds_pure (L := [])).noSteps (by decide) d3
    · rename_i msg hmsg
      refine steps_bind ⟨fun d' r h => ?_⟩ fun _ d4 _ => (adds_orFail (L := [])).noSteps (by decide) d4
      simp only [callRaft, Run.bind_eq_ok, Run.ok.injEq, Prod.mk.injEq] at h
      obtain ⟨_, _, h, _⟩ := h
      rw [← h]
      refine ⟨_, rfl, fun y hy => Or.inl ⟨rcp, snd, pl, d2.comm, x.1, rcp', snd', p, rfl, ?_, ?_⟩⟩
      · rw [hx, ← hr]
      · simp only [List.mem_singleton, Ev.step.injEq] at hy
        rw [hy]; exact hmsg
  · exact (adds_panic (L := [])).noSteps (by decide) d3
  · exact (adds_fail (L := [])).noSteps (by decide) d3

theorem steps_snapshotProgress {m : Option (InMsg H)} (d : Driver σ ρ κ H) :
    StepsOnly (StepSource S m d.id) (processSnapshotProgress S) d := by
  unfold processSnapshotProgress
  refine steps_bind ((adds_get (L := [])).noSteps (by decide) d) fun d1 d2 h => ?_
  simp only [M.get, Run.ok.injEq, Prod.mk.injEq, Except.ok.injEq] at h
  obtain ⟨rfl, rfl⟩ := h
  split
  · exact (adds_pure (L := [])).noSteps (by decide) _
  refine steps_bind ((adds_snap (L := [])).noSteps (by decide) _) fun b d3 _ => ?_
  split
  · refine steps_bind ((adds_snap (L := [])).noSteps (by decide) _) fun _ d4 _ => ?_
    refine Adds.noSteps (L := [.report]) ?_ (by decide) _
    adds
  · refine steps_bind ((adds_snap (L := [])).noSteps (by decide) _) fun _ d4 _ => ?_
    split
    · refine steps_bind ⟨fun d' r h => ?_⟩ fun _ d4 _ => (adds_pure (L := [])).noSteps (by decide) d4
      simp only [callRaft, Run.bind_eq_ok, Run.ok.injEq, Prod.mk.injEq] at h
      obtain ⟨_, _, h, _⟩ := h
      rw [← h]
      refine ⟨_, rfl, fun y hy => Or.inr ?_⟩
      simp only [List.mem_singleton, Ev.step.injEq] at hy
      rw [hy]
      exact ⟨rfl, rfl⟩
    · exact (adds_pure (L := [])).noSteps (by decide) _

theorem steps_dispatch (m : Option (InMsg H)) (id : Nat) (d : Driver σ ρ κ H) : StepsOnly (StepSource S m id) (dispatchOpt S m) d := by
  have key : ∀ {L : List K} {x : M (Driver σ ρ κ H) Unit}, Adds L x → K.step ∉ L →
      StepsOnly (StepSource S m id) (x >>= fun _ => Pure.pure (none : Option ActorCommand)) d := fun hx hL =>
    Adds.noSteps (adds_bind hx fun _ => adds_pure) hL d
  cases m with
  | none => exact (adds_pure (L := [])).noSteps (by decide) d
  | some m =>
    cases m with
    | systemMessage a b c =>
      exact steps_bind (steps_systemMessage d) fun _ d1 _ => (adds_pure (L := [])).noSteps (by decide) d1
    | startReplica q => exact key (adds_processStart q) (by decide)
    | stopReplica => exact key adds_processStop (by decide)
    | enterLameduck =>
      refine key (L := []) (adds_modify ?_) (by decide)
      intro _; rfl
    | changeCluster a b c => exact key (adds_processChangeCluster a b c) (by decide)
    | checkCluster => exact key adds_processCheckCluster (by decide)
    | snapshotRequest a b c p => exact key (adds_processSnapshotRequest a b c p) (by decide)
    | snapshotResponse a b c p => exact key (adds_processSnapshotResponse a b c p) (by decide)
    | snapshotFailure a b => exact key (adds_processSnapshotFailure a b) (by decide)
    | getReplicaState => exact key adds_processGetReplicaState (by decide)
    | handshake a x => exact key (adds_processHandshake a x) (by decide)
    | appMessage c => exact (adds_pure (L := [])).noSteps (by decide) d

theorem steps_body {m : Option (InMsg H)} {d : Driver σ ρ κ H} (hs : d.state ≠ .created) :
    StepsOnly (StepSource S m d.id) (body S m) d := by
  unfold body
  refine steps_bind (steps_dispatch m d.id d) fun c d1 h1 => ?_
  have s1 : Star S d d1 := by
    cases m with
    | none => exact (reaches_pure (S := S)).run _ _ h1
    | some m => exact (reaches_dispatch m _).run _ _ h1
  refine steps_bind ((adds_runActor c).noSteps (by decide) d1) fun _ d2 h2 => ?_
  have s2 := s1.trans ((reaches_runActor _ _).run _ _ h2)
  unfold runRaft
  refine steps_bind ((adds_get (L := [])).noSteps (by decide) d2) fun d3 d4 h => ?_
  simp only [M.get, Run.ok.injEq, Prod.mk.injEq, Except.ok.injEq] at h
  obtain ⟨rfl, rfl⟩ := h
  split
  · exact (adds_pure (L := [])).noSteps (by decide) _
  refine steps_bind (adds_processProposals.noSteps (by decide) _) fun _ d5 h5 => ?_
  have s5 := s2.trans ((reaches_processProposals _).run _ _ h5)
  refine steps_bind ?_ fun _ d6 _ => steps_bind (adds_processStateMachine.noSteps (by decide) _) fun _ d7 _ =>
    adds_processSnapshotSending.noSteps (by decide) _
  have := steps_snapshotProgress (S := S) (m := m) d5
  rwa [(s5.sameId hs).id] at this

end TCP.Drv
