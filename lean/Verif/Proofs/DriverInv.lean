import Verif.Proofs.DriverTrace
import Verif.Spec.Driver

/-! # Invariants of the driver -/

namespace TCP.Drv

open TCP TCP.ActorSpec TCP.DrvSpec

variable {σ ρ κ H α β : Type} {S : Sys σ ρ κ H}

/-! ## Consequences of the elementary steps -/

theorem Atom.trace {d d' : Driver σ ρ κ H} (h : Atom S d d') : ∃ new, d'.trace = d.trace ++ new := by
  cases h with
  | quiet h => exact ⟨[], by simp [h.trace]⟩
  | setup h => exact ⟨[], by simp [h.trace]⟩
  | actor => exact ⟨_, rfl⟩
  | raft => exact ⟨_, rfl⟩
  | tick => exact ⟨_, rfl⟩
  | comm => exact ⟨_, rfl⟩
  | out => exact ⟨_, rfl⟩
  | init => exact ⟨_, rfl⟩
  | started => exact ⟨[], by simp⟩
  | stopped => exact ⟨_, rfl⟩
  | lameduck => exact ⟨[], by simp⟩

theorem Star.trace {d d' : Driver σ ρ κ H} (h : Star S d d') : ∃ new, d'.trace = d.trace ++ new := by
  induction h with
  | refl => exact ⟨[], by simp⟩
  | step h _ ih =>
    obtain ⟨n1, e1⟩ := h.trace
    obtain ⟨n2, e2⟩ := ih
    exact ⟨n1 ++ n2, by rw [e2, e1, List.append_assoc]⟩

/-- A statement about new interactions that holds for each elementary step holds for all of them. -/
theorem Star.all {P : Ev H → Prop} {I : Driver σ ρ κ H → Prop} {d d' : Driver σ ρ κ H} (h : Star S d d') (hI : I d)
    (step : ∀ d d', Atom S d d' → I d → I d' ∧ ∃ new, d'.trace = d.trace ++ new ∧ ∀ e ∈ new, P e) :
    I d' ∧ ∃ new, d'.trace = d.trace ++ new ∧ ∀ e ∈ new, P e := by
  induction h with
  | refl => exact ⟨hI, [], by simp, by simp⟩
  | step h _ ih =>
    obtain ⟨h1, n1, e1, g1⟩ := step _ _ h hI
    obtain ⟨h2, n2, e2, g2⟩ := ih h1
    exact ⟨h2, n1 ++ n2, by rw [e2, e1, List.append_assoc], fun e he => (List.mem_append.1 he).elim (g1 e) (g2 e)⟩

theorem Atom.clock {d d' : Driver σ ρ κ H} (h : Atom S d d') :
    d'.instant = d.instant ∧ d'.ctx.instant = d.ctx.instant ∧ d'.ctx.leader = d.ctx.leader := by
  cases h with
  | quiet h => exact ⟨h.instant, by rw [h.ctx], by rw [h.ctx]⟩
  | setup h => exact ⟨h.instant, h.ctxInstant, h.ctxLeader⟩
  | _ => exact ⟨rfl, rfl, rfl⟩

theorem Star.clock {d d' : Driver σ ρ κ H} (h : Star S d d') :
    d'.instant = d.instant ∧ d'.ctx.instant = d.ctx.instant ∧ d'.ctx.leader = d.ctx.leader := by
  induction h with
  | refl => exact ⟨rfl, rfl, rfl⟩
  | step h _ ih =>
    obtain ⟨a, b, c⟩ := h.clock
    exact ⟨ih.1.trans a, ih.2.1.trans b, ih.2.2.trans c⟩

/-- The lifecycle only moves forward. -/
theorem Atom.lifecycle {d d' : Driver σ ρ κ H} (h : Atom S d d') :
    (d.state ≠ .created → d'.state ≠ .created) ∧ (d.state = .stopped → d'.state = .stopped) := by
  cases h with
  | quiet h => rw [h.state]; exact ⟨id, id⟩
  | setup h => rw [h.state]; exact ⟨id, id⟩
  | started hs => exact ⟨fun _ => by simp, fun h => by rw [hs] at h; cases h⟩
  | stopped => exact ⟨fun _ => by simp, fun _ => rfl⟩
  | _ => exact ⟨id, id⟩

theorem Star.lifecycle {d d' : Driver σ ρ κ H} (h : Star S d d') :
    (d.state ≠ .created → d'.state ≠ .created) ∧ (d.state = .stopped → d'.state = .stopped) := by
  induction h with
  | refl => exact ⟨id, id⟩
  | step h _ ih => exact ⟨fun g => ih.1 (h.lifecycle.1 g), fun g => ih.2 (h.lifecycle.2 g)⟩

/-- Once started, the identity of a replica does not change. -/
structure SameId (d d' : Driver σ ρ κ H) : Prop where
  id : d'.id = d.id
  ctxId : d'.ctx.id = d.ctx.id
  config : d'.ctx.config = d.ctx.config
  ephemeral : d'.ephemeral = d.ephemeral
  tickPeriod : d'.tickPeriod = d.tickPeriod

theorem SameId.refl (d : Driver σ ρ κ H) : SameId d d := ⟨rfl, rfl, rfl, rfl, rfl⟩

theorem SameId.trans {a b c : Driver σ ρ κ H} (h : SameId a b) (g : SameId b c) : SameId a c :=
  ⟨g.id.trans h.id, g.ctxId.trans h.ctxId, g.config.trans h.config, g.ephemeral.trans h.ephemeral, g.tickPeriod.trans h.tickPeriod⟩

theorem Atom.sameId {d d' : Driver σ ρ κ H} (h : Atom S d d') (hs : d.state ≠ .created) : SameId d d' := by
  cases h with
  | quiet h => exact ⟨h.id, by rw [h.ctx], by rw [h.ctx], h.ephemeral, h.tickPeriod⟩
  | setup h => exact absurd h.created hs
  | _ => exact ⟨rfl, rfl, rfl, rfl, rfl⟩

theorem Star.sameId {d d' : Driver σ ρ κ H} (h : Star S d d') (hs : d.state ≠ .created) : SameId d d' := by
  induction h with
  | refl => exact .refl _
  | step h _ ih => exact (h.sameId hs).trans (ih (h.lifecycle.1 hs))

/-! ## Preserved predicates -/

/-- The method preserves a predicate. -/
structure Pres (I : Driver σ ρ κ H → Prop) (m : M (Driver σ ρ κ H) α) : Prop where
  run : ∀ d d' r, I d → m d = .ok (d', r) → I d'

section
variable {I : Driver σ ρ κ H → Prop}

theorem pres_pure {a : α} : Pres I (Pure.pure a) := ⟨by
  intro d d' r hi h
  simp only [M.pure_def, M.pure, Run.ok.injEq, Prod.mk.injEq] at h
  rw [← h.1]; exact hi⟩

theorem pres_mpure {a : α} : Pres I (M.pure a) := pres_pure

theorem pres_fail {e : PalErr} : Pres I (M.fail e : M _ α) := ⟨by
  intro d d' r hi h
  simp only [M.fail, Run.ok.injEq, Prod.mk.injEq] at h
  rw [← h.1]; exact hi⟩

theorem pres_panic : Pres I (M.panic : M _ α) := ⟨by intro d d' r _ h; simp [M.panic] at h⟩

theorem pres_orFail {ε : Type} {r : Except ε α} {e : PalErr} : Pres I (M.orFail r e) := by
  unfold M.orFail; split
  · exact pres_mpure
  · exact pres_fail

theorem pres_get : Pres I M.get := ⟨by
  intro d d' r hi h
  simp only [M.get, Run.ok.injEq, Prod.mk.injEq] at h
  rw [← h.1]; exact hi⟩

theorem pres_modify {f : Driver σ ρ κ H → Driver σ ρ κ H} (h : ∀ d, I d → I (f d)) : Pres I (M.modify f) := ⟨by
  intro d d' r hi hd
  simp only [M.modify, Run.ok.injEq, Prod.mk.injEq] at hd
  rw [← hd.1]; exact h d hi⟩

theorem pres_bind {m : M (Driver σ ρ κ H) α} {f : α → M (Driver σ ρ κ H) β} (h1 : Pres I m) (h2 : ∀ a, Pres I (f a)) :
    Pres I (m >>= f) := ⟨by
  intro d d' r hi h
  rcases M.bind_ok h with ⟨e, hm, _⟩ | ⟨d1, a, hm, hf⟩
  · exact h1.run _ _ _ hi hm
  · exact (h2 a).run _ _ _ (h1.run _ _ _ hi hm) hf⟩

theorem pres_ask {f : ρ → Run β} : Pres I (askRaft f) := ⟨by
  intro d d' r hi h
  simp only [askRaft, Run.bind_eq_ok, Run.ok.injEq, Prod.mk.injEq] at h
  obtain ⟨_, _, h, _⟩ := h
  rw [← h]; exact hi⟩

theorem pres_raft {f : ρ → Run (ρ × β)} {ev : β → Ev H} (h : ∀ d r' b, I d → I { d with raft := r', trace := d.trace ++ [ev b] }) :
    Pres I (callRaft f ev) := ⟨by
  intro d d' r hi hd
  simp only [callRaft, Run.bind_eq_ok, Run.ok.injEq, Prod.mk.injEq] at hd
  obtain ⟨_, _, hd, _⟩ := hd
  rw [← hd]; exact h _ _ _ hi⟩

theorem pres_raftU {f : ρ → Run ρ} {ev : Ev H} (h : ∀ d r', I d → I { d with raft := r', trace := d.trace ++ [ev] }) :
    Pres I (callRaftU f ev) := pres_raft fun d r' _ => h d r'

theorem pres_actor {f : ActorCtx → σ → Run (σ × β)} {ev : ActorCtx → β → Ev H}
    (h : ∀ d a' b, I d → I { d with actor := a', trace := d.trace ++ [ev d.ctx b] }) : Pres I (callActor f ev) := ⟨by
  intro d d' r hi hd
  simp only [callActor, Run.bind_eq_ok, Run.ok.injEq, Prod.mk.injEq] at hd
  obtain ⟨_, _, hd, _⟩ := hd
  rw [← hd]; exact h _ _ _ hi⟩

theorem pres_comm {f : κ → Run (κ × Except PalErr β)} {ev : Ev H} (h : ∀ d c', I d → I { d with comm := c', trace := d.trace ++ [ev] }) :
    Pres I (callComm f ev) := ⟨by
  intro d d' r hi hd
  simp only [callComm, Run.bind_eq_ok, Run.ok.injEq, Prod.mk.injEq] at hd
  obtain ⟨_, _, hd, _⟩ := hd
  rw [← hd]; exact h _ _ hi⟩

theorem pres_changeComm {f : κ → κ} {ev : Ev H} (h : ∀ d c', I d → I { d with comm := c', trace := d.trace ++ [ev] }) :
    Pres I (changeComm f ev) := pres_modify fun d hi => h d _ hi

theorem pres_stash {m : OutMsg H} (h : ∀ d, I d → I { d with messages := d.messages ++ [m], trace := d.trace ++ [.out m] }) :
    Pres I (stash m) := pres_modify h

theorem pres_stashCommands (h : ∀ d m, I d → I { d with messages := d.messages ++ [m], trace := d.trace ++ [.out m] })
    (cs : List ActorCommand) : Pres I (stashCommands cs) := by
  induction cs with
  | nil => exact pres_pure
  | cons c cs ih => exact pres_bind (pres_stash fun d => h d _) fun _ => ih

theorem pres_snap {f : Snap.Processor → Run (Snap.Processor × β)} (h : ∀ d p b, I d → f d.snap = .ok (p, b) → I { d with snap := p }) :
    Pres I (callSnap f) := ⟨by
  intro d d' r hi hd
  simp only [callSnap, Run.bind_eq_ok, Run.ok.injEq, Prod.mk.injEq] at hd
  obtain ⟨x, hx, hd, _⟩ := hd
  rw [← hd]; exact h _ _ _ hi hx⟩

theorem pres_when {b : Bool} {m : M (Driver σ ρ κ H) Unit} (h : Pres I m) : Pres I (M.when b m) := by
  unfold M.when; split
  · exact h
  · exact pres_mpure

theorem pres_opt {o : Option α} {f : α → M (Driver σ ρ κ H) Unit} (h : ∀ a, Pres I (f a)) : Pres I (M.opt o f) := by
  unfold M.opt; split
  · exact h _
  · exact pres_mpure

end

/-- Discharge a goal `Pres I m` whose predicate ignores what the method changes. -/
macro "pres" : tactic => `(tactic| repeat (first
  | with_reducible first
    | exact pres_pure | exact pres_mpure | exact pres_fail | exact pres_panic | exact pres_orFail | exact pres_get | exact pres_ask
    | refine pres_raft ?_ | refine pres_raftU ?_ | refine pres_actor ?_ | refine pres_comm ?_ | refine pres_snap ?_
    | refine pres_changeComm ?_ | refine pres_stash ?_ | refine pres_stashCommands ?_ _ | refine pres_modify ?_
    | refine pres_bind ?_ ?_ | refine pres_when ?_ | refine pres_opt ?_ | split
  | exact fun _ h => h | exact fun _ _ h => h | exact fun _ _ _ h => h | exact fun _ _ _ h _ => h
  | with_reducible intro _))

/-! ## A replica that is not started -/

/-- The snapshot processor has not been initialised. -/
def NoRole (d : Driver σ ρ κ H) : Prop := d.snap.role = .unknown

theorem isSender_unknown {p : Snap.Processor} (h : p.role = .unknown) : isSender p = .panic := by simp [isSender, h]

theorem norole_getRaftState : Pres NoRole (getRaftState S) := by unfold getRaftState; pres
theorem norole_proposeAll (bs : List Bytes) : Pres NoRole (proposeAll S bs) := by
  induction bs with
  | nil => exact pres_pure
  | cons b bs ih => exact pres_bind (by unfold makeRaftProposal; pres) fun _ => ih
theorem norole_processProposals : Pres NoRole (processProposals S) := by
  unfold processProposals
  refine pres_bind pres_get fun _ => pres_bind (pres_modify fun _ h => h) fun _ => norole_proposeAll _
theorem norole_applyEntries (es : List Entry) : Pres NoRole (applyEntries S es) := by
  induction es with
  | nil => exact pres_pure
  | cons b bs ih => exact pres_bind (by unfold applyEntry; pres) fun _ => ih
theorem norole_sendRaftMessages (es : List RaftMsg) : Pres NoRole (sendRaftMessages S es) := by
  induction es with
  | nil => exact pres_pure
  | cons b bs ih => exact pres_bind (by unfold sendRaftMessage; pres) fun _ => ih
theorem norole_processReady : Pres NoRole (processReady S) := by
  unfold processReady
  refine pres_bind (pres_raft fun _ _ _ h => h) fun ready => ?_
  refine pres_bind (norole_sendRaftMessages _) fun _ => ?_
  refine pres_bind (pres_opt fun _ => pres_raftU fun _ _ h => h) fun _ => ?_
  refine pres_bind (by unfold restoreRaftSnapshot; pres) fun _ => ?_
  refine pres_bind (norole_applyEntries _) fun _ => ?_
  refine pres_bind (norole_sendRaftMessages _) fun _ => ?_
  refine pres_bind (pres_when (by pres)) fun _ => ?_
  refine pres_bind (pres_raft fun _ _ _ h => h) fun light => ?_
  refine pres_bind (norole_sendRaftMessages _) fun _ => ?_
  refine pres_bind (norole_applyEntries _) fun _ => ?_
  exact pres_raftU fun _ _ h => h
theorem norole_reportAll (rs : List (Nat × Snap.Status)) : Pres NoRole (reportAll S rs) := by
  induction rs with
  | nil => exact pres_pure
  | cons b bs ih => exact pres_bind (pres_raftU fun _ _ h => h) fun _ => ih

theorem clusterChange_unknown {p p' : Snap.Processor} {a b : Nat} {rs : List Nat} {u : List (Nat × Snap.Status)}
    (h : p.role = .unknown) : p.clusterChange a b rs ≠ .ok (p', u) := by
  simp [Snap.Processor.clusterChange, h]

theorem norole_processStateMachine : Pres NoRole (processStateMachine S) := by
  unfold processStateMachine
  refine pres_bind pres_get fun _ => ?_
  split
  · refine pres_bind ?_ fun _ => pres_bind ?_ fun _ => ?_
    · unfold advanceRaft
      refine pres_bind pres_get fun _ => ?_
      refine pres_bind (pres_when (by unfold triggerRaftTick; pres)) fun _ => ?_
      exact pres_bind pres_ask fun _ => pres_when norole_processReady
    · unfold maybeCreateSnapshot; pres
    · unfold stashLeaderState
      refine pres_bind norole_getRaftState fun _ => ?_
      refine pres_bind (pres_modify fun _ h => h) fun _ => ?_
      refine pres_bind pres_get fun _ => ?_
      split
      · pres
      · refine pres_bind (pres_modify fun _ h => h) fun _ => ?_
        refine pres_bind ?_ fun _ => by pres
        unfold updateSnapshotClusterChange
        refine pres_bind pres_get fun _ => ?_
        split
        · pres
        · refine pres_bind (pres_snap fun d p b hd hp => ?_) fun _ => norole_reportAll _
          exact absurd hp (clusterChange_unknown hd)
  · exact pres_pure

theorem norole_processSnapshotProgress : Pres NoRole (processSnapshotProgress S) := by
  unfold processSnapshotProgress
  refine pres_bind pres_get fun _ => ?_
  split
  · pres
  · refine ⟨fun d d' r hd h => ?_⟩
    rw [M.bind_run_panic] at h
    · cases h
    · simp [callSnap, isSender_unknown hd]

theorem norole_processSnapshotSending (d : Driver σ ρ κ H) (h : NoRole d) : processSnapshotSending S d = .panic := by
  unfold processSnapshotSending
  rw [M.bind_run (d1 := d) (a := d) rfl, M.bind_run (d1 := { d with snapshots := [] }) (a := ()) rfl]
  exact M.bind_run_panic (by
    have : isSender d.snap = .panic := isSender_unknown h
    simp [callSnap, this])

/-- Without a snapshot processor no call gets through the consensus part. -/
theorem norole_runRaft {d d' : Driver σ ρ κ H} (h : NoRole d) (he : d.ephemeral = false) : runRaft S d ≠ .ok (d', .ok ()) := by
  intro hr
  unfold runRaft at hr
  rw [M.bind_run (d1 := d) (a := d) rfl, he] at hr
  simp only [Bool.false_eq_true, if_false] at hr
  obtain ⟨d1, _, h1, hr⟩ := M.bind_okOk hr
  obtain ⟨d2, _, h2, hr⟩ := M.bind_okOk hr
  obtain ⟨d3, _, h3, hr⟩ := M.bind_okOk hr
  have g := norole_processStateMachine.run _ _ _ (norole_processSnapshotProgress.run _ _ _ (norole_processProposals.run _ _ _ h h1) h2) h3
  rw [norole_processSnapshotSending _ g] at hr
  cases hr

/-- Not started: no snapshot processor, not ephemeral. -/
def Unstarted (d : Driver σ ρ κ H) : Prop := d.snap.role = .unknown ∧ d.ephemeral = false

theorem unstarted_checkState {l : Lifecycle} : Pres (Unstarted (σ := σ) (ρ := ρ) (κ := κ) (H := H)) (checkState l) := by
  unfold checkState; pres
theorem unstarted_checkNonEphemeral : Pres (Unstarted (σ := σ) (ρ := ρ) (κ := κ) (H := H)) checkNonEphemeral := by
  unfold checkNonEphemeral; pres

theorem snap_isSender {p p' : Snap.Processor} {f : Bool → Run (Snap.Processor × β)} {b : β} (h : p.role = .unknown) :
    (isSender p).bind f ≠ .ok (p', b) := by
  rw [isSender_unknown h]; simp

theorem unstarted_dispatch {m : InMsg H} (hm : ∀ r, m ≠ .startReplica r) : Pres Unstarted (dispatch S m) := by
  cases m with
  | startReplica r => exact absurd rfl (hm r)
  | stopReplica => unfold dispatch processStop; pres
  | enterLameduck => unfold dispatch; pres
  | changeCluster a b c =>
    unfold dispatch processChangeCluster changeStatus makeConfChangeProposal
    refine pres_bind (pres_bind unstarted_checkState fun _ => pres_bind unstarted_checkNonEphemeral fun _ => ?_) fun _ => pres_pure
    pres
  | checkCluster =>
    unfold dispatch processCheckCluster
    refine pres_bind (pres_bind unstarted_checkState fun _ => pres_bind unstarted_checkNonEphemeral fun _ => ?_) fun _ => pres_pure
    pres
  | systemMessage a b p =>
    unfold dispatch processSystemMessage
    refine pres_bind (pres_bind unstarted_checkState fun _ => pres_bind unstarted_checkNonEphemeral fun _ => ?_) fun _ => pres_pure
    refine pres_bind (pres_comm fun _ _ h => h) fun up => ?_
    split
    · pres
    · unfold makeRaftStep; pres
    · pres
    · pres
  | snapshotRequest a b c p =>
    unfold dispatch processSnapshotRequest
    refine pres_bind (pres_bind unstarted_checkNonEphemeral fun _ => ?_) fun _ => pres_pure
    refine pres_bind (pres_comm fun _ _ h => h) fun up => ?_
    split
    · pres
    · refine pres_bind (pres_snap fun d p b hd hp => ?_) fun _ => pres_comm fun _ _ h => h
      exact absurd hp (snap_isSender hd.1)
    · pres
  | snapshotResponse a b c p =>
    unfold dispatch processSnapshotResponse
    refine pres_bind (pres_bind unstarted_checkNonEphemeral fun _ => ?_) fun _ => pres_pure
    refine pres_bind (pres_comm fun _ _ h => h) fun up => ?_
    split
    · pres
    · refine pres_snap fun d p b hd hp => ?_
      exact absurd hp (snap_isSender hd.1)
    · pres
  | snapshotFailure a b =>
    unfold dispatch processSnapshotFailure
    refine pres_bind (pres_bind unstarted_checkNonEphemeral fun _ => ?_) fun _ => pres_pure
    refine pres_snap fun d p b hd hp => ?_
    exact absurd hp (snap_isSender hd.1)
  | getReplicaState =>
    unfold dispatch processGetReplicaState
    refine pres_bind (pres_bind unstarted_checkState fun _ => ?_) fun _ => pres_pure
    pres
  | handshake a h =>
    unfold dispatch processHandshake
    refine pres_bind (pres_bind unstarted_checkState fun _ => ?_) fun _ => pres_pure
    pres
  | appMessage c => unfold dispatch; pres

theorem processStart_started {r : StartReq} {d d' : Driver σ ρ κ H} {a : Unit} (h : processStart S r d = .ok (d', .ok a)) :
    d'.state = .started := by
  unfold processStart at h
  obtain ⟨_, _, _, h⟩ := M.bind_okOk h
  obtain ⟨_, _, _, h⟩ := M.bind_okOk h
  obtain ⟨_, _, _, h⟩ := M.bind_okOk h
  obtain ⟨_, _, _, h⟩ := M.bind_okOk h
  obtain ⟨_, _, _, h⟩ := M.bind_okOk h
  obtain ⟨_, _, _, h⟩ := M.bind_okOk h
  obtain ⟨_, _, _, h⟩ := M.bind_okOk h
  obtain ⟨_, _, _, h⟩ := M.bind_okOk h
  obtain ⟨d1, _, h1, h⟩ := M.bind_okOk h
  simp only [M.modify, Run.ok.injEq, Prod.mk.injEq] at h1
  obtain ⟨d2, _, h2, h⟩ := M.bind_okOk h
  simp only [M.get, Run.ok.injEq, Prod.mk.injEq] at h2
  rw [keeps_stash.run _ _ _ h, ← h2.1, ← h1.1]

theorem unstarted_runActor {c : Option ActorCommand} {d d' : Driver σ ρ κ H} {r : Except PalErr Unit} (hs : d.state ≠ .started)
    (h : runActor S c d = .ok (d', r)) : d' = d := by
  unfold runActor at h
  rw [M.bind_run (d1 := d) (a := d) rfl] at h
  simp only [if_neg hs, M.pure_def, M.pure, Run.ok.injEq, Prod.mk.injEq] at h
  exact h.1.symm

/-- Only a start request starts a replica. -/
def NotStarted (d : Driver σ ρ κ H) : Prop := d.state ≠ .started

theorem notStarted_checkState {l : Lifecycle} : Pres (NotStarted (σ := σ) (ρ := ρ) (κ := κ) (H := H)) (checkState l) := by
  unfold checkState; pres
theorem notStarted_checkNonEphemeral : Pres (NotStarted (σ := σ) (ρ := ρ) (κ := κ) (H := H)) checkNonEphemeral := by
  unfold checkNonEphemeral; pres

theorem notStarted_dispatch {m : InMsg H} (hm : ∀ r, m ≠ .startReplica r) : Pres NotStarted (dispatch S m) := by
  cases m with
  | startReplica r => exact absurd rfl (hm r)
  | stopReplica =>
    unfold dispatch processStop
    refine pres_bind (pres_bind pres_get fun _ => ?_) fun _ => pres_pure
    split
    · pres
    · refine pres_bind (pres_actor fun _ _ _ h => h) fun _ => ?_
      exact pres_bind (pres_modify fun _ _ => by simp [NotStarted]) fun _ => pres_stash fun _ h => h
  | enterLameduck => unfold dispatch; pres
  | changeCluster a b c =>
    unfold dispatch processChangeCluster changeStatus makeConfChangeProposal
    refine pres_bind (pres_bind notStarted_checkState fun _ => pres_bind notStarted_checkNonEphemeral fun _ => ?_) fun _ => pres_pure
    pres
  | checkCluster =>
    unfold dispatch processCheckCluster
    refine pres_bind (pres_bind notStarted_checkState fun _ => pres_bind notStarted_checkNonEphemeral fun _ => ?_) fun _ => pres_pure
    pres
  | systemMessage a b p =>
    unfold dispatch processSystemMessage
    refine pres_bind (pres_bind notStarted_checkState fun _ => pres_bind notStarted_checkNonEphemeral fun _ => ?_) fun _ => pres_pure
    refine pres_bind (pres_comm fun _ _ h => h) fun up => ?_
    split
    · pres
    · unfold makeRaftStep; pres
    · pres
    · pres
  | snapshotRequest a b c p =>
    unfold dispatch processSnapshotRequest
    refine pres_bind (pres_bind notStarted_checkNonEphemeral fun _ => ?_) fun _ => pres_pure
    refine pres_bind (pres_comm fun _ _ h => h) fun up => ?_
    split
    · pres
    · exact pres_bind (pres_snap fun _ _ _ h _ => h) fun _ => pres_comm fun _ _ h => h
    · pres
  | snapshotResponse a b c p =>
    unfold dispatch processSnapshotResponse
    refine pres_bind (pres_bind notStarted_checkNonEphemeral fun _ => ?_) fun _ => pres_pure
    refine pres_bind (pres_comm fun _ _ h => h) fun up => ?_
    split
    · pres
    · exact pres_snap fun _ _ _ h _ => h
    · pres
  | snapshotFailure a b =>
    unfold dispatch processSnapshotFailure
    refine pres_bind (pres_bind notStarted_checkNonEphemeral fun _ => ?_) fun _ => pres_pure
    exact pres_snap fun _ _ _ h _ => h
  | getReplicaState =>
    unfold dispatch processGetReplicaState
    refine pres_bind (pres_bind notStarted_checkState fun _ => ?_) fun _ => pres_pure
    pres
  | handshake a h =>
    unfold dispatch processHandshake
    refine pres_bind (pres_bind notStarted_checkState fun _ => ?_) fun _ => pres_pure
    pres
  | appMessage c => unfold dispatch; pres

/-- A call on a replica that was never started returns only for a start request. -/
theorem body_unstarted {m : Option (InMsg H)} {d d' : Driver σ ρ κ H} (hs : d.state = .created) (hu : Unstarted d)
    (h : body S m d = .ok (d', .ok ())) : ∃ r, m = some (.startReplica r) := by
  unfold body at h
  obtain ⟨d1, c, h1, hb⟩ := M.bind_okOk h
  obtain ⟨d2, _, h2, hc⟩ := M.bind_okOk hb
  cases m with
  | none =>
    simp only [dispatchOpt, M.pure_def, M.pure, Run.ok.injEq, Prod.mk.injEq] at h1
    rw [← h1.1] at h2
    have := unstarted_runActor (by rw [hs]; simp) h2
    subst this
    exact absurd hc (norole_runRaft hu.1 hu.2)
  | some m =>
    cases hm : m with
    | startReplica r => exact ⟨r, rfl⟩
    | _ =>
      exfalso
      have hm' : ∀ r, m ≠ .startReplica r := by intro r; rw [hm]; simp
      have hu1 := (unstarted_dispatch (S := S) hm').run _ _ _ hu h1
      have hs1 : d1.state ≠ .started := (notStarted_dispatch (S := S) hm').run _ _ _ (by simp [NotStarted, hs]) h1
      have := unstarted_runActor hs1 h2
      subst this
      exact norole_runRaft hu1.1 hu1.2 hc

end TCP.Drv
