import Verif.Model.Driver

/-!
# The driver as a sequence of elementary steps

Every method of the driver is a sequence of `Atom`s, whether it returns or fails.  Properties of single interactions (who may
call the actor when, pacing of ticks, what is added to the outbox) follow by going through the atoms once.
-/

namespace TCP.Drv

open TCP TCP.ActorSpec

variable {σ ρ κ H α β : Type}

/-! ## Equations of the monad -/

theorem M.bind_def {D : Type} (m : M D α) (f : α → M D β) : (m >>= f) = M.bind m f := rfl
theorem M.pure_def {D : Type} (a : α) : (Pure.pure a : M D α) = M.pure a := rfl

theorem M.bind_ok {D : Type} {m : M D α} {f : α → M D β} {d d' : D} {r : Except PalErr β}
    (h : (m >>= f) d = .ok (d', r)) :
    (∃ e, m d = .ok (d', .error e) ∧ r = .error e) ∨ ∃ d1 a, m d = .ok (d1, .ok a) ∧ f a d1 = .ok (d', r) := by
  rw [M.bind_def] at h
  unfold M.bind at h
  cases hm : m d with
  | panic => simp [hm] at h
  | ok x =>
    obtain ⟨d1, x⟩ := x
    cases x with
    | error e =>
      simp only [hm, Run.ok.injEq, Prod.mk.injEq] at h
      exact Or.inl ⟨e, by rw [h.1], h.2.symm⟩
    | ok a =>
      simp only [hm] at h
      exact Or.inr ⟨d1, a, rfl, h⟩

theorem M.bind_okOk {D : Type} {m : M D α} {f : α → M D β} {d d' : D} {b : β}
    (h : (m >>= f) d = .ok (d', .ok b)) : ∃ d1 a, m d = .ok (d1, .ok a) ∧ f a d1 = .ok (d', .ok b) := by
  rcases M.bind_ok h with ⟨e, _, he⟩ | h
  · simp at he
  · exact h

/-- Running a bind whose first part is known to succeed. -/
theorem M.bind_run {D : Type} {m : M D α} {f : α → M D β} {d d1 : D} {a : α} (h : m d = .ok (d1, .ok a)) :
    (m >>= f) d = f a d1 := by
  rw [M.bind_def]; unfold M.bind; rw [h]

theorem M.bind_run_error {D : Type} {m : M D α} {f : α → M D β} {d d1 : D} {e : PalErr} (h : m d = .ok (d1, .error e)) :
    (m >>= f) d = .ok (d1, .error e) := by
  rw [M.bind_def]; unfold M.bind; rw [h]

theorem M.bind_run_panic {D : Type} {m : M D α} {f : α → M D β} {d : D} (h : m d = .panic) : (m >>= f) d = .panic := by
  rw [M.bind_def]; unfold M.bind; rw [h]

variable (S : Sys σ ρ κ H)

/-! ## Atoms -/

/-- An interaction with consensus or its store other than a tick. -/
def RaftEv : Ev H → Prop
  | .raftInit .. | .step _ | .propose _ | .proposeChange .. | .applyChange .. | .ready _ | .light _ | .advanceApply
  | .report .. | .storeHardState _ | .storeAppend .. | .storeApply .. | .storeCreate .. => True
  | _ => False

/-- An interaction with the communication module. -/
def CommEv : Ev H → Prop
  | .commOut _ | .commIn _ | .commTick | .commCluster _ => True
  | _ => False

/-- Which calls the driver makes on the actor, and when. -/
def CallOk (d : Driver σ ρ κ H) : Call → Prop
  | .command ctx _ _ => ctx = d.ctx ∧ d.state = .started
  | .apply ctx ec ev _ => ctx = d.ctx ∧
      ((d.ephemeral = true ∧ d.state = .started ∧ ec = ⟨0, true⟩) ∨
       (∃ (e : Entry) (replica : Nat), S.E.decEntry e.data = some ⟨some (replica, ev.correlationId), ev.contents⟩ ∧
          ec = ⟨e.index, decide (replica = d.id)⟩))
  | .save ctx _ => ctx = d.ctx
  | .load ctx _ _ => ctx = d.ctx

/-- Only bookkeeping changed. -/
structure Quiet (d d' : Driver σ ρ κ H) : Prop where
  actor : d'.actor = d.actor
  raft : d'.raft = d.raft
  comm : d'.comm = d.comm
  ctx : d'.ctx = d.ctx
  tickPeriod : d'.tickPeriod = d.tickPeriod
  state : d'.state = d.state
  messages : d'.messages = d.messages
  id : d'.id = d.id
  instant : d'.instant = d.instant
  tickInstant : d'.tickInstant = d.tickInstant
  ephemeral : d'.ephemeral = d.ephemeral
  lameduck : d'.lameduck = d.lameduck
  trace : d'.trace = d.trace

/-- Configuration of a replica that is not started yet. -/
structure Setup (d d' : Driver σ ρ κ H) : Prop where
  created : d.state = .created
  actor : d'.actor = d.actor
  raft : d'.raft = d.raft
  snap : d'.snap = d.snap
  ctxInstant : d'.ctx.instant = d.ctx.instant
  ctxLeader : d'.ctx.leader = d.ctx.leader
  state : d'.state = d.state
  messages : d'.messages = d.messages
  instant : d'.instant = d.instant
  tickInstant : d'.tickInstant = d.tickInstant ∨ d'.tickInstant = d.instant
  lameduck : d'.lameduck = d.lameduck
  trace : d'.trace = d.trace

/-- One elementary step of the driver. -/
inductive Atom : Driver σ ρ κ H → Driver σ ρ κ H → Prop
  | quiet {d d'} (h : Quiet d d') : Atom d d'
  | actor {d a' c} (h : Step S.A d.actor c a') (hc : CallOk S d c) :
      Atom d { d with actor := a', trace := d.trace ++ [.actor c] }
  | raft {d r' ev} (h : RaftEv ev) : Atom d { d with raft := r', trace := d.trace ++ [ev] }
  | tick {d r'} (hp : d.tickPeriod ≤ d.instant - d.tickInstant) (hl : d.lameduck = false) :
      Atom d { d with tickInstant := d.instant, raft := r', trace := d.trace ++ [.tick d.instant] }
  | comm {d c' ev} (h : CommEv ev) : Atom d { d with comm := c', trace := d.trace ++ [ev] }
  | out {d m} : Atom d { d with messages := d.messages ++ [m], trace := d.trace ++ [.out m] }
  | setup {d d'} (h : Setup d d') : Atom d d'
  | init {d a' res} (h : S.A.onInit d.ctx d.actor = .ok (a', res)) (hs : d.state = .created) :
      Atom d { d with actor := a', trace := d.trace ++ [.actorInit d.ctx res] }
  | started {d} (hs : d.state = .created) : Atom d { d with state := .started }
  | stopped {d a'} (h : S.A.onShutdown d.ctx d.actor = .ok a') (hs : d.state ≠ .stopped) :
      Atom d { d with actor := a', trace := d.trace ++ [.actorShutdown d.ctx], state := .stopped }
  | lameduck {d} : Atom d { d with lameduck := true }

/-- Finitely many elementary steps. -/
inductive Star : Driver σ ρ κ H → Driver σ ρ κ H → Prop
  | refl {d} : Star d d
  | step {d d1 d2} (h : Atom S d d1) (hs : Star d1 d2) : Star d d2

theorem Star.trans {S : Sys σ ρ κ H} {a b c : Driver σ ρ κ H} (h : Star S a b) (g : Star S b c) : Star S a c := by
  induction h with
  | refl => exact g
  | step h _ ih => exact .step h (ih g)

theorem Star.one {S : Sys σ ρ κ H} {a b : Driver σ ρ κ H} (h : Atom S a b) : Star S a b := .step h .refl

/-- Every outcome of the method is reached by elementary steps. -/
structure Reaches (m : M (Driver σ ρ κ H) α) (d : Driver σ ρ κ H) : Prop where
  run : ∀ d' r, m d = .ok (d', r) → Star S d d'

/-! ## Rules -/

section rules
variable {S}
variable {d : Driver σ ρ κ H}

theorem reaches_pure {a : α} : Reaches S (Pure.pure a) d := by
  refine ⟨fun d' r h => ?_⟩
  simp only [M.pure_def, M.pure, Run.ok.injEq, Prod.mk.injEq] at h
  rw [← h.1]; exact .refl

theorem reaches_mpure {a : α} : Reaches S (M.pure a) d := reaches_pure

theorem reaches_fail {e : PalErr} : Reaches S (M.fail e : M _ α) d := by
  refine ⟨fun d' r h => ?_⟩
  simp only [M.fail, Run.ok.injEq, Prod.mk.injEq] at h
  rw [← h.1]; exact .refl

theorem reaches_panic : Reaches S (M.panic : M _ α) d := ⟨by intro d' r h; simp [M.panic] at h⟩

theorem reaches_orFail {ε : Type} {r : Except ε α} {e : PalErr} : Reaches S (M.orFail r e) d := by
  cases r <;> simp only [M.orFail]
  · exact reaches_fail
  · exact reaches_mpure

theorem reaches_get : Reaches S M.get d := by
  refine ⟨fun d' r h => ?_⟩
  simp only [M.get, Run.ok.injEq, Prod.mk.injEq] at h
  rw [← h.1]; exact .refl

theorem reaches_modify {f : Driver σ ρ κ H → Driver σ ρ κ H} (h : Atom S d (f d)) : Reaches S (M.modify f) d := by
  refine ⟨fun d' r hd => ?_⟩
  simp only [M.modify, Run.ok.injEq, Prod.mk.injEq] at hd
  rw [← hd.1]; exact .one h

theorem reaches_bind {m : M (Driver σ ρ κ H) α} {f : α → M (Driver σ ρ κ H) β} (h1 : Reaches S m d)
    (h2 : ∀ d1 a, m d = .ok (d1, .ok a) → Reaches S (f a) d1) : Reaches S (m >>= f) d := by
  refine ⟨fun d' r h => ?_⟩
  rcases M.bind_ok h with ⟨e, hm, _⟩ | ⟨d1, a, hm, hf⟩
  · exact h1.run _ _ hm
  · exact (h1.run _ _ hm).trans ((h2 d1 a hm).run _ _ hf)

theorem reaches_get_bind {f : Driver σ ρ κ H → M (Driver σ ρ κ H) β} (h : Reaches S (f d) d) : Reaches S (M.get >>= f) d :=
  reaches_bind reaches_get fun d1 a hm => by
    simp only [M.get, Run.ok.injEq, Prod.mk.injEq, Except.ok.injEq] at hm
    rw [← hm.1, ← hm.2]; exact h

theorem reaches_modify_bind {f : Driver σ ρ κ H → Driver σ ρ κ H} {g : Unit → M (Driver σ ρ κ H) β}
    (h : Atom S d (f d)) (h2 : Reaches S (g ()) (f d)) : Reaches S (M.modify f >>= g) d :=
  reaches_bind (reaches_modify h) fun d1 a hm => by
    simp only [M.modify, Run.ok.injEq, Prod.mk.injEq] at hm
    rw [← hm.1]; exact h2

theorem reaches_when {b : Bool} {m : M (Driver σ ρ κ H) Unit} (h : b = true → Reaches S m d) : Reaches S (M.when b m) d := by
  unfold M.when; split
  · rename_i hb; exact h hb
  · exact reaches_mpure

theorem reaches_opt {o : Option α} {f : α → M (Driver σ ρ κ H) Unit} (h : ∀ a, Reaches S (f a) d) : Reaches S (M.opt o f) d := by
  unfold M.opt; split
  · exact h _
  · exact reaches_mpure

theorem reaches_ask {f : ρ → Run β} : Reaches S (askRaft f) d := by
  refine ⟨fun d' r h => ?_⟩
  simp only [askRaft, Run.bind_eq_ok, Run.ok.injEq, Prod.mk.injEq] at h
  obtain ⟨_, _, h, _⟩ := h
  rw [← h]; exact .refl

theorem reaches_raft {f : ρ → Run (ρ × β)} {ev : β → Ev H} (h : ∀ b, RaftEv (ev b)) : Reaches S (callRaft f ev) d := by
  refine ⟨fun d' r hd => ?_⟩
  simp only [callRaft, Run.bind_eq_ok, Run.ok.injEq, Prod.mk.injEq] at hd
  obtain ⟨x, _, hd, _⟩ := hd
  rw [← hd]; exact .one (.raft (h _))

theorem reaches_raftU {f : ρ → Run ρ} {ev : Ev H} (h : RaftEv ev) : Reaches S (callRaftU f ev) d := reaches_raft fun _ => h

theorem reaches_comm {f : κ → Run (κ × Except PalErr β)} {ev : Ev H} (h : CommEv ev) : Reaches S (callComm f ev) d := by
  refine ⟨fun d' r hd => ?_⟩
  simp only [callComm, Run.bind_eq_ok, Run.ok.injEq, Prod.mk.injEq] at hd
  obtain ⟨x, _, hd, _⟩ := hd
  rw [← hd]; exact .one (.comm h)

theorem reaches_snap {f : Snap.Processor → Run (Snap.Processor × β)} : Reaches S (callSnap f) d := by
  refine ⟨fun d' r hd => ?_⟩
  simp only [callSnap, Run.bind_eq_ok, Run.ok.injEq, Prod.mk.injEq] at hd
  obtain ⟨x, _, hd, _⟩ := hd
  rw [← hd]; exact .one (.quiet (by constructor <;> rfl))

theorem reaches_actor {f : ActorCtx → σ → Run (σ × β)} {ev : ActorCtx → β → Ev H} (c : β → Call) (hev : ∀ b, ev d.ctx b = .actor (c b))
    (hs : ∀ a' b, f d.ctx d.actor = .ok (a', b) → Step S.A d.actor (c b) a') (hc : ∀ b, CallOk S d (c b)) :
    Reaches S (callActor f ev) d := by
  refine ⟨fun d' r hd => ?_⟩
  simp only [callActor, Run.bind_eq_ok, Run.ok.injEq, Prod.mk.injEq] at hd
  obtain ⟨⟨a', b⟩, hf, hd, _⟩ := hd
  rw [← hd, hev]; exact .one (.actor (hs _ _ hf) (hc _))

theorem reaches_stash {m : OutMsg H} : Reaches S (stash m) d := reaches_modify .out

theorem reaches_stashCommands (cs : List ActorCommand) (d : Driver σ ρ κ H) : Reaches S (stashCommands cs) d := by
  induction cs generalizing d with
  | nil => exact reaches_pure
  | cons c cs ih => exact reaches_bind reaches_stash fun _ _ _ => ih _

theorem quiet_refl : Quiet d d := by constructor <;> rfl

theorem reaches_changeComm {f : κ → κ} {ev : Ev H} (h : CommEv ev) : Reaches S (changeComm f ev) d := reaches_modify (.comm h)

theorem reaches_save : Reaches S (callActor (fun ctx a => S.A.onSaveSnapshot ctx a) (fun ctx res => .actor (.save ctx res))) d :=
  reaches_actor (fun b => .save d.ctx b) (fun _ => rfl) (fun _ _ h => .save h) fun _ => rfl

theorem reaches_load {b : Bytes} : Reaches S (callActor (fun ctx a => S.A.onLoadSnapshot ctx a b) (fun ctx res => .actor (.load ctx b res))) d :=
  reaches_actor (fun r => .load d.ctx b r) (fun _ => rfl) (fun _ _ h => .load h) fun _ => rfl

end rules

/-- One rule. -/
macro "reach1" : tactic => `(tactic| with_reducible first
  | intro _
  | exact reaches_pure | exact reaches_mpure | exact reaches_fail | exact reaches_panic | exact reaches_orFail | exact reaches_get
  | exact reaches_ask | exact reaches_snap | exact reaches_stash | exact reaches_stashCommands _ _
  | exact reaches_save | exact reaches_load
  | refine reaches_comm ?_ | refine reaches_raftU ?_ | refine reaches_raft ?_ | refine reaches_changeComm ?_
  | refine reaches_get_bind ?_ | refine reaches_modify_bind ?_ ?_ | refine reaches_modify ?_
  | refine reaches_bind ?_ ?_ | refine reaches_when ?_ | refine reaches_opt ?_ | split)

/-- Close the side conditions of the rules. -/
macro "side" : tactic => `(tactic| first | exact trivial | exact fun _ => trivial | exact Atom.quiet (by constructor <;> rfl))

/-- Discharge a goal `Reaches S m d` by the rules. -/
macro "reach" : tactic => `(tactic| repeat (first | reach1 | side))

/-! ## Every method -/

variable {S}

theorem reaches_getRaftState (d : Driver σ ρ κ H) : Reaches S (getRaftState S) d := by
  unfold getRaftState; reach

theorem reaches_makeRaftStep (a b : Nat) (c : Bytes) (d : Driver σ ρ κ H) : Reaches S (makeRaftStep S a b c) d := by
  unfold makeRaftStep; reach

theorem reaches_makeRaftProposal (b : Bytes) (d : Driver σ ρ κ H) : Reaches S (makeRaftProposal S b) d := by
  unfold makeRaftProposal; reach

theorem reaches_makeConfChangeProposal (n : Nat) (a : Bool) (d : Driver σ ρ κ H) :
    Reaches S (makeConfChangeProposal S n a) d := by
  unfold makeConfChangeProposal; reach

theorem reaches_triggerRaftTick (d : Driver σ ρ κ H) (hl : d.lameduck = false) : Reaches S (triggerRaftTick S) d := by
  unfold triggerRaftTick
  refine reaches_get_bind ?_
  split
  · rename_i hp
    refine ⟨fun d' r h => ?_⟩
    obtain ⟨e, hm, _⟩ | ⟨d1, a, hm, hf⟩ := M.bind_ok h
    · simp [M.modify] at hm
    · simp only [M.modify, Run.ok.injEq, Prod.mk.injEq] at hm
      rw [← hm.1] at hf
      simp only [callRaftU, callRaft, Run.bind_eq_ok, Run.ok.injEq, Prod.mk.injEq] at hf
      obtain ⟨x, _, hd, _⟩ := hf
      rw [← hd]
      exact .one (.tick hp hl)
  · reach

theorem reaches_applyEntry (e : Entry) (d : Driver σ ρ κ H) : Reaches S (applyEntry S e) d := by
  unfold applyEntry
  refine reaches_modify_bind (.quiet (by constructor <;> rfl)) ?_
  split
  · reach
  · split
    · reach
    · split
      · reach
      · rename_i le hle
        split
        · reach
        · rename_i id hid
          refine reaches_get_bind ?_
          refine reaches_bind (reaches_actor (fun b => .apply d.ctx ⟨e.index, decide (id.1 = d.id)⟩ ⟨id.2, le.contents⟩ b) (fun _ => rfl)
            (fun _ _ h => .apply h) fun b => ⟨rfl, Or.inr ⟨e, id.1, ?_, rfl⟩⟩) ?_
          · rw [hle]; obtain ⟨i, c⟩ := le; simp only at hid ⊢; rw [hid]
          · reach

theorem reaches_applyEntries (es : List Entry) (d : Driver σ ρ κ H) : Reaches S (applyEntries S es) d := by
  induction es generalizing d with
  | nil => exact reaches_pure
  | cons e es ih => exact reaches_bind (reaches_applyEntry e d) fun _ _ _ => ih _

theorem reaches_applyCommitted (es : List Entry) (d : Driver σ ρ κ H) : Reaches S (applyCommitted S es) d :=
  reaches_applyEntries _ d

theorem reaches_sendRaftMessage (m : RaftMsg) (d : Driver σ ρ κ H) : Reaches S (sendRaftMessage S m) d := by
  unfold sendRaftMessage; reach

theorem reaches_sendRaftMessages (ms : List RaftMsg) (d : Driver σ ρ κ H) : Reaches S (sendRaftMessages S ms) d := by
  induction ms generalizing d with
  | nil => exact reaches_pure
  | cons m ms ih => exact reaches_bind (reaches_sendRaftMessage m d) fun _ _ _ => ih _

theorem reaches_restoreRaftSnapshot (s : Snap.RaftSnapshot) (d : Driver σ ρ κ H) : Reaches S (restoreRaftSnapshot S s) d := by
  unfold restoreRaftSnapshot; reach

theorem reaches_maybeCreateSnapshot (d : Driver σ ρ κ H) : Reaches S (maybeCreateSnapshot S) d := by
  unfold maybeCreateSnapshot; reach

theorem reaches_processReady (d : Driver σ ρ κ H) : Reaches S (processReady S) d := by
  unfold processReady
  refine reaches_bind (reaches_raft fun _ => trivial) fun d1 ready _ => ?_
  refine reaches_bind (reaches_sendRaftMessages _ _) fun d2 _ _ => ?_
  refine reaches_bind (reaches_opt fun _ => reaches_raftU trivial) fun d3 _ _ => ?_
  refine reaches_bind (reaches_restoreRaftSnapshot _ _) fun d4 _ _ => ?_
  refine reaches_bind (reaches_applyCommitted _ _) fun d5 _ _ => ?_
  refine reaches_bind (reaches_sendRaftMessages _ _) fun d6 _ _ => ?_
  refine reaches_bind (reaches_when fun _ => by reach) fun d7 _ _ => ?_
  refine reaches_bind (reaches_raft fun _ => trivial) fun d8 _ _ => ?_
  refine reaches_bind (reaches_sendRaftMessages _ _) fun d9 _ _ => ?_
  refine reaches_bind (reaches_applyCommitted _ _) fun d10 _ _ => ?_
  exact reaches_raftU trivial

theorem reaches_advanceRaft (d : Driver σ ρ κ H) : Reaches S (advanceRaft S) d := by
  unfold advanceRaft
  refine reaches_get_bind ?_
  refine reaches_bind (reaches_when fun h => reaches_triggerRaftTick d (by simpa using h)) fun d1 _ _ => ?_
  refine reaches_bind reaches_ask fun d2 _ _ => ?_
  exact reaches_when fun _ => reaches_processReady _

theorem reaches_reportAll (rs : List (Nat × Snap.Status)) (d : Driver σ ρ κ H) : Reaches S (reportAll S rs) d := by
  induction rs generalizing d with
  | nil => exact reaches_pure
  | cons m ms ih => exact reaches_bind (reaches_raftU trivial) fun _ _ _ => ih _

theorem reaches_updateSnapshotClusterChange (d : Driver σ ρ κ H) : Reaches S (updateSnapshotClusterChange S) d := by
  unfold updateSnapshotClusterChange
  refine reaches_get_bind ?_
  split
  · reach
  · exact reaches_bind reaches_snap fun _ _ _ => reaches_reportAll _ _

theorem reaches_stashLeaderState (d : Driver σ ρ κ H) : Reaches S (stashLeaderState S) d := by
  unfold stashLeaderState
  refine reaches_bind (reaches_getRaftState d) fun d1 st _ => ?_
  refine reaches_modify_bind (.quiet (by constructor <;> rfl)) ?_
  refine reaches_get_bind ?_
  split
  · reach
  · refine reaches_modify_bind (.quiet (by constructor <;> rfl)) ?_
    refine reaches_bind (reaches_updateSnapshotClusterChange _) fun d2 _ _ => ?_
    reach

theorem reaches_processSnapshotProgress (d : Driver σ ρ κ H) : Reaches S (processSnapshotProgress S) d := by
  unfold processSnapshotProgress; reach

theorem reaches_startAll (ms : List RaftMsg) (d : Driver σ ρ κ H) : Reaches S (startAll ms) d := by
  induction ms generalizing d with
  | nil => exact reaches_pure
  | cons m ms ih => exact reaches_bind reaches_snap fun _ _ _ => ih _

theorem reaches_sendAll (ms : List Comm.Outgoing) (d : Driver σ ρ κ H) : Reaches S (sendAll S ms) d := by
  induction ms generalizing d with
  | nil => exact reaches_pure
  | cons m ms ih => exact reaches_bind (reaches_comm trivial) fun _ _ _ => ih _

theorem reaches_processSnapshotSending (d : Driver σ ρ κ H) : Reaches S (processSnapshotSending S) d := by
  unfold processSnapshotSending
  refine reaches_get_bind ?_
  refine reaches_modify_bind (.quiet (by constructor <;> rfl)) ?_
  refine reaches_bind reaches_snap fun d1 _ _ => ?_
  split
  · refine reaches_bind (reaches_startAll _ _) fun d2 _ _ => ?_
    exact reaches_bind reaches_snap fun d3 _ _ => reaches_sendAll _ _
  · exact reaches_reportAll _ _

theorem reaches_checkState (l : Lifecycle) (d : Driver σ ρ κ H) : Reaches S (checkState l) d := by
  unfold checkState; reach

theorem checkState_ok {l : Lifecycle} {d d' : Driver σ ρ κ H} {a : Unit} (h : checkState l d = .ok (d', .ok a)) :
    d' = d ∧ d.state = l := by
  unfold checkState at h
  rw [M.bind_run (d1 := d) (a := d) rfl] at h
  split at h
  · simp [M.fail] at h
  · rename_i hn
    simp only [M.pure_def, M.pure, Run.ok.injEq, Prod.mk.injEq] at h
    exact ⟨h.1.symm, by simpa using hn⟩

theorem reaches_checkNonEphemeral (d : Driver σ ρ κ H) : Reaches S checkNonEphemeral d := by
  unfold checkNonEphemeral; reach

theorem checkNonEphemeral_ok {d d' : Driver σ ρ κ H} {a : Unit} (h : checkNonEphemeral d = .ok (d', .ok a)) :
    d' = d ∧ d.ephemeral = false := by
  unfold checkNonEphemeral at h
  rw [M.bind_run (d1 := d) (a := d) rfl] at h
  split at h
  · simp [M.fail] at h
  · rename_i hn
    simp only [M.pure_def, M.pure, Run.ok.injEq, Prod.mk.injEq] at h
    exact ⟨h.1.symm, by simpa using hn⟩

/-! ## Methods that leave the lifecycle alone -/

/-- The method does not change the lifecycle. -/
structure Keeps (m : M (Driver σ ρ κ H) α) : Prop where
  run : ∀ d d' r, m d = .ok (d', r) → d'.state = d.state

theorem keeps_pure {a : α} : Keeps (Pure.pure a : M (Driver σ ρ κ H) α) := ⟨by
  intro d d' r h
  simp only [M.pure_def, M.pure, Run.ok.injEq, Prod.mk.injEq] at h
  rw [h.1]⟩

theorem keeps_orFail {ε : Type} {r : Except ε α} {e : PalErr} : Keeps (M.orFail r e : M (Driver σ ρ κ H) α) := ⟨by
  intro d d' r h
  unfold M.orFail at h
  split at h
  · simp only [M.pure, Run.ok.injEq, Prod.mk.injEq] at h; rw [h.1]
  · simp only [M.fail, Run.ok.injEq, Prod.mk.injEq] at h; rw [h.1]⟩

theorem keeps_get : Keeps (M.get : M (Driver σ ρ κ H) _) := ⟨by
  intro d d' r h
  simp only [M.get, Run.ok.injEq, Prod.mk.injEq] at h
  rw [h.1]⟩

theorem keeps_modify {f : Driver σ ρ κ H → Driver σ ρ κ H} (h : ∀ d, (f d).state = d.state) : Keeps (M.modify f) := ⟨by
  intro d d' r hd
  simp only [M.modify, Run.ok.injEq, Prod.mk.injEq] at hd
  rw [← hd.1, h]⟩

theorem keeps_bind {m : M (Driver σ ρ κ H) α} {f : α → M (Driver σ ρ κ H) β} (h1 : Keeps m) (h2 : ∀ a, Keeps (f a)) :
    Keeps (m >>= f) := ⟨by
  intro d d' r h
  rcases M.bind_ok h with ⟨e, hm, _⟩ | ⟨d1, a, hm, hf⟩
  · exact h1.run _ _ _ hm
  · rw [(h2 a).run _ _ _ hf, h1.run _ _ _ hm]⟩

theorem keeps_ask {f : ρ → Run β} : Keeps (askRaft f : M (Driver σ ρ κ H) β) := ⟨by
  intro d d' r h
  simp only [askRaft, Run.bind_eq_ok, Run.ok.injEq, Prod.mk.injEq] at h
  obtain ⟨_, _, h, _⟩ := h
  rw [← h]⟩

theorem keeps_raft {f : ρ → Run (ρ × β)} {ev : β → Ev H} : Keeps (callRaft f ev : M (Driver σ ρ κ H) β) := ⟨by
  intro d d' r h
  simp only [callRaft, Run.bind_eq_ok, Run.ok.injEq, Prod.mk.injEq] at h
  obtain ⟨_, _, h, _⟩ := h
  rw [← h]⟩

theorem keeps_actor {f : ActorCtx → σ → Run (σ × β)} {ev : ActorCtx → β → Ev H} : Keeps (callActor f ev : M (Driver σ ρ κ H) β) := ⟨by
  intro d d' r h
  simp only [callActor, Run.bind_eq_ok, Run.ok.injEq, Prod.mk.injEq] at h
  obtain ⟨_, _, h, _⟩ := h
  rw [← h]⟩

theorem keeps_snap {f : Snap.Processor → Run (Snap.Processor × β)} : Keeps (callSnap f : M (Driver σ ρ κ H) β) := ⟨by
  intro d d' r h
  simp only [callSnap, Run.bind_eq_ok, Run.ok.injEq, Prod.mk.injEq] at h
  obtain ⟨_, _, h, _⟩ := h
  rw [← h]⟩

theorem keeps_when {b : Bool} {m : M (Driver σ ρ κ H) Unit} (h : Keeps m) : Keeps (M.when b m) := by
  unfold M.when; split
  · exact h
  · exact keeps_pure

/-- Discharge a goal `Keeps m`. -/
macro "keep" : tactic => `(tactic| repeat (first
  | with_reducible first
    | intro _ | exact keeps_pure | exact keeps_orFail | exact keeps_get | exact keeps_ask | exact keeps_raft | exact keeps_actor
    | exact keeps_snap | refine keeps_modify ?_ | refine keeps_bind ?_ ?_ | refine keeps_when ?_ | split
  | rfl))

theorem keeps_getRaftState : Keeps (getRaftState S) := by unfold getRaftState; keep

theorem keeps_initializeRaftNode (cfg : Option RaftConfig) (b : Bytes) (l : Bool) : Keeps (initializeRaftNode S cfg b l) := by
  unfold initializeRaftNode
  refine keeps_bind (keeps_modify ?_) fun _ => ?_
  · intro d; cases cfg <;> rfl
  refine keeps_bind keeps_get fun _ => ?_
  refine keeps_bind keeps_raft fun _ => ?_
  refine keeps_bind keeps_orFail fun _ => ?_
  refine keeps_bind (keeps_modify ?_) fun _ => ?_
  · intro d; cases l <;> rfl
  refine keeps_bind (keeps_modify fun _ => rfl) fun _ => ?_
  exact keeps_bind keeps_getRaftState fun _ => keeps_modify fun _ => rfl

theorem keeps_startConsensus (r : StartReq) : Keeps (startConsensus S r) := by
  unfold startConsensus
  refine keeps_bind keeps_actor fun _ => ?_
  refine keeps_bind keeps_orFail fun _ => ?_
  refine keeps_bind keeps_get fun _ => ?_
  exact keeps_bind keeps_snap fun _ => keeps_initializeRaftNode _ _ _

/-! ## Starting -/

theorem reaches_initializeRaftNode (cfg : Option RaftConfig) (b : Bytes) (l : Bool) (d : Driver σ ρ κ H) (hs : d.state = .created) :
    Reaches S (initializeRaftNode S cfg b l) d := by
  unfold initializeRaftNode
  refine reaches_modify_bind (.setup ?_) ?_
  · cases cfg <;> (constructor <;> first | exact hs | rfl | exact Or.inl rfl)
  have hs1 : (configure cfg d).state = .created := by cases cfg <;> exact hs
  refine reaches_get_bind ?_
  refine reaches_bind (reaches_raft fun _ => trivial) fun d2 res h2 => ?_
  have hs2 := (keeps_raft.run _ _ _ h2).trans hs1
  refine reaches_bind reaches_orFail fun d3 _ h3 => ?_
  have hs3 := (keeps_orFail.run _ _ _ h3).trans hs2
  refine reaches_modify_bind (.quiet (by cases l <;> (constructor <;> rfl))) ?_
  refine reaches_modify_bind (.setup ?_) ?_
  · cases l <;> (constructor <;> first | exact hs3 | rfl | exact Or.inr rfl)
  refine reaches_bind (reaches_getRaftState _) fun d4 _ _ => ?_
  reach

theorem reaches_startConsensus (r : StartReq) (d : Driver σ ρ κ H) (hs : d.state = .created) : Reaches S (startConsensus S r) d := by
  unfold startConsensus
  refine reaches_bind reaches_save fun d1 _ h1 => ?_
  refine reaches_bind reaches_orFail fun d2 _ h2 => ?_
  refine reaches_get_bind ?_
  refine reaches_bind reaches_snap fun d3 _ h3 => ?_
  exact reaches_initializeRaftNode _ _ _ _
    ((keeps_snap.run _ _ _ h3).trans ((keeps_orFail.run _ _ _ h2).trans ((keeps_actor.run _ _ _ h1).trans hs)))

theorem reaches_processStart (r : StartReq) (d : Driver σ ρ κ H) : Reaches S (processStart S r) d := by
  unfold processStart
  refine reaches_bind (reaches_checkState _ _) fun d1 _ h1 => ?_
  obtain ⟨rfl, hs⟩ := checkState_ok h1
  refine reaches_modify_bind (.setup (by constructor <;> first | exact hs | rfl | exact Or.inl rfl)) ?_
  refine reaches_bind (d := _) ?_ fun d2 _ h2 => ?_
  · refine ⟨fun d' r hd => ?_⟩
    simp only [callActor, Run.bind_eq_ok, Run.ok.injEq, Prod.mk.injEq] at hd
    obtain ⟨⟨a', b⟩, hf, hd, _⟩ := hd
    rw [← hd]; exact .one (.init hf hs)
  have hs2 := (keeps_actor.run _ _ _ h2).trans hs
  refine reaches_bind reaches_orFail fun d3 _ h3 => ?_
  have hs3 := (keeps_orFail.run _ _ _ h3).trans hs2
  refine reaches_modify_bind (.setup (by constructor <;> first | exact hs3 | rfl | exact Or.inl rfl)) ?_
  refine reaches_bind (reaches_when fun _ => reaches_startConsensus r _ hs3) fun d4 _ h4 => ?_
  have hs4 := ((keeps_when (keeps_startConsensus r)).run _ _ _ h4).trans hs3
  refine reaches_bind (reaches_when fun _ => reaches_panic) fun d5 _ h5 => ?_
  have hs5 : d5.state = .created := by
    unfold M.when at h5
    split at h5
    · simp [M.panic] at h5
    · simp only [M.pure, Run.ok.injEq, Prod.mk.injEq] at h5; rw [← h5.1]; exact hs4
  refine reaches_modify_bind (.setup (by constructor <;> first | exact hs5 | rfl | exact Or.inl rfl)) ?_
  refine reaches_modify_bind (.started hs5) ?_
  reach

theorem reaches_processStop (d : Driver σ ρ κ H) : Reaches S (processStop S) d := by
  unfold processStop
  refine reaches_get_bind ?_
  split
  · reach
  · rename_i hn
    refine ⟨fun d' r h => ?_⟩
    rcases M.bind_ok h with ⟨e, hm, _⟩ | ⟨d1, a, hm, hf⟩
    · simp [callActor, Run.bind_eq_ok] at hm
    · simp only [callActor, Run.bind_eq_ok, Run.ok.injEq, Prod.mk.injEq] at hm
      obtain ⟨x, ⟨a'', ha, rfl⟩, hd, _⟩ := hm
      rw [M.bind_run (d1 := { d1 with state := .stopped }) (a := ()) rfl] at hf
      have g : Star S { d1 with state := .stopped } d' := (reaches_stash (S := S)).run _ _ hf
      rw [← hd] at g
      exact .step (.stopped ha hn) g

/-! ## Requests -/

theorem reaches_changeStatus (a b : Nat) (d : Driver σ ρ κ H) : Reaches S (changeStatus S a b) d := by
  unfold changeStatus
  split
  · exact reaches_makeConfChangeProposal _ _ _
  · split
    · exact reaches_makeConfChangeProposal _ _ _
    · exact reaches_pure

theorem reaches_processChangeCluster (a b c : Nat) (d : Driver σ ρ κ H) : Reaches S (processChangeCluster S a b c) d := by
  unfold processChangeCluster
  refine reaches_bind (reaches_checkState _ _) fun _ _ _ => ?_
  refine reaches_bind (reaches_checkNonEphemeral _) fun _ _ _ => ?_
  exact reaches_bind (reaches_changeStatus _ _ _) fun _ _ _ => reaches_stash

theorem reaches_processCheckCluster (d : Driver σ ρ κ H) : Reaches S processCheckCluster d := by
  unfold processCheckCluster
  refine reaches_bind (reaches_checkState _ _) fun _ _ _ => ?_
  refine reaches_bind (reaches_checkNonEphemeral _) fun _ _ _ => ?_
  reach

theorem reaches_processSystemMessage (a b : Nat) (p : Option Comm.Payload) (d : Driver σ ρ κ H) :
    Reaches S (processSystemMessage S a b p) d := by
  unfold processSystemMessage
  refine reaches_bind (reaches_checkState _ _) fun _ _ _ => ?_
  refine reaches_bind (reaches_checkNonEphemeral _) fun _ _ _ => ?_
  refine reaches_bind (reaches_comm trivial) fun _ up _ => ?_
  split
  · exact reaches_pure
  · exact reaches_makeRaftStep _ _ _ _
  · exact reaches_panic
  · exact reaches_fail

theorem reaches_processSnapshotRequest (a b c : Nat) (p : Option Comm.Payload) (d : Driver σ ρ κ H) :
    Reaches S (processSnapshotRequest S a b c p) d := by
  unfold processSnapshotRequest
  refine reaches_bind (reaches_checkNonEphemeral _) fun _ _ _ => ?_
  reach

theorem reaches_processSnapshotResponse (a b c : Nat) (p : Option Comm.Payload) (d : Driver σ ρ κ H) :
    Reaches S (processSnapshotResponse S a b c p) d := by
  unfold processSnapshotResponse
  refine reaches_bind (reaches_checkNonEphemeral _) fun _ _ _ => ?_
  reach

theorem reaches_processSnapshotFailure (a b : Nat) (d : Driver σ ρ κ H) : Reaches S (processSnapshotFailure a b) d := by
  unfold processSnapshotFailure
  refine reaches_bind (reaches_checkNonEphemeral _) fun _ _ _ => ?_
  reach

theorem reaches_processGetReplicaState (d : Driver σ ρ κ H) : Reaches S (processGetReplicaState S) d := by
  unfold processGetReplicaState
  refine reaches_bind (reaches_checkState _ _) fun _ _ _ => ?_
  reach

theorem reaches_processHandshake (a : Nat) (h : H) (d : Driver σ ρ κ H) : Reaches S (processHandshake S a h) d := by
  unfold processHandshake
  refine reaches_bind (reaches_checkState _ _) fun _ _ _ => ?_
  reach

theorem keeps_stash {m : OutMsg H} : Keeps (stash m : M (Driver σ ρ κ H) _) := keeps_modify fun _ => rfl

theorem stashCommands_run (cs : List ActorCommand) (d : Driver σ ρ κ H) :
    stashCommands cs d = .ok ({ d with
      messages := d.messages ++ cs.map .appMessage
      trace := d.trace ++ cs.map fun c => .out (.appMessage c) }, .ok ()) := by
  induction cs generalizing d with
  | nil => simp [stashCommands, M.pure_def, M.pure]
  | cons c cs ih =>
    simp only [stashCommands]
    rw [M.bind_run (d1 := { d with messages := d.messages ++ [.appMessage c], trace := d.trace ++ [.out (.appMessage c)] }) (a := ()) rfl, ih]
    simp

theorem reaches_processAppMessage (c : Option ActorCommand) (d : Driver σ ρ κ H) : Reaches S (processAppMessage S c) d := by
  unfold processAppMessage
  refine reaches_bind (reaches_checkState _ _) fun d1 _ h1 => ?_
  obtain ⟨rfl, hs⟩ := checkState_ok h1
  refine reaches_bind (reaches_actor (fun b => .command d1.ctx c b) (fun _ => rfl) (fun _ _ h => .command h) fun _ => ⟨rfl, hs⟩) fun d2 _ h2 => ?_
  have hs2 := (keeps_actor.run _ _ _ h2).trans hs
  refine reaches_bind reaches_orFail fun d3 o h3 => ?_
  have hs3 := (keeps_orFail.run _ _ _ h3).trans hs2
  refine reaches_bind (reaches_stashCommands _ _) fun d4 _ h4 => ?_
  have hs4 : d4.state = .started := by
    rw [stashCommands_run] at h4
    simp only [Run.ok.injEq, Prod.mk.injEq] at h4
    rw [← h4.1]; exact hs3
  split
  · reach
  · rename_i ev _
    refine reaches_get_bind ?_
    split
    · rename_i he
      refine reaches_bind (reaches_actor (fun b => .apply d4.ctx ⟨0, true⟩ ev b) (fun _ => rfl) (fun _ _ h => .apply h) fun _ => ⟨rfl, Or.inl ⟨he, hs4, rfl⟩⟩)
        fun d5 _ _ => ?_
      reach
    · reach

theorem reaches_proposeAll (bs : List Bytes) (d : Driver σ ρ κ H) : Reaches S (proposeAll S bs) d := by
  induction bs generalizing d with
  | nil => exact reaches_pure
  | cons b bs ih => exact reaches_bind (reaches_makeRaftProposal b d) fun _ _ _ => ih _

theorem reaches_processProposals (d : Driver σ ρ κ H) : Reaches S (processProposals S) d := by
  unfold processProposals
  refine reaches_get_bind ?_
  refine reaches_modify_bind (.quiet (by constructor <;> rfl)) ?_
  exact reaches_proposeAll _ _

theorem reaches_processStateMachine (d : Driver σ ρ κ H) : Reaches S (processStateMachine S) d := by
  unfold processStateMachine
  refine reaches_get_bind ?_
  split
  · refine reaches_bind (reaches_advanceRaft _) fun _ _ _ => ?_
    refine reaches_bind (reaches_maybeCreateSnapshot _) fun _ _ _ => ?_
    exact reaches_stashLeaderState _
  · exact reaches_pure

theorem reaches_dispatch (m : InMsg H) (d : Driver σ ρ κ H) : Reaches S (dispatch S m) d := by
  cases m <;> unfold dispatch
  · exact reaches_bind (reaches_processStart _ _) fun _ _ _ => reaches_pure
  · exact reaches_bind (reaches_processStop _) fun _ _ _ => reaches_pure
  · exact reaches_modify_bind .lameduck reaches_pure
  · exact reaches_bind (reaches_processChangeCluster _ _ _ _) fun _ _ _ => reaches_pure
  · exact reaches_bind (reaches_processCheckCluster _) fun _ _ _ => reaches_pure
  · exact reaches_bind (reaches_processSystemMessage _ _ _ _) fun _ _ _ => reaches_pure
  · exact reaches_bind (reaches_processSnapshotRequest _ _ _ _ _) fun _ _ _ => reaches_pure
  · exact reaches_bind (reaches_processSnapshotResponse _ _ _ _ _) fun _ _ _ => reaches_pure
  · exact reaches_bind (reaches_processSnapshotFailure _ _ _) fun _ _ _ => reaches_pure
  · exact reaches_bind (reaches_processGetReplicaState _) fun _ _ _ => reaches_pure
  · exact reaches_bind (reaches_processHandshake _ _ _) fun _ _ _ => reaches_pure
  · exact reaches_pure

theorem reaches_runActor (c : Option ActorCommand) (d : Driver σ ρ κ H) : Reaches S (runActor S c) d := by
  unfold runActor
  refine reaches_get_bind ?_
  split
  · exact reaches_bind (reaches_processAppMessage _ _) fun _ _ _ => reaches_changeComm trivial
  · exact reaches_pure

theorem reaches_runRaft (d : Driver σ ρ κ H) : Reaches S (runRaft S) d := by
  unfold runRaft
  refine reaches_get_bind ?_
  split
  · exact reaches_pure
  · refine reaches_bind (reaches_processProposals _) fun _ _ _ => ?_
    refine reaches_bind (reaches_processSnapshotProgress _) fun _ _ _ => ?_
    refine reaches_bind (reaches_processStateMachine _) fun _ _ _ => ?_
    exact reaches_processSnapshotSending _

end TCP.Drv
