import Verif.Proofs.DriverCalls

/-! # What the driver answers -/

namespace TCP.Drv

open TCP TCP.ActorSpec TCP.DrvSpec

variable {σ ρ κ H α β : Type} {S : Sys σ ρ κ H}

/-! ## Replies of the actor -/

/-- The application messages produced are the actor's replies. -/
def Replied (t : List (Ev H)) : Prop := appMessages (outMessages t) = t.flatMap actorReplies

theorem appMessages_append (a b : List (OutMsg H)) : appMessages (a ++ b) = appMessages a ++ appMessages b := List.filterMap_append

theorem Replied.append {a b : List (Ev H)} (ha : Replied a) (hb : Replied b) : Replied (a ++ b) := by
  unfold Replied at *
  rw [outMessages_append, appMessages_append, List.flatMap_append, ha, hb]

/-- The method leaves every reply of the actor in the outbox. -/
structure RepliesKept (m : M (Driver σ ρ κ H) α) : Prop where
  run : ∀ d d' r, m d = .ok (d', r) → ∃ new, d'.trace = d.trace ++ new ∧ Replied new

theorem Adds.replies {L : List K} {m : M (Driver σ ρ κ H) α} (h : Adds L m) (hk : K.command ∉ L ∧ K.apply ∉ L ∧ K.oApp ∉ L) :
    RepliesKept m := ⟨by
  intro d d' r hr
  obtain ⟨new, ht, hn⟩ := h.run _ _ _ hr
  refine ⟨new, ht, ?_⟩
  clear ht
  induction new with
  | nil => rfl
  | cons e new ih =>
    refine Replied.append (a := [e]) ?_ (ih fun x hx => hn x (List.mem_cons_of_mem _ hx))
    have he := hn e List.mem_cons_self
    cases e with
    | actor c =>
      cases c with
      | command => exact absurd he hk.1
      | apply => exact absurd he hk.2.1
      | save => rfl
      | load => rfl
    | out m =>
      cases m with
      | appMessage => exact absurd he hk.2.2
      | _ => rfl
    | _ => rfl⟩

theorem replies_bind {m : M (Driver σ ρ κ H) α} {f : α → M (Driver σ ρ κ H) β} (h1 : RepliesKept m) (h2 : ∀ a, RepliesKept (f a)) :
    RepliesKept (m >>= f) := ⟨by
  intro d d' r h
  rcases M.bind_ok h with ⟨e, hm, _⟩ | ⟨d1, a, hm, hf⟩
  · exact h1.run _ _ _ hm
  · obtain ⟨n1, t1, r1⟩ := h1.run _ _ _ hm
    obtain ⟨n2, t2, r2⟩ := (h2 a).run _ _ _ hf
    exact ⟨n1 ++ n2, by rw [t2, t1, List.append_assoc], r1.append r2⟩⟩

theorem replies_pure {a : α} : RepliesKept (Pure.pure a : M (Driver σ ρ κ H) α) := (adds_pure (L := [])).replies (by decide)
theorem replies_get : RepliesKept (M.get : M (Driver σ ρ κ H) _) := (adds_get (L := [])).replies (by decide)
theorem replies_modify {f : Driver σ ρ κ H → Driver σ ρ κ H} (h : ∀ d, (f d).trace = d.trace) : RepliesKept (M.modify f) :=
  (adds_modify (L := []) h).replies (by decide)

theorem replied_stash (cs : List ActorCommand) :
    appMessages (outMessages (cs.map fun c => (Ev.out (.appMessage c) : Ev H))) = cs := by
  induction cs with
  | nil => rfl
  | cons c cs ih =>
    simp only [List.map_cons, outMessages, List.filterMap_cons, appMessages] at ih ⊢
    rw [ih]

theorem replied_stash_none (cs : List ActorCommand) : (cs.map fun c => (Ev.out (.appMessage c) : Ev H)).flatMap actorReplies = [] := by
  induction cs with
  | nil => rfl
  | cons c cs ih => simp_all [actorReplies]

/-- An actor call whose replies are stashed right away. -/
theorem replies_call {γ : Type} {f : ActorCtx → σ → Run (σ × Except ActorErr γ)} {ev : ActorCtx → Except ActorErr γ → Ev H}
    {cmds : γ → List ActorCommand} {k : γ → M (Driver σ ρ κ H) Unit}
    (hok : ∀ ctx g, actorReplies (ev ctx (.ok g)) = cmds g) (herr : ∀ ctx e, actorReplies (ev ctx (.error e)) = [])
    (hout : ∀ ctx x, outMessages [ev ctx x] = []) (hk : ∀ g, RepliesKept (k g)) :
    RepliesKept (do
      let res ← callActor f ev
      let o ← M.orFail res .actor
      stashCommands (cmds o)
      k o : M (Driver σ ρ κ H) Unit) := ⟨by
  intro d d' r h
  rcases M.bind_ok h with ⟨e, hm, _⟩ | ⟨d1, a, hm, hf⟩
  · simp [callActor, Run.bind_eq_ok] at hm
  · simp only [callActor, Run.bind_eq_ok, Run.ok.injEq, Prod.mk.injEq, Except.ok.injEq] at hm
    obtain ⟨x, _, hd1, hx⟩ := hm
    cases a with
    | error e =>
      have : d' = d1 := by
        rw [M.bind_run_error (d1 := d1) (e := .actor) rfl] at hf
        simp only [Run.ok.injEq, Prod.mk.injEq] at hf
        exact hf.1.symm
      subst this
      rw [← hd1]
      refine ⟨_, rfl, ?_⟩
      unfold Replied
      rw [hout, hx]
      simp [appMessages, herr]
    | ok g =>
      rw [M.bind_run (d1 := d1) (a := g) rfl, M.bind_run (stashCommands_run (cmds g) d1)] at hf
      obtain ⟨n2, t2, r2⟩ := (hk g).run _ _ _ hf
      refine ⟨ev d.ctx (.ok g) :: ((cmds g).map fun c => .out (.appMessage c)) ++ n2, ?_, ?_⟩
      · rw [t2, ← hd1, hx]
        simp
      · refine Replied.append ?_ r2
        unfold Replied
        rw [show ev d.ctx (.ok g) :: ((cmds g).map fun c => Ev.out (.appMessage c)) =
          [ev d.ctx (.ok g)] ++ ((cmds g).map fun c => Ev.out (.appMessage c)) from rfl, outMessages_append, hout, List.nil_append,
          replied_stash, List.flatMap_append, replied_stash_none, List.append_nil]
        simp [hok]⟩

theorem bind_pure_unit {D : Type} (m : M D Unit) : (m >>= fun _ => pure ()) = m := by
  funext d
  simp only [M.bind_def]
  unfold M.bind
  cases m d with
  | panic => rfl
  | ok x =>
    obtain ⟨d1, x⟩ := x
    cases x <;> rfl

theorem replies_call' {γ : Type} {f : ActorCtx → σ → Run (σ × Except ActorErr γ)} {ev : ActorCtx → Except ActorErr γ → Ev H}
    {cmds : γ → List ActorCommand}
    (hok : ∀ ctx g, actorReplies (ev ctx (.ok g)) = cmds g) (herr : ∀ ctx e, actorReplies (ev ctx (.error e)) = [])
    (hout : ∀ ctx x, outMessages [ev ctx x] = []) :
    RepliesKept (do
      let res ← callActor f ev
      let o ← M.orFail res .actor
      stashCommands (cmds o) : M (Driver σ ρ κ H) Unit) := by
  have := replies_call (σ := σ) (ρ := ρ) (κ := κ) (f := f) (ev := ev) (cmds := cmds) (k := fun _ => pure ()) hok herr hout
    fun _ => replies_pure
  simpa only [bind_pure_unit] using this

theorem replies_applyEntry (e : Entry) : RepliesKept (applyEntry S e) := by
  unfold applyEntry
  refine replies_bind (replies_modify fun _ => rfl) fun _ => ?_
  split
  · exact replies_pure
  split
  · refine Adds.replies (L := [.applyChange]) ?_ (by decide)
    adds
  split
  · exact (adds_fail (L := [])).replies (by decide)
  split
  · exact (adds_panic (L := [])).replies (by decide)
  refine replies_bind replies_get fun d => ?_
  exact replies_call' (cmds := EventOutcome.commands) (fun _ _ => rfl) (fun _ _ => rfl) (fun _ _ => rfl)

theorem replies_applyEntries (es : List Entry) : RepliesKept (applyEntries S es) := by
  induction es with
  | nil => exact replies_pure
  | cons e es ih => exact replies_bind (replies_applyEntry e) fun _ => ih

theorem replies_processReady : RepliesKept (processReady S) := by
  unfold processReady
  refine replies_bind ((adds_raft (L := [.ready]) fun _ => by simp [kind]).replies (by decide)) fun ready => ?_
  refine replies_bind ((adds_sendRaftMessages _).replies (by decide)) fun _ => ?_
  refine replies_bind ((adds_opt (L := [.hardState]) fun _ => adds_raftU (by simp [kind])).replies (by decide)) fun _ => ?_
  refine replies_bind ((adds_restoreRaftSnapshot _).replies (by decide)) fun _ => ?_
  refine replies_bind (replies_applyEntries _) fun _ => ?_
  refine replies_bind ((adds_sendRaftMessages _).replies (by decide)) fun _ => ?_
  refine replies_bind (Adds.replies (L := [.append]) (adds_when (by adds)) (by decide)) fun _ => ?_
  refine replies_bind ((adds_raft (L := [.light]) fun _ => by simp [kind]).replies (by decide)) fun light => ?_
  refine replies_bind ((adds_sendRaftMessages _).replies (by decide)) fun _ => ?_
  refine replies_bind (replies_applyEntries _) fun _ => ?_
  exact (adds_raftU (L := [.advanceApply]) (by simp [kind])).replies (by decide)

theorem replies_runRaft : RepliesKept (runRaft S) := by
  unfold runRaft
  refine replies_bind replies_get fun d => ?_
  split
  · exact replies_pure
  refine replies_bind (adds_processProposals.replies (by decide)) fun _ => ?_
  refine replies_bind (adds_processSnapshotProgress.replies (by decide)) fun _ => ?_
  refine replies_bind ?_ fun _ => adds_processSnapshotSending.replies (by decide)
  unfold processStateMachine
  refine replies_bind replies_get fun d => ?_
  split
  · refine replies_bind ?_ fun _ => replies_bind (adds_maybeCreateSnapshot.replies (by decide)) fun _ =>
      adds_stashLeaderState.replies (by decide)
    unfold advanceRaft
    refine replies_bind replies_get fun d => ?_
    refine replies_bind ((adds_when adds_triggerRaftTick).replies (by decide)) fun _ => ?_
    refine replies_bind ((adds_ask (L := [])).replies (by decide)) fun _ => ?_
    unfold M.when
    split
    · exact replies_processReady
    · exact replies_pure
  · exact replies_pure

theorem replies_runActor (c : Option ActorCommand) : RepliesKept (runActor S c) := by
  unfold runActor
  refine replies_bind replies_get fun d => ?_
  split
  · refine replies_bind ?_ fun _ => (adds_changeComm (L := [.commTick]) (by simp [kind])).replies (by decide)
    unfold processAppMessage
    refine replies_bind ((adds_checkState _).replies (by decide)) fun _ => ?_
    refine replies_call (cmds := CommandOutcome.commands) (fun _ _ => rfl) (fun _ _ => rfl) (fun _ _ => rfl) fun o => ?_
    split
    · exact replies_pure
    · refine replies_bind replies_get fun d => ?_
      split
      · exact replies_call' (cmds := EventOutcome.commands) (fun _ _ => rfl) (fun _ _ => rfl) (fun _ _ => rfl)
      · exact replies_modify fun _ => rfl
  · exact replies_pure

theorem replies_body (m : Option (InMsg H)) : RepliesKept (body S m) := by
  unfold body
  refine replies_bind ?_ fun c => replies_bind (replies_runActor c) fun _ => replies_runRaft
  cases m with
  | none => exact replies_pure
  | some m => exact (adds_dispatch m).replies (by decide)

theorem receive_replies {instant : Nat} {m : Option (Option (InMsg H))} {d d' : Driver σ ρ κ H}
    {r : Except PalErr (Option (List (OutMsg H)))} (h : receive S instant m d = .ok (d', r)) :
    ∃ new, d'.trace = d.trace ++ new ∧ Replied new := by
  cases receive_outcome h with
  | unknown => exact ⟨[], by simp [presetState], rfl⟩
  | failed _ hb =>
    obtain ⟨new, ht, hn⟩ := (replies_body _).run _ _ _ hb
    exact ⟨new, ht, hn⟩
  | @done _ _ _ outs _ hb ho =>
    obtain ⟨new, ht, hn⟩ := (replies_body _).run _ _ _ hb
    refine ⟨new ++ _, by simp only [ht, List.append_assoc]; rfl, hn.append ?_⟩
    unfold Replied
    rw [outMessages_comm]
    have h1 : appMessages (outs.map OutMsg.comm) = [] := by
      clear ho
      induction outs with
      | nil => rfl
      | cons o outs ih => simp_all [appMessages]
    have h2 : (outs.map fun m => (Ev.out (.comm m) : Ev H)).flatMap actorReplies = [] := by
      clear ho h1
      induction outs with
      | nil => rfl
      | cons o outs ih => simp_all [actorReplies]
    rw [h1, h2]

theorem calls_replies {d0 d : Driver σ ρ κ H} {rs} (h0 : Fresh d0) (h : Calls S d0 rs d) : Replied d.trace := by
  induction h with
  | nil =>
    obtain ⟨a, r, c, rfl⟩ := h0
    rfl
  | snoc _ hs ih =>
    obtain ⟨new, ht, hn⟩ := receive_replies hs
    rw [ht]
    exact ih.append hn

/-! ## Cluster changes -/

theorem changeAnswers_append (a b : List (OutMsg H)) : changeAnswers (a ++ b) = changeAnswers a ++ changeAnswers b :=
  List.filterMap_append

theorem Adds.changeAnswers {L : List K} {m : M (Driver σ ρ κ H) α} (h : Adds L m) (hk : K.oChange ∉ L) {d d' : Driver σ ρ κ H} {r}
    (hr : m d = .ok (d', r)) : ∃ new, d'.trace = d.trace ++ new ∧ changeAnswers (outMessages new) = [] := by
  obtain ⟨new, ht, hn⟩ := h.run _ _ _ hr
  refine ⟨new, ht, ?_⟩
  clear ht
  induction new with
  | nil => rfl
  | cons e new ih =>
    rw [show e :: new = [e] ++ new from rfl, outMessages_append, changeAnswers_append,
      ih fun x hx => hn x (List.mem_cons_of_mem _ hx), List.append_nil]
    have he := hn e List.mem_cons_self
    cases e with
    | out m =>
      cases m with
      | changeCluster => exact absurd he hk
      | _ => rfl
    | _ => rfl

theorem changeAnswers_comm (outs : List (Comm.OutMsg H)) : changeAnswers (outs.map OutMsg.comm) = [] := by
  induction outs with
  | nil => rfl
  | cons o outs ih => simp_all [changeAnswers]

/-- The rest of a call after dispatching gives no answers to cluster change requests. -/
theorem changeAnswers_rest {c : Option ActorCommand} {d d' : Driver σ ρ κ H} {r}
    (h : (do runActor S c; runRaft S : M (Driver σ ρ κ H) Unit) d = .ok (d', r)) :
    ∃ new, d'.trace = d.trace ++ new ∧ changeAnswers (outMessages new) = [] :=
  Adds.changeAnswers (L := [.command, .apply, .oApp, .commTick] ++ raftKinds)
    (adds_bind ((adds_runActor c).mono (by decide)) fun _ => adds_runRaft.mono (by decide)) (by decide) h

/-- What the dispatch of a cluster change request does. -/
theorem dispatch_changeCluster {cid rid t : Nat} {d d1 : Driver σ ρ κ H} {c}
    (h : dispatch S (.changeCluster cid rid t) d = .ok (d1, .ok c)) :
    d.state = .started ∧ d.ephemeral = false ∧
    ((∃ res st, (t = 1 ∨ t = 2) ∧ (∃ r', S.R.makeConfChange d.raft ⟨rid, decide (t = 1)⟩ = .ok (r', res)) ∧
        d1.trace = d.trace ++ [.proposeChange ⟨rid, decide (t = 1)⟩ res, .out (.changeCluster cid st)] ∧
        ((res = .ok () ∧ st = .pending) ∨ (res = .error .proposalDropped ∧ st = .rejected))) ∨
     (t ≠ 1 ∧ t ≠ 2 ∧ d1.trace = d.trace ++ [.out (.changeCluster cid .rejected)])) := by
  unfold dispatch at h
  obtain ⟨d2, _, g2, hp⟩ := M.bind_okOk h
  clear h
  simp only [M.pure_def, M.pure, Run.ok.injEq, Prod.mk.injEq] at hp
  rw [hp.1] at g2
  unfold processChangeCluster at g2
  obtain ⟨d3, _, h3, g3⟩ := M.bind_okOk g2
  obtain ⟨rfl, hs⟩ := checkState_ok h3
  obtain ⟨d4, _, h4, g4⟩ := M.bind_okOk g3
  obtain ⟨rfl, he⟩ := checkNonEphemeral_ok h4
  obtain ⟨d5, st, h5, g5⟩ := M.bind_okOk g4
  have h := g5
  simp only [stash, M.modify, Run.ok.injEq, Prod.mk.injEq] at h
  refine ⟨hs, he, ?_⟩
  have prop : ∀ {b : Bool}, makeConfChangeProposal S rid b d4 = .ok (d5, .ok st) →
      ∃ res, (∃ r', S.R.makeConfChange d4.raft ⟨rid, b⟩ = .ok (r', res)) ∧
        d1.trace = d4.trace ++ [.proposeChange ⟨rid, b⟩ res, .out (.changeCluster cid st)] ∧
        ((res = .ok () ∧ st = .pending) ∨ (res = .error .proposalDropped ∧ st = .rejected)) := by
    intro b hb
    unfold makeConfChangeProposal at hb
    obtain ⟨d6, res, h6, hb⟩ := M.bind_okOk hb
    simp only [callRaft, Run.bind_eq_ok, Run.ok.injEq, Prod.mk.injEq, Except.ok.injEq] at h6
    obtain ⟨x, hx, hd6, hxr⟩ := h6
    refine ⟨res, ⟨x.1, by rw [hx, ← hxr]⟩, ?_⟩
    cases res with
    | ok u =>
      simp only [M.pure_def, M.pure, Run.ok.injEq, Prod.mk.injEq, Except.ok.injEq] at hb
      refine ⟨?_, Or.inl ⟨rfl, hb.2.symm⟩⟩
      rw [← h.1, ← hb.1, ← hd6, hxr]
      simp
    | error e =>
      cases e with
      | proposalDropped =>
        simp only [M.pure_def, M.pure, Run.ok.injEq, Prod.mk.injEq, Except.ok.injEq] at hb
        refine ⟨?_, Or.inr ⟨rfl, hb.2.symm⟩⟩
        rw [← h.1, ← hb.1, ← hd6, hxr]
        simp
      | other => simp [M.fail] at hb
  unfold changeStatus at h5
  split at h5
  · rename_i ht
    obtain ⟨res, h7, h8, h9⟩ := prop h5
    exact Or.inl ⟨res, st, Or.inl ht, by rw [decide_eq_true ht]; exact h7, by rw [decide_eq_true ht]; exact h8, h9⟩
  · rename_i ht
    split at h5
    · rename_i ht2
      obtain ⟨res, h7, h8, h9⟩ := prop h5
      exact Or.inl ⟨res, st, Or.inr ht2, by rw [decide_eq_false ht]; exact h7, by rw [decide_eq_false ht]; exact h8, h9⟩
    · rename_i ht2
      simp only [M.pure_def, M.pure, Run.ok.injEq, Prod.mk.injEq, Except.ok.injEq] at h5
      refine Or.inr ⟨ht, ht2, ?_⟩
      rw [← h.1, ← h5.1, ← h5.2]

/-- Other requests give no answers to cluster change requests. -/
theorem dispatch_noChange {m : InMsg H} (hm : ∀ a b c, m ≠ .changeCluster a b c) {d d' : Driver σ ρ κ H} {r}
    (h : dispatch S m d = .ok (d', r)) : ∃ new, d'.trace = d.trace ++ new ∧ changeAnswers (outMessages new) = [] := by
  have key : ∀ {L : List K} {x : M (Driver σ ρ κ H) Unit}, Adds L x → K.oChange ∉ L →
      (x >>= fun _ => Pure.pure (none : Option ActorCommand)) d = .ok (d', r) →
      ∃ new, d'.trace = d.trace ++ new ∧ changeAnswers (outMessages new) = [] := fun hx hL h =>
    Adds.changeAnswers (adds_bind hx fun _ => adds_pure) hL h
  cases m with
  | startReplica q => exact key (adds_processStart q) (by decide) h
  | stopReplica => exact key adds_processStop (by decide) h
  | enterLameduck =>
    refine key (L := []) (adds_modify ?_) (by decide) h
    intro _; rfl
  | changeCluster a b c => exact absurd rfl (hm a b c)
  | checkCluster => exact key adds_processCheckCluster (by decide) h
  | systemMessage a b c => exact key (adds_processSystemMessage a b c) (by decide) h
  | snapshotRequest a b c p => exact key (adds_processSnapshotRequest a b c p) (by decide) h
  | snapshotResponse a b c p => exact key (adds_processSnapshotResponse a b c p) (by decide) h
  | snapshotFailure a b => exact key (adds_processSnapshotFailure a b) (by decide) h
  | getReplicaState => exact key adds_processGetReplicaState (by decide) h
  | handshake a x => exact key (adds_processHandshake a x) (by decide) h
  | appMessage c => exact Adds.changeAnswers (adds_pure (L := [])) (by decide) h

end TCP.Drv
