import Verif.Proofs.DriverReports
import Verif.Props.DriverExample

/-!
# Properties of the replica driver: C25–C31

A driver is driven by `receive S instant message driver`, for any actor, consensus layer and communication module (`S`).  `message` is
`none` (the host only lets time pass), `some none` (a message of unknown kind) or `some (some m)`.  The result is the new state and
either an error or what was handed to the host.  `Driver.trace` records the interactions.
-/

namespace TCP.DrvProps

open TCP TCP.Drv TCP.DrvSpec TCP.DrvExample TCP.ActorSpec

variable {σ ρ κ H : Type} {S : Sys σ ρ κ H}

/-! ## C25: time -/

/-- C25: during a call the actor sees one time, the latest the host has ever given. -/
theorem C25_time {instant : Nat} {m : Option (Option (InMsg H))} {d d' : Driver σ ρ κ H}
    {r : Except PalErr (Option (List (OutMsg H)))} (h : receive S instant m d = .ok (d', r)) :
    d'.instant = max d.instant instant ∧ ∃ new, Since d d' new ∧ ∀ t ∈ actorInstants new, t = d'.instant :=
  ⟨receive_instant h, receive_actorInstants h⟩

/-- C25: whatever the host's clock does and whatever the calls return, the actor's time never goes backwards. -/
theorem C25_monotone {d0 d : Driver σ ρ κ H} {rs} (h0 : Fresh d0) (h : Calls S d0 rs d) :
    (actorInstants d.trace).Pairwise (· ≤ ·) ∧ ∀ t ∈ actorInstants d.trace, t ≤ d.instant := by
  obtain ⟨a, r, c, rfl⟩ := h0
  exact calls_actorInstants rfl h

/-- C25: at most one tick per call. -/
theorem C25_one_tick {instant : Nat} {m : Option (Option (InMsg H))} {d d' : Driver σ ρ κ H}
    {r : Except PalErr (Option (List (OutMsg H)))} (h : receive S instant m d = .ok (d', r)) :
    ∃ new, Since d d' new ∧ (ticks new).length ≤ 1 :=
  receive_ticks h

/-- C25: ticks are at least the configured period apart, over all histories of calls. -/
theorem C25_paced {d0 d : Driver σ ρ κ H} {outs} (h0 : Fresh d0) (h : Runs S d0 outs d) :
    (ticks d.trace).Pairwise fun a b => a + d.tickPeriod ≤ b :=
  (runs_tickInv h0 h).paced

/-- C25 is not vacuous: the clock goes 1, 15, 7, 12, 40; the actor sees 1, 15, 15, 15, 40, and ticks come at 15 and 40. -/
example : ∃ d outs, Runs sys d0 outs d ∧
    (actorInstants d.trace = [1, 1, 1, 15, 15, 15, 15, 40] ∧ ticks d.trace = [15, 40] ∧ d.tickPeriod = 10) := by
  have h : check d0 [startLeader, (15, none), (7, none), (12, app 1 [9]), (40, none)] (fun d rs => allOk rs &&
      decide (actorInstants d.trace = [1, 1, 1, 15, 15, 15, 15, 40] ∧ ticks d.trace = [15, 40] ∧ d.tickPeriod = 10)) = true := by
    decide +kernel
  obtain ⟨d, outs, hr, hp⟩ := check_runs h
  exact ⟨d, outs, hr, of_decide_eq_true hp⟩

/-! ## C26: lifecycle -/

/-- C26: a replica that was started or stopped refuses to start; nothing happens. -/
theorem C26_start_refused {instant : Nat} {q : StartReq} {d : Driver σ ρ κ H} (h : d.state ≠ .created) :
    ∃ d', receive S instant (some (some (.startReplica q))) d = .ok (d', .error .invalidOperation) ∧ Untouched d d' :=
  ⟨_, start_refused h, untouched_preset _ _⟩

/-- C26: requests that need a started replica are refused by one that is not; nothing happens. -/
theorem C26_unstarted_refused {instant : Nat} {m : InMsg H} {d : Driver σ ρ κ H} (hm : NeedsStarted m) (h : d.state ≠ .started) :
    ∃ d', receive S instant (some (some m)) d = .ok (d', .error .invalidOperation) ∧ Untouched d d' :=
  ⟨_, unstarted_refused hm h, untouched_preset _ _⟩

/-- C26: requests about replication are refused by a replica started without it; nothing happens. -/
theorem C26_ephemeral_refused {instant : Nat} {m : InMsg H} {d : Driver σ ρ κ H} (hm : NeedsReplication m) (h : d.state = .started)
    (he : d.ephemeral = true) :
    ∃ d', receive S instant (some (some m)) d = .ok (d', .error .invalidOperation) ∧ Untouched d d' :=
  ⟨_, ephemeral_refused hm h he, untouched_preset _ _⟩

/-- C26: a replica starts at most once. -/
theorem C26_starts_once {d0 d : Driver σ ρ κ H} {rs} (h0 : Fresh d0) (h : Calls S d0 rs d) : (starts d.trace).length ≤ 1 :=
  (calls_starts h0 h).1

/-- C26: as long as a replica has not been started, only a start request can succeed.  Missing: the other messages are not
always refused with an error, see `C26_before_start_fails`. -/
theorem C26_before_start_partial {d0 d d' : Driver σ ρ κ H} {outs} (h0 : Fresh d0) (h : Runs S d0 outs d) (hc : d.state = .created)
    {instant : Nat} {m : Option (Option (InMsg H))} {ms} (hr : receive S instant m d = .ok (d', .ok (some ms))) :
    ∃ q, m = some (some (.startReplica q)) := by
  have hi := (runs_created h0 h).inv hc
  cases receive_outcome hr with
  | @done m' d2 c' outs hm hb ho =>
    obtain ⟨q, rfl⟩ := body_unstarted (d := presetState S instant d) hc hi.2.2.2.2.1 hb
    exact ⟨q, by simpa using hm⟩

/-- C26 fails: before the start request, an application message, and even a call without a message, crash the replica. -/
theorem C26_before_start_fails :
    Fresh d0 ∧ receive sys 5 none d0 = .panic ∧ receive sys 5 (app 1 [9]) d0 = .panic :=
  ⟨⟨_, _, _, rfl⟩, rfl, rfl⟩

/-- C26 fails: an application message to a stopped replica is dropped without an error. -/
theorem C26_stopped_app_fails :
    ∃ d outs d', Runs sys d0 outs d ∧ d.state = .stopped ∧ receive sys 5 (app 7 [9]) d = .ok (d', .ok (some [])) ∧ Untouched d d' := by
  have h : check d0 [startLeader, (2, some (some .stopReplica))] (fun d rs => allOk rs && (decide (d.state = .stopped) &&
      next 5 (app 7 [9]) d fun d' r => decide (r = .ok (some []) ∧ d'.trace = d.trace ∧ d'.actor = d.actor ∧ d'.raft = d.raft ∧
        d'.comm = d.comm ∧ d'.messages = d.messages ∧ d'.state = d.state))) = true := by
    decide +kernel
  obtain ⟨d, outs, hr, hp⟩ := check_runs h
  simp only [Bool.and_eq_true] at hp
  obtain ⟨d', r, hc, hq⟩ := next_sound hp.2
  obtain ⟨rfl, h1, h2, h3, h4, h5, h6⟩ := of_decide_eq_true hq
  exact ⟨d, outs, d', hr, of_decide_eq_true hp.1, hc, h1, h2, h3, h4, h5, h6⟩

/-- C26 is not vacuous: all lifecycle states are reached, also without replication; a second start is refused. -/
example : (∃ d outs, Runs sys d0 outs d ∧ d.state = .started ∧ d.ephemeral = true ∧ starts d.trace = [1]) ∧
    (∃ d outs, Runs sys d0 outs d ∧ d.state = .stopped ∧ d.ephemeral = false ∧ starts d.trace = [1]) ∧
    (∃ d rs, Calls sys d0 rs d ∧ rs.length = 2 ∧ rs[1]? = some (.error .invalidOperation) ∧ starts d.trace = [1]) := by
  refine ⟨?_, ?_, ?_⟩
  · have h : check d0 [startEphemeral] (fun d rs => allOk rs &&
        decide (d.state = .started ∧ d.ephemeral = true ∧ starts d.trace = [1])) = true := by decide +kernel
    obtain ⟨d, outs, hr, hp⟩ := check_runs h
    exact ⟨d, outs, hr, of_decide_eq_true hp⟩
  · have h : check d0 [startLeader, (2, some (some .stopReplica))] (fun d rs => allOk rs &&
        decide (d.state = .stopped ∧ d.ephemeral = false ∧ starts d.trace = [1])) = true := by decide +kernel
    obtain ⟨d, outs, hr, hp⟩ := check_runs h
    exact ⟨d, outs, hr, of_decide_eq_true hp⟩
  · have h : check d0 [startLeader, startLeader] (fun d rs =>
        decide (rs.length = 2 ∧ rs[1]? = some (.error .invalidOperation) ∧ starts d.trace = [1])) = true := by decide +kernel
    obtain ⟨d, outs, hr, hp⟩ := check_sound h
    exact ⟨d, outs, hr, of_decide_eq_true hp⟩

/-! ## C27: stopped replicas -/

/-- C27, the part that holds: a stopped replica stays stopped and gives its actor no further commands, and neither initialises nor
shuts it down again.  Missing: events, see `C27_fails`. -/
theorem C27_no_commands_partial {d d' : Driver σ ρ κ H} {rs} (hs : d.state = .stopped) (h : Calls S d rs d') :
    d'.state = .stopped ∧ ∃ new, Since d d' new ∧
      ∀ e ∈ new, ¬ IsCommand e ∧ (∀ ctx r, e ≠ .actorInit ctx r) ∧ (∀ ctx, e ≠ .actorShutdown ctx) := by
  induction h with
  | nil => exact ⟨hs, [], by simp [Since], by simp⟩
  | snoc _ hc ih =>
    obtain ⟨h1, n1, t1, p1⟩ := ih
    obtain ⟨h2, n2, t2, p2⟩ := receive_stopped h1 hc
    refine ⟨h2, n1 ++ n2, ?_, fun e he => (List.mem_append.1 he).elim (p1 e) (p2 e)⟩
    unfold Since at *
    rw [t2, t1, List.append_assoc]

/-- C27, the part that holds: a stopped replica without replication does not touch its actor at all. -/
theorem C27_ephemeral_partial {instant : Nat} {m : Option (Option (InMsg H))} {d d' : Driver σ ρ κ H}
    {r : Except PalErr (Option (List (OutMsg H)))} (hs : d.state = .stopped) (he : d.ephemeral = true)
    (h : receive S instant m d = .ok (d', r)) : d'.actor = d.actor ∧ ∃ new, Since d d' new ∧ ∀ e ∈ new, ¬ TouchesActor e :=
  receive_stopped_ephemeral hs he h

/-- C27 fails: a committed entry is applied to the actor after it was shut down. -/
theorem C27_fails :
    ∃ b d outs, Fresh b ∧ Runs sys b outs d ∧ d.state = .stopped ∧ d.actor = [4, 5] ∧
      ∃ before ctx later, d.trace = before ++ [.actorShutdown ctx] ++ later ∧ ∃ e ∈ later, IsApply e := by
  let q : Raft := ⟨false, .new, 0, [batch [⟨2, 1, .normal, entryC.enc ⟨some (2, 1), [4]⟩⟩], batch [⟨3, 1, .normal, entryC.enc ⟨some (2, 2), [5]⟩⟩]]⟩
  have h : check (.new [] q []) [startFollower, (2, some (some .stopReplica))] (fun d rs => allOk rs &&
      decide (d.state = .stopped ∧ d.actor = [4, 5] ∧
        d.trace = d.trace.take 10 ++ [.actorShutdown ⟨1, 2, [], false⟩] ++ d.trace.drop 11 ∧
        (d.trace.drop 11).any (fun e => match e with | .actor (.apply ..) => true | _ => false) = true)) = true := by
    decide +kernel
  obtain ⟨d, outs, hr, hp⟩ := check_runs h
  obtain ⟨h1, h2, h3, h4⟩ := of_decide_eq_true hp
  obtain ⟨e, he, hap⟩ := List.any_eq_true.1 h4
  refine ⟨_, d, outs, ⟨_, _, _, rfl⟩, hr, h1, h2, _, _, _, h3, e, he, ?_⟩
  split at hap
  · trivial
  · cases hap

/-! ## C28: messages for other replicas -/

/-- C28, the part that holds: a consensus message reaches the consensus layer only if the communication module delivered it for the
message at hand, or as a completely received snapshot, and then it is addressed to this replica.  Missing: the delivered message may be
addressed to another replica, see `C28_fails`. -/
theorem C28_source_partial {instant : Nat} {m : InMsg H} {d d' : Driver σ ρ κ H}
    {r : Except PalErr (Option (List (OutMsg H)))} (hs : d.state ≠ .created) (h : receive S instant (some (some m)) d = .ok (d', r)) :
    ∃ new, Since d d' new ∧ ∀ x, .step x ∈ new →
      (∃ rcp snd pl k k' rcp' snd' p, m = .systemMessage rcp snd pl ∧
        S.C.processIn k (.data ⟨.system, rcp, snd, pl⟩) = .ok (k', .ok (some (.data ⟨.system, rcp', snd', some p⟩))) ∧
        S.E.decRaft p.contents = some x) ∨
      (x.to = d.id ∧ x.type = .snapshot) := by
  have key : ∀ {m' : Option (InMsg H)}, some (some m) = m'.map some → m' = some m := by
    intro m' h; cases m' with
    | none => cases h
    | some x => simp only [Option.map_some, Option.some.injEq] at h; rw [h]
  have conv : ∀ {x}, StepSource S (some m) d.id x → (∃ rcp snd pl k k' rcp' snd' p, m = .systemMessage rcp snd pl ∧
        S.C.processIn k (.data ⟨.system, rcp, snd, pl⟩) = .ok (k', .ok (some (.data ⟨.system, rcp', snd', some p⟩))) ∧
        S.E.decRaft p.contents = some x) ∨
      (x.to = d.id ∧ x.type = .snapshot) := by
    rintro x (⟨rcp, snd, pl, k, k', rcp', snd', p, hm, h1, h2⟩ | h)
    · exact Or.inl ⟨rcp, snd, pl, k, k', rcp', snd', p, by simpa using hm, h1, h2⟩
    · exact Or.inr h
  cases receive_outcome h with
  | unknown hm => cases hm
  | @failed m' d' e hm hb =>
    obtain rfl := key hm
    obtain ⟨new, ht, hn⟩ := (steps_body (d := presetState S instant d) hs).run _ _ hb
    exact ⟨new, ht, fun x hx => conv (hn x hx)⟩
  | @done m' d2 c' outs hm hb ho =>
    obtain rfl := key hm
    obtain ⟨new, ht, hn⟩ := (steps_body (d := presetState S instant d) hs).run _ _ hb
    refine ⟨new ++ outs.map fun m => .out (.comm m), ?_, fun x hx => ?_⟩
    · unfold Since; simp only [ht, List.append_assoc]; rfl
    · rcases List.mem_append.1 hx with hx | hx
      · exact conv (hn x hx)
      · obtain ⟨o, _, ho⟩ := List.mem_map.1 hx
        cases ho

/-- C28 fails: replica 1 is given a message for replica 9 (both the envelope and the consensus message say so) and steps it. -/
theorem C28_fails :
    ∃ d outs d' r, Runs sys d0 outs d ∧ d.id = 1 ∧
      receive sys 5 (some (some (.systemMessage 9 2 (some ⟨[9, 2], []⟩)))) d = .ok (d', r) ∧
      ∃ new, Since d d' new ∧ .step ⟨9, 2, .other 0, none, []⟩ ∈ new := by
  have h : check d0 [startFollower] (fun d rs => allOk rs && (decide (d.id = 1) &&
      next 5 (some (some (.systemMessage 9 2 (some ⟨[9, 2], []⟩)))) d fun d' _ =>
        decide (d'.trace = d.trace ++ d'.trace.drop d.trace.length ∧
          .step ⟨9, 2, .other 0, none, []⟩ ∈ d'.trace.drop d.trace.length))) = true := by
    decide +kernel
  obtain ⟨d, outs, hr, hp⟩ := check_runs h
  simp only [Bool.and_eq_true] at hp
  obtain ⟨d', r, hc, hq⟩ := next_sound hp.2
  obtain ⟨h1, h2⟩ := of_decide_eq_true hq
  exact ⟨d, outs, d', r, hr, of_decide_eq_true hp.1, hc, _, h1, h2⟩

/-! ## C29: cluster changes -/

/-- C29: a cluster change request that does not fail gets exactly one answer, with its id: pending if consensus accepted the change,
rejected if it dropped it or the kind of change is unknown.  `d.messages = []` holds between successful calls, see `C31_empty`. -/
theorem C29_one_answer {instant cid rid t : Nat} {d d' : Driver σ ρ κ H} {outs : List (OutMsg H)} (hm : d.messages = [])
    (h : receive S instant (some (some (.changeCluster cid rid t))) d = .ok (d', .ok (some outs))) :
    ∃ st, changeAnswers outs = [(cid, st)] ∧
      (((t = 1 ∨ t = 2) ∧ ∃ r' res, S.R.makeConfChange d.raft ⟨rid, decide (t = 1)⟩ = .ok (r', res) ∧
          ((res = .ok () ∧ st = .pending) ∨ (res = .error .proposalDropped ∧ st = .rejected))) ∨
        (t ≠ 1 ∧ t ≠ 2 ∧ st = .rejected)) := by
  obtain ⟨nw, ht, ho, _⟩ := receive_sent h
  cases receive_outcome h with
  | @done m' d2 c' os hm' hb hto =>
    have : m' = some (.changeCluster cid rid t) := by
      cases m' with
      | none => cases hm'
      | some x => simp only [Option.map_some, Option.some.injEq] at hm'; rw [hm']
    subst this
    unfold body at hb
    obtain ⟨d1, c, h1, h2⟩ := M.bind_okOk hb
    obtain ⟨n2, t2, a2⟩ := changeAnswers_rest h2
    have hd := dispatch_changeCluster h1
    have hall : ∀ n1, d1.trace = d.trace ++ n1 → changeAnswers (outMessages nw) = changeAnswers (outMessages n1) := by
      intro n1 t1
      have : nw = n1 ++ n2 ++ os.map fun m => .out (.comm m) := by
        have h3 : d.trace ++ nw = d.trace ++ (n1 ++ n2 ++ os.map fun m => .out (.comm m)) := by
          rw [← ht]; simp only [t2, t1, List.append_assoc]
        exact List.append_cancel_left h3
      rw [this]
      simp only [outMessages_append, changeAnswers_append, a2, List.append_nil]
      rw [outMessages_comm, changeAnswers_comm, List.append_nil]
    rw [hm, List.nil_append] at ho
    rcases hd.2.2 with ⟨res, st, ht12, ⟨r', hcc⟩, htr, hst⟩ | ⟨hn1, hn2, htr⟩
    · refine ⟨st, ?_, Or.inl ⟨ht12, r', res, hcc, hst⟩⟩
      rw [ho, hall _ htr]
      rfl
    · refine ⟨.rejected, ?_, Or.inr ⟨hn1, hn2, rfl⟩⟩
      rw [ho, hall _ htr]
      rfl

/-- C29: if consensus refuses the change for another reason, the call fails. -/
theorem C29_other_error {instant cid rid t : Nat} {d : Driver σ ρ κ H} (ht : t = 1 ∨ t = 2) (hs : d.state = .started)
    (he : d.ephemeral = false) {r' : ρ} (hc : S.R.makeConfChange d.raft ⟨rid, decide (t = 1)⟩ = .ok (r', .error .other)) :
    ∃ d', receive S instant (some (some (.changeCluster cid rid t))) d = .ok (d', .error .raft) ∧
      Since d d' [.proposeChange ⟨rid, decide (t = 1)⟩ (.error .other)] := by
  let d1 : Driver σ ρ κ H := { presetState S instant d with
    raft := r', trace := d.trace ++ [.proposeChange ⟨rid, decide (t = 1)⟩ (.error .other)] }
  refine ⟨d1, ?_, rfl⟩
  have h1 : checkState .started (presetState S instant d) = .ok (presetState S instant d, .ok ()) := checkState_pass hs
  have h2 : checkNonEphemeral (presetState S instant d) = .ok (presetState S instant d, .ok ()) := checkNonEphemeral_pass he
  have h3 : makeConfChangeProposal S rid (decide (t = 1)) (presetState S instant d) = .ok (d1, .error .raft) := by
    unfold makeConfChangeProposal
    rw [M.bind_run (d1 := d1) (a := .error .other)]
    · rfl
    · have hc' : S.R.makeConfChange (presetState S instant d).raft ⟨rid, decide (t = 1)⟩ = .ok (r', .error .other) := hc
      simp only [callRaft, hc', Run.bind_ok]
      rfl
  have h4 : changeStatus S rid t (presetState S instant d) = .ok (d1, .error .raft) := by
    unfold changeStatus
    rcases ht with rfl | rfl
    · exact h3
    · exact h3
  refine receive_error ?_
  unfold dispatch processChangeCluster
  refine M.bind_run_error ?_
  rw [M.bind_run h1, M.bind_run h2]
  exact M.bind_run_error h4

/-- C29: no other message produces an answer to a cluster change request. -/
theorem C29_only_answers {instant : Nat} {m : Option (Option (InMsg H))} {d d' : Driver σ ρ κ H} {outs : List (OutMsg H)}
    (hm : d.messages = []) (hn : ∀ a b c, m ≠ some (some (.changeCluster a b c)))
    (h : receive S instant m d = .ok (d', .ok (some outs))) : changeAnswers outs = [] := by
  obtain ⟨nw, ht, ho, _⟩ := receive_sent h
  cases receive_outcome h with
  | @done m' d2 c' os hm' hb hto =>
    unfold body at hb
    obtain ⟨d1, c, h1, h2⟩ := M.bind_okOk hb
    obtain ⟨n2, t2, a2⟩ := changeAnswers_rest h2
    have h3 : ∃ n1, d1.trace = d.trace ++ n1 ∧ changeAnswers (outMessages n1) = [] := by
      cases m' with
      | none => exact Adds.changeAnswers (d := presetState S instant d) (adds_pure (L := [])) (by decide) h1
      | some x => exact dispatch_noChange (d := presetState S instant d) (m := x) (fun a b c hx => hn a b c (by rw [hm', hx]; rfl)) h1
    obtain ⟨n1, t1, a1⟩ := h3
    have : nw = n1 ++ n2 ++ os.map fun m => .out (.comm m) := by
      have h3 : d.trace ++ nw = d.trace ++ (n1 ++ n2 ++ os.map fun m => .out (.comm m)) := by
        rw [← ht]; simp only [t2, t1, List.append_assoc]
      exact List.append_cancel_left h3
    rw [ho, hm, List.nil_append, this]
    simp only [outMessages_append, changeAnswers_append, a1, a2, List.append_nil]
    simp only [outMessages_comm, changeAnswers_comm, List.nil_append]

/-- C29 is not vacuous: a change is accepted on the leader, dropped on a follower, fails, and has an unknown kind. -/
example : (∃ d outs, Runs sys d0 outs d ∧ changeAnswers (outs.getLast?.join.getD []) = [(7, .pending)]) ∧
    (∃ d outs, Runs sys d0 outs d ∧ changeAnswers (outs.getLast?.join.getD []) = [(7, .rejected)]) ∧
    (∃ d outs, Runs sys d0 outs d ∧ changeAnswers (outs.getLast?.join.getD []) = [(8, .rejected)]) ∧
    (∃ d outs, Runs sys d0 outs d ∧ d.state = .started ∧ d.ephemeral = false ∧
      ∃ r', sys.R.makeConfChange d.raft ⟨0, true⟩ = .ok (r', .error .other)) := by
  have key : ∀ {cs l}, check d0 cs (fun d rs => allOk rs && decide (changeAnswers ((match rs.getLast? with | some (.ok (some o)) => o | _ => [])) = l)) = true →
      ∃ d outs, Runs sys d0 outs d ∧ changeAnswers (outs.getLast?.join.getD []) = l := by
    intro cs l h
    obtain ⟨d, outs, hr, hp⟩ := check_runs h
    refine ⟨d, outs, hr, ?_⟩
    have := of_decide_eq_true hp
    rw [← this]
    rw [List.getLast?_map]
    cases outs.getLast? with
    | none => rfl
    | some o => cases o <;> rfl
  refine ⟨key (cs := [startLeader, (2, some (some (.changeCluster 7 3 1)))]) (by decide +kernel),
    key (cs := [startFollower, (2, some (some (.changeCluster 7 3 2)))]) (by decide +kernel),
    key (cs := [startLeader, (2, some (some (.changeCluster 8 3 5)))]) (by decide +kernel), ?_⟩
  have h : check d0 [startLeader] (fun d rs => allOk rs && decide (d.state = .started ∧ d.ephemeral = false)) = true := by decide +kernel
  obtain ⟨d, outs, hr, hp⟩ := check_runs h
  have := of_decide_eq_true hp
  exact ⟨d, outs, hr, this.1, this.2, d.raft, rfl⟩

/-! ## C30: cluster reports -/

/-- C30, the part that holds: a successful call on a started replica produces at most one report; it carries the state of consensus at
the end of the call, with the members if this replica is the leader; there is one exactly if that state differs from the one at the end
of the previous call (`d.raftState`), or, if a report was requested, from the initial state.  Missing: a request is not answered while
the state is the initial one, see `C30_fails`. -/
theorem C30_reports_partial {instant : Nat} {m : Option (InMsg H)} {d d' : Driver σ ρ κ H} {outs : List (OutMsg H)}
    (hk : KeepsNode S.R) (hi : S.R.initialized d.raft = true) (hm : d.messages = []) (hs : d.state ≠ .created) (he : d.ephemeral = false)
    (h : receive S instant (m.map some) d = .ok (d', .ok (some outs))) :
    (∃ st, S.R.state d'.raft = .ok st ∧ d'.raftState = if st.leaderId = d.id then { st with cluster := d'.conf.voters } else st) ∧
    clusterReports outs =
      if baseline m d.raftState = d'.raftState then [] else [d'.raftState] := by
  obtain ⟨nw, ht, ho, _⟩ := receive_sent h
  cases receive_outcome h with
  | @done m' d2 c' os hm' hb hto =>
    have hmm : m' = m := by
      cases m <;> cases m' <;> simp_all
    subst hmm
    have hns : ∀ q, m' ≠ some (.startReplica q) := by
      rintro q rfl
      rw [Option.map_some, start_refused hs] at h
      simp at h
    obtain ⟨new, tn, st0, hst, hrs, hid, _, hrep⟩ := body_reports hns (d := presetState S instant d) hk hi he hs hb
    · refine ⟨⟨st0, hst, ?_⟩, ?_⟩
      · show d2.raftState = _
        rw [hrs, reported, hid]
        rfl
      · have : nw = new ++ os.map fun m => .out (.comm m) := by
          have h3 : d.trace ++ nw = d.trace ++ (new ++ os.map fun m => .out (.comm m)) := by
            rw [← ht]; simp only [tn, List.append_assoc]; rfl
          exact List.append_cancel_left h3
        rw [ho, hm, List.nil_append, this]
        simp only [outMessages_append, clusterReports_append]
        rw [outMessages_comm, clusterReports_comm, List.append_nil, hrep]
        rfl

/-- C30 is not vacuous: the example system keeps its node; a leader reports when asked. -/
example : KeepsNode sys.R ∧
    (∃ d outs, Runs sys d0 outs d ∧ sys.R.initialized d.raft = true ∧ d.messages = [] ∧ d.state = .started ∧ d.ephemeral = false ∧
      clusterReports (sent (outs.map .ok)) = [⟨1, 1, [1], false⟩]) := by
  refine ⟨⟨?_, ?_, ?_, ?_, ?_⟩, ?_⟩
  · intro r m r' x h hs; simp only [sys, DrvExample.raft, Run.ok.injEq, Prod.mk.injEq] at h hs ⊢; rw [← hs.1]; exact h
  · intro r m r' x h hs; simp only [sys, DrvExample.raft, Run.ok.injEq, Prod.mk.injEq] at h hs ⊢; rw [← hs.1]; exact h
  · intro r m r' x h hs; simp only [sys, DrvExample.raft, Run.ok.injEq, Prod.mk.injEq] at h hs ⊢; rw [← hs.1]; exact h
  · intro r m r' x h hs; simp only [sys, DrvExample.raft, Run.ok.injEq] at h hs ⊢; rw [← hs]; exact h
  · intro r m r' x hs; simp only [sys, DrvExample.raft, Run.ok.injEq] at hs ⊢; rw [← hs]
  · have h : check d0 [startLeader, (2, none), (3, some (some .checkCluster)), (4, none)] (fun d rs => allOk rs &&
        decide (sys.R.initialized d.raft = true ∧ d.messages = [] ∧ d.state = .started ∧ d.ephemeral = false ∧
          clusterReports (sent rs) = [⟨1, 1, [1], false⟩])) = true := by decide +kernel
    obtain ⟨d, outs, hr, hp⟩ := check_runs h
    exact ⟨d, outs, hr, of_decide_eq_true hp⟩

/-- C30 fails: a replica without a leader does not answer a request for a report. -/
theorem C30_fails :
    ∃ d outs d', Runs sys d0 outs d ∧ d.state = .started ∧ d.ephemeral = false ∧
      receive sys 5 (some (some .checkCluster)) d = .ok (d', .ok (some [])) := by
  have h : check d0 [startFollower] (fun d rs => allOk rs && (decide (d.state = .started ∧ d.ephemeral = false) &&
      next 5 (some (some .checkCluster)) d fun _ r => decide (r = .ok (some [])))) = true := by
    decide +kernel
  obtain ⟨d, outs, hr, hp⟩ := check_runs h
  simp only [Bool.and_eq_true] at hp
  obtain ⟨d', r, hc, hq⟩ := next_sound hp.2
  obtain ⟨h1, h2⟩ := of_decide_eq_true hp.1
  obtain rfl := of_decide_eq_true hq
  exact ⟨d, outs, d', hr, h1, h2, hc⟩

/-! ## C31: the outbox -/

/-- C31: between successful calls the outbox is empty. -/
theorem C31_empty {d0 d : Driver σ ρ κ H} {outs} (h0 : Fresh d0) (h : Runs S d0 outs d) : d.messages = [] :=
  runs_messages h0 h

/-- C31: a successful call hands the host what was left over from failed calls and what it produced itself, in order, and
empties the outbox. -/
theorem C31_call {instant : Nat} {m : Option (Option (InMsg H))} {d d' : Driver σ ρ κ H} {outs : List (OutMsg H)}
    (h : receive S instant m d = .ok (d', .ok (some outs))) :
    ∃ new, Since d d' new ∧ outs = d.messages ++ outMessages new ∧ d'.messages = [] :=
  receive_sent h

/-- C31: a failed call loses nothing: what it produced stays in the outbox. -/
theorem C31_kept {instant : Nat} {m : Option (Option (InMsg H))} {d d' : Driver σ ρ κ H}
    {r : Except PalErr (Option (List (OutMsg H)))} (h : receive S instant m d = .ok (d', r)) (hr : ∀ ms, r ≠ .ok (some ms)) :
    ∃ new, Since d d' new ∧ d'.messages = d.messages ++ outMessages new :=
  receive_kept h hr

/-- C31: over any history of calls, what the host got and what waits in the outbox is exactly what was produced, in order. -/
theorem C31_history {d0 d : Driver σ ρ κ H} {rs} (h0 : Fresh d0) (h : Calls S d0 rs d) : sent rs ++ d.messages = outMessages d.trace :=
  calls_sent h0 h

/-- C31: the application messages produced are exactly the actor's replies, in order. -/
theorem C31_replies {d0 d : Driver σ ρ κ H} {rs} (h0 : Fresh d0) (h : Calls S d0 rs d) :
    appMessages (sent rs ++ d.messages) = d.trace.flatMap actorReplies := by
  rw [calls_sent h0 h]
  exact calls_replies h0 h

/-- C31 is not vacuous: a call fails with a message of an earlier part of the call in the outbox, and the next call delivers it. -/
example : ∃ d rs, Calls sys d0 rs d ∧ rs[1]? = some (.error .invalidOperation) ∧
    appMessages (sent rs) = [⟨1, [], [9]⟩] ∧ d.messages = [] := by
  have h : check d0 [startLeader, startLeader, (12, app 1 [9])] (fun d rs =>
      decide (rs[1]? = some (.error .invalidOperation) ∧ appMessages (sent rs) = [⟨1, [], [9]⟩] ∧ d.messages = [])) = true := by decide +kernel
  obtain ⟨d, rs, hr, hp⟩ := check_sound h
  exact ⟨d, rs, hr, of_decide_eq_true hp⟩

end TCP.DrvProps
