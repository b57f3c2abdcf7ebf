import Verif.Proofs.SurviveApps
import Verif.Props.SurviveExample
import Verif.Model.CacheStore

/-!
# C95: a running replica keeps running

Every failure inside a call ends the process (service.rs:116-122, 193 `expect`).  The theorems say what has to be promised so that no call
does, and which calls do.  Partial: the promises of consensus (`ConsensusSafe`) are about raft-rs, which is not modelled.
-/

namespace TCP.Survive

open TCP TCP.Drv TCP.Replica TCP.SurvExample

variable {σ ρ P S E H : Type}

/-! ## Calls that succeed -/

/-- The start and every call after it return, provided the application, consensus and the sessions keep their promises. -/
theorem C95_survives_partial {A : Actor σ} {R : RaftT ρ} {ops : Comm.Ops S E H} {V : Env P S E H} {codecs : Codecs} {T : Terms σ ρ} {a0 : σ} {r0 : ρ}
    (hA : ActorSafe A T a0) (hR : ConsensusSafe R codecs T r0) (hV : ChannelsSafe ops V) (p : P) :
    (∀ q i, GoodStart T q → ∃ d out, serve (replica A R ops V codecs) i (some (some (.startReplica q))) (.new a0 r0 (Channels.new p)) = .ok (d, out)) ∧
    ∀ d, Kept (replica A R ops V codecs) T (.new a0 r0 (Channels.new p)) d → ∀ i msg, Fair (replica A R ops V codecs) T d msg →
      ∃ d' out, serve (replica A R ops V codecs) i msg d = .ok (d', out) := by
  constructor
  · intro q i hq
    obtain ⟨d, out, h, _⟩ := serve_start hA hR hV (i := i) hq (new_fresh a0 r0 p)
    exact ⟨d, out, h⟩
  · intro d hd i msg hm
    obtain ⟨d', out, h, _⟩ := serve_fine hA hR hV (i := i) hm (hd.fine hA hR hV (new_fresh a0 r0 p))
    exact ⟨d', out, h⟩

/-- The counter is started, a command is committed and answered; whatever comes next, the replica survives it. -/
example : ∃ d out, runAll counterSys (new .new) [start true false, app swap, none] = .ok (d, out) ∧ out.length = 2 ∧
    ∀ i msg, Fair counterSys counter d msg → ∃ d' out, serve counterSys i msg d = .ok (d', out) := by
  obtain ⟨d, out, h, hp⟩ := check_sound (Sy := counterSys) (d := new .new) (cs := [start true false, app swap, none])
    (p := fun _ out => decide (out.length = 2)) (by decide +kernel)
  refine ⟨d, out, h, of_decide_eq_true hp, ?_⟩
  simp only [runAll, Run.bind_eq_ok] at h
  obtain ⟨r, h1, x, h2, h3⟩ := h
  simp only [Run.ok.injEq, Prod.mk.injEq] at h3
  have hk := kept_runAll (cs := [app swap, none]) (Kept.start (T := counter) good_start h1) (fun m hm => by
    simp only [List.mem_cons, List.not_mem_nil, or_false] at hm
    rcases hm with rfl | rfl
    · exact .inr ⟨_, rfl, trivial⟩
    · exact .inl rfl) (d' := d) (out := x.2) (by simp only [runAll, Run.bind_eq_ok, ← h3.1]; exact h2)
  exact (C95_survives_partial (counter_safe Counter.Spec.exMsgs_lawful counter) (consensus_safe (counterTerms Counter.Spec.exMsgs (free _))) channels_safe ()).2 d hk

/-- The same for a replica that does not take part in consensus; nothing is asked of consensus. -/
theorem C95_ephemeral {A : Actor σ} {R : RaftT ρ} {ops : Comm.Ops S E H} {V : Env P S E H} {codecs : Codecs} {T : Terms σ ρ} {a0 : σ} {r0 : ρ}
    (hA : ActorSafe A T a0) (hV : ChannelsSafe ops V) (p : P) :
    (∀ q i, GoodEphemeralStart T q → ∃ d out, serve (replica A R ops V codecs) i (some (some (.startReplica q))) (.new a0 r0 (Channels.new p)) = .ok (d, out)) ∧
    ∀ d, KeptEphemeral (replica A R ops V codecs) T (.new a0 r0 (Channels.new p)) d → ∀ i msg, FairEphemeral T d msg →
      ∃ d' out, serve (replica A R ops V codecs) i msg d = .ok (d', out) := by
  constructor
  · intro q i hq
    obtain ⟨d, out, h, _⟩ := serveE_start (i := i) hA hV hq (new_fresh a0 r0 p)
    exact ⟨d, out, h⟩
  · intro d hd i msg hm
    obtain ⟨d', out, h, _⟩ := serveE_fine (i := i) hA hV hm (hd.fine hA hV (new_fresh a0 r0 p))
    exact ⟨d', out, h⟩

/-- A counter that does not take part in consensus rejects commands and survives. -/
example : check counterSys (new .new) [start false true, app swap, none, some (some .getReplicaState)] (fun _ out => out.length == 3) = true := by decide +kernel

example : GoodEphemeralStart counter (startReq false true) :=
  ⟨by decide, rfl, rfl, show (Counter.Spec.exMsgs.decConfig [0]).isSome = true by decide +kernel⟩

/-- No command whatsoever ends a replica of the counter. -/
theorem C95_counter_partial {ms : Counter.Msgs} (hl : Counter.Spec.Lawful ms) {R : RaftT ρ} {ops : Comm.Ops S E H} {V : Env P S E H} {codecs : Codecs}
    {T : Terms Counter.State ρ} {r0 : ρ} (hR : ConsensusSafe R codecs (counterTerms ms T) r0) (hV : ChannelsSafe ops V) (p : P)
    {d : Driver Counter.State ρ (Channels P S E H) H}
    (hd : Kept (replica (Counter.actor ms) R ops V codecs) (counterTerms ms T) (.new .new r0 (Channels.new p)) d) (i : Nat) (c : ActorCommand) :
    ∃ d' out, serve (replica (Counter.actor ms) R ops V codecs) i (some (some (.appMessage c))) d = .ok (d', out) :=
  (C95_survives_partial (counter_safe hl T) hR hV p).2 d hd i _ trivial

/-- Even one that is not a request. -/
example : check counterSys (new .new) [start true false, app ⟨3, [9, 9], [9]⟩] (fun _ out => out.length == 2) = true := by decide +kernel

example : ConsensusSafe SurvExample.raft SurvExample.codecs (counterTerms Counter.Spec.exMsgs counter) r0 :=
  consensus_safe (counterTerms Counter.Spec.exMsgs (free _))

/-- No command ends a replica of the tablet store, if arithmetic wraps around, unless it asks for tablets to be added or removed. -/
theorem C95_tablets_partial {env : TabletStore.Env} (hl : TabletStore.Spec.Lawful env) (hov : env.overflowChecks = false) {names : List String}
    {R : RaftT ρ} {ops : Comm.Ops S E H} {V : Env P S E H} {codecs : Codecs} {T : Terms TabletStore.State ρ} {r0 : ρ}
    (hR : ConsensusSafe R codecs (tabletTerms env names T) r0) (hV : ChannelsSafe ops V) (p : P) {a0 : TabletStore.State} (ha : a0.tables = [])
    {d : Driver TabletStore.State ρ (Channels P S E H) H}
    (hd : Kept (replica (TabletStore.actor env) R ops V codecs) (tabletTerms env names T) (.new a0 r0 (Channels.new p)) d) (i : Nat) (c : ActorCommand)
    (hc : ∀ ops, env.decReq c.payload = some ops → ∀ o ∈ ops, (∀ m, o.op ≠ some (.add m)) ∧ ∀ i j, o.op ≠ some (.remove i j)) :
    ∃ d' out, serve (replica (TabletStore.actor env) R ops V codecs) i (some (some (.appMessage c))) d = .ok (d', out) :=
  (C95_survives_partial (tablets_safe hl hov names T ha) hR hV p).2 d hd i _ fun x hx => by cases hx; exact hc

example (env : TabletStore.Env) (names : List String) :
    ConsensusSafe SurvExample.raft SurvExample.codecs (tabletTerms env names (close (tabletTerms env names (free _)))) r0 :=
  consensus_safe (tabletTerms env names (free _))

/-- No command that the decryptor can decode and that holds no malformed decryption request ends a replica of the decryptor. -/
theorem C95_decryptor_partial {env : Willow.Env} (hl : Willow.Spec.Lawful env) {R : RaftT ρ} {ops : Comm.Ops S E H} {V : Env P S E H} {codecs : Codecs}
    {T : Terms Willow.State ρ} {r0 : ρ} (hR : ConsensusSafe R codecs (decryptorTerms env T) r0) (hV : ChannelsSafe ops V) (p : P) {a0 : Willow.State}
    {d : Driver Willow.State ρ (Channels P S E H) H}
    (hd : Kept (replica (Willow.actor env) R ops V codecs) (decryptorTerms env T) (.new a0 r0 (Channels.new p)) d) (i : Nat) (c : ActorCommand)
    {r : Willow.Request} (hr : env.decReq c.header = some r) (hq : ∀ k q, r = .decrypt k q → ∀ key n, (env.decrypt k key q n).isSome) :
    ∃ d' out, serve (replica (Willow.actor env) R ops V codecs) i (some (some (.appMessage c))) d = .ok (d', out) :=
  (C95_survives_partial (decryptor_safe hl T a0) hR hV p).2 d hd i _ fun x hx => by cases hx; exact ⟨r, hr, hq⟩

example : ConsensusSafe SurvExample.raft SurvExample.codecs (decryptorTerms Willow.Spec.exEnv (close (decryptorTerms Willow.Spec.exEnv (free _)))) r0 :=
  consensus_safe (decryptorTerms Willow.Spec.exEnv (free _))

/-- A key is generated and used. -/
example : check (sysOf (Willow.actor Willow.Spec.exEnv) SurvExample.codecs) (new ⟨[], 0⟩) [start true false, app ⟨3, [1, 0, 1, 0, 5], []⟩, none] (fun d _ => d.actor.keys.length == 1) = true := by
  decide +kernel

/-! ## Calls that end the process -/

/-- A request about the running replica before its start or after its stop, and a second start. -/
theorem C95_outside_fails {κ : Type} {Sy : Sys σ ρ κ H} {d : Driver σ ρ κ H} (i : Nat) :
    (d.state ≠ .started → (∀ c r t, serve Sy i (some (some (.changeCluster c r t))) d = .panic) ∧ serve Sy i (some (some .checkCluster)) d = .panic ∧
      serve Sy i (some (some .getReplicaState)) d = .panic ∧ (∀ s h, serve Sy i (some (some (.handshake s h))) d = .panic) ∧
      ∀ r s p, serve Sy i (some (some (.systemMessage r s p))) d = .panic) ∧
    (d.state ≠ .created → ∀ q, serve Sy i (some (some (.startReplica q))) d = .panic) :=
  ⟨fun h => ⟨fun _ _ _ => dispatch_ends (Ends.bind (Ends.bind (checkState_ends h))), dispatch_ends (Ends.bind (Ends.bind (checkState_ends h))),
    dispatch_ends (Ends.bind (Ends.bind (checkState_ends h))), fun _ _ => dispatch_ends (Ends.bind (Ends.bind (checkState_ends h))),
    fun _ _ _ => dispatch_ends (Ends.bind (Ends.bind (checkState_ends h)))⟩,
   fun h _ => dispatch_ends (Ends.bind (Ends.bind (checkState_ends h)))⟩

/-- A replica that was not started, and one that was. -/
example : (new Counter.State.new).state ≠ .started ∧ check counterSys (new .new) [start true false] (fun d _ => decide (d.state ≠ .created)) = true := by
  decide +kernel

/-- A message about consensus to a replica that does not take part in it. -/
theorem C95_ephemeral_fails {κ : Type} {Sy : Sys σ ρ κ H} {d : Driver σ ρ κ H} (i : Nat) (he : d.ephemeral = true) (hs : d.state = .started) :
    (∀ c r t, serve Sy i (some (some (.changeCluster c r t))) d = .panic) ∧ serve Sy i (some (some .checkCluster)) d = .panic ∧
    (∀ r s p, serve Sy i (some (some (.systemMessage r s p))) d = .panic) ∧ (∀ r s n p, serve Sy i (some (some (.snapshotRequest r s n p))) d = .panic) ∧
    (∀ r s n p, serve Sy i (some (some (.snapshotResponse r s n p))) d = .panic) ∧ ∀ s n, serve Sy i (some (some (.snapshotFailure s n))) d = .panic := by
  have started : Goes (checkState .started) (preset' Sy.R i d) fun _ d' => d' = preset' Sy.R i d := goes_started hs
  have ends : Ends (checkNonEphemeral (σ := σ) (ρ := ρ) (κ := κ) (H := H)) (preset' Sy.R i d) := checkNonEphemeral_ends he
  refine ⟨fun _ _ _ => dispatch_ends (Ends.bind (Goes.ends (started.mono fun _ d' hd => ?_))),
    dispatch_ends (Ends.bind (Goes.ends (started.mono fun _ d' hd => ?_))), fun _ _ _ => dispatch_ends (Ends.bind (Goes.ends (started.mono fun _ d' hd => ?_))),
    fun _ _ _ _ => dispatch_ends (Ends.bind (Ends.bind ends)), fun _ _ _ _ => dispatch_ends (Ends.bind (Ends.bind ends)),
    fun _ _ => dispatch_ends (Ends.bind (Ends.bind ends))⟩
  all_goals (subst hd; exact Ends.bind ends)

example : check counterSys (new .new) [start false true] (fun d _ => d.ephemeral && decide (d.state = .started)) = true := by decide +kernel

/-- A command on which the application fails ends the process. -/
theorem C95_command_fails {κ : Type} {Sy : Sys σ ρ κ H} {d : Driver σ ρ κ H} {i : Nat} {c : ActorCommand} (hs : d.state = .started) {s : σ} {e : ActorErr}
    (h : Sy.A.onProcessCommand { d.ctx with instant := max d.instant i, leader := Sy.R.leader d.raft } d.actor (some c) = .ok (s, .error e)) :
    serve Sy i (some (some (.appMessage c))) d = .panic := by
  refine app_ends hs (Goes.ends ((goes_started (d := preset' Sy.R i d) hs).mono fun _ d1 hd => ?_))
  subst hd
  exact Goes.ends (Goes.actor h (Ends.bind Ends.fail))

/-- Any client can end a replica of the decryptor: it suffices to send a command that is not a request. -/
theorem C95_undecodable_fails {env : Willow.Env} {R : RaftT ρ} {ops : Comm.Ops S E H} {V : Env P S E H} {codecs : Codecs}
    {d : Driver Willow.State ρ (Channels P S E H) H} {c : ActorCommand} (hs : d.state = .started) (hc : env.decReq c.header = none) (i : Nat) :
    serve (replica (Willow.actor env) R ops V codecs) i (some (some (.appMessage c))) d = .panic :=
  C95_command_fails hs (s := d.actor) (e := .internal) (by simp [replica, Willow.actor, Willow.onProcessCommand, hc])

/-- The decryptor is started and gets such a command. -/
example : check (sysOf (Willow.actor Willow.Spec.exEnv) SurvExample.codecs) (new ⟨[], 0⟩) [start true false]
    (fun d _ => decide (d.state = .started) && (Willow.Spec.exEnv.decReq [9, 9]).isNone && fails (sysOf (Willow.actor Willow.Spec.exEnv) SurvExample.codecs) (app ⟨3, [9, 9], []⟩) d) = true := by
  decide +kernel

/-- And of the tablet cache. -/
theorem C95_cache_undecodable_fails {cenv : Cache.CacheEnv} {R : RaftT ρ} {ops : Comm.Ops S E H} {V : Env P S E H} {codecs : Codecs}
    {d : Driver Cache.Sys ρ (Channels P S E H) H} {c : ActorCommand} (hs : d.state = .started) (hc : ∀ m, cenv.decIn c.header ≠ some (some m)) (i : Nat) :
    serve (replica (Cache.cacheActor cenv) R ops V codecs) i (some (some (.appMessage c))) d = .panic := by
  refine C95_command_fails hs (s := d.actor) (e := .internal) ?_
  have key : Cache.cacheMessage cenv d.actor c = .ok none := by
    unfold Cache.cacheMessage
    cases h : cenv.decIn c.header with
    | none => rfl
    | some o =>
      cases o with
      | none => rfl
      | some m => exact absurd h (hc m)
  have : ∀ ctx, Cache.cacheOnProcess cenv ctx d.actor (some c) = .ok (d.actor, .error .internal) := fun ctx => by simp [Cache.cacheOnProcess, key]
  exact this { d.ctx with instant := max d.instant i, leader := R.leader d.raft }

/-- A proposal that consensus does not accept ends the process; raft-rs drops the proposals of a leader that is not a member any more. -/
theorem C95_dropped_fails {A : Actor σ} {R : RaftT ρ} {ops : Comm.Ops S E H} {V : Env P S E H} {codecs : Codecs} {d : Driver σ ρ (Channels P S E H) H}
    {i : Nat} {c : ActorCommand} {s : σ} {o : CommandOutcome} {ev : ActorEvent} {r : ρ} {e : RaftErr}
    (hs : d.state = .started) (he : d.ephemeral = false) (hp : d.proposals = [])
    (hc : A.onProcessCommand { d.ctx with instant := max d.instant i, leader := R.leader d.raft } d.actor (some c) = .ok (s, .ok o)) (ho : o.event = some ev)
    (hr : R.makeProposal d.raft (codecs.encEntry ⟨some (d.id, ev.correlationId), ev.contents⟩) = .ok (r, .error e)) :
    serve (replica A R ops V codecs) i (some (some (.appMessage c))) d = .panic := by
  have stash : ∀ (cs : List ActorCommand) (d : Driver σ ρ (Channels P S E H) H), Goes (stashCommands cs) d fun _ d' =>
      d'.raft = d.raft ∧ d'.ephemeral = d.ephemeral ∧ d'.proposals = d.proposals ∧ d'.id = d.id := by
    intro cs
    induction cs with
    | nil => intro d; exact Goes.pure ⟨rfl, rfl, rfl, rfl⟩
    | cons c cs ih => intro d; exact Goes.bind (Goes.stash (ih _))
  refine serve_ends (Goes.ends (Goes.modify (Goes.ends (Goes.pure (Goes.ends (Goes.bind (Goes.get ?_)))))))
  rw [if_pos (show ({ d with prevRaftState := d.raftState, instant := max d.instant i, ctx := { d.ctx with instant := max d.instant i, leader := R.leader d.raft } } : Driver σ ρ (Channels P S E H) H).state = .started from hs)]
  refine Goes.bind (Goes.seq (goes_started hs) fun _ d1 hd => ?_)
  subst hd
  refine Goes.bind (Goes.actor hc (Goes.bind (Goes.orFail ?_)))
  refine Goes.seq (stash o.commands _) fun _ d2 h2 => ?_
  obtain ⟨h3, h4, h5, h6⟩ := h2
  rw [ho]
  refine Goes.bind (Goes.get ?_)
  rw [if_neg (by rw [h4]; simp [he])]
  refine Goes.modify (Goes.modify (Ends.bind (Goes.ends (Goes.get ?_))))
  rw [if_neg (by change ¬ d2.ephemeral = true; rw [h4]; simp [he])]
  refine Ends.bind (Goes.ends (Goes.get (Goes.ends (Goes.modify ?_))))
  change Ends (proposeAll _ (d2.proposals ++ [codecs.encEntry ⟨some (d2.id, ev.correlationId), ev.contents⟩])) _
  rw [h5, h6]
  simp only [hp, List.nil_append]
  refine Ends.bind (Goes.ends (Goes.raft (r := r) (b := .error e) ?_ Ends.panic))
  change R.makeProposal d2.raft _ = _
  rw [h3]
  exact hr

/-- The leader is asked to remove itself; the next command ends it. -/
example : check counterSys (new .new) [start true false, some (some (.changeCluster 4 1 2)), none] (fun d _ => fails counterSys (app swap) d) = true := by
  decide +kernel

/-- An authentic message that consensus refuses ends the process. -/
theorem C95_refused_fails {A : Actor σ} {R : RaftT ρ} {ops : Comm.Ops S E H} {V : Env P S E H} {codecs : Codecs} {d : Driver σ ρ (Channels P S E H) H}
    {i rcp snd : Nat} {p : Option Comm.Payload} {c' : Channels P S E H} {rcp' snd' : Nat} {b : Comm.Payload} {m : RaftMsg} {r : ρ} {e : RaftErr}
    (hs : d.state = .started) (he : d.ephemeral = false)
    (hc : d.comm.processIn ops V (.data ⟨.system, rcp, snd, p⟩) = .ok (c', .ok (some (.data ⟨.system, rcp', snd', some b⟩))))
    (hm : codecs.decRaft b.contents = some m) (hr : R.makeStep d.raft m = .ok (r, .error e)) :
    serve (replica A R ops V codecs) i (some (some (.systemMessage rcp snd p))) d = .panic := by
  refine dispatch_ends (Ends.bind (Goes.ends ((goes_started (d := preset' R i d) hs).mono fun _ d1 hd => ?_)))
  subst hd
  refine Goes.ends ((goes_persistent (d := preset' R i d) he).mono fun _ d1 hd => ?_)
  subst hd
  refine Goes.ends (Goes.comm hc ?_)
  change Ends (makeRaftStep _ _ _ b.contents) _
  unfold makeRaftStep
  rw [show (replica A R ops V codecs).E.decRaft b.contents = some m from hm]
  exact Goes.ends (Goes.raft hr Ends.fail)

/-- Replica 2 says something in the name of replica 9, which consensus does not know. -/
example : check counterSys (new .new) [start false false, RepExample.greet] (fun d _ => fails counterSys (RepExample.message 1 9) d) = true := by
  decide +kernel

/-- An authentic header of a snapshot that announces contents and carries none ends a follower: the number of chunks is a division by zero. -/
theorem C95_header_fails {A : Actor σ} {R : RaftT ρ} {ops : Comm.Ops S E H} {V : Env P S E H} {codecs : Codecs} {d : Driver σ ρ (Channels P S E H) H}
    {i rcp snd did : Nat} {p : Option Comm.Payload} {c' : Channels P S E H} {rcp' snd' did' : Nat} {b : Comm.Payload} {sid size : Nat} {md : Bytes}
    (he : d.ephemeral = false) (hf : d.snap.role = .follower)
    (hc : d.comm.processIn ops V (.data ⟨.snapshotRequest did, rcp, snd, p⟩) = .ok (c', .ok (some (.data ⟨.snapshotRequest did', rcp', snd', some b⟩))))
    (hm : codecs.decContent b.contents = some ⟨sid, some (.header size md [])⟩) (hz : size ≠ 0) :
    serve (replica A R ops V codecs) i (some (some (.snapshotRequest rcp snd did p))) d = .panic := by
  refine dispatch_ends (Ends.bind (Goes.ends ((goes_persistent (d := preset' R i d) he).mono fun _ d1 hd => ?_)))
  subst hd
  refine Goes.ends (Goes.comm hc (Ends.bind (Or.inl ?_)))
  have : Snap.Receiver.processRequest d.snap.receiver ⟨rcp', snd', did', some (codecs.decContent b.contents)⟩ = .panic := by
    rw [hm]
    simp only [Snap.Receiver.processRequest, Snap.Incoming.new]
    simp [Snap.chunkCount, Nat.pos_of_ne_zero hz]
  change ((isSender d.snap).bind _).bind _ = _
  simp only [isSender, hf, Run.bind_ok, Bool.false_eq_true, if_false]
  change ((Snap.Receiver.processRequest d.snap.receiver ⟨rcp', snd', did', some (codecs.decContent b.contents)⟩).bind _).bind _ = _
  rw [this]
  rfl

/-- Replica 2 sends such a header. -/
example : check (sysOf (Counter.actor Counter.Spec.exMsgs) { SurvExample.codecs with decContent := fun _ => some ⟨1, some (.header 4 [] [])⟩ }) (new .new)
    [start false false, RepExample.greet] (fun d _ => decide (d.snap.role = .follower) &&
      fails (sysOf (Counter.actor Counter.Spec.exMsgs) { SurvExample.codecs with decContent := fun _ => some ⟨1, some (.header 4 [] [])⟩ })
        (some (some (.snapshotRequest 1 2 1 (some ⟨[1], []⟩)))) d) = true := by decide +kernel

end TCP.Survive
