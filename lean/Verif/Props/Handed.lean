import Verif.Spec.Handed
import Verif.Props.Asked

/-! # C113: the application is handed each command once -/

namespace TCP.HandedProps

open TCP TCP.Drv TCP.DrvSpec

variable {σ ρ κ H : Type} {S : Sys σ ρ κ H}

/-- What a computation hands to the application. -/
def Hands (L : List ActorCommand) (m : M (Driver σ ρ κ H) α) : Prop :=
  ∀ d d' r, m d = .ok (d', r) → ∃ new, d'.trace = d.trace ++ new ∧ new.filterMap handed = L

theorem hands_adds {L : List K} {m : M (Driver σ ρ κ H) α} (h : Adds L m) (hk : K.command ∉ L) : Hands [] m := by
  intro d d' r hr
  obtain ⟨new, ht, hn⟩ := h.run _ _ _ hr
  refine ⟨new, ht, ?_⟩
  rw [List.filterMap_eq_nil_iff]
  intro e he
  have := hn e he
  unfold handed
  split
  · exact absurd this hk
  · rfl

/-- Bound of what a call hands to the application: all of it if the first part succeeds. -/
theorem hands_bind {L : List ActorCommand} {m : M (Driver σ ρ κ H) α} {f : α → M (Driver σ ρ κ H) β} (hm : Hands L m)
    (hf : ∀ a, Hands [] (f a)) : Hands L (m >>= f) := by
  intro d d' r hr
  rcases M.bind_ok hr with ⟨e, h1, _⟩ | ⟨d1, a, h1, h2⟩
  · exact hm _ _ _ h1
  · obtain ⟨n1, t1, s1⟩ := hm _ _ _ h1
    obtain ⟨n2, t2, s2⟩ := hf a _ _ _ h2
    exact ⟨n1 ++ n2, by rw [t2, t1, List.append_assoc], by rw [List.filterMap_append, s1, s2, List.append_nil]⟩

theorem hands_dispatch (m : InMsg H) : Hands [] (dispatch S m) := by
  have key : ∀ {L : List K} {x : M (Driver σ ρ κ H) Unit}, Adds L x → K.command ∉ L →
      Hands [] (x >>= fun _ => Pure.pure (none : Option ActorCommand)) := fun hx hL =>
    hands_adds (adds_bind hx fun _ => adds_pure) hL
  cases m with
  | startReplica q => exact key (adds_processStart q) (by decide)
  | stopReplica => exact key adds_processStop (by decide)
  | enterLameduck =>
    refine key (L := []) (adds_modify ?_) (by decide)
    intro _; rfl
  | changeCluster a b c => exact key (adds_processChangeCluster a b c) (by decide)
  | checkCluster => exact key adds_processCheckCluster (by decide)
  | systemMessage a b c => exact key (adds_processSystemMessage a b c) (by decide)
  | snapshotRequest a b c p => exact key (adds_processSnapshotRequest a b c p) (by decide)
  | snapshotResponse a b c p => exact key (adds_processSnapshotResponse a b c p) (by decide)
  | snapshotFailure a b => exact key (adds_processSnapshotFailure a b) (by decide)
  | getReplicaState => exact key adds_processGetReplicaState (by decide)
  | handshake a x => exact key (adds_processHandshake a x) (by decide)
  | appMessage c => exact hands_adds (adds_pure (L := [])) (by decide)

theorem hands_dispatchOpt (m : Option (InMsg H)) : Hands [] (dispatchOpt S m) := by
  cases m with
  | none => exact hands_adds (adds_pure (L := [])) (by decide)
  | some m => exact hands_dispatch m

theorem dispatch_command {m : Option (InMsg H)} {d d' : Driver σ ρ κ H} {c} (h : dispatchOpt S m d = .ok (d', .ok c)) :
    c = askedCommand (m.map some) := by
  have key : ∀ {x : M (Driver σ ρ κ H) Unit}, (x >>= fun _ => Pure.pure (none : Option ActorCommand)) d = .ok (d', .ok c) → c = none := by
    intro x h
    obtain ⟨d1, _, _, h2⟩ := M.bind_okOk h
    simp only [M.pure_def, M.pure, Run.ok.injEq, Prod.mk.injEq, Except.ok.injEq] at h2
    exact h2.2.symm
  cases m with
  | none =>
    simp only [dispatchOpt, M.pure_def, M.pure, Run.ok.injEq, Prod.mk.injEq, Except.ok.injEq] at h
    exact h.2.symm
  | some m =>
    cases m with
    | appMessage q =>
      simp only [dispatchOpt, dispatch, M.pure_def, M.pure, Run.ok.injEq, Prod.mk.injEq, Except.ok.injEq] at h
      exact h.2.symm
    | _ => exact key h

theorem hands_app (c : Option ActorCommand) {d d' : Driver σ ρ κ H} {r} (h : processAppMessage S c d = .ok (d', r)) (hs : d.state = .started) :
    ∃ new, d'.trace = d.trace ++ new ∧ new.filterMap handed = c.toList := by
  unfold processAppMessage at h
  rw [M.bind_run (checkState_pass hs)] at h
  refine hands_bind (L := c.toList) (fun d d' r h => ?_) (fun res => ?_) _ _ _ h
  · simp only [callActor, Run.bind_eq_ok, Run.ok.injEq, Prod.mk.injEq] at h
    obtain ⟨x, _, rfl, _⟩ := h
    exact ⟨_, rfl, by cases c <;> rfl⟩
  · refine hands_adds (L := [.apply, .oApp]) ?_ (by decide)
    adds

theorem hands_runActor (c : Option ActorCommand) {d d' : Driver σ ρ κ H} {r} (h : runActor S c d = .ok (d', r)) :
    ∃ new, d'.trace = d.trace ++ new ∧ new.filterMap handed = if d.state = .started then c.toList else [] := by
  unfold runActor at h
  rw [M.bind_run (d1 := d) (a := d) rfl] at h
  split at h
  · rename_i hs
    rw [if_pos hs]
    rcases M.bind_ok h with ⟨e, h1, _⟩ | ⟨d1, a, h1, h2⟩
    · exact hands_app c h1 hs
    · obtain ⟨n1, t1, s1⟩ := hands_app c h1 hs
      obtain ⟨n2, t2, s2⟩ := hands_adds (L := [.commTick]) (adds_changeComm (by simp only [kind]; decide)) (by decide) _ _ _ h2
      exact ⟨n1 ++ n2, by rw [t2, t1, List.append_assoc], by rw [List.filterMap_append, s1, s2, List.append_nil]⟩
  · rename_i hs
    rw [if_neg hs]
    exact hands_adds (L := []) adds_pure (by decide) _ _ _ h

theorem hands_body {m : Option (InMsg H)} {d d' : Driver σ ρ κ H} {r} (h : body S m d = .ok (d', r)) :
    ∃ new, d'.trace = d.trace ++ new ∧ (new.filterMap handed).Sublist (askedCommand (m.map some)).toList ∧
      (r = .ok () → d.state = .started → d'.state = .started → new.filterMap handed = (askedCommand (m.map some)).toList) := by
  unfold body at h
  rcases M.bind_ok h with ⟨e, h1, rfl⟩ | ⟨d1, c, h1, h2⟩
  · obtain ⟨n1, t1, s1⟩ := hands_dispatchOpt m _ _ _ h1
    exact ⟨n1, t1, by rw [s1]; exact List.nil_sublist _, fun hr => by cases hr⟩
  · obtain ⟨n1, t1, s1⟩ := hands_dispatchOpt m _ _ _ h1
    have hc := dispatch_command h1
    have hst1 : Star S d d1 := by
      cases m with
      | none =>
        simp only [dispatchOpt, M.pure_def, M.pure, Run.ok.injEq, Prod.mk.injEq] at h1
        rw [← h1.1]; exact .refl
      | some m => exact (reaches_dispatch m d).run _ _ h1
    have key : ∀ {n2 : List (Ev H)} {d2 : Driver σ ρ κ H}, d2.trace = d1.trace ++ n2 → n2.filterMap handed = (if d1.state = .started then c.toList else []) →
        ((n1 ++ n2).filterMap handed).Sublist (askedCommand (m.map some)).toList := by
      intro n2 d2 _ s2
      rw [List.filterMap_append, s1, s2, List.nil_append, ← hc]
      split
      · exact List.Sublist.refl _
      · exact List.nil_sublist _
    rcases M.bind_ok h2 with ⟨e, h3, rfl⟩ | ⟨d2, u, h3, h4⟩
    · obtain ⟨n2, t2, s2⟩ := hands_runActor c h3
      exact ⟨n1 ++ n2, by rw [t2, t1, List.append_assoc], key t2 s2, fun hr => by cases hr⟩
    · obtain ⟨n2, t2, s2⟩ := hands_runActor c h3
      obtain ⟨n3, t3, s3⟩ := hands_adds adds_runRaft (by decide) _ _ _ h4
      have e : ((n1 ++ n2) ++ n3).filterMap handed = (n1 ++ n2).filterMap handed := by
        rw [List.filterMap_append, s3, List.append_nil]
      refine ⟨(n1 ++ n2) ++ n3, by rw [t3, t2, t1]; simp only [List.append_assoc], by rw [e]; exact key t2 s2, fun _ hs hs' => ?_⟩
      have hd1 : d1.state = .started := by
        have a1 := hst1.lifecycle.1 (by rw [hs]; simp)
        have a2 := (((reaches_runActor c d1).run _ _ h3).lifecycle).2
        have a3 := (((reaches_runRaft d2).run _ _ h4).lifecycle).2
        cases hx : d1.state with
        | created => exact absurd hx a1
        | started => rfl
        | stopped => rw [a3 (a2 hx)] at hs'; cases hs'
      rw [e, List.filterMap_append, s1, s2, if_pos hd1, List.nil_append, hc]

theorem handed_comm (os : List (Comm.OutMsg H)) : (os.map fun m => (.out (.comm m) : Ev H)).filterMap handed = [] := by
  rw [List.filterMap_eq_nil_iff]
  intro e he
  obtain ⟨m, _, rfl⟩ := List.mem_map.1 he
  rfl

theorem receive_hands {instant : Nat} {m : Option (Option (InMsg H))} {d d' : Driver σ ρ κ H} {r} (h : receive S instant m d = .ok (d', r)) :
    ∃ new, d'.trace = d.trace ++ new ∧ (new.filterMap handed).Sublist (askedCommand m).toList ∧
      ((∃ o, r = .ok o) → d.state = .started → d'.state = .started → new.filterMap handed = (askedCommand m).toList) := by
  cases receive_outcome h with
  | unknown hm => exact ⟨[], by simp [presetState], List.nil_sublist _, fun _ _ _ => by rw [hm]; rfl⟩
  | failed hm hb =>
    obtain ⟨new, ht, hs, _⟩ := hands_body hb
    exact ⟨new, ht, by rw [hm]; exact hs, fun hr => by obtain ⟨o, ho⟩ := hr; cases ho⟩
  | @done _ _ _ os hm hb ho =>
    obtain ⟨new, ht, hs, he⟩ := hands_body hb
    refine ⟨new ++ os.map fun m => .out (.comm m), by simp only [ht, List.append_assoc]; rfl, ?_, fun _ h1 h2 => ?_⟩
    · rw [List.filterMap_append, handed_comm, List.append_nil, hm]; exact hs
    · rw [List.filterMap_append, handed_comm, List.append_nil, hm]; exact he rfl h1 h2

theorem served_state {d d' : Driver σ ρ κ H} {ms} (h : Served S d ms d') :
    (d.state ≠ .created → d'.state ≠ .created) ∧ (d.state = .stopped → d'.state = .stopped) := by
  induction h with
  | nil => exact ⟨id, id⟩
  | snoc _ hs ih =>
    have : ∀ {instant : Nat} {m : Option (Option (InMsg H))} {d d' : Driver σ ρ κ H} {r}, receive S instant m d = .ok (d', r) →
        (d.state ≠ .created → d'.state ≠ .created) ∧ (d.state = .stopped → d'.state = .stopped) := by
      intro _ _ _ _ _ h
      cases receive_outcome h with
      | unknown => exact ⟨id, id⟩
      | failed _ hb => exact ((reaches_body _ _).run _ _ hb).lifecycle
      | done _ hb _ => exact ((reaches_body _ _).run _ _ hb).lifecycle
    exact ⟨fun x => (this hs).1 (ih.1 x), fun x => (this hs).2 (ih.2 x)⟩

/-- C113: while a replica runs, its application is handed exactly the commands the host passes, in order and each once. -/
theorem C113_handed {d d' : Driver σ ρ κ H} {ms} (h : Served S d ms d') (hs : d.state = .started) (hs' : d'.state = .started) :
    ∃ new, d'.trace = d.trace ++ new ∧ new.filterMap handed = ms.filterMap askedCommand := by
  induction h with
  | nil => exact ⟨[], by simp, rfl⟩
  | @snoc ms d1 t msg out d2 h hr ih =>
    have h1 : d1.state = .started := by
      have a := (served_state h).1 (by rw [hs]; simp)
      cases hx : d1.state with
      | created => exact absurd hx a
      | started => rfl
      | stopped =>
        have := (served_state (Served.snoc .nil hr)).2 hx
        rw [hs'] at this; cases this
    obtain ⟨n1, t1, s1⟩ := ih h1
    obtain ⟨n2, t2, _, s2⟩ := receive_hands hr
    refine ⟨n1 ++ n2, by rw [t2, t1, List.append_assoc], ?_⟩
    rw [List.filterMap_append, List.filterMap_append, s1, s2 ⟨_, rfl⟩ h1 hs']
    congr 1

/-- C113: whatever happens, no command is handed to the application that the host did not pass, none twice, and none out of order. -/
theorem C113_never_more {d0 d : Driver σ ρ κ H} {ms} (h0 : Fresh d0) (h : Asked S d0 ms d) :
    (d.trace.filterMap handed).Sublist (ms.filterMap askedCommand) := by
  induction h with
  | nil => obtain ⟨_, _, _, rfl⟩ := h0; exact List.nil_sublist _
  | snoc _ hs ih =>
    rename_i msg _ _ _
    obtain ⟨new, ht, hn, _⟩ := receive_hands hs
    rw [ht, List.filterMap_append, List.filterMap_append]
    refine ih.append ?_
    cases hc : askedCommand msg <;> simpa [hc] using hn

open SurvStoreExample in
theorem served_runAll {d d' : Rep} {cs out} (h : runAll d cs = .ok (d', out)) {d0 : Rep} {ms} (h0 : Served counterSys d0 ms d) :
    Served counterSys d0 (ms ++ cs) d' := by
  induction cs generalizing d out ms with
  | nil =>
    simp only [runAll, Run.ok.injEq, Prod.mk.injEq] at h
    rw [← h.1, List.append_nil]; exact h0
  | cons m cs ih =>
    simp only [runAll, Run.bind_eq_ok] at h
    obtain ⟨⟨d1, o1⟩, h1, ⟨d2, o2⟩, h2, h3⟩ := h
    simp only [Run.ok.injEq, Prod.mk.injEq] at h3
    obtain ⟨rfl, _⟩ := h3
    simp only [Replica.serve, Run.bind_eq_ok] at h1
    obtain ⟨⟨d3, r⟩, h1, h4⟩ := h1
    cases r with
    | error e => cases h4
    | ok r =>
      simp only [Run.ok.injEq, Prod.mk.injEq] at h4
      rw [show ms ++ m :: cs = (ms ++ [m]) ++ cs by simp]
      exact ih h2 (h4.1 ▸ h0.snoc h1)

open SurvStoreExample in
/-- A started counter is passed two commands with an idle call between them, the second of them twice: it is handed three. -/
example : ∃ (d d' : Rep) (ms : List (Option (Option (InMsg Nat)))), Served counterSys d ms d' ∧ d.state = .started ∧ d'.state = .started ∧
    ms.filterMap askedCommand = [⟨1, [], [1]⟩, ⟨2, [], [2]⟩, ⟨2, [], [2]⟩] ∧ d'.trace.filterMap handed = ms.filterMap askedCommand ∧
    Fresh new ∧ Asked counterSys new (start true :: ms) d' := by
  let ms : List (Option (Option (InMsg Nat))) := [some (some (.appMessage ⟨1, [], [1]⟩)), none, some (some .checkCluster), some (some (.appMessage ⟨2, [], [2]⟩)),
    some (some (.appMessage ⟨2, [], [2]⟩))]
  have h : check (start true :: ms) (fun d _ => decide (d.state = .started) &&
      decide (d.trace.filterMap handed = [⟨1, [], [1]⟩, ⟨2, [], [2]⟩, ⟨2, [], [2]⟩])) = true := by decide +kernel
  have h' : check [start true] (fun d _ => decide (d.state = .started)) = true := by decide +kernel
  obtain ⟨d', out, hr, hp⟩ := check_sound h
  obtain ⟨d1, out1, hr1, hp1⟩ := check_sound h'
  have ha := AskedProps.asked_runAll hr .nil
  simp only [Bool.and_eq_true, decide_eq_true_eq] at hp hp1
  rw [runAll, Run.bind_eq_ok] at hr hr1
  obtain ⟨r, h1, x, h2, h3⟩ := (by simpa only [Run.bind_eq_ok] using hr : ∃ r, _ ∧ ∃ x, _)
  obtain ⟨r', h1', h3'⟩ := hr1
  rw [h1] at h1'; cases h1'
  simp only [runAll, Run.bind_ok, Run.ok.injEq, Prod.mk.injEq] at h3 h3'
  refine ⟨r.1, d', ms, h3.1 ▸ served_runAll (ms := []) h2 .nil, by rw [h3'.1]; exact hp1, hp.1, rfl, hp.2, Replica.fresh_fresh _ _, ha⟩

end TCP.HandedProps
