import Verif.Proofs.DriverInv

/-! # Whole calls of the driver: time, lifecycle, outbox -/

namespace TCP.Drv

open TCP TCP.ActorSpec TCP.DrvSpec

variable {σ ρ κ H α β : Type} {S : Sys σ ρ κ H}

/-! ## Time -/

theorem receive_instant {instant : Nat} {m : Option (Option (InMsg H))} {d d' : Driver σ ρ κ H}
    {r : Except PalErr (Option (List (OutMsg H)))} (h : receive S instant m d = .ok (d', r)) :
    d'.instant = max d.instant instant := by
  obtain ⟨d2, hs, rfl | ⟨c', outs, _, _, rfl⟩⟩ := receive_star h
  · exact hs.clock.1
  · exact hs.clock.1

/-- New interactions of a call with the actor happen at the driver's time. -/
theorem receive_actorInstants {instant : Nat} {m : Option (Option (InMsg H))} {d d' : Driver σ ρ κ H}
    {r : Except PalErr (Option (List (OutMsg H)))} (h : receive S instant m d = .ok (d', r)) :
    ∃ new, d'.trace = d.trace ++ new ∧ ∀ t ∈ actorInstants new, t = d'.instant := by
  have hi := receive_instant h
  obtain ⟨d2, hs, hd⟩ := receive_star h
  have key := hs.all (P := fun e => ∀ t, actorInstant e = some t → t = max d.instant instant)
    (I := fun d2 => d2.ctx.instant = max d.instant instant) rfl (by
      intro a b hab ha
      refine ⟨hab.clock.2.1.trans ha, ?_⟩
      cases hab with
      | quiet h => exact ⟨[], by simp [h.trace], by simp⟩
      | setup h => exact ⟨[], by simp [h.trace], by simp⟩
      | @actor a' c h hc =>
        refine ⟨_, rfl, ?_⟩
        simp only [List.mem_singleton, forall_eq]
        intro t ht
        cases c with
        | command ctx c res => rw [← ha, ← hc.1]; simpa [actorInstant] using ht.symm
        | apply ctx c res => rw [← ha, ← hc.1]; simpa [actorInstant] using ht.symm
        | save ctx res => rw [← ha, ← show ctx = _ from hc]; simpa [actorInstant] using ht.symm
        | load ctx res => rw [← ha, ← show ctx = _ from hc]; simpa [actorInstant] using ht.symm
      | @raft r' ev h =>
        refine ⟨_, rfl, ?_⟩
        simp only [List.mem_singleton, forall_eq]
        intro t ht
        cases ev <;> simp_all [actorInstant, RaftEv]
      | tick => exact ⟨_, rfl, by simp [actorInstant]⟩
      | @comm c' ev h =>
        refine ⟨_, rfl, ?_⟩
        simp only [List.mem_singleton, forall_eq]
        intro t ht
        cases ev <;> simp_all [actorInstant, CommEv]
      | out => exact ⟨_, rfl, by simp [actorInstant]⟩
      | init => exact ⟨_, rfl, by simp [actorInstant, ha]⟩
      | started => exact ⟨[], by simp⟩
      | stopped => exact ⟨_, rfl, by simp [actorInstant, ha]⟩
      | lameduck => exact ⟨[], by simp⟩)
  obtain ⟨_, new, ht, hn⟩ := key
  have hn' : ∀ t ∈ actorInstants new, t = d'.instant := by
    intro t h
    obtain ⟨e, he, h⟩ := List.mem_filterMap.1 h
    rw [hi]; exact hn e he t h
  rcases hd with rfl | ⟨c', outs, _, _, rfl⟩
  · exact ⟨new, ht, hn'⟩
  · refine ⟨new ++ outs.map fun m => .out (.comm m), by simp only [ht, List.append_assoc]; rfl, ?_⟩
    intro t h
    simp only [actorInstants, List.filterMap_append, List.mem_append] at h
    rcases h with h | h
    · exact hn' t h
    · obtain ⟨e, he, h⟩ := List.mem_filterMap.1 h
      obtain ⟨o, _, rfl⟩ := List.mem_map.1 he
      simp [actorInstant] at h

theorem calls_actorInstants {d0 d : Driver σ ρ κ H} {rs} (h0 : d0.trace = []) (h : Calls S d0 rs d) :
    (actorInstants d.trace).Pairwise (· ≤ ·) ∧ ∀ t ∈ actorInstants d.trace, t ≤ d.instant := by
  induction h with
  | nil => simp [h0, actorInstants]
  | snoc _ hs ih =>
    obtain ⟨new, ht, hn⟩ := receive_actorInstants hs
    have hi := receive_instant hs
    rw [ht]
    simp only [actorInstants, List.filterMap_append]
    constructor
    · refine List.pairwise_append.2 ⟨ih.1, ?_, ?_⟩
      · refine List.pairwise_iff_forall_sublist.2 fun {a b} hab => ?_
        have ha := hn a (hab.subset (by simp))
        have hb := hn b (hab.subset (by simp))
        omega
      · intro a ha b hb
        have := ih.2 a ha
        have := hn b hb
        omega
    · intro t ht
      rcases List.mem_append.1 ht with ht | ht
      · have := ih.2 t ht; omega
      · have := hn t ht; omega

/-- The invariant of the tick timer. -/
structure TickInv (d : Driver σ ρ κ H) : Prop where
  le : d.tickInstant ≤ d.instant
  past : ∀ t ∈ ticks d.trace, t ≤ d.tickInstant
  paced : (ticks d.trace).Pairwise fun a b => a + d.tickPeriod ≤ b

theorem ticks_append (a b : List (Ev H)) : ticks (a ++ b) = ticks a ++ ticks b := List.filterMap_append

theorem ticks_raft {ev : Ev H} (h : RaftEv ev) : ticks [ev] = [] := by cases ev <;> simp_all [ticks, tickInstant, RaftEv]
theorem ticks_comm {ev : Ev H} (h : CommEv ev) : ticks [ev] = [] := by cases ev <;> simp_all [ticks, tickInstant, CommEv]

theorem Atom.tickInv {d d' : Driver σ ρ κ H} (h : Atom S d d') (hn : d.state = .created → ticks d.trace = []) (g : TickInv d) :
    TickInv d' := by
  have same : ∀ {d' : Driver σ ρ κ H}, d'.instant = d.instant → d'.tickInstant = d.tickInstant → d'.tickPeriod = d.tickPeriod →
      ticks d'.trace = ticks d.trace → TickInv d' := by
    intro d' h1 h2 h3 h4
    exact ⟨by rw [h1, h2]; exact g.le, by rw [h4, h2]; exact g.past, by rw [h4, h3]; exact g.paced⟩
  cases h with
  | quiet h => exact same h.instant h.tickInstant h.tickPeriod (by rw [h.trace])
  | setup h =>
    have := hn h.created
    refine ⟨?_, by rw [h.trace, this]; simp, by rw [h.trace, this]; simp⟩
    rcases h.tickInstant with e | e <;> rw [e, h.instant]
    · exact g.le
    · exact Nat.le_refl _
  | actor => exact same rfl rfl rfl (by rw [ticks_append]; simp [ticks, tickInstant])
  | raft h => exact same rfl rfl rfl (by rw [ticks_append, ticks_raft h]; simp)
  | comm h => exact same rfl rfl rfl (by rw [ticks_append, ticks_comm h]; simp)
  | out => exact same rfl rfl rfl (by rw [ticks_append]; simp [ticks, tickInstant])
  | init => exact same rfl rfl rfl (by rw [ticks_append]; simp [ticks, tickInstant])
  | started => exact same rfl rfl rfl rfl
  | stopped => exact same rfl rfl rfl (by rw [ticks_append]; simp [ticks, tickInstant])
  | lameduck => exact same rfl rfl rfl rfl
  | tick hp hl =>
    have h1 := g.le
    refine ⟨Nat.le_refl _, ?_, ?_⟩
    · intro t ht
      simp only [ticks_append, List.mem_append] at ht
      rcases ht with ht | ht
      · have := g.past t ht; simp only; omega
      · simp [ticks, tickInstant] at ht; simp [ht]
    · rw [ticks_append]
      refine List.pairwise_append.2 ⟨g.paced, by simp [ticks, tickInstant], ?_⟩
      intro a ha b hb
      have := g.past a ha
      simp [ticks, tickInstant] at hb
      simp only
      omega

/-! ## How many interactions of a kind a call adds -/

/-- At most `n` of the new interactions are of the kind. -/
structure AtMost (k : K) (n : Nat) (m : M (Driver σ ρ κ H) α) : Prop where
  run : ∀ d d' r, m d = .ok (d', r) → ∃ new, d'.trace = d.trace ++ new ∧ new.countP (fun e => kind e == k) ≤ n

theorem Adds.atMost {k : K} {L : List K} {m : M (Driver σ ρ κ H) α} (h : Adds L m) (hk : k ∉ L) (n : Nat) : AtMost k n m := ⟨by
  intro d d' r hr
  obtain ⟨new, ht, hn⟩ := h.run _ _ _ hr
  refine ⟨new, ht, Nat.le_trans (Nat.le_of_eq (List.countP_eq_zero.2 ?_)) (Nat.zero_le _)⟩
  intro e he hc
  exact hk (by have := hn e he; simp only [beq_iff_eq] at hc; rwa [hc] at this)⟩

theorem atMost_bind {k : K} {a b : Nat} {m : M (Driver σ ρ κ H) α} {f : α → M (Driver σ ρ κ H) β} (h1 : AtMost k a m)
    (h2 : ∀ x, AtMost k b (f x)) : AtMost k (a + b) (m >>= f) := ⟨by
  intro d d' r h
  rcases M.bind_ok h with ⟨e, hm, _⟩ | ⟨d1, x, hm, hf⟩
  · obtain ⟨new, ht, hn⟩ := h1.run _ _ _ hm
    exact ⟨new, ht, by omega⟩
  · obtain ⟨n1, t1, c1⟩ := h1.run _ _ _ hm
    obtain ⟨n2, t2, c2⟩ := (h2 x).run _ _ _ hf
    exact ⟨n1 ++ n2, by rw [t2, t1, List.append_assoc], by rw [List.countP_append]; omega⟩⟩

theorem AtMost.mono {k : K} {a b : Nat} {m : M (Driver σ ρ κ H) α} (h : AtMost k a m) (hab : a ≤ b) : AtMost k b m := ⟨by
  intro d d' r hr
  obtain ⟨new, ht, hn⟩ := h.run _ _ _ hr
  exact ⟨new, ht, by omega⟩⟩

theorem tick_triggerRaftTick : AtMost .tick 1 (triggerRaftTick S) := by
  unfold triggerRaftTick
  refine (atMost_bind (a := 0) (b := 1) ((adds_get (L := [])).atMost (k := .tick) (by decide) 0) fun d => ?_).mono (Nat.le_of_eq rfl)
  split
  · refine (atMost_bind (a := 0) (b := 1) (Adds.atMost (k := .tick) (L := []) (adds_modify ?_) (by decide) 0) fun _ => ?_).mono
      (Nat.le_of_eq rfl)
    · intro _; rfl
    refine ⟨fun d d' r h => ?_⟩
    simp only [callRaftU, callRaft, Run.bind_eq_ok, Run.ok.injEq, Prod.mk.injEq] at h
    obtain ⟨_, _, h, _⟩ := h
    rw [← h]
    exact ⟨_, rfl, by simp [kind]⟩
  · exact (adds_pure (L := [])).atMost (k := .tick) (by decide) 1

theorem tick_body (m : Option (InMsg H)) : AtMost .tick 1 (body S m) := by
  unfold body
  refine (atMost_bind (a := 0) (b := 1) ?_ fun c => ?_).mono (Nat.le_of_eq rfl)
  · cases m with
    | none => exact (adds_pure (L := [])).atMost (k := .tick) (by decide) 0
    | some m => exact (adds_dispatch m).atMost (by decide) 0
  refine (atMost_bind (a := 0) (b := 1) ((adds_runActor c).atMost (by decide) 0) fun _ => ?_).mono (Nat.le_of_eq rfl)
  unfold runRaft
  refine (atMost_bind (a := 0) (b := 1) ((adds_get (L := [])).atMost (k := .tick) (by decide) 0) fun d => ?_).mono (Nat.le_of_eq rfl)
  split
  · exact (adds_pure (L := [])).atMost (k := .tick) (by decide) 1
  refine (atMost_bind (a := 0) (b := 1) (adds_processProposals.atMost (by decide) 0) fun _ => ?_).mono (Nat.le_of_eq rfl)
  refine (atMost_bind (a := 0) (b := 1) (adds_processSnapshotProgress.atMost (by decide) 0) fun _ => ?_).mono (Nat.le_of_eq rfl)
  refine (atMost_bind (a := 1) (b := 0) ?_ fun _ => adds_processSnapshotSending.atMost (by decide) 0).mono (by decide)
  unfold processStateMachine
  refine (atMost_bind (a := 0) (b := 1) ((adds_get (L := [])).atMost (k := .tick) (by decide) 0) fun d => ?_).mono (Nat.le_of_eq rfl)
  split
  · refine (atMost_bind (a := 1) (b := 0) ?_ fun _ => ?_).mono (Nat.le_of_eq rfl)
    · unfold advanceRaft
      refine (atMost_bind (a := 0) (b := 1) ((adds_get (L := [])).atMost (k := .tick) (by decide) 0) fun d => ?_).mono (Nat.le_of_eq rfl)
      refine (atMost_bind (a := 1) (b := 0) ?_ fun _ => ?_).mono (Nat.le_of_eq rfl)
      · unfold M.when
        split
        · exact tick_triggerRaftTick
        · exact (adds_mpure (L := [])).atMost (by decide) 1
      · refine (atMost_bind (a := 0) (b := 0) ((adds_ask (L := [])).atMost (by decide) 0) fun _ => ?_).mono (Nat.le_of_eq rfl)
        exact (adds_when adds_processReady).atMost (by decide) 0
    · refine (atMost_bind (a := 0) (b := 0) (adds_maybeCreateSnapshot.atMost (by decide) 0) fun _ => ?_).mono (Nat.le_of_eq rfl)
      exact adds_stashLeaderState.atMost (by decide) 0
  · exact (adds_pure (L := [])).atMost (k := .tick) (by decide) 1

theorem ticks_length (t : List (Ev H)) : (ticks t).length = t.countP fun e => kind e == .tick := by
  induction t with
  | nil => rfl
  | cons e t ih =>
    rw [List.countP_cons, ← ih]
    cases e with
    | actor c => cases c <;> simp [ticks, tickInstant, kind, List.filterMap_cons]
    | out m => cases m <;> simp [ticks, tickInstant, kind, List.filterMap_cons]
    | _ => simp [ticks, tickInstant, kind, List.filterMap_cons]

theorem ticks_out (ms : List (Comm.OutMsg H)) : ticks (ms.map fun m => Ev.out (.comm m)) = [] := by
  induction ms with
  | nil => rfl
  | cons m ms ih => simp_all [ticks, tickInstant]

theorem receive_ticks {instant : Nat} {m : Option (Option (InMsg H))} {d d' : Driver σ ρ κ H}
    {r : Except PalErr (Option (List (OutMsg H)))} (h : receive S instant m d = .ok (d', r)) :
    ∃ new, d'.trace = d.trace ++ new ∧ (ticks new).length ≤ 1 := by
  cases receive_outcome h with
  | unknown => exact ⟨[], by simp [presetState], by simp [ticks]⟩
  | failed _ hb =>
    obtain ⟨new, ht, hn⟩ := (tick_body _).run _ _ _ hb
    exact ⟨new, ht, by rw [ticks_length]; exact hn⟩
  | done _ hb ho =>
    obtain ⟨new, ht, hn⟩ := (tick_body _).run _ _ _ hb
    refine ⟨new ++ _, by simp only [ht, List.append_assoc]; rfl, ?_⟩
    rw [ticks_append, ticks_out, List.append_nil, ticks_length]
    exact hn

/-! ## Replicas that were not started -/

/-- Between calls that succeeded, a replica that is not started is as it was created. -/
structure CreatedInv (d : Driver σ ρ κ H) : Prop where
  inv : d.state = .created → d.trace = [] ∧ d.applied = 0 ∧ d.messages = [] ∧ d.proposals = [] ∧ Unstarted d ∧ d.lameduck = false

theorem body_state {m : Option (InMsg H)} {d d' : Driver σ ρ κ H} (hs : d.state = .created) (hu : Unstarted d)
    (h : body S m d = .ok (d', .ok ())) : d'.state ≠ .created := by
  obtain ⟨r, rfl⟩ := body_unstarted hs hu h
  unfold body at h
  obtain ⟨d1, c, h1, hb⟩ := M.bind_okOk h
  obtain ⟨d2, _, h2, hc⟩ := M.bind_okOk hb
  unfold dispatchOpt dispatch at h1
  obtain ⟨d3, _, h3, h4⟩ := M.bind_okOk h1
  simp only [M.pure_def, M.pure, Run.ok.injEq, Prod.mk.injEq] at h4
  have := processStart_started h3
  rw [h4.1] at this
  have h5 := ((reaches_runActor _ _).run _ _ h2).lifecycle.1 (by rw [this]; simp)
  exact ((reaches_runRaft _).run _ _ hc).lifecycle.1 h5

theorem runs_created {d0 d : Driver σ ρ κ H} {outs} (h0 : Fresh d0) (h : Runs S d0 outs d) : CreatedInv d := by
  induction h with
  | nil =>
    obtain ⟨a, r, c, rfl⟩ := h0
    exact ⟨fun _ => ⟨rfl, rfl, rfl, rfl, ⟨rfl, rfl⟩, rfl⟩⟩
  | @snoc _ d1 instant _ _ _ _ hs ih =>
    refine ⟨fun hc => ?_⟩
    cases receive_outcome hs with
    | unknown => exact ih.inv hc
    | @done _ d2 c' outs hm hb ho =>
      exfalso
      by_cases hd : (presetState S instant d1).state = .created
      · have := ih.inv hd
        exact body_state hd this.2.2.2.2.1 hb hc
      · exact ((reaches_body _ _).run _ _ hb).lifecycle.1 hd hc

theorem Star.tickInv {d d' : Driver σ ρ κ H} (h : Star S d d') (hn : d.state ≠ .created) (g : TickInv d) : TickInv d' := by
  induction h with
  | refl => exact g
  | step h _ ih => exact ih (h.lifecycle.1 hn) (h.tickInv (fun hc => absurd hc hn) g)

theorem runs_tickInv {d0 d : Driver σ ρ κ H} {outs} (h0 : Fresh d0) (h : Runs S d0 outs d) : TickInv d := by
  induction h with
  | nil =>
    obtain ⟨a, r, c, rfl⟩ := h0
    exact ⟨Nat.le_refl _, by simp [ticks, Driver.new], by simp [ticks, Driver.new]⟩
  | @snoc _ d1 instant _ _ _ hr hs ih =>
    have hp : TickInv (presetState S instant d1) := ⟨by
      have := ih.le
      simp only [presetState]
      omega, ih.past, ih.paced⟩
    have hc := runs_created h0 hr
    cases receive_outcome hs with
    | unknown => exact hp
    | @done m' d2 c' outs hm hb ho =>
      have key : TickInv d2 := by
        by_cases hd : d1.state = .created
        · obtain ⟨ht, _, _, _, hu, _⟩ := hc.inv hd
          obtain ⟨r, rfl⟩ := body_unstarted (S := S) (d := presetState S instant d1) hd hu hb
          unfold body at hb
          obtain ⟨da, c, h1, hb⟩ := M.bind_okOk hb
          obtain ⟨db, _, h2, hb⟩ := M.bind_okOk hb
          -- dispatching a start request: no ticks
          have hst := (reaches_dispatch (.startReplica r) (presetState S instant d1)).run _ _ h1
          unfold dispatchOpt dispatch at h1
          obtain ⟨dc, _, h3, h4⟩ := M.bind_okOk h1
          simp only [M.pure_def, M.pure, Run.ok.injEq, Prod.mk.injEq] at h4
          have hs1 := processStart_started h3
          rw [h4.1] at hs1 h3
          have hnt : ticks da.trace = [] := by
            obtain ⟨new, hn, hk⟩ := (adds_processStart r).run _ _ _ h3
            rw [hn, show (presetState S instant d1).trace = [] from ht, List.nil_append]
            refine List.eq_nil_of_length_eq_zero ?_
            rw [ticks_length]
            refine List.countP_eq_zero.2 fun e he hc => ?_
            have := hk e he
            simp only [beq_iff_eq] at hc
            rw [hc] at this
            revert this; decide
          have hle : da.tickInstant ≤ da.instant := by
            have : ∀ {a b : Driver σ ρ κ H}, Star S a b → a.tickInstant ≤ a.instant → b.tickInstant ≤ b.instant := by
              intro a b h
              induction h with
              | refl => exact id
              | step h _ ih =>
                intro g
                refine ih ?_
                cases h with
                | quiet h => rw [h.tickInstant, h.instant]; exact g
                | setup h => rcases h.tickInstant with e | e <;> rw [e, h.instant] <;> first | exact g | exact Nat.le_refl _
                | tick => exact Nat.le_refl _
                | _ => exact g
            exact this hst hp.le
          have hda : TickInv da := ⟨hle, by rw [hnt]; simp, by rw [hnt]; simp⟩
          have hsn : da.state ≠ .created := by rw [hs1]; simp
          have h5 := (reaches_runActor _ _).run _ _ h2
          exact ((reaches_runRaft _).run _ _ hb).tickInv (h5.lifecycle.1 hsn) (h5.tickInv hsn hda)
        · exact ((reaches_body _ _).run _ _ hb).tickInv hd hp
      refine ⟨key.le, ?_, ?_⟩
      · simp only [ticks_append, ticks_out, List.append_nil]; exact key.past
      · simp only [ticks_append, ticks_out, List.append_nil]; exact key.paced

/-! ## Refusals -/

theorem receive_error {instant : Nat} {m : InMsg H} {d d' : Driver σ ρ κ H} {e : PalErr}
    (h : dispatch S m (presetState S instant d) = .ok (d', .error e)) : receive S instant (some (some m)) d = .ok (d', .error e) := by
  have := receive_known (S := S) instant (some m) d
  rw [show (some (some m)) = Option.map some (some m) from rfl, this]
  refine M.bind_run_error ?_
  exact M.bind_run_error h

theorem checkState_fail {l : Lifecycle} {d : Driver σ ρ κ H} (h : d.state ≠ l) : checkState l d = .ok (d, .error .invalidOperation) := by
  unfold checkState
  rw [M.bind_run (d1 := d) (a := d) rfl, if_pos h]
  rfl

theorem checkState_pass {l : Lifecycle} {d : Driver σ ρ κ H} (h : d.state = l) : checkState l d = .ok (d, .ok ()) := by
  unfold checkState
  rw [M.bind_run (d1 := d) (a := d) rfl, if_neg (fun hn => hn h)]
  rfl

theorem checkNonEphemeral_fail {d : Driver σ ρ κ H} (h : d.ephemeral = true) :
    checkNonEphemeral d = .ok (d, .error .invalidOperation) := by
  unfold checkNonEphemeral
  rw [M.bind_run (d1 := d) (a := d) rfl, if_pos h]
  rfl

theorem checkNonEphemeral_pass {d : Driver σ ρ κ H} (h : d.ephemeral = false) : checkNonEphemeral d = .ok (d, .ok ()) := by
  unfold checkNonEphemeral
  rw [M.bind_run (d1 := d) (a := d) rfl, if_neg (by simp [h])]
  rfl

theorem untouched_preset (instant : Nat) (d : Driver σ ρ κ H) : Untouched d (presetState S instant d) := ⟨rfl, rfl, rfl, rfl, rfl, rfl⟩

theorem start_refused {instant : Nat} {q : StartReq} {d : Driver σ ρ κ H} (h : d.state ≠ .created) :
    receive S instant (some (some (.startReplica q))) d = .ok (presetState S instant d, .error .invalidOperation) := by
  refine receive_error ?_
  unfold dispatch processStart
  exact M.bind_run_error (M.bind_run_error (checkState_fail h))

theorem unstarted_refused {instant : Nat} {m : InMsg H} {d : Driver σ ρ κ H} (hm : NeedsStarted m) (h : d.state ≠ .started) :
    receive S instant (some (some m)) d = .ok (presetState S instant d, .error .invalidOperation) := by
  refine receive_error ?_
  have hc : checkState .started (presetState S instant d) = .ok (presetState S instant d, .error .invalidOperation) := checkState_fail h
  cases m with
  | changeCluster => exact M.bind_run_error (M.bind_run_error hc)
  | checkCluster => exact M.bind_run_error (M.bind_run_error hc)
  | systemMessage => exact M.bind_run_error (M.bind_run_error hc)
  | getReplicaState => exact M.bind_run_error (M.bind_run_error hc)
  | handshake => exact M.bind_run_error (M.bind_run_error hc)
  | _ => exact absurd hm (by simp [NeedsStarted])

theorem ephemeral_refused {instant : Nat} {m : InMsg H} {d : Driver σ ρ κ H} (hm : NeedsReplication m) (h : d.state = .started)
    (he : d.ephemeral = true) : receive S instant (some (some m)) d = .ok (presetState S instant d, .error .invalidOperation) := by
  refine receive_error ?_
  have hc : checkState .started (presetState S instant d) = .ok (presetState S instant d, .ok ()) := checkState_pass h
  have hn : checkNonEphemeral (presetState S instant d) = .ok (presetState S instant d, .error .invalidOperation) :=
    checkNonEphemeral_fail he
  cases m with
  | changeCluster => exact M.bind_run_error (by unfold processChangeCluster; rw [M.bind_run hc]; exact M.bind_run_error hn)
  | checkCluster => exact M.bind_run_error (by unfold processCheckCluster; rw [M.bind_run hc]; exact M.bind_run_error hn)
  | systemMessage => exact M.bind_run_error (by unfold processSystemMessage; rw [M.bind_run hc]; exact M.bind_run_error hn)
  | snapshotRequest => exact M.bind_run_error (M.bind_run_error hn)
  | snapshotResponse => exact M.bind_run_error (M.bind_run_error hn)
  | snapshotFailure => exact M.bind_run_error (M.bind_run_error hn)
  | _ => exact absurd hm (by simp [NeedsReplication])

/-! ## Starting once -/

theorem starts_append (a b : List (Ev H)) : starts (a ++ b) = starts a ++ starts b := List.filterMap_append

theorem starts_length (t : List (Ev H)) : (starts t).length = t.countP fun e => kind e == .oStart := by
  induction t with
  | nil => rfl
  | cons e t ih =>
    rw [List.countP_cons, ← ih]
    cases e with
    | actor c => cases c <;> simp [starts, kind, List.filterMap_cons]
    | out m => cases m <;> simp [starts, kind, List.filterMap_cons]
    | _ => simp [starts, kind, List.filterMap_cons]

theorem starts_out (ms : List (Comm.OutMsg H)) : starts (ms.map fun m => Ev.out (.comm m)) = [] := by
  induction ms with
  | nil => rfl
  | cons m ms ih => simp_all [starts]

theorem start_rest (c : Option ActorCommand) : AtMost .oStart 0 (do runActor S c; runRaft S : M (Driver σ ρ κ H) Unit) :=
  (atMost_bind (a := 0) (b := 0) ((adds_runActor c).atMost (by decide) 0) fun _ => adds_runRaft.atMost (by decide) 0)

theorem AtMost.zero {k : K} {m : M (Driver σ ρ κ H) α} (h : AtMost k 0 m) {d d' : Driver σ ρ κ H} {r} (hr : m d = .ok (d', r)) :
    ∃ new, d'.trace = d.trace ++ new ∧ new.countP (fun e => kind e == k) = 0 := by
  obtain ⟨new, ht, hn⟩ := h.run _ _ _ hr
  exact ⟨new, ht, Nat.le_zero.1 hn⟩

theorem start_dispatch {m : InMsg H} (hm : ∀ r, m ≠ .startReplica r) : AtMost .oStart 0 (dispatch S m) := by
  have key : ∀ {L : List K} {x : M (Driver σ ρ κ H) Unit}, Adds L x → K.oStart ∉ L →
      AtMost .oStart 0 (x >>= fun _ => Pure.pure (none : Option ActorCommand)) := fun hx hL =>
    atMost_bind (a := 0) (b := 0) (hx.atMost hL 0) fun _ => (adds_pure (L := [])).atMost (by decide) 0
  cases m with
  | startReplica r => exact absurd rfl (hm r)
  | stopReplica => exact key adds_processStop (by decide)
  | enterLameduck => exact key (L := []) (adds_modify fun _ => rfl) (by decide)
  | changeCluster a b c => exact key (adds_processChangeCluster a b c) (by decide)
  | checkCluster => exact key adds_processCheckCluster (by decide)
  | systemMessage a b c => exact key (adds_processSystemMessage a b c) (by decide)
  | snapshotRequest a b c p => exact key (adds_processSnapshotRequest a b c p) (by decide)
  | snapshotResponse a b c p => exact key (adds_processSnapshotResponse a b c p) (by decide)
  | snapshotFailure a b => exact key (adds_processSnapshotFailure a b) (by decide)
  | getReplicaState => exact key adds_processGetReplicaState (by decide)
  | handshake a h => exact key (adds_processHandshake a h) (by decide)
  | appMessage c => exact (adds_pure (L := [])).atMost (by decide) 0

/-- Starting: without success nothing is acknowledged, with success once. -/
theorem start_processStart (q : StartReq) {d d' : Driver σ ρ κ H} {r} (h : processStart S q d = .ok (d', r)) :
    ∃ new, d'.trace = d.trace ++ new ∧ new.countP (fun e => kind e == .oStart) ≤ 1 ∧
      (new.countP (fun e => kind e == .oStart) = 0 ∨ (d.state = .created ∧ d'.state = .started)) := by
  by_cases hc : d.state = .created
  · cases r with
    | ok a =>
      have hs := processStart_started h
      have : AtMost .oStart 1 (processStart S q) := by
        unfold processStart
        refine (atMost_bind (a := 0) (b := 1) ((adds_checkState _).atMost (by decide) 0) fun _ => ?_).mono (Nat.le_of_eq rfl)
        refine (atMost_bind (a := 0) (b := 1) (Adds.atMost (L := []) (adds_modify ?_) (by decide) 0) fun _ => ?_).mono (Nat.le_of_eq rfl)
        · intro _; rfl
        refine (atMost_bind (a := 0) (b := 1) (Adds.atMost (L := [.actorInit]) (adds_actor ?_) (by decide) 0) fun _ => ?_).mono (Nat.le_of_eq rfl)
        · intro _ _; simp [kind]
        refine (atMost_bind (a := 0) (b := 1) (Adds.atMost (L := []) adds_orFail (by decide) 0) fun _ => ?_).mono (Nat.le_of_eq rfl)
        refine (atMost_bind (a := 0) (b := 1) (Adds.atMost (L := []) (adds_modify ?_) (by decide) 0) fun _ => ?_).mono (Nat.le_of_eq rfl)
        · intro _; rfl
        refine (atMost_bind (a := 0) (b := 1) ((adds_when (adds_startConsensus q)).atMost (by decide) 0) fun _ => ?_).mono (Nat.le_of_eq rfl)
        refine (atMost_bind (a := 0) (b := 1) (Adds.atMost (L := []) (adds_when adds_panic) (by decide) 0) fun _ => ?_).mono (Nat.le_of_eq rfl)
        refine (atMost_bind (a := 0) (b := 1) (Adds.atMost (L := []) (adds_modify ?_) (by decide) 0) fun _ => ?_).mono (Nat.le_of_eq rfl)
        · intro _; rfl
        refine (atMost_bind (a := 0) (b := 1) (Adds.atMost (L := []) (adds_modify ?_) (by decide) 0) fun _ => ?_).mono (Nat.le_of_eq rfl)
        · intro _; rfl
        refine (atMost_bind (a := 0) (b := 1) (Adds.atMost (L := []) adds_get (by decide) 0) fun d => ?_).mono (Nat.le_of_eq rfl)
        refine ⟨fun a b r h => ?_⟩
        simp only [stash, M.modify, Run.ok.injEq, Prod.mk.injEq] at h
        rw [← h.1]
        exact ⟨_, rfl, by simp [kind]⟩
      obtain ⟨new, ht, hn⟩ := this.run _ _ _ h
      exact ⟨new, ht, hn, Or.inr ⟨hc, hs⟩⟩
    | error e =>
      -- an error comes before the acknowledgement
      have key : ∀ {α β : Type} {m : M (Driver σ ρ κ H) α} {f : α → M (Driver σ ρ κ H) β} {d d' : Driver σ ρ κ H} {e : PalErr},
          AtMost .oStart 0 m → (∀ (a : α) (d d' : Driver σ ρ κ H), f a d = .ok (d', .error e) →
            ∃ new, d'.trace = d.trace ++ new ∧ new.countP (fun e => kind e == .oStart) = 0) →
          (m >>= f) d = .ok (d', .error e) → ∃ new, d'.trace = d.trace ++ new ∧ new.countP (fun e => kind e == .oStart) = 0 := by
        intro α β m f d d' e hm hf h
        rcases M.bind_ok h with ⟨e', h1, _⟩ | ⟨d1, a, h1, h2⟩
        · exact hm.zero h1
        · obtain ⟨n1, t1, c1⟩ := hm.zero h1
          obtain ⟨n2, t2, c2⟩ := hf a _ _ h2
          exact ⟨n1 ++ n2, by rw [t2, t1, List.append_assoc], by rw [List.countP_append]; omega⟩
      have : ∃ new, d'.trace = d.trace ++ new ∧ new.countP (fun e => kind e == .oStart) = 0 := by
        unfold processStart at h
        refine key ((adds_checkState _).atMost (by decide) 0) (fun _ _ _ h => ?_) h
        refine key (Adds.atMost (L := []) (adds_modify ?_) (by decide) 0) (fun _ _ _ h => ?_) h
        · intro _; rfl
        refine key (Adds.atMost (L := [.actorInit]) (adds_actor ?_) (by decide) 0) (fun _ _ _ h => ?_) h
        · intro _ _; simp [kind]
        refine key (Adds.atMost (L := []) adds_orFail (by decide) 0) (fun _ _ _ h => ?_) h
        refine key (Adds.atMost (L := []) (adds_modify ?_) (by decide) 0) (fun _ _ _ h => ?_) h
        · intro _; rfl
        refine key ((adds_when (adds_startConsensus q)).atMost (by decide) 0) (fun _ _ _ h => ?_) h
        refine key (Adds.atMost (L := []) (adds_when adds_panic) (by decide) 0) (fun _ _ _ h => ?_) h
        refine key (Adds.atMost (L := []) (adds_modify ?_) (by decide) 0) (fun _ _ _ h => ?_) h
        · intro _; rfl
        refine key (Adds.atMost (L := []) (adds_modify ?_) (by decide) 0) (fun _ _ _ h => ?_) h
        · intro _; rfl
        refine key (Adds.atMost (L := []) adds_get (by decide) 0) (fun _ _ _ h => ?_) h
        simp [stash, M.modify] at h
      obtain ⟨new, ht, hn⟩ := this
      exact ⟨new, ht, by omega, Or.inl hn⟩
  · have : processStart S q d = .ok (d, .error .invalidOperation) := M.bind_run_error (checkState_fail hc)
    rw [this] at h
    simp only [Run.ok.injEq, Prod.mk.injEq] at h
    exact ⟨[], by simp [← h.1], by simp, Or.inl (by simp)⟩

theorem body_starts {m : Option (InMsg H)} {d d' : Driver σ ρ κ H} {r} (h : body S m d = .ok (d', r)) :
    ∃ new, d'.trace = d.trace ++ new ∧ (starts new).length ≤ 1 ∧
      ((starts new).length = 0 ∨ (d.state = .created ∧ d'.state ≠ .created)) := by
  have rest : ∀ {c} {a b : Driver σ ρ κ H} {r}, (do runActor S c; runRaft S : M (Driver σ ρ κ H) Unit) a = .ok (b, r) →
      (a.state ≠ .created → b.state ≠ .created) ∧ ∃ new, b.trace = a.trace ++ new ∧ (starts new).length = 0 := by
    intro c a b r h
    obtain ⟨new, ht, hn⟩ := (start_rest c).zero h
    refine ⟨?_, new, ht, by rw [starts_length]; exact hn⟩
    have : Reaches S (do runActor S c; runRaft S : M (Driver σ ρ κ H) Unit) a :=
      reaches_bind (reaches_runActor _ _) fun _ _ _ => reaches_runRaft _
    exact (this.run _ _ h).lifecycle.1
  unfold body at h
  have hd : ∀ {d1 : Driver σ ρ κ H} {r}, dispatchOpt S m d = .ok (d1, r) → ∃ new, d1.trace = d.trace ++ new ∧ (starts new).length ≤ 1 ∧
      ((starts new).length = 0 ∨ (d.state = .created ∧ d1.state ≠ .created)) := by
    intro d1 r h1
    cases m with
    | none =>
      simp only [dispatchOpt, M.pure_def, M.pure, Run.ok.injEq, Prod.mk.injEq] at h1
      exact ⟨[], by simp [← h1.1], by simp [starts], Or.inl (by simp [starts])⟩
    | some m =>
      by_cases hm : ∃ q, m = .startReplica q
      · obtain ⟨q, rfl⟩ := hm
        unfold dispatchOpt dispatch at h1
        rcases M.bind_ok h1 with ⟨e, h2, _⟩ | ⟨d2, _, h2, h3⟩
        · obtain ⟨new, ht, hn, hz⟩ := start_processStart q h2
          refine ⟨new, ht, by rw [starts_length]; exact hn, ?_⟩
          rw [starts_length]
          exact hz.imp id fun g => ⟨g.1, by rw [g.2]; simp⟩
        · simp only [M.pure_def, M.pure, Run.ok.injEq, Prod.mk.injEq] at h3
          rw [h3.1] at h2
          obtain ⟨new, ht, hn, hz⟩ := start_processStart q h2
          refine ⟨new, ht, by rw [starts_length]; exact hn, ?_⟩
          rw [starts_length]
          exact hz.imp id fun g => ⟨g.1, by rw [g.2]; simp⟩
      · obtain ⟨new, ht, hn⟩ := (start_dispatch (S := S) (m := m) fun r h => hm ⟨r, h⟩).zero h1
        exact ⟨new, ht, by rw [starts_length]; omega, Or.inl (by rw [starts_length]; exact hn)⟩
  rcases M.bind_ok h with ⟨e, h1, _⟩ | ⟨d1, c, h1, h2⟩
  · exact hd h1
  · obtain ⟨n1, t1, c1, z1⟩ := hd h1
    obtain ⟨hl, n2, t2, c2⟩ := rest h2
    refine ⟨n1 ++ n2, by rw [t2, t1, List.append_assoc], by rw [starts_append, List.length_append]; omega, ?_⟩
    rw [starts_append, List.length_append, c2, Nat.add_zero]
    exact z1.imp id fun g => ⟨g.1, hl g.2⟩

/-- A start request is acknowledged at most once, whatever the host does. -/
theorem calls_starts {d0 d : Driver σ ρ κ H} {rs} (h0 : Fresh d0) (h : Calls S d0 rs d) :
    (starts d.trace).length ≤ 1 ∧ (d.state = .created → (starts d.trace).length = 0) := by
  induction h with
  | nil =>
    obtain ⟨a, r, c, rfl⟩ := h0
    simp [Driver.new, starts]
  | @snoc _ d1 instant _ _ _ _ hs ih =>
    have key : ∀ {m' : Option (InMsg H)} {d2 : Driver σ ρ κ H} {r}, body S m' (presetState S instant d1) = .ok (d2, r) →
        (starts d2.trace).length ≤ 1 ∧ (d2.state = .created → (starts d2.trace).length = 0) := by
      intro m' d2 r hb
      obtain ⟨new, ht, hn, hz⟩ := body_starts hb
      have ht' : d2.trace = d1.trace ++ new := ht
      rw [ht', starts_append, List.length_append]
      have hback : d2.state = .created → d1.state = .created := by
        intro hc
        by_cases hd : d1.state = .created
        · exact hd
        · exact absurd hc (((reaches_body _ _).run _ _ hb).lifecycle.1 hd)
      rcases hz with hz | ⟨hz1, hz2⟩
      · refine ⟨by omega, fun hc => ?_⟩
        have := ih.2 (hback hc)
        omega
      · have := ih.2 hz1
        exact ⟨by omega, fun hc => absurd hc hz2⟩
    cases receive_outcome hs with
    | unknown => exact ih
    | failed _ hb => exact key hb
    | done _ hb ho =>
      have := key hb
      simp only [starts_append, starts_out, List.append_nil]
      exact this

/-! ## The outbox -/

theorem outMessages_append (a b : List (Ev H)) : outMessages (a ++ b) = outMessages a ++ outMessages b := List.filterMap_append

theorem outMessages_comm (ms : List (Comm.OutMsg H)) : outMessages (ms.map fun m => Ev.out (.comm m)) = ms.map .comm := by
  induction ms with
  | nil => rfl
  | cons m ms ih => simp_all [outMessages]

theorem Atom.outbox {d d' : Driver σ ρ κ H} (h : Atom S d d') :
    ∃ new, d'.trace = d.trace ++ new ∧ d'.messages = d.messages ++ outMessages new := by
  cases h with
  | quiet h => exact ⟨[], by simp [h.trace], by simp [h.messages, outMessages]⟩
  | setup h => exact ⟨[], by simp [h.trace], by simp [h.messages, outMessages]⟩
  | actor => exact ⟨_, rfl, by simp [outMessages]⟩
  | @raft r' ev h => exact ⟨_, rfl, by cases ev <;> simp_all [outMessages, RaftEv]⟩
  | @comm r' ev h => exact ⟨_, rfl, by cases ev <;> simp_all [outMessages, CommEv]⟩
  | tick => exact ⟨_, rfl, by simp [outMessages]⟩
  | out => exact ⟨_, rfl, by simp [outMessages]⟩
  | init => exact ⟨_, rfl, by simp [outMessages]⟩
  | started => exact ⟨[], by simp, by simp [outMessages]⟩
  | stopped => exact ⟨_, rfl, by simp [outMessages]⟩
  | lameduck => exact ⟨[], by simp, by simp [outMessages]⟩

theorem Star.outbox {d d' : Driver σ ρ κ H} (h : Star S d d') :
    ∃ new, d'.trace = d.trace ++ new ∧ d'.messages = d.messages ++ outMessages new := by
  induction h with
  | refl => exact ⟨[], by simp, by simp [outMessages]⟩
  | step h _ ih =>
    obtain ⟨n1, t1, m1⟩ := h.outbox
    obtain ⟨n2, t2, m2⟩ := ih
    exact ⟨n1 ++ n2, by rw [t2, t1, List.append_assoc], by rw [m2, m1, outMessages_append, List.append_assoc]⟩

/-- A call that returned messages. -/
theorem receive_sent {instant : Nat} {m : Option (Option (InMsg H))} {d d' : Driver σ ρ κ H} {outs : List (OutMsg H)}
    (h : receive S instant m d = .ok (d', .ok (some outs))) :
    ∃ new, d'.trace = d.trace ++ new ∧ outs = d.messages ++ outMessages new ∧ d'.messages = [] := by
  cases receive_outcome h with
  | done _ hb ho =>
    obtain ⟨new, ht, hm⟩ := ((reaches_body _ _).run _ _ hb).outbox
    refine ⟨new ++ _, by simp only [ht, List.append_assoc]; rfl, ?_, rfl⟩
    rw [hm, outMessages_append, outMessages_comm, List.append_assoc]
    rfl

/-- A call that returned nothing or an error. -/
theorem receive_kept {instant : Nat} {m : Option (Option (InMsg H))} {d d' : Driver σ ρ κ H}
    {r : Except PalErr (Option (List (OutMsg H)))} (h : receive S instant m d = .ok (d', r)) (hr : ∀ ms, r ≠ .ok (some ms)) :
    ∃ new, d'.trace = d.trace ++ new ∧ d'.messages = d.messages ++ outMessages new := by
  cases receive_outcome h with
  | unknown => exact ⟨[], by simp [presetState], by simp [presetState, outMessages]⟩
  | failed _ hb => exact ((reaches_body _ _).run _ _ hb).outbox
  | done => exact absurd rfl (hr _)

theorem calls_sent {d0 d : Driver σ ρ κ H} {rs} (h0 : Fresh d0) (h : Calls S d0 rs d) : sent rs ++ d.messages = outMessages d.trace := by
  induction h with
  | nil =>
    obtain ⟨a, r, c, rfl⟩ := h0
    rfl
  | @snoc _ d1 _ _ r _ _ hs ih =>
    by_cases hr : ∃ ms, r = .ok (some ms)
    · obtain ⟨ms, rfl⟩ := hr
      obtain ⟨new, ht, ho, hm⟩ := receive_sent hs
      rw [hm, ht, outMessages_append, ← ih, ho]
      simp [sent, List.append_assoc]
    · obtain ⟨new, ht, hm⟩ := receive_kept hs fun ms h => hr ⟨ms, h⟩
      rw [ht, outMessages_append, ← ih, hm]
      have : sent [r] = [] := by
        match r with
        | .ok none => rfl
        | .error _ => rfl
        | .ok (some ms) => exact absurd ⟨ms, rfl⟩ hr
      have h2 : ∀ a b : List (Except PalErr (Option (List (OutMsg H)))), sent (a ++ b) = sent a ++ sent b := fun a b => by simp [sent]
      rw [h2, this]
      simp [List.append_assoc]

theorem runs_messages {d0 d : Driver σ ρ κ H} {outs} (h0 : Fresh d0) (h : Runs S d0 outs d) : d.messages = [] := by
  induction h with
  | nil =>
    obtain ⟨a, r, c, rfl⟩ := h0
    rfl
  | snoc _ hs ih =>
    cases receive_outcome hs with
    | unknown => exact ih
    | done => rfl

end TCP.Drv
