import Verif.Spec.DriverReady
import Verif.Proofs.DriverLog

/-! # Batches of consensus are stored before anything is sent -/

namespace TCP.Drv

open TCP TCP.ActorSpec TCP.DrvSpec

variable {σ ρ κ H α β : Type} {S : Sys σ ρ κ H}

theorem handled_append {r : Ready} {t u : List (Ev H)} (h : Handled r t) : Handled r (t ++ u) := by
  obtain ⟨a, l, b, rfl, h2, h3⟩ := h
  exact ⟨a, l, b ++ u, by simp, h2, h3⟩

/-- A batch taken in `t ++ u` was taken in `t` or in `u`. -/
theorem split_at {t u a b : List (Ev H)} {e : Ev H} (h : t ++ u = a ++ e :: b) :
    (∃ b', t = a ++ e :: b' ∧ b = b' ++ u) ∨ (∃ a', a = t ++ a' ∧ u = a' ++ e :: b) := by
  rw [List.append_eq_append_iff] at h
  rcases h with ⟨x, hx, hy⟩ | ⟨x, hx, hy⟩
  · exact Or.inr ⟨x, hx, hy⟩
  · cases x with
    | nil => simp only [List.nil_append] at hy; exact Or.inr ⟨[], by simpa using hx.symm, by simpa using hy.symm⟩
    | cons y x =>
      simp only [List.cons_append, List.cons.injEq] at hy
      obtain ⟨rfl, rfl⟩ := hy
      exact Or.inl ⟨x, hx, rfl⟩

theorem allHandled_append {t u : List (Ev H)} (h : AllHandled t) (hu : AllHandled u) : AllHandled (t ++ u) := by
  intro a r b hab
  rcases split_at hab with ⟨b', h1, rfl⟩ | ⟨a', rfl, h1⟩
  · exact handled_append (h a r b' h1)
  · exact hu a' r b h1

theorem allHandled_none {t : List (Ev H)} (h : ∀ e ∈ t, kind e ≠ .ready) : AllHandled t := by
  intro a r b hab
  exact absurd rfl (h (.ready r) (by rw [hab]; simp))

/-- The method adds no batch. -/
theorem Adds.handled {L : List K} {m : M (Driver σ ρ κ H) α} (h : Adds L m) (hL : K.ready ∉ L) {d d' : Driver σ ρ κ H} {r}
    (hm : m d = .ok (d', r)) (hd : AllHandled d.trace) : AllHandled d'.trace := by
  obtain ⟨δ, h1, h2⟩ := h.run d d' r hm
  rw [h1]
  refine allHandled_append hd (allHandled_none fun e he => ?_)
  intro hk
  exact hL (hk ▸ h2 e he)

theorem between_of_kinds {L : List K} {t : List (Ev H)} (h : ∀ e ∈ t, kind e ∈ L) (h1 : K.ready ∉ L) (h2 : K.light ∉ L) :
    BetweenBatches t := by
  intro e he
  refine ⟨fun r hr => ?_, fun l hl => ?_⟩
  · subst hr; exact h1 (h _ he)
  · subst hl; exact h2 (h _ he)

theorem between_append {t u : List (Ev H)} (h1 : BetweenBatches t) (h2 : BetweenBatches u) : BetweenBatches (t ++ u) := by
  intro e he
  rcases List.mem_append.1 he with he | he
  · exact h1 e he
  · exact h2 e he

/-- Processing a batch stores it. -/
theorem ready_trace {d d' : Driver σ ρ κ H} (h : processReady S d = .ok (d', .ok ())) :
    ∃ r t l rest, d'.trace = d.trace ++ .ready r :: (t ++ .light l :: rest) ∧ BetweenBatches t ∧ Stored r t ∧
      ∀ e ∈ rest, kind e ≠ .ready := by
  unfold processReady at h
  obtain ⟨d1, r, h1, g1⟩ := M.bind_okOk h
  obtain ⟨d2, _, h2, g2⟩ := M.bind_okOk g1
  obtain ⟨d3, _, h3, g3⟩ := M.bind_okOk g2
  obtain ⟨d4, _, h4, g4⟩ := M.bind_okOk g3
  obtain ⟨d5, _, h5, g5⟩ := M.bind_okOk g4
  obtain ⟨d6, _, h6, g6⟩ := M.bind_okOk g5
  obtain ⟨d7, _, h7, g7⟩ := M.bind_okOk g6
  obtain ⟨d8, l, h8, g8⟩ := M.bind_okOk g7
  obtain ⟨d9, _, h9, g9⟩ := M.bind_okOk g8
  obtain ⟨d10, _, h10, h11⟩ := M.bind_okOk g9
  obtain ⟨_, _, e1⟩ := callRaft_ok h1
  obtain ⟨t2, e2, k2⟩ := (adds_sendRaftMessages r.messages).run _ _ _ h2
  obtain ⟨t3, e3, k3, s3⟩ : ∃ t3, d3.trace = d2.trace ++ t3 ∧ (∀ e ∈ t3, kind e ∈ [K.hardState]) ∧
      ∀ h, r.hardState = some h → .storeHardState h ∈ t3 := by
    cases hh : r.hardState with
    | none =>
      rw [hh] at h3
      simp only [M.opt, M.pure, Run.ok.injEq, Prod.mk.injEq] at h3
      exact ⟨[], by rw [h3.1]; simp, by simp, by simp⟩
    | some x =>
      rw [hh] at h3
      have h3' : callRaftU (fun r => S.R.setHardState r x) (Ev.storeHardState x) d2 = _ := h3
      unfold callRaftU at h3'
      obtain ⟨_, _, e⟩ := callRaft_ok h3'
      exact ⟨[.storeHardState x], by rw [e], by simp [kind], by simp⟩
  obtain ⟨t4, e4, k4, s4⟩ : ∃ t4, d4.trace = d3.trace ++ t4 ∧ (∀ e ∈ t4, kind e ∈ [K.storeApply, .load]) ∧
      (r.snapshot.metadata.index ≠ 0 → .storeApply r.snapshot (.ok ()) ∈ t4) := by
    unfold restoreRaftSnapshot at h4
    by_cases hz : r.snapshot.metadata.index = 0
    · rw [if_pos hz] at h4
      simp only [M.pure_def, M.pure, Run.ok.injEq, Prod.mk.injEq, and_true] at h4
      exact ⟨[], by rw [h4]; simp, by simp, fun hn => absurd hz hn⟩
    · rw [if_neg hz] at h4
      obtain ⟨a1, _, x1, y1⟩ := M.bind_okOk h4
      obtain ⟨a2, res, x2, y2⟩ := M.bind_okOk y1
      obtain ⟨a3, _, x3, y3⟩ := M.bind_okOk y2
      obtain ⟨a4, res4, x4, y4⟩ := M.bind_okOk y3
      obtain ⟨a5, _, x5, y5⟩ := M.bind_okOk y4
      have z1 := modify_ok x1
      obtain ⟨_, _, z2⟩ := callRaft_ok x2
      obtain ⟨z3, zr⟩ := orFail_ok x3
      obtain ⟨_, _, z4⟩ := callActor_ok x4
      have z5 := (orFail_ok x5).1
      have z6 := modify_ok y5
      subst zr
      refine ⟨[.storeApply r.snapshot (.ok ()), .actor (.load d3.ctx r.snapshot.data res4)], ?_, by simp [kind], by simp⟩
      rw [z6, z5, z4, z3, z2, z1]
      simp
  obtain ⟨t5, e5, k5⟩ := (adds_applyCommitted r.committed).run _ _ _ h5
  obtain ⟨t6, e6, k6⟩ := (adds_sendRaftMessages r.persisted).run _ _ _ h6
  obtain ⟨t7, e7, k7, s7⟩ : ∃ t7, d7.trace = d6.trace ++ t7 ∧ (∀ e ∈ t7, kind e ∈ [K.append]) ∧
      (r.entries ≠ [] → .storeAppend r.entries (.ok ()) ∈ t7) := by
    unfold M.when at h7
    cases he : r.entries with
    | nil =>
      rw [he] at h7
      simp only [List.isEmpty_nil, Bool.not_true, Bool.false_eq_true, if_false, M.pure, Run.ok.injEq, Prod.mk.injEq] at h7
      exact ⟨[], by rw [h7.1]; simp, by simp, by simp⟩
    | cons x xs =>
      rw [he] at h7
      simp only [List.isEmpty_cons, Bool.not_false, if_true] at h7
      obtain ⟨a1, res, x1, y1⟩ := M.bind_okOk h7
      obtain ⟨_, _, z1⟩ := callRaft_ok x1
      obtain ⟨z2, zr⟩ := orFail_ok y1
      subst zr
      exact ⟨[.storeAppend (x :: xs) (.ok ())], by rw [z2, z1], by simp [kind], by simp⟩
  obtain ⟨_, _, e8⟩ := callRaft_ok h8
  obtain ⟨t9, e9, k9⟩ := (adds_sendRaftMessages l.messages).run _ _ _ h9
  obtain ⟨t10, e10, k10⟩ := (adds_applyCommitted l.committed).run _ _ _ h10
  unfold callRaftU at h11
  obtain ⟨_, _, e11⟩ := callRaft_ok h11
  refine ⟨r, t2 ++ t3 ++ t4 ++ t5 ++ t6 ++ t7, l, t9 ++ t10 ++ [.advanceApply], ?_, ?_, ⟨?_, ?_, ?_⟩, ?_⟩
  · rw [e11]
    simp only [e10, e9]
    rw [e8]
    simp only [e7, e6, e5, e4, e3, e2]
    rw [e1]
    simp
  · refine between_append (between_append (between_append (between_append (between_append ?_ ?_) ?_) ?_) ?_) ?_
    · exact between_of_kinds k2 (by simp) (by simp)
    · exact between_of_kinds k3 (by simp) (by simp)
    · exact between_of_kinds k4 (by simp) (by simp)
    · exact between_of_kinds k5 (by simp) (by simp)
    · exact between_of_kinds k6 (by simp) (by simp)
    · exact between_of_kinds k7 (by simp) (by simp)
  · intro h hh; simp [s3 h hh]
  · intro hh; simp [s4 hh]
  · intro hh; simp [s7 hh]
  · intro e he
    simp only [List.mem_append, List.mem_singleton] at he
    rcases he with (he | he) | he
    · have := k9 e he; simp at this; simp [this]
    · have := k10 e he
      simp only [List.mem_cons, List.not_mem_nil, or_false] at this
      rcases this with h | h | h <;> simp [h]
    · subst he; simp [kind]

theorem handled_processReady {d d' : Driver σ ρ κ H} (h : processReady S d = .ok (d', .ok ())) (hd : AllHandled d.trace) :
    AllHandled d'.trace := by
  obtain ⟨r, t, l, rest, e, hb, hs, hr⟩ := ready_trace h
  rw [e]
  refine allHandled_append hd ?_
  intro a r' b hab
  cases a with
  | nil =>
    simp only [List.nil_append, List.cons.injEq, Ev.ready.injEq] at hab
    obtain ⟨rfl, rfl⟩ := hab
    exact ⟨t, l, rest, rfl, hb, hs⟩
  | cons x a =>
    simp only [List.cons_append, List.cons.injEq] at hab
    obtain ⟨_, hab⟩ := hab
    have hm : Ev.ready r' ∈ t ++ Ev.light l :: rest := by rw [hab]; simp
    rw [List.mem_append, List.mem_cons] at hm
    rcases hm with hm | hm | hm
    · exact absurd rfl ((hb _ hm).1 r')
    · simp at hm
    · exact absurd rfl (hr _ hm)

theorem handled_runRaft {d d' : Driver σ ρ κ H} (h : runRaft S d = .ok (d', .ok ())) (hd : AllHandled d.trace) : AllHandled d'.trace := by
  unfold runRaft at h
  rw [M.bind_run (d1 := d) (a := d) rfl] at h
  split at h
  · simp only [M.pure_def, M.pure, Run.ok.injEq, Prod.mk.injEq] at h; rw [← h.1]; exact hd
  · obtain ⟨d1, _, h1, g1⟩ := M.bind_okOk h
    obtain ⟨d2, _, h2, g2⟩ := M.bind_okOk g1
    obtain ⟨d3, _, h3, g3⟩ := M.bind_okOk g2
    have a1 := (adds_processProposals (S := S)).handled (by decide) h1 hd
    have a2 := (adds_processSnapshotProgress (S := S)).handled (by decide) h2 a1
    refine (adds_processSnapshotSending (S := S)).handled (by decide) g3 ?_
    unfold processStateMachine at h3
    rw [M.bind_run (d1 := d2) (a := d2) rfl] at h3
    split at h3
    · obtain ⟨c1, _, x1, y1⟩ := M.bind_okOk h3
      obtain ⟨c2, _, x2, y2⟩ := M.bind_okOk y1
      refine (adds_stashLeaderState (S := S)).handled (by decide) y2 ((adds_maybeCreateSnapshot (S := S)).handled (by decide) x2 ?_)
      unfold advanceRaft at x1
      rw [M.bind_run (d1 := d2) (a := d2) rfl] at x1
      obtain ⟨b1, _, z1, w1⟩ := M.bind_okOk x1
      obtain ⟨b2, q, z2, w2⟩ := M.bind_okOk w1
      have q1 := (adds_when (adds_triggerRaftTick (S := S))).handled (by decide) z1 a2
      have q2 := (adds_ask (L := [])).handled (by decide) z2 q1
      unfold M.when at w2
      split at w2
      · exact handled_processReady w2 q2
      · simp only [M.pure, Run.ok.injEq, Prod.mk.injEq] at w2; rw [← w2.1]; exact q2
    · simp only [M.pure_def, M.pure, Run.ok.injEq, Prod.mk.injEq] at h3; rw [← h3.1]; exact a2

theorem handled_body {m : Option (InMsg H)} {d d' : Driver σ ρ κ H} (h : body S m d = .ok (d', .ok ())) (hd : AllHandled d.trace) :
    AllHandled d'.trace := by
  unfold body at h
  obtain ⟨d1, c, h1, g1⟩ := M.bind_okOk h
  obtain ⟨d2, _, h2, h3⟩ := M.bind_okOk g1
  refine handled_runRaft h3 ((adds_runActor (S := S) c).handled (by decide) h2 ?_)
  cases m with
  | none => exact (adds_pure (L := [])).handled (by decide) h1 hd
  | some m => exact (adds_dispatch m).handled (by decide) h1 hd

/-- Only sending sends. -/
theorem body_no_comm {m : Option (InMsg H)} {d d' : Driver σ ρ κ H} {r} (h : body S m d = .ok (d', r)) :
    ∃ δ, d'.trace = d.trace ++ δ ∧ ∀ e ∈ δ, kind e ≠ .oComm := by
  have ha : Adds (dispatchKinds ++ [.command, .apply, .oApp, .commTick] ++ raftKinds) (body S m) := by
    unfold body
    refine adds_bind ?_ fun c => adds_bind ((adds_runActor c).mono (by decide)) fun _ => (adds_runRaft).mono (by decide)
    cases m with
    | none => exact adds_pure
    | some m => exact (adds_dispatch m).mono (by decide)
  obtain ⟨δ, h1, h2⟩ := ha.run _ _ _ h
  refine ⟨δ, h1, fun e he hk => ?_⟩
  have := h2 e he
  rw [hk] at this
  revert this
  decide

theorem runs_handled {d0 d : Driver σ ρ κ H} {outs} (h0 : Fresh d0) (h : Runs S d0 outs d) : AllHandled d.trace ∧ SentHandled d.trace := by
  induction h with
  | nil =>
    obtain ⟨a, r, c, rfl⟩ := h0
    exact ⟨by intro a r b hab; simp [Driver.new] at hab, by intro a r b hab; simp [Driver.new] at hab⟩
  | @snoc outs d1 instant msg out d2 _ hs ih =>
    obtain ⟨ih1, ih2⟩ := ih
    generalize hr : Except.ok out = r at hs
    cases receive_outcome hs with
    | unknown => exact ⟨ih1, ih2⟩
    | failed => simp at hr
    | @done m' d2 c' os hm hb ho =>
      have hh : AllHandled d2.trace := handled_body hb ih1
      have hno : ∀ e ∈ os.map (fun m => (Ev.out (.comm m) : Ev H)), kind e ≠ .ready := by
        intro e he
        simp only [List.mem_map] at he
        obtain ⟨m, _, rfl⟩ := he
        simp [kind]
      refine ⟨allHandled_append hh (allHandled_none hno), ?_⟩
      intro a m b hab
      rcases split_at hab with ⟨b', h1, rfl⟩ | ⟨a', rfl, h1⟩
      · obtain ⟨δ, e, hδ⟩ := body_no_comm hb
        have e : d2.trace = d1.trace ++ δ := e
        rw [e] at h1
        rcases split_at h1 with ⟨b'', h2, _⟩ | ⟨a'', _, h2⟩
        · exact ih2 a m b'' h2
        · exact absurd rfl (hδ (.out (.comm m)) (by rw [h2]; simp))
      · refine allHandled_append hh (allHandled_none fun e he => hno e ?_)
        rw [h1]; exact List.mem_append_left _ he

end TCP.Drv
