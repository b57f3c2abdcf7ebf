import Verif.Spec.ServiceCluster
import Verif.Props.Service
import Verif.Proofs.DriverReplies
import Verif.Proofs.DriverApp

/-! # Clients of a cluster's services -/

namespace TCP.Drv

open TCP TCP.ActorSpec TCP.DrvSpec

variable {σ ρ κ H α β : Type} {S : Sys σ ρ κ H}

/-! ## Commands come from messages -/

/-- The method hands no command but this one to the actor. -/
structure Hands (c : Option ActorCommand) (m : M (Driver σ ρ κ H) α) : Prop where
  run : ∀ d d' r, m d = .ok (d', r) → ∃ new, d'.trace = d.trace ++ new ∧ ∀ x ∈ new.filterMap handed, c = some x

theorem Adds.hands {L : List K} {m : M (Driver σ ρ κ H) α} (h : Adds L m) (hk : K.command ∉ L) (c : Option ActorCommand) : Hands c m := ⟨by
  intro d d' r hr
  obtain ⟨new, ht, hn⟩ := h.run _ _ _ hr
  refine ⟨new, ht, fun x hx => ?_⟩
  obtain ⟨e, he, hx⟩ := List.mem_filterMap.1 hx
  have := hn e he
  match e, hx with
  | .actor (.command ..), _ => exact absurd this hk⟩

theorem hands_bind {c : Option ActorCommand} {m : M (Driver σ ρ κ H) α} {f : α → M (Driver σ ρ κ H) β} (h1 : Hands c m) (h2 : ∀ a, Hands c (f a)) :
    Hands c (m >>= f) := ⟨by
  intro d d' r h
  rcases M.bind_ok h with ⟨e, hm, _⟩ | ⟨d1, a, hm, hf⟩
  · exact h1.run _ _ _ hm
  · obtain ⟨n1, t1, k1⟩ := h1.run _ _ _ hm
    obtain ⟨n2, t2, k2⟩ := (h2 a).run _ _ _ hf
    refine ⟨n1 ++ n2, by rw [t2, t1, List.append_assoc], fun x hx => ?_⟩
    rw [List.filterMap_append] at hx
    rcases List.mem_append.1 hx with hx | hx
    · exact k1 x hx
    · exact k2 x hx⟩

theorem hands_command {c : Option ActorCommand} {f : ActorCtx → σ → Run (σ × Except ActorErr CommandOutcome)} :
    Hands c (callActor f (fun ctx res => .actor (.command ctx c res)) : M (Driver σ ρ κ H) _) := ⟨by
  intro d d' r h
  simp only [callActor, Run.bind_eq_ok, Run.ok.injEq, Prod.mk.injEq] at h
  obtain ⟨x, _, h, _⟩ := h
  refine ⟨_, by rw [← h], fun y hy => ?_⟩
  obtain ⟨e, he, hy⟩ := List.mem_filterMap.1 hy
  rw [List.mem_singleton.1 he] at hy
  exact hy⟩

theorem hands_processAppMessage (c : Option ActorCommand) : Hands c (processAppMessage S c) := by
  unfold processAppMessage
  refine hands_bind ((adds_checkState _).hands (by decide) _) fun _ => ?_
  refine hands_bind hands_command fun res => ?_
  refine hands_bind ((adds_orFail (L := [])).hands (by decide) _) fun o => ?_
  refine hands_bind ((adds_stashCommands (L := [.oApp]) (by decide) _).hands (by decide) _) fun _ => ?_
  split
  · exact (adds_pure (L := [])).hands (by decide) _
  · refine hands_bind ((adds_get (L := [])).hands (by decide) _) fun d => ?_
    split
    · refine hands_bind ((adds_actor (L := [.apply]) fun _ _ => by simp only [kind]; decide).hands (by decide) _) fun _ => ?_
      refine hands_bind ((adds_orFail (L := [])).hands (by decide) _) fun o => ?_
      exact (adds_stashCommands (L := [.oApp]) (by decide) _).hands (by decide) _
    · refine (adds_modify (L := []) ?_).hands (by decide) _
      intro _; rfl

theorem hands_rest (c : Option ActorCommand) : Hands c (do runActor S c; runRaft S : M (Driver σ ρ κ H) Unit) := by
  refine hands_bind ?_ fun _ => adds_runRaft.hands (by decide) _
  unfold runActor
  refine hands_bind ((adds_get (L := [])).hands (by decide) _) fun d => ?_
  split
  · exact hands_bind (hands_processAppMessage c) fun _ => (adds_changeComm (L := [.commTick]) (by simp only [kind]; decide)).hands (by decide) _
  · exact (adds_pure (L := [])).hands (by decide) _

/-- Only application messages are left to the actor. -/
theorem dispatchOpt_command {m : Option (InMsg H)} {d d' : Driver σ ρ κ H} {x : ActorCommand}
    (h : dispatchOpt S m d = .ok (d', .ok (some x))) : m = some (.appMessage x) := by
  have key : ∀ {y : M (Driver σ ρ κ H) Unit}, (y >>= fun _ => Pure.pure (none : Option ActorCommand)) d ≠ .ok (d', .ok (some x)) := by
    intro y h
    obtain ⟨_, _, _, h⟩ := M.bind_okOk h
    simp only [M.pure_def, M.pure, Run.ok.injEq, Prod.mk.injEq, Except.ok.injEq, reduceCtorEq, and_false] at h
  cases m with
  | none => simp only [dispatchOpt, M.pure_def, M.pure, Run.ok.injEq, Prod.mk.injEq, Except.ok.injEq, reduceCtorEq, and_false] at h
  | some m =>
    cases m with
    | appMessage c =>
      simp only [dispatchOpt, dispatch, M.pure_def, M.pure, Run.ok.injEq, Prod.mk.injEq, Except.ok.injEq, Option.some.injEq] at h
      rw [h.2]
    | _ => exact absurd h key

theorem receive_handed {instant : Nat} {m : Option (Option (InMsg H))} {d d' : Driver σ ρ κ H}
    {r : Except PalErr (Option (List (OutMsg H)))} (h : receive S instant m d = .ok (d', r)) :
    ∃ new, d'.trace = d.trace ++ new ∧ ∀ x ∈ new.filterMap handed, m = some (some (.appMessage x)) := by
  have hbody : ∀ {m' : Option (InMsg H)} {d1 d2 : Driver σ ρ κ H} {r}, body S m' d1 = .ok (d2, r) →
      ∃ new, d2.trace = d1.trace ++ new ∧ ∀ x ∈ new.filterMap handed, m' = some (.appMessage x) := by
    intro m' d1 d2 r h
    have hd : ∀ c, Hands c (dispatchOpt S m') := by
      intro c
      cases m' with
      | none => exact (adds_pure (L := [])).hands (by decide) _
      | some m' => exact (adds_dispatch m').hands (by decide) _
    unfold body at h
    rcases M.bind_ok h with ⟨e, hm, _⟩ | ⟨d3, c, hm, hf⟩
    · obtain ⟨n1, t1, k1⟩ := (hd none).run _ _ _ hm
      exact ⟨n1, t1, fun x hx => absurd (k1 x hx) (by simp)⟩
    · obtain ⟨n1, t1, k1⟩ := (hd none).run _ _ _ hm
      obtain ⟨n2, t2, k2⟩ := (hands_rest c).run _ _ _ hf
      refine ⟨n1 ++ n2, by rw [t2, t1, List.append_assoc], fun x hx => ?_⟩
      rw [List.filterMap_append] at hx
      rcases List.mem_append.1 hx with hx | hx
      · exact absurd (k1 x hx) (by simp)
      · have := k2 x hx
        subst this
        exact dispatchOpt_command hm
  cases receive_outcome h with
  | unknown => exact ⟨[], by simp [presetState], by simp⟩
  | failed hm hb =>
    obtain ⟨new, ht, hn⟩ := hbody hb
    exact ⟨new, ht, fun x hx => by rw [hm, hn x hx]; rfl⟩
  | @done m' d2 c' outs hm hb ho =>
    obtain ⟨new, ht, hn⟩ := hbody hb
    refine ⟨new ++ _, by simp only [ht, List.append_assoc]; rfl, fun x hx => ?_⟩
    rw [List.filterMap_append] at hx
    rcases List.mem_append.1 hx with hx | hx
    · rw [hm, hn x hx]; rfl
    · obtain ⟨e, he, hx⟩ := List.mem_filterMap.1 hx
      obtain ⟨m, _, rfl⟩ := List.mem_map.1 he
      cases hx

end TCP.Drv

namespace TCP.ServiceSpec

open TCP TCP.Service TCP.ServiceProps TCP.Drv TCP.DrvSpec

variable {σ ρ κ H : Type} {S : Sys σ ρ κ H} {log : Nat → Entry} {founder : Nat} {fresh : σ → Prop} {cfg : Bytes}

theorem serving_ok {q : Req H} {d d' : Driver σ ρ κ H} {a : List (OutMsg H)} (h : serving S q d = .ok (d', a)) :
    ∃ out, receive S q.1 q.2 d = .ok (d', .ok out) ∧ a = out.getD [] := by
  unfold serving Replica.serve at h
  rw [Run.bind_eq_ok] at h
  obtain ⟨⟨d1, r⟩, hr, h⟩ := h
  dsimp only at h
  split at h
  · cases h
  · cases h; exact ⟨_, hr, rfl⟩

/-! ## One service -/

theorem sequential_runs {d0 d : Driver σ ρ κ H} {l : List (Nat × Req H × List (OutMsg H))} (h : Sequential (serving S) d0 l d) :
    ∃ outs, Runs S d0 outs d := by
  induction h with
  | nil => exact ⟨[], .nil⟩
  | snoc _ hs ih =>
    obtain ⟨outs, hr⟩ := ih
    obtain ⟨out, ho, _⟩ := serving_ok hs
    exact ⟨_, hr.snoc ho⟩

theorem sequential_handed {d0 d : Driver σ ρ κ H} (h0 : Fresh d0) {l : List (Nat × Req H × List (OutMsg H))} (h : Sequential (serving S) d0 l d)
    {c : ActorCommand} (hc : c ∈ d.trace.filterMap handed) : ∃ i t a, (i, (t, some (some (.appMessage c))), a) ∈ l := by
  induction h with
  | nil => obtain ⟨a, r, c, rfl⟩ := h0; simp [Driver.new] at hc
  | @snoc l d d' i q a _ hs ih =>
    obtain ⟨out, ho, _⟩ := serving_ok hs
    obtain ⟨new, ht, hn⟩ := receive_handed ho
    rw [ht, List.filterMap_append] at hc
    rcases List.mem_append.1 hc with hc | hc
    · obtain ⟨i, t, a, hm⟩ := ih hc
      exact ⟨i, t, a, List.mem_append_left _ hm⟩
    · have := hn c hc
      exact ⟨i, q.1, a, List.mem_append_right _ (by rw [← this]; exact List.mem_singleton_self _)⟩

theorem sequential_sent {d0 d : Driver σ ρ κ H} (h0 : Fresh d0) {l : List (Nat × Req H × List (OutMsg H))} (h : Sequential (serving S) d0 l d) :
    l.flatMap (fun x => x.2.2) ++ d.messages = outMessages d.trace := by
  induction h with
  | nil => obtain ⟨a, r, c, rfl⟩ := h0; rfl
  | @snoc l d d' i q a _ hs ih =>
    obtain ⟨out, ho, ha⟩ := serving_ok hs
    cases out with
    | some ms =>
      obtain ⟨new, ht, ho, hm⟩ := receive_sent ho
      rw [hm, ht, outMessages_append, ← ih, ha, Option.getD_some, ho]
      simp
    | none =>
      obtain ⟨new, ht, hm⟩ := receive_kept ho (by simp)
      rw [hm, ht, outMessages_append, ← ih, ha]
      simp

/-! ## All of them -/

theorem client_step {δ Q A : Type} {s s' : State δ Q A} (h : Client s s') : s'.driver = s.driver ∧ ∃ es, s'.history = s.history ++ es ∧ es.length ≤ 1 := by
  cases h with
  | call => exact ⟨rfl, _, rfl, by simp⟩
  | cancel => exact ⟨rfl, _, rfl, by simp⟩

theorem server_step {δ Q A : Type} {handle : Q → δ → Run (δ × A)} {s s' : State δ Q A} (h : Server handle s s') :
    (s'.driver = s.driver ∨ ∃ q a, handle q s.driver = .ok (s'.driver, a)) ∧ ∃ es, s'.history = s.history ++ es ∧ es.length ≤ 1 := by
  cases h with
  | send => exact ⟨.inl rfl, [], by simp [State.send], by simp⟩
  | unsent => exact ⟨.inl rfl, _, rfl, by simp⟩
  | receive => exact ⟨.inl rfl, [], by simp [State.receive], by simp⟩
  | unanswered => exact ⟨.inl rfl, _, rfl, by simp⟩
  | «return» => exact ⟨.inl rfl, _, rfl, by simp⟩
  | @work q i =>
    unfold State.work
    split
    · exact ⟨.inl rfl, [], by simp [State.die], by simp⟩
    · rename_i d' a hh
      split
      · exact ⟨.inr ⟨q, a, hh⟩, _, rfl, by simp⟩
      · exact ⟨.inr ⟨q, a, hh⟩, _, rfl, by simp⟩

/-- The part of the global history that concerns one service. -/
def part (h : List (Nat × Event (Req H) (List (OutMsg H)))) (p : Nat) : List (Event (Req H) (List (OutMsg H))) :=
  h.filterMap fun x => if x.1 = p then some x.2 else none

theorem part_append (h h' : List (Nat × Event (Req H) (List (OutMsg H)))) (p : Nat) : part (h ++ h') p = part h p ++ part h' p := List.filterMap_append

theorem part_map (es : List (Event (Req H) (List (OutMsg H)))) (p q : Nat) : part (es.map fun e => (p, e)) q = if q = p then es else [] := by
  induction es with
  | nil => simp [part]
  | cons e es ih =>
    simp only [part, List.map_cons, List.filterMap_cons] at ih ⊢
    by_cases hq : q = p
    · subst hq; simp_all
    · have : ¬ p = q := fun h => hq h.symm
      simp_all

theorem mem_part {h : List (Nat × Event (Req H) (List (OutMsg H)))} {p : Nat} {e} : e ∈ part h p ↔ (p, e) ∈ h := by
  constructor
  · intro hm
    obtain ⟨x, hx, he⟩ := List.mem_filterMap.1 hm
    split at he
    · rename_i hp
      cases he
      rw [← hp]
      exact hx
    · cases he
  · intro hm
    exact List.mem_filterMap.2 ⟨_, hm, by simp⟩

theorem place_driver (ss : Nat → Srv σ ρ κ H) (p : Nat) (s : Srv σ ρ κ H) : replicas (place ss p s) = update (replicas ss) p s.driver := by
  funext q
  simp only [replicas, place, update]
  split <;> rfl

theorem place_same {ss : Nat → Srv σ ρ κ H} {p : Nat} {s : Srv σ ρ κ H} (h : s.driver = (ss p).driver) : replicas (place ss p s) = replicas ss := by
  funext q
  simp only [replicas, place]
  split
  · rename_i hq; rw [h, hq]
  · rfl

theorem served_reachable {ss : Nat → Srv σ ρ κ H} {h} (hh : Served S log founder fresh cfg ss h) (p : Nat) :
    (∃ d0, Fresh d0 ∧ Reachable (serving S) d0 (ss p)) ∧ (ss p).history = part h p := by
  induction hh with
  | new h =>
    obtain ⟨a, r, c, _, hs⟩ := h p
    rw [hs]
    exact ⟨⟨_, ⟨a, r, c, rfl⟩, .new⟩, rfl⟩
  | @client ss h p' s es hh hs he ih =>
    simp only [place, part_append, part_map]
    by_cases hp : p = p'
    · subst hp
      rw [if_pos rfl, if_pos rfl]
      obtain ⟨⟨d0, h0, hr⟩, hi⟩ := ih
      exact ⟨⟨d0, h0, hr.client hs⟩, by rw [he, hi]⟩
    · rw [if_neg hp, if_neg hp, List.append_nil]
      exact ih
  | @server ss h p' s es hh hs he hc ih =>
    simp only [place, part_append, part_map]
    by_cases hp : p = p'
    · subst hp
      rw [if_pos rfl, if_pos rfl]
      obtain ⟨⟨d0, h0, hr⟩, hi⟩ := ih
      exact ⟨⟨d0, h0, hr.server hs⟩, by rw [he, hi]⟩
    · rw [if_neg hp, if_neg hp, List.append_nil]
      exact ih

/-- The replicas behind the services are a cluster. -/
theorem served_deployed {ss : Nat → Srv σ ρ κ H} {h} (hh : Served S log founder fresh cfg ss h) :
    Deployed S log founder fresh cfg (replicas ss) ∧ Causal S.E.decEntry log (replicas ss) := by
  induction hh with
  | @new ss h =>
    refine ⟨.init fun p => ?_, fun p i ev h2 hi _ => ?_⟩
    · obtain ⟨a, r, c, hf, hs⟩ := h p
      exact ⟨a, r, c, hf, by rw [replicas, hs]; rfl⟩
    · obtain ⟨a, r, c, hf, hs⟩ := h p
      rw [replicas, hs] at hi
      have : (Driver.new a r c : Driver σ ρ κ H).applied = 0 := rfl
      simp only [State.new, this] at hi
      omega
  | client _ hs _ ih => rw [place_same (client_step hs).1]; exact ih
  | @server ss h p s es _ hs _ hc ih =>
    rcases (server_step hs).1 with hd | ⟨q, a, hq⟩
    · rw [place_same hd]; exact ih
    · rcases hc with hd | hc
      · rw [place_same hd]; exact ih
      · rw [place_driver]
        obtain ⟨out, ho, _⟩ := serving_ok hq
        exact ⟨ih.1.call (p := p) ho hc.replicated hc.inOrder hc.first hc.snapshots hc.founded hc.configured, hc.causal⟩

/-- Replicas go on: nothing recorded is lost, and once started they keep their id. -/
def Onwards (d d' : Driver σ ρ κ H) : Prop := d.trace <+: d'.trace ∧ (d.state ≠ .created → d'.state ≠ .created ∧ d'.id = d.id)

theorem Onwards.refl (d : Driver σ ρ κ H) : Onwards d d := ⟨List.prefix_refl _, fun h => ⟨h, rfl⟩⟩

theorem Onwards.trans {a b c : Driver σ ρ κ H} (h : Onwards a b) (g : Onwards b c) : Onwards a c :=
  ⟨h.1.trans g.1, fun ha => ⟨(g.2 (h.2 ha).1).1, (g.2 (h.2 ha).1).2.trans (h.2 ha).2⟩⟩

theorem receive_onwards {instant : Nat} {m : Option (Option (InMsg H))} {d d' : Driver σ ρ κ H} {r}
    (h : receive S instant m d = .ok (d', r)) : Onwards d d' := by
  obtain ⟨new, ht, _⟩ := receive_handed h
  refine ⟨⟨new, ht.symm⟩, fun hs => ?_⟩
  cases receive_outcome h with
  | unknown => exact ⟨hs, rfl⟩
  | failed _ hb =>
    have hst := (reaches_body _ _).run _ _ hb
    exact ⟨hst.lifecycle.1 hs, (hst.sameId hs).id⟩
  | done _ hb _ =>
    have hst := (reaches_body _ _).run _ _ hb
    exact ⟨hst.lifecycle.1 hs, (hst.sameId hs).id⟩

/-- Every beginning of the history was the whole history at some moment. -/
theorem served_cut {ss : Nat → Srv σ ρ κ H} {h} (hh : Served S log founder fresh cfg ss h) {h1 h2} (he : h = h1 ++ h2) :
    ∃ ss1, Served S log founder fresh cfg ss1 h1 ∧ ∀ p, Onwards (replicas ss1 p) (replicas ss p) := by
  have step : ∀ {ss : Nat → Srv σ ρ κ H} {h : List (Nat × Event (Req H) (List (OutMsg H)))} {p : Nat} {s : Srv σ ρ κ H}
      {es : List (Event (Req H) (List (OutMsg H)))} {h1 h2}, es.length ≤ 1 → Onwards (ss p).driver s.driver → Served S log founder fresh cfg (place ss p s) (h ++ es.map fun e => (p, e)) →
      (∀ {h1 h2}, h = h1 ++ h2 → ∃ ss1, Served S log founder fresh cfg ss1 h1 ∧ ∀ p, Onwards (replicas ss1 p) (replicas ss p)) →
      h ++ es.map (fun e => (p, e)) = h1 ++ h2 →
      ∃ ss1, Served S log founder fresh cfg ss1 h1 ∧ ∀ q, Onwards (replicas ss1 q) (replicas (place ss p s) q) := by
    intro ss h p s es h1 h2 hl ho hsv ih he
    have hon : ∀ q, Onwards (replicas ss q) (replicas (place ss p s) q) := by
      intro q
      simp only [replicas, place]
      split
      · rename_i hq; rw [hq]; exact ho
      · exact .refl _
    by_cases h0 : h2 = []
    · subst h0
      rw [List.append_nil] at he
      exact ⟨_, he ▸ hsv, fun q => .refl _⟩
    · have hlt : h1.length ≤ h.length := by
        have := congrArg List.length he
        simp only [List.length_append, List.length_map] at this
        have := List.length_pos_iff.2 h0
        omega
      have hp1 : h1 <+: h ++ es.map fun e => (p, e) := by rw [he]; exact List.prefix_append _ _
      have hp : h1 <+: h := List.prefix_of_prefix_length_le hp1 (List.prefix_append _ _) hlt
      obtain ⟨t, ht⟩ := hp
      obtain ⟨ss1, k1, k2⟩ := ih ht.symm
      exact ⟨ss1, k1, fun q => (k2 q).trans (hon q)⟩
  induction hh generalizing h1 h2 with
  | new h =>
    obtain ⟨rfl, rfl⟩ := List.append_eq_nil_iff.1 he.symm
    exact ⟨_, .new h, fun p => .refl _⟩
  | @client ss h p s es hh hs hes ih =>
    obtain ⟨hd, es', he', hl⟩ := client_step hs
    have : es = es' := List.append_cancel_left (hes.symm.trans he')
    subst this
    exact step hl (by rw [hd]; exact .refl _) (.client hh hs hes) ih he
  | @server ss h p s es hh hs hes hc ih =>
    obtain ⟨hd, es', he', hl⟩ := server_step hs
    have : es = es' := List.append_cancel_left (hes.symm.trans he')
    subst this
    refine step hl ?_ (.server hh hs hes hc) ih he
    rcases hd with hd | ⟨q, a, hq⟩
    · rw [hd]; exact .refl _
    · obtain ⟨out, ho, _⟩ := serving_ok hq
      exact receive_onwards ho

/-- Commands come from calls of clients. -/
theorem served_handed {ss : Nat → Srv σ ρ κ H} {h} (hh : Served S log founder fresh cfg ss h) {p : Nat} {c : ActorCommand}
    (hc : c ∈ (replicas ss p).trace.filterMap handed) : Asked h p c := by
  obtain ⟨⟨d0, h0, hr⟩, hi⟩ := served_reachable hh p
  obtain ⟨i, t, a, hm⟩ := sequential_handed h0 (C72_serial hr) hc
  obtain ⟨e, he, hx⟩ := List.mem_filterMap.1 hm
  match e, hx with
  | .handled i q a, hx =>
    cases hx
    have := handled_invoked (reachable_inv hr).hist he
    rw [hi] at this
    exact ⟨i, t, mem_part.1 this⟩

/-- What clients are told is what the replica sent. -/
theorem served_told {ss : Nat → Srv σ ρ κ H} {h} (hh : Served S log founder fresh cfg ss h) {p : Nat} {r : ActorCommand}
    (hr : Told h p r) : r ∈ appMessages (outMessages (replicas ss p).trace) := by
  obtain ⟨i, a, hm, hra⟩ := hr
  obtain ⟨⟨d0, h0, hr⟩, hi⟩ := served_reachable hh p
  have hm' := mem_part.2 hm
  rw [← hi] at hm'
  obtain ⟨h1, h2, hs⟩ := List.append_of_mem hm'
  obtain ⟨q, x, y, z, hw⟩ := C72_within hr hs
  have hd : .handled i q a ∈ (ss p).history := by rw [hs, hw]; simp
  have hl : (i, q, a) ∈ (ss p).history.filterMap handled? := List.mem_filterMap.2 ⟨_, hd, rfl⟩
  rw [replicas, ← sequential_sent h0 (C72_serial hr), appMessages_append]
  refine List.mem_append_left _ ?_
  obtain ⟨u, hu, hru⟩ := List.mem_filterMap.1 hra
  exact List.mem_filterMap.2 ⟨u, List.mem_flatMap.2 ⟨_, hl, hu⟩, hru⟩

/-- A replica that was handed a command has been started. -/
theorem served_started {ss : Nat → Srv σ ρ κ H} {h} (hh : Served S log founder fresh cfg ss h) {p : Nat} {c : ActorCommand}
    (hc : c ∈ (replicas ss p).trace.filterMap handed) : (replicas ss p).state ≠ .created := by
  intro hs
  obtain ⟨⟨d0, h0, hr⟩, _⟩ := served_reachable hh p
  obtain ⟨outs, hru⟩ := sequential_runs (C72_serial hr)
  have := ((runs_created h0 hru).inv hs).1
  rw [replicas, this] at hc
  cases hc

end TCP.ServiceSpec
