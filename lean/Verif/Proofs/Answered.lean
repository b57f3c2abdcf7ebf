import Verif.Spec.Answered
import Verif.Proofs.DriverOwner
import Verif.Proofs.ServiceCluster

/-! # Commands and their answers -/

namespace TCP.Drv

open TCP TCP.ActorSpec TCP.DrvSpec

variable {σ ρ κ H : Type} {S : Sys σ ρ κ H} {ok : Bytes → Prop}

/-! ## Every interaction balances -/

/-- Own events the actor applied. -/
def ownApplied : Ev H → Option ActorEvent
  | .actor (.apply _ ec ev _) => if ec.owned then some ev else none
  | _ => none

/-- An interaction with the actor follows the contract. -/
def Balanced (k : Nat) (e : Ev H) : Prop :=
  (actorReplies e).countP (fun r => r.correlationId == k) + ((requested e).toList).countP (fun ev => ev.correlationId == k) =
    ((handed e).toList).countP (fun c => c.correlationId == k) + ((ownApplied e).toList).countP (fun ev => ev.correlationId == k)

theorem balanced_sum {k : Nat} {t : List (Ev H)} (h : ∀ e ∈ t, Balanced k e) :
    (t.flatMap actorReplies).countP (fun r => r.correlationId == k) + (t.filterMap requested).countP (fun ev => ev.correlationId == k) =
      (t.filterMap handed).countP (fun c => c.correlationId == k) + (t.filterMap ownApplied).countP (fun ev => ev.correlationId == k) := by
  induction t with
  | nil => rfl
  | cons e t ih =>
    have h1 := h e List.mem_cons_self
    have h2 := ih fun x hx => h x (List.mem_cons_of_mem _ hx)
    have fm : ∀ {β : Type} (f : Ev H → Option β) (p : β → Bool), ((e :: t).filterMap f).countP p = (f e).toList.countP p + (t.filterMap f).countP p := by
      intro β f p
      cases hf : f e <;> simp [hf, Nat.add_comm, List.countP_cons]
    rw [fm, fm, fm, List.flatMap_cons, List.countP_append]
    unfold Balanced at h1
    omega

theorem balanced_step (hr : Responds S.A ok) {k : Nat} {c : Call} {s1 s2 : σ} (hs : Step S.A s1 c s2) (hclean : Clean (.actor c : Ev H))
    (hok : ∀ ctx ec ev r, c = .apply ctx ec ev r → ok ev.contents) : Balanced k (.actor c : Ev H) := by
  cases hs with
  | @command ctx q _ res hs =>
    cases res with
    | error => exact absurd hclean (by simp [Clean])
    | ok o =>
      cases q with
      | none =>
        obtain rfl := hr.idle hs
        simp [Balanced, actorReplies, requested, handed, ownApplied]
      | some q =>
        rcases hr.command hs with ⟨r, rfl, h⟩ | ⟨ev, rfl, h, _⟩ <;>
          simp [Balanced, actorReplies, requested, handed, ownApplied, List.countP_cons, h]
  | @apply ctx ec ev _ res hs =>
    cases res with
    | error => exact absurd hclean (by simp [Clean])
    | ok o =>
      have hk := hok _ _ _ _ rfl
      cases hw : ec.owned with
      | true =>
        obtain ⟨r, h1, h2⟩ := hr.own hs hk hw
        simp [Balanced, actorReplies, requested, handed, ownApplied, List.countP_cons, h1, h2, hw]
      | false =>
        have h1 := hr.foreign hs hk hw
        simp [Balanced, actorReplies, requested, handed, ownApplied, h1, hw]
  | _ => simp [Balanced, actorReplies, requested, handed, ownApplied]

theorem runs_replies {d0 d : Driver σ ρ κ H} {outs} (h0 : Fresh d0) (h : Runs S d0 outs d) :
    appMessages (sent (outs.map .ok)) = d.trace.flatMap actorReplies := by
  rw [← show _ = _ from calls_replies h0 (runs_calls h), ← calls_sent h0 (runs_calls h), runs_messages h0 h, List.append_nil]

/-- Answers and requests on one side, commands and own events on the other. -/
theorem runs_balance (hr : Responds S.A ok) {d0 d : Driver σ ρ κ H} {outs} (h0 : Fresh d0) (h : Runs S d0 outs d) (he : d.ephemeral = false)
    (hok : ∀ i w ev, .apply i w ev ∈ observed d.trace → ok ev.contents) (k : Nat) :
    answersOf k (sent (outs.map .ok)) + (d.trace.filterMap requested).countP (fun ev => ev.correlationId == k) =
      commandsOf k d.trace + (d.trace.filterMap ownApplied).countP (fun ev => ev.correlationId == k) := by
  rw [answersOf, runs_replies h0 h, commandsOf]
  refine balanced_sum fun e hm => ?_
  have hclean := (runs_log h0 h).1.clean he e hm
  cases e with
  | actor c =>
    obtain ⟨s1, s2, hs⟩ := calls_mem h0 (runs_calls h) hm
    refine balanced_step hr hs hclean fun ctx ec ev r hc => ?_
    subst hc
    exact hok ec.index ec.owned ev (List.mem_filterMap.2 ⟨_, hm, rfl⟩)
  | _ => simp [Balanced, actorReplies, requested, handed, ownApplied]

/-! ## Own events are own entries -/

/-- An own event with this id. -/
def ownObs (k : Nat) : Obs → Bool
  | .apply _ w ev => w && ev.correlationId == k
  | .load _ => false

theorem ownApplied_observed (k : Nat) (t : List (Ev H)) :
    (t.filterMap ownApplied).countP (fun ev => ev.correlationId == k) = (observed t).countP (ownObs k) := by
  induction t with
  | nil => rfl
  | cons e t ih =>
    have fm : ∀ {β : Type} (f : Ev H → Option β) (p : β → Bool), ((e :: t).filterMap f).countP p = (f e).toList.countP p + (t.filterMap f).countP p := by
      intro β f p
      cases hf : f e <;> simp [hf, Nat.add_comm, List.countP_cons]
    rw [observed] at ih ⊢
    rw [fm, fm, ih]
    congr 1
    cases e with
    | actor c =>
      cases c with
      | apply ctx ec ev r => cases hw : ec.owned <;> simp [ownApplied, observation, hw, List.countP_cons, ownObs]
      | load => rfl
      | _ => rfl
    | _ => rfl

/-- An own entry with this id. -/
def ownEntryOf (dec : Bytes → Option LogEntry) (id k : Nat) (e : Entry) : Bool := ownEntry dec id e && carries dec id k e.data

theorem payload_own {dec : Bytes → Option LogEntry} {id k : Nat} {e : Entry} {ps : List Obs} (h : payload dec id e = some ps) :
    ps.countP (ownObs k) = [e].countP (ownEntryOf dec id k) := by
  unfold payload at h
  by_cases h1 : e.data = []
  · rw [if_pos h1] at h; cases h; simp [ownEntryOf, ownEntry, h1]
  · rw [if_neg h1] at h
    by_cases h2 : e.type = .confChange
    · rw [if_pos h2] at h; cases h; simp [ownEntryOf, ownEntry, h2]
    · rw [if_neg h2] at h
      rcases h3 : dec e.data with _ | ⟨_ | ⟨r, c⟩, contents⟩ <;> rw [h3] at h <;> cases h
      by_cases hr : r = id <;> simp [ownEntryOf, ownEntry, carries, h1, h2, h3, hr, ownObs, List.countP_cons]

theorem payloads_own {dec : Bytes → Option LogEntry} {id k : Nat} {es : List Entry} {ps : List Obs} (h : payloads dec id es = some ps) :
    ps.countP (ownObs k) = es.countP (ownEntryOf dec id k) := by
  induction es generalizing ps with
  | nil => cases h; rfl
  | cons e es ih =>
    unfold payloads at h
    rcases h1 : payload dec id e with _ | a <;> rw [h1] at h
    · cases h
    rcases h2 : payloads dec id es with _ | b <;> rw [h2] at h
    · cases h
    cases h
    rw [List.countP_append, payload_own h1, ih h2, show e :: es = [e] ++ es from rfl, List.countP_append]

theorem feed_own {dec : Bytes → Option LogEntry} {id k : Nat} {t : List (Ev H)} {x y : List Obs × Nat} (h : Trail (Feed dec id) t x y) :
    y.1.countP (ownObs k) = x.1.countP (ownObs k) + (t.flatMap delivered).countP (ownEntryOf dec id k) := by
  induction t generalizing x with
  | nil => cases h; rfl
  | cons e t ih =>
    obtain ⟨z, h1, h2⟩ := h
    rw [ih h2, List.flatMap_cons, List.countP_append, ← Nat.add_assoc]
    congr 1
    cases e with
    | ready r =>
      obtain ⟨es, ps, hi, hp, rfl⟩ := h1
      have hl : (loads r.snapshot).countP (ownObs k) = 0 := by unfold loads; split <;> rfl
      simp only [List.countP_append, hl, payloads_own hp, hi.1.countP_eq, delivered, Nat.add_zero]
    | light l =>
      obtain ⟨es, ps, hi, hp, rfl⟩ := h1
      simp only [List.countP_append, payloads_own hp, hi.1.countP_eq, delivered]
    | raftInit _ _ l r =>
      cases l <;> cases r <;> (have h1 : z = _ := h1; subst h1; rfl)
    | _ => have h1 : z = _ := h1; subst h1; rfl

theorem runs_own {d0 d : Driver σ ρ κ H} {outs} (h0 : Fresh d0) (h : Runs S d0 outs d) (he : d.ephemeral = false) (k : Nat) :
    (d.trace.filterMap ownApplied).countP (fun ev => ev.correlationId == k) =
      (ownDelivered S.E.decEntry d.id d.trace).countP (carries S.E.decEntry d.id k) := by
  rw [ownApplied_observed, feed_own ((runs_log h0 h).1.feed he), ownDelivered, List.countP_map, List.countP_filter]
  simp only [List.countP_nil, Nat.zero_add]
  congr 1
  funext e
  simp [ownEntryOf, Bool.and_comm]

/-! ## Requests are proposals -/

theorem runs_requests (hc : ∀ x, S.E.decEntry (S.E.encEntry x) = some x) {d0 d : Driver σ ρ κ H} {outs} (h0 : Fresh d0) (h : Runs S d0 outs d)
    (he : d.ephemeral = false) (k : Nat) :
    (d.trace.filterMap proposal).countP (carries S.E.decEntry d.id k) = (d.trace.filterMap requested).countP fun ev => ev.correlationId == k := by
  rw [← ((runs_log h0 h).1.proposals he).1, List.countP_map]
  congr 1
  funext ev
  simp [carries, encode, hc]

theorem runs_ok {d0 d : Driver σ ρ κ H} {outs} (h0 : Fresh d0) (h : Runs S d0 outs d) (he : d.ephemeral = false)
    (hok : ∀ e ∈ d.trace.flatMap delivered, ∀ x contents, S.E.decEntry e.data = some ⟨some x, contents⟩ → ok contents) :
    ∀ i w ev, .apply i w ev ∈ observed d.trace → ok ev.contents := by
  intro i w ev ho
  obtain ⟨e, hm, _, _, _, r, hd, _⟩ := runs_stems h0 h he _ ho
  exact hok e hm _ _ hd

/-! ## An entry that was skipped -/

theorem runs_append {d0 d1 d2 : Driver σ ρ κ H} {o1 o2} (h1 : Runs S d0 o1 d1) (h2 : Runs S d1 o2 d2) : Runs S d0 (o1 ++ o2) d2 := by
  induction h2 with
  | nil => rwa [List.append_nil]
  | snoc _ hs ih => rw [← List.append_assoc]; exact ih.snoc hs

theorem receive_keeps {instant : Nat} {m : Option (Option (InMsg H))} {d d' : Driver σ ρ κ H} {r} (hs : d.state ≠ .created)
    (h : receive S instant m d = .ok (d', r)) : d'.state ≠ .created ∧ d'.ephemeral = d.ephemeral := by
  obtain ⟨d2, hst, hd⟩ := receive_star h
  have h1 := hst.lifecycle.1 hs
  have h2 := (hst.sameId hs).ephemeral
  rcases hd with rfl | ⟨_, _, _, _, rfl⟩
  · exact ⟨h1, h2⟩
  · exact ⟨h1, h2⟩

theorem runs_moves {d1 d2 : Driver σ ρ κ H} {outs} (hs : d1.state ≠ .created) (he : d1.ephemeral = false) (h : Runs S d1 outs d2) :
    d2.state ≠ .created ∧ d2.ephemeral = false ∧ Moves S d1 d2 := by
  induction h with
  | nil => exact ⟨hs, he, .refl _⟩
  | snoc _ hr ih =>
    obtain ⟨i1, i2, i3⟩ := ih
    obtain ⟨k1, k2⟩ := receive_keeps i1 hr
    exact ⟨k1, k2.trans i2, i3.trans (moves_receive i1 i2 hr)⟩

theorem advance_above {dec : Bytes → Option LogEntry} {id : Nat} {log : Nat → Entry} (hl : ∀ i, (log i).index = i) {t : List (Ev H)}
    {o : List Obs} {a b a0 : Nat} {x : List Obs × Nat} {y : Nat × Nat} (hf : Trail (Feed dec id) t (o, a) x) (hg : Trail (Advances log) t (b, a) y)
    (ha : a0 ≤ a) : ∃ p, x.1 = o ++ p ∧ ∀ i ∈ applyIndices p, a0 < i := by
  induction t generalizing o a b with
  | nil => cases hf; exact ⟨[], by simp, by simp [applyIndices]⟩
  | cons e t ih =>
    obtain ⟨⟨o1, a1⟩, f1, f2⟩ := hf
    obtain ⟨⟨b1, c1⟩, g1, g2⟩ := hg
    have seg : ∀ {a k : Nat} {ps : List Obs}, a0 ≤ a → payloads dec id (segment log a k) = some ps → ∀ i ∈ applyIndices ps, a0 < i := by
      intro a k ps ha hp i hi
      have := (segment_indices hl hp).2 i hi
      omega
    have key : a1 = c1 ∧ a0 ≤ a1 ∧ ∃ p, o1 = o ++ p ∧ ∀ i ∈ applyIndices p, a0 < i := by
      obtain ⟨hg, hle⟩ := g1
      cases e with
      | ready r =>
        obtain ⟨es, ps, hi, hp, hx⟩ := f1
        obtain ⟨k, hk, hy⟩ := hg
        obtain rfl := inOrder_segment hl hi hk
        simp only [Prod.mk.injEq] at hx hy
        have hle : a ≤ loadIndex r.snapshot a := hle
        refine ⟨by rw [hx.2, hy.2, lastIndex_segment hl], by rw [hx.2, lastIndex_segment hl]; omega, loads r.snapshot ++ ps, by rw [hx.1, List.append_assoc], ?_⟩
        rw [applyIndices_append, loads_indices, List.nil_append]
        exact seg (Nat.le_trans ha hle) hp
      | light l =>
        obtain ⟨es, ps, hi, hp, hx⟩ := f1
        obtain ⟨k, hk, hy⟩ := hg
        obtain rfl := inOrder_segment hl hi hk
        simp only [Prod.mk.injEq] at hx hy
        exact ⟨by rw [hx.2, hy.2, lastIndex_segment hl], by rw [hx.2, lastIndex_segment hl]; omega, ps, hx.1, seg ha hp⟩
      | raftInit id b l r =>
        have hle : a ≤ c1 := hle
        cases l <;> cases r <;> (
          have hf : (o1, a1) = _ := f1; have hg : (b1, c1) = _ := hg
          simp only [Prod.mk.injEq] at hf hg
          exact ⟨by omega, by omega, [], by simp [hf.1], by simp [applyIndices]⟩)
      | _ =>
        have hf : (o1, a1) = _ := f1; have hg : (b1, c1) = _ := hg
        simp only [Prod.mk.injEq] at hf hg
        exact ⟨by omega, by omega, [], by simp [hf.1], by simp [applyIndices]⟩
    obtain ⟨rfl, h2, p1, rfl, h4⟩ := key
    obtain ⟨p2, h5, h6⟩ := ih f2 g2 h2
    refine ⟨p1 ++ p2, by rw [h5, List.append_assoc], fun i hi => ?_⟩
    rw [applyIndices_append] at hi
    exact (List.mem_append.1 hi).elim (h4 i) (h6 i)

/-- After the log moved past an index, nothing at or below it is applied any more. -/
theorem runs_past {log : Nat → Entry} (hl : ∀ i, (log i).index = i) {d0 d1 d2 : Driver σ ρ κ H} {o1 o2} (h0 : Fresh d0) (h1 : Runs S d0 o1 d1)
    (hs : d1.state ≠ .created) (he : d1.ephemeral = false) (h2 : Runs S d1 o2 d2) {y : Nat × Nat} (hg : Trail (Advances log) d2.trace (0, 0) y) :
    d2.id = d1.id ∧ d2.ephemeral = false ∧ ∃ p, observed d2.trace = observed d1.trace ++ p ∧ ∀ i ∈ applyIndices p, d1.applied < i := by
  obtain ⟨_, he2, hid, new, ht, hf, _, _⟩ := runs_moves hs he h2
  rw [ht] at hg
  obtain ⟨⟨b, a⟩, g1, g2⟩ := trail_append.1 hg
  obtain ⟨rfl, _⟩ := runs_position hl h0 h1 he (advances_follows g1)
  obtain ⟨p, hp, hi⟩ := advance_above hl (hf (observed d1.trace)) g2 (Nat.le_refl _)
  exact ⟨hid, he2, p, by rw [ht, observed_append]; exact hp, hi⟩

/-! ## One call -/

theorem outs_handed (cs : List ActorCommand) : (cs.map fun c => (Ev.out (.appMessage c) : Ev H)).filterMap handed = [] := by
  induction cs with
  | nil => rfl
  | cons c cs ih => simpa [handed] using ih

/-- What a started replica does with what is left to the actor. -/
theorem runActor_shape {c : Option ActorCommand} {d d' : Driver σ ρ κ H} (hs : d.state = .started) (h : runActor S c d = .ok (d', .ok ())) :
    ∃ o s1 mid, S.A.onProcessCommand d.ctx d.actor c = .ok (s1, .ok o) ∧ d'.trace = d.trace ++ (.actor (.command d.ctx c (.ok o)) :: mid) ∧
      mid.filterMap handed = [] ∧ d'.ephemeral = d.ephemeral ∧
      (d.ephemeral = true → match o.event with
        | none => mid.flatMap actorReplies = []
        | some ev => ∃ ctx s2 s3 o2, S.A.onApplyEvent ctx s2 ⟨0, true⟩ ev = .ok (s3, .ok o2) ∧ mid.flatMap actorReplies = o2.commands) := by
  unfold runActor at h
  have h := neutral_get h
  rw [if_pos hs] at h
  obtain ⟨d1, _, h1, g1⟩ := M.bind_okOk h
  have last : d'.trace = d1.trace ++ [.commTick] ∧ d'.ephemeral = d1.ephemeral := by
    unfold changeComm at g1
    rw [modify_ok g1]; exact ⟨rfl, rfl⟩
  unfold processAppMessage at h1
  obtain ⟨d2, _, h2, g2⟩ := M.bind_okOk h1
  have e2 := (checkState_ok h2).1
  obtain ⟨d3, res, h3, g3⟩ := M.bind_okOk g2
  obtain ⟨s1, hp, e3⟩ := callActor_ok h3
  obtain ⟨d4, o, h4, g4⟩ := M.bind_okOk g3
  obtain ⟨e4, r4⟩ := orFail_ok h4
  obtain ⟨d5, _, h5, g5⟩ := M.bind_okOk g4
  rw [stashCommands_run] at h5
  simp only [Run.ok.injEq, Prod.mk.injEq, and_true] at h5
  subst r4
  rw [e2] at hp
  have base : d5.ephemeral = d.ephemeral ∧
      d5.trace = d.trace ++ (.actor (.command d.ctx c (.ok o)) :: o.commands.map fun c => .out (.appMessage c)) := by
    rw [← h5, e4, e3, e2]
    exact ⟨rfl, by simp⟩
  obtain ⟨b1, b2⟩ := base
  cases hev : o.event with
  | none =>
    rw [hev] at g5
    simp only [M.pure_def, M.pure, Run.ok.injEq, Prod.mk.injEq, and_true] at g5
    refine ⟨o, s1, o.commands.map (fun c => .out (.appMessage c)) ++ [.commTick], hp, ?_, ?_, ?_, fun _ => ?_⟩
    · rw [last.1, ← g5, b2]; simp
    · rw [List.filterMap_append, outs_handed]; rfl
    · rw [last.2, ← g5, b1]
    · rw [hev]
      show List.flatMap _ _ = []
      rw [List.flatMap_append, replied_stash_none]; rfl
  | some ev =>
    rw [hev] at g5
    have g5 := neutral_get g5
    cases he : d.ephemeral with
    | false =>
      rw [b1, he, if_neg (by simp)] at g5
      have e6 := modify_ok g5
      refine ⟨o, s1, o.commands.map (fun c => .out (.appMessage c)) ++ [.commTick], hp, ?_, ?_, ?_, fun h => ?_⟩
      · rw [last.1, e6, b2]; simp
      · rw [List.filterMap_append, outs_handed]; rfl
      · rw [last.2, e6, b1, he]
      · cases h
    | true =>
      rw [b1, he, if_pos rfl] at g5
      obtain ⟨d6, res2, h6, g6⟩ := M.bind_okOk g5
      obtain ⟨s3, hp2, e6⟩ := callActor_ok h6
      obtain ⟨d7, o2, h7, g7⟩ := M.bind_okOk g6
      obtain ⟨e7, r7⟩ := orFail_ok h7
      rw [stashCommands_run] at g7
      simp only [Run.ok.injEq, Prod.mk.injEq, and_true] at g7
      subst r7
      refine ⟨o, s1, o.commands.map (fun c => .out (.appMessage c)) ++ (.actor (.apply d5.ctx ⟨0, true⟩ ev (.ok o2)) ::
        (o2.commands.map (fun c => .out (.appMessage c)) ++ [.commTick])), hp, ?_, ?_, ?_, fun _ => ?_⟩
      · rw [last.1, ← g7, e7, e6]; simp [b2]
      · rw [List.filterMap_append, outs_handed, List.filterMap_cons, List.filterMap_append, outs_handed]; rfl
      · rw [last.2, ← g7, e7, e6, ← he, ← b1]
      · rw [hev]
        refine ⟨d5.ctx, d5.actor, s3, o2, hp2, ?_⟩
        rw [List.flatMap_append, replied_stash_none, List.flatMap_cons, List.flatMap_append, replied_stash_none]
        simp [actorReplies]

/-- A started replica hands the command of an application message to the actor, and of any other message none. -/
theorem receive_hands {instant : Nat} {c : ActorCommand} {d d' : Driver σ ρ κ H} {out} (hs : d.state = .started)
    (h : receive S instant (some (some (.appMessage c))) d = .ok (d', .ok out)) :
    ∃ new, d'.trace = d.trace ++ new ∧ new.filterMap handed = [c] := by
  cases receive_outcome h with
  | unknown hm => cases hm
  | @done m' d2 c' outs hm hb ho =>
    cases m' with
    | none => cases hm
    | some m' =>
      simp only [Option.map_some, Option.some.injEq] at hm
      subst hm
      unfold body at hb
      obtain ⟨d1, c1, h1, hb⟩ := M.bind_okOk hb
      simp only [dispatchOpt, dispatch, M.pure_def, M.pure, Run.ok.injEq, Prod.mk.injEq, Except.ok.injEq] at h1
      obtain ⟨rfl, rfl⟩ := h1
      obtain ⟨d3, _, h3, hb⟩ := M.bind_okOk hb
      obtain ⟨o, s1, mid, _, ht, hh, _⟩ := runActor_shape (d := presetState S instant d) hs h3
      obtain ⟨n2, t2, k2⟩ := (adds_runRaft.hands (by decide) none).run _ _ _ hb
      have z2 : n2.filterMap handed = [] := List.eq_nil_iff_forall_not_mem.2 fun x hx => by cases k2 x hx
      have z3 : (outs.map fun m => (Ev.out (.comm m) : Ev H)).filterMap handed = [] := by
        clear ho h
        induction outs with
        | nil => rfl
        | cons o outs ih => simpa [handed] using ih
      refine ⟨.actor (.command (presetState S instant d).ctx (some c) (.ok o)) :: mid ++ n2 ++ outs.map (fun m => .out (.comm m)), ?_, ?_⟩
      · show d2.trace ++ _ = _
        rw [t2, ht]
        rw [show (presetState S instant d).trace = d.trace from rfl]
        simp
      · rw [List.filterMap_append, List.filterMap_append, List.filterMap_cons, hh, z2, z3]
        simp [handed]

/-- A started replica without replication answers in the same call. -/
theorem receive_answers (hr : Responds S.A ok) {d0 d d' : Driver σ ρ κ H} {outs} (h0 : Fresh d0) (hruns : Runs S d0 outs d) (hs : d.state = .started)
    (he : d.ephemeral = true) {instant : Nat} {c : ActorCommand} {out}
    (h : receive S instant (some (some (.appMessage c))) d = .ok (d', .ok out)) :
    ∃ ms r, out = some ms ∧ appMessages ms = [r] ∧ r.correlationId = c.correlationId := by
  have hr1 := runs_replies h0 hruns
  have hr2 := runs_replies h0 (hruns.snoc h)
  cases receive_outcome h with
  | unknown hm => cases hm
  | @done m' d2 c' outs2 hm hb ho =>
    cases m' with
    | none => cases hm
    | some m' =>
      simp only [Option.map_some, Option.some.injEq] at hm
      subst hm
      unfold body at hb
      obtain ⟨d1, c1, h1, hb⟩ := M.bind_okOk hb
      simp only [dispatchOpt, dispatch, M.pure_def, M.pure, Run.ok.injEq, Prod.mk.injEq, Except.ok.injEq] at h1
      obtain ⟨rfl, rfl⟩ := h1
      obtain ⟨d3, _, h3, hb⟩ := M.bind_okOk hb
      obtain ⟨o, s1, mid, hp, ht, _, he3, hmid⟩ := runActor_shape (d := presetState S instant d) hs h3
      have hmid := hmid he
      unfold runRaft at hb
      have hb := neutral_get hb
      rw [he3, if_pos (show (presetState S instant d).ephemeral = true from he)] at hb
      simp only [M.pure_def, M.pure, Run.ok.injEq, Prod.mk.injEq, and_true] at hb
      subst hb
      have z3 : (outs2.map fun m => (Ev.out (.comm m) : Ev H)).flatMap actorReplies = [] := by
        clear ho h hr2
        induction outs2 with
        | nil => rfl
        | cons o outs ih => simpa [actorReplies] using ih
      simp only [List.map_append, List.map_cons, List.map_nil, sent, List.flatMap_append, List.flatMap_cons, List.flatMap_nil, List.append_nil,
        appMessages_append, ht, z3] at hr1 hr2
      rw [hr1] at hr2
      have hr2 := List.append_cancel_left hr2
      have key : ∃ r, appMessages (d3.messages ++ outs2.map OutMsg.comm) = [r] ∧ r.correlationId = c.correlationId := by
        rcases hr.command hp with ⟨r, rfl, hc⟩ | ⟨ev, rfl, hc, hk⟩
        · refine ⟨r, ?_, hc⟩
          simp only at hmid
          rw [appMessages_append, hr2, hmid]
          rfl
        · obtain ⟨ctx, s2, s3, o2, ha, hmid⟩ := hmid
          obtain ⟨r, hr3, hc'⟩ := hr.own ha hk rfl
          refine ⟨r, ?_, hc'.trans hc⟩
          rw [appMessages_append, hr2, hmid, hr3]
          rfl
      obtain ⟨r, k1, k2⟩ := key
      exact ⟨_, r, rfl, k1, k2⟩

end TCP.Drv
