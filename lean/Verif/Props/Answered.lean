import Verif.Proofs.Answered
import Verif.Props.DriverLogExample
import Verif.Props.Survive

/-!
# C97: every client command is answered exactly once

Correlation ids are the clients' business: the statements count, per id, commands and answers.
-/

namespace TCP.DrvProps

open TCP TCP.Drv TCP.DrvSpec TCP.DrvExample TCP.ActorSpec

variable {σ ρ κ H : Type} {S : Sys σ ρ κ H} {ok : Bytes → Prop}

/-- A started replica hands the command of an application message to its application, once, in the call that delivers the message. -/
theorem C97_handed {instant : Nat} {c : ActorCommand} {d d' : Driver σ ρ κ H} {out} (hs : d.state = .started)
    (h : receive S instant (some (some (.appMessage c))) d = .ok (d', .ok out)) :
    ∃ new, d'.trace = d.trace ++ new ∧ new.filterMap handed = [c] := receive_hands hs h

/-- If consensus hands a replica's own proposals back at most once each (`rest` are those it did not hand back, or not yet), then at any time,
for every correlation id, the answers the replica sent are the commands it was given, less those whose proposal is still in `rest`. -/
theorem C97_outstanding_partial (hr : Responds S.A ok) (hc : ∀ x, S.E.decEntry (S.E.encEntry x) = some x) {d0 d : Driver σ ρ κ H} {outs}
    (h0 : Fresh d0) (h : Runs S d0 outs d) (he : d.ephemeral = false)
    (hok : ∀ e ∈ d.trace.flatMap delivered, ∀ x contents, S.E.decEntry e.data = some ⟨some x, contents⟩ → ok contents)
    {rest : List Bytes} (hcons : (ownDelivered S.E.decEntry d.id d.trace ++ rest).Perm (d.trace.filterMap proposal)) (k : Nat) :
    answersOf k (sent (outs.map .ok)) + rest.countP (carries S.E.decEntry d.id k) = commandsOf k d.trace := by
  have hb := runs_balance hr h0 h he (runs_ok h0 h he hok) k
  rw [runs_own h0 h he, ← runs_requests hc h0 h he, ← hcons.countP_eq, List.countP_append] at hb
  omega

/-- If every proposal came back, every command was answered once. -/
theorem C97_once_partial (hr : Responds S.A ok) (hc : ∀ x, S.E.decEntry (S.E.encEntry x) = some x) {d0 d : Driver σ ρ κ H} {outs}
    (h0 : Fresh d0) (h : Runs S d0 outs d) (he : d.ephemeral = false)
    (hok : ∀ e ∈ d.trace.flatMap delivered, ∀ x contents, S.E.decEntry e.data = some ⟨some x, contents⟩ → ok contents)
    (hcons : (ownDelivered S.E.decEntry d.id d.trace).Perm (d.trace.filterMap proposal)) (k : Nat) :
    answersOf k (sent (outs.map .ok)) = commandsOf k d.trace := by
  have := C97_outstanding_partial hr hc h0 h he hok (rest := []) (by rwa [List.append_nil]) k
  simpa using this

/-- Without replication the answer is among the messages the same call returns, and it is the only one. -/
theorem C97_ephemeral (hr : Responds S.A ok) {d0 d d' : Driver σ ρ κ H} {outs} (h0 : Fresh d0) (hruns : Runs S d0 outs d) (hs : d.state = .started)
    (he : d.ephemeral = true) {instant : Nat} {c : ActorCommand} {out}
    (h : receive S instant (some (some (.appMessage c))) d = .ok (d', .ok out)) :
    ∃ ms r, out = some ms ∧ appMessages ms = [r] ∧ r.correlationId = c.correlationId := receive_answers hr h0 hruns hs he h

/-- The counter meets the contract for all events. -/
theorem C97_counter (ms : Counter.Msgs) : Responds (Counter.actor ms) fun _ => True where
  command {ctx s c s' o} h := by
    simp only [Counter.actor, Counter.onProcessCommand] at h
    split at h
    · cases h; exact .inl ⟨_, rfl, rfl⟩
    · cases h; exact .inl ⟨_, rfl, rfl⟩
    · generalize (if (!ctx.leader) = true then Counter.Status.rejected else _) = st at h
      by_cases hst : st = .success
      · rw [if_pos hst] at h; cases h; exact .inr ⟨_, rfl, rfl, trivial⟩
      · rw [if_neg hst] at h; cases h; exact .inl ⟨_, rfl, rfl⟩
  idle h := by cases h; rfl
  own {ctx s ec ev s' o} h _ hw := by
    simp only [Counter.actor, Counter.onApplyEvent] at h
    split at h
    · cases h
    · obtain ⟨cas, _, h⟩ := Run.bind_eq_ok.1 h
      simp only [hw, if_true] at h
      cases h; exact ⟨_, rfl, rfl⟩
  foreign {ctx s ec ev s' o} h _ hw := by
    simp only [Counter.actor, Counter.onApplyEvent] at h
    split at h
    · cases h
    · obtain ⟨cas, _, h⟩ := Run.bind_eq_ok.1 h
      simp only [hw] at h
      cases h; rfl

/-- The tablet store meets the contract for all events. -/
theorem C97_tablets (env : TabletStore.Env) : Responds (TabletStore.actor env) fun _ => True where
  command {ctx s c s' o} h := by
    simp only [TabletStore.actor, TabletStore.onProcessCommand] at h
    split at h
    · cases h; exact .inl ⟨_, rfl, rfl⟩
    · split at h
      · split at h
        · cases h; exact .inr ⟨_, rfl, rfl, trivial⟩
        · cases h; exact .inl ⟨_, rfl, rfl⟩
      · cases h; exact .inl ⟨_, rfl, rfl⟩
  idle h := by cases h; rfl
  own {ctx s ec ev s' o} h _ hw := by
    simp only [TabletStore.actor, TabletStore.onApplyEvent] at h
    split at h
    · cases h
    · obtain ⟨r, _, h⟩ := Run.bind_eq_ok.1 h
      simp only [hw, if_true] at h
      cases h; exact ⟨_, rfl, rfl⟩
  foreign {ctx s ec ev s' o} h _ hw := by
    simp only [TabletStore.actor, TabletStore.onApplyEvent] at h
    split at h
    · cases h
    · obtain ⟨r, _, h⟩ := Run.bind_eq_ok.1 h
      simp only [hw] at h
      cases h; rfl

/-- The decryptor meets it for the events it produces: an event without content would be answered by every replica. -/
theorem C97_decryptor (env : Willow.Env) (hev : ∀ e, env.decEv (env.encEv e) = some e) :
    Responds (Willow.actor env) fun b => env.decEv b ≠ some .empty where
  command {ctx s c s' o} h := by
    simp only [Willow.actor, Willow.onProcessCommand] at h
    split at h
    · cases h
    · split at h
      · cases h; exact .inl ⟨_, rfl, rfl⟩
      · split at h
        · simp only [Willow.generateCommand] at h
          split at h
          · cases h; exact .inl ⟨_, rfl, rfl⟩
          · cases h; exact .inr ⟨_, rfl, rfl, by rw [hev]; simp⟩
        · obtain ⟨⟨s2, o2⟩, h1, h⟩ := Run.bind_eq_ok.1 h
          cases h
          simp only [Willow.decryptCommand] at h1
          split at h1
          · cases h1; exact .inl ⟨_, rfl, rfl⟩
          · split at h1
            · cases h1
            · cases h1; exact .inr ⟨_, rfl, rfl, by rw [hev]; simp⟩
        · cases h; exact .inl ⟨_, rfl, rfl⟩
  idle h := by cases h; rfl
  own {ctx s ec ev s' o} h hk hw := by
    simp only [Willow.actor, Willow.onApplyEvent, hw, if_true] at h
    split at h
    · cases h
    · cases h; exact ⟨_, rfl, rfl⟩
    · cases h; exact ⟨_, rfl, rfl⟩
    · rename_i hd; exact absurd hd hk
  foreign {ctx s ec ev s' o} h hk hw := by
    simp only [Willow.actor, Willow.onApplyEvent, hw] at h
    split at h
    · cases h
    · cases h; rfl
    · cases h; rfl
    · rename_i hd; exact absurd hd hk

/-- An entry the log moved past without applying it, because a snapshot covers it, is never answered: however the replica goes on, the client
that sent the one command with this id gets nothing, although its command is committed. -/
theorem C97_skipped_fails (hr : Responds S.A ok) (hc : ∀ x, S.E.decEntry (S.E.encEntry x) = some x) {log : Nat → Entry}
    (hl : ∀ i, (log i).index = i) {d0 d1 d2 : Driver σ ρ κ H} {outs1 outs2} (h0 : Fresh d0) (h1 : Runs S d0 outs1 d1)
    (hs : d1.state ≠ .created) (he : d1.ephemeral = false) (h2 : Runs S d1 outs2 d2) {y : Nat × Nat} (hg : Trail (Advances log) d2.trace (0, 0) y)
    (hok : ∀ e ∈ d2.trace.flatMap delivered, ∀ x contents, S.E.decEntry e.data = some ⟨some x, contents⟩ → ok contents)
    {i k : Nat} (hk : carries S.E.decEntry d1.id k (log i).data = true) (honly : ∀ j, carries S.E.decEntry d1.id k (log j).data = true → j = i)
    (hprop : .propose (log i).data ∈ d1.trace) (hcmd : commandsOf k d2.trace = 1)
    (hskip : i ≤ d1.applied) (hno : i ∉ applyIndices (observed d1.trace)) :
    answersOf k (sent ((outs1 ++ outs2).map .ok)) = 0 := by
  obtain ⟨hid, he2, p, hobs, hp⟩ := runs_past hl h0 h1 hs he h2 hg
  have hruns := runs_append h1 h2
  have hb := runs_balance hr h0 hruns he2 (runs_ok h0 hruns he2 hok) k
  have hz : (d2.trace.filterMap ownApplied).countP (fun ev => ev.correlationId == k) = 0 := by
    rw [ownApplied_observed, List.countP_eq_zero]
    intro o ho hw
    cases o with
    | load => cases hw
    | apply j w ev =>
      simp only [ownObs, Bool.and_eq_true, beq_iff_eq] at hw
      obtain ⟨rfl, hcorr⟩ := hw
      obtain ⟨r, hdec, hid'⟩ := runs_stems_log hl h0 hruns he2 (advances_follows hg) ho
      have hr' := of_decide_eq_true hid'.symm
      have hj := honly j (by simp [carries, hdec, hcorr, hr', hid])
      subst hj
      have hm : j ∈ applyIndices (observed d2.trace) := List.mem_filterMap.2 ⟨_, ho, rfl⟩
      rw [hobs, applyIndices_append] at hm
      rcases List.mem_append.1 hm with hm | hm
      · exact hno hm
      · have := hp j hm
        omega
  have hreq : 1 ≤ (d2.trace.filterMap requested).countP fun ev => ev.correlationId == k := by
    rw [← runs_requests hc h0 hruns he2]
    refine List.countP_pos_iff.2 ⟨_, List.mem_filterMap.2 ⟨.propose (log i).data, ?_, rfl⟩, by rw [hid]; exact hk⟩
    obtain ⟨_, _, _, new, ht, _⟩ := runs_moves hs he h2
    rw [ht]
    exact List.mem_append_left _ hprop
  omega

/-! ## Concrete cases -/

/-- The toy application meets the contract. -/
theorem actor_responds : Responds DrvExample.actor fun _ => True where
  command {ctx s c s' o} h := by cases h; exact .inr ⟨_, rfl, rfl, trivial⟩
  idle h := by cases h; rfl
  own {ctx s ec ev s' o} h _ hw := by
    simp only [DrvExample.actor, hw, if_true] at h
    cases h; exact ⟨_, rfl, rfl⟩
  foreign {ctx s ec ev s' o} h _ hw := by
    simp only [DrvExample.actor, hw] at h
    cases h; rfl

/-- A leader gets three commands, one id twice, and answers them all; every proposal came back. -/
example : ∃ d outs, Runs sys d0 outs d ∧ d.ephemeral = false ∧
    (ownDelivered sys.E.decEntry d.id d.trace).Perm (d.trace.filterMap proposal) ∧
    commandsOf 7 d.trace = 2 ∧ answersOf 7 (sent (outs.map .ok)) = 2 ∧ commandsOf 8 d.trace = 1 ∧ answersOf 8 (sent (outs.map .ok)) = 1 := by
  have h : check d0 [startLeader, (2, app 7 [10]), (3, app 8 [20, 21]), (4, app 7 [30])] (fun d rs =>
      allOk rs && (decide (d.ephemeral = false ∧ ownDelivered sys.E.decEntry d.id d.trace = d.trace.filterMap proposal ∧
        commandsOf 7 d.trace = 2 ∧ answersOf 7 (sent rs) = 2 ∧ commandsOf 8 d.trace = 1 ∧ answersOf 8 (sent rs) = 1))) = true := by decide +kernel
  obtain ⟨d, outs, hd, hp⟩ := check_runs h
  obtain ⟨p1, p2, p3⟩ := of_decide_eq_true hp
  exact ⟨d, outs, hd, p1, by rw [p2], p3⟩

/-- A started replica without replication. -/
example : ∃ d outs, Runs sys d0 outs d ∧ d.state = .started ∧ d.ephemeral = true ∧
    ∃ d' out, receive sys 2 (app 7 [10]) d = .ok (d', .ok out) := by
  have h : check d0 [startEphemeral] (fun d rs => allOk rs && (decide (d.state = .started ∧ d.ephemeral = true) &&
      next 2 (app 7 [10]) d fun _ r => match r with | .ok _ => true | .error _ => false)) = true := by decide +kernel
  obtain ⟨d, outs, hd, hp⟩ := check_runs h
  obtain ⟨h1, h2⟩ := (Bool.and_eq_true _ _).mp hp
  obtain ⟨h3, h4⟩ := of_decide_eq_true h1
  obtain ⟨d', r, hr, hx⟩ := next_sound h2
  match r, hx with
  | .ok out, _ => exact ⟨d, outs, hd, h3, h4, d', out, hr⟩

/-- Consensus that commits a proposal elsewhere and sends the replica a snapshot that covers it. -/
def lagging : RaftT Raft :=
  { raft with makeProposal := fun r b => .ok ({ r with last := r.last + 1, queue := r.queue ++
      [⟨[], [], [], [], none, ⟨⟨r.last + 1, 1, ⟨[1], [], []⟩⟩, b⟩, 1⟩] }, .ok ()) }

/-- The toy system over it. -/
def laggingSys : Sys Bytes Raft (List (Comm.OutMsg Nat)) Nat := { sys with R := lagging }

/-- Perform calls that all return `Ok`. -/
def lagCalls : Drv → List (Nat × Option (Option (InMsg Nat))) → Option (Drv × List (Option (List (OutMsg Nat))))
  | d, [] => some (d, [])
  | d, (i, m) :: cs => match receive laggingSys i m d with
    | .ok (d', .ok out) => (lagCalls d' cs).map fun x => (x.1, out :: x.2)
    | _ => none

theorem lagCalls_sound {cs} {d e : Drv} {outs} (h : lagCalls d cs = some (e, outs)) {b : Drv} {o0} (hb : Runs laggingSys b o0 d) :
    Runs laggingSys b (o0 ++ outs) e := by
  induction cs generalizing d o0 outs with
  | nil => cases h; rwa [List.append_nil]
  | cons c cs ih =>
    obtain ⟨i, m⟩ := c
    simp only [lagCalls] at h
    split at h
    · rename_i d' out hr
      obtain ⟨⟨x, y⟩, hx, he⟩ := Option.map_eq_some_iff.1 h
      cases he
      have := ih hx (hb.snoc hr)
      rwa [List.append_assoc] at this
    · cases h

/-- The leader proposes the command with id 7 as entry 2, is given a snapshot of index 2, and goes on: the client is never answered, while the
one with id 8 would have to wait for its own proposal in the same way. -/
example : ∃ d1 outs1 d2 outs2 y, Runs laggingSys d0 outs1 d1 ∧ d1.state ≠ .created ∧ d1.ephemeral = false ∧ Runs laggingSys d1 outs2 d2 ∧
    outs2.length = 2 ∧ Trail (Advances log) d2.trace (0, 0) y ∧ carries laggingSys.E.decEntry d1.id 7 (log 2).data = true ∧
    (∀ j, carries laggingSys.E.decEntry d1.id 7 (log j).data = true → j = 2) ∧ .propose (log 2).data ∈ d1.trace ∧ commandsOf 7 d2.trace = 1 ∧
    2 ≤ d1.applied ∧ 2 ∉ applyIndices (observed d1.trace) := by
  have h : (match lagCalls d0 [startLeader, (2, app 7 [10])] with
    | some (d1, _) => (match lagCalls d1 [(3, app 8 [20, 21]), (4, none)] with
      | some (d2, o2) => decide (d1.state ≠ .created ∧ d1.ephemeral = false ∧ d1.id = 1 ∧ o2.length = 2 ∧ (log 2).data ∈ d1.trace.filterMap proposal ∧
          commandsOf 7 d2.trace = 1 ∧ 2 ≤ d1.applied ∧ 2 ∉ applyIndices (observed d1.trace)) && (follows d2.trace (0, 0)).isSome
      | none => false)
    | none => false) = true := by decide +kernel
  rcases h1 : lagCalls d0 [startLeader, (2, app 7 [10])] with _ | ⟨d1, o1⟩ <;> rw [h1] at h
  · cases h
  simp only at h
  rcases h2 : lagCalls d1 [(3, app 8 [20, 21]), (4, none)] with _ | ⟨d2, o2⟩ <;> rw [h2] at h
  · cases h
  simp only [Bool.and_eq_true] at h
  obtain ⟨ha, hb⟩ := h
  obtain ⟨p1, p2, p3, p4, p5, p6, p7, p8⟩ := of_decide_eq_true ha
  obtain ⟨y, hy⟩ := Option.isSome_iff_exists.1 hb
  refine ⟨d1, o1, d2, o2, y, by simpa using lagCalls_sound h1 .nil, p1, p2, by simpa using lagCalls_sound h2 .nil, p4, follows_sound hy, ?_, ?_, ?_, p6, p7, p8⟩
  · rw [p3]; decide +kernel
  · intro j hj
    rw [p3] at hj
    match j, hj with
    | 2, _ => rfl
    | 0, hj => exact absurd hj (by decide +kernel)
    | 1, hj => exact absurd hj (by decide +kernel)
    | 3, hj => exact absurd hj (by decide +kernel)
    | 4, hj => exact absurd hj (by decide +kernel)
    | j + 5, hj => exact absurd hj (by simp only [log]; decide +kernel)
  · obtain ⟨e, hm, he⟩ := List.mem_filterMap.1 p5
    match e, hm, he with
    | .propose b', hm, he => cases he; exact hm

end TCP.DrvProps
