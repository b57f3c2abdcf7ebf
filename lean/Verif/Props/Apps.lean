import Verif.Proofs.Apps
import Verif.Props.DriverApp
import Verif.Props.Counter
import Verif.Props.Willow
import Verif.Props.TabletStore

/-!
# C76–C78: the applications on a cluster

What a client of a cluster can rely on, for the three applications: the states of the replicas and their answers, as functions of the
consensus log.
-/

/-! ## C76: the atomic counter -/

namespace TCP.Counter

open TCP ActorSpec Spec Drv DrvSpec AppExample

variable {ρ κ H : Type} {R : RaftT ρ} {C : CommT κ H} {E : Codecs}

/-- C76: the counters of every started replica are the configured ones, changed by the compare-and-swaps of the log up to the applied index,
one after the other. -/
theorem C76_counters {ms : Msgs} (hm : Lawful ms) {log : Nat → Entry} (hl : ∀ i, (log i).index = i) {founder : Nat} {cfg : Bytes}
    {ds : Nat → Driver State ρ κ H} (h : Deployed ⟨actor ms, R, C, E⟩ log founder (· = State.new) cfg ds) {p : Nat} (hp : (ds p).state ≠ .created) :
    view (ds p).actor = (eventsUpTo E.decEntry log (ds p).applied).foldl (after ms) (initial ms cfg) := by
  obtain ⟨⟨f, I⟩, _⟩ := app_inv hl (inert ms) h
  exact replica_view hm (I.actor p hp).1

/-- C76: every message a replica sends to a client either refuses a command the replica was handed, or is the answer to the compare-and-swap at
some index of the log that this replica proposed: success exactly if the value after the log before that index is the expected one, and
always that value. -/
theorem C76_answers {ms : Msgs} (hm : Lawful ms) {log : Nat → Entry} (hl : ∀ i, (log i).index = i) {founder : Nat} {cfg : Bytes}
    {ds : Nat → Driver State ρ κ H} (h : Deployed ⟨actor ms, R, C, E⟩ log founder (· = State.new) cfg ds) {p : Nat} {r : ActorCommand}
    (hr : r ∈ appMessages (outMessages (ds p).trace)) :
    (∃ c ∈ (ds p).trace.filterMap handed, ∃ st, (st = .rejected ∨ st = .invalidOperation) ∧ r = ⟨c.correlationId, ms.encOut ⟨st, none⟩, []⟩) ∨
    (∃ i ev n e x ctx pl, 2 ≤ i ∧ i ≤ (ds p).applied ∧ eventOf E.decEntry (log i) = some ev ∧ proposerOf E.decEntry (log i) = some (ds p).id ∧
      ms.decReq ev.contents = some ⟨n, some ⟨e, x⟩, ctx, pl⟩ ∧
      r = ⟨ev.correlationId,
        ms.encOut (swapAnswer ((eventsUpTo E.decEntry log (i - 1)).foldl (after ms) (initial ms cfg) n).1 e x), []⟩) := by
  obtain ⟨⟨f, I⟩, _⟩ := app_inv hl (inert ms) h
  rcases app_answers hl h I hr with ⟨n, s, s', ctx, c, o, _, _, hm', hc, hr⟩ | ⟨i, replica, ev, s, s', ctx, o, h2, ha, hs, hev, hpr, hap, hr⟩
  · left
    cases c with
    | none =>
      simp only [actor, onProcessCommand, Run.ok.injEq, Prod.mk.injEq, Except.ok.injEq] at hc
      rw [← hc.2] at hr
      simp at hr
    | some c =>
      refine ⟨c, List.mem_filterMap.2 ⟨_, hm', rfl⟩, ?_⟩
      have hss : s' = s := command_state (ms := ms) (ctx := ctx) (c := some c) (res := .ok o) hc
      subst hss
      obtain ⟨d1, d2⟩ := C35_decisions c hc
      have done : ∀ st, o = ⟨[⟨c.correlationId, ms.encOut ⟨st, none⟩, []⟩], none⟩ → r = ⟨c.correlationId, ms.encOut ⟨st, none⟩, []⟩ := by
        intro st ho
        rw [ho] at hr
        simpa using hr
      rcases hd : ms.decIn c.header with _ | _ | q
      · exact ⟨.invalidOperation, .inr rfl, done _ (d1 (.inl hd))⟩
      · exact ⟨.invalidOperation, .inr rfl, done _ (d1 (.inr hd))⟩
      · obtain ⟨e1, e2, e3⟩ := d2 q hd
        cases hlead : ctx.leader with
        | false => exact ⟨.rejected, .inl rfl, done _ (e1 hlead)⟩
        | true =>
          by_cases hop : q.op = none
          · exact ⟨.invalidOperation, .inr rfl, done _ (e2 hlead hop)⟩
          · rw [e3 hlead hop] at hr
            simp at hr
  · right
    have hv := replica_view hm hs.1
    rcases apply_cases (ctx := ctx) hap with ⟨_, _, hres⟩ | ⟨n, cas, x, pl, hd, _, hres⟩
    · cases hres
    · simp only [Except.ok.injEq] at hres
      rw [hres] at hr
      simp only at hr
      split at hr
      · rename_i hown
        have hid : replica = (ds p).id := by simpa using hown
        subst hid
        refine ⟨i, ev, n, cas.expected, cas.new, x, pl, h2, ha, hev, hpr, hd, ?_⟩
        simp only [List.mem_singleton] at hr
        rw [hr, response_compareAndSwap, hv]
        rfl
      · simp at hr

theorem correlates (ms : Msgs) : Correlates (actor ms) := by
  intro ctx s c s' o ev h he
  cases c with
  | none =>
    simp only [actor, onProcessCommand, Run.ok.injEq, Prod.mk.injEq, Except.ok.injEq] at h
    rw [← h.2] at he
    cases he
  | some c =>
    have hss : s' = s := command_state (ms := ms) (ctx := ctx) (c := some c) (res := .ok o) h
    subst hss
    obtain ⟨d1, d2⟩ := C35_decisions c h
    refine ⟨c, rfl, ?_⟩
    rcases hd : ms.decIn c.header with _ | _ | q
    · rw [d1 (.inl hd)] at he; cases he
    · rw [d1 (.inr hd)] at he; cases he
    · obtain ⟨e1, e2, e3⟩ := d2 q hd
      cases hlead : ctx.leader with
      | false => rw [e1 hlead] at he; cases he
      | true =>
        by_cases hop : q.op = none
        · rw [e2 hlead hop] at he; cases he
        · rw [e3 hlead hop] at he; cases he; rfl

/-- C76: compare-and-swaps are linearizable.  The answer to a command that was handed to a replica after some moment (`ds`) is computed from
counters that include every compare-and-swap any replica had applied at that moment, so in particular every one answered by then. -/
theorem C76_linearizable {ms : Msgs} (hm : Lawful ms) (hcod : ∀ x, E.decEntry (E.encEntry x) = some x) {log : Nat → Entry}
    (hl : ∀ i, (log i).index = i) {founder : Nat} {cfg : Bytes} {ds ds' : Nat → Driver State ρ κ H}
    (h : Deployed ⟨actor ms, R, C, E⟩ log founder (· = State.new) cfg ds) (hca : Causal E.decEntry log ds)
    (h' : Deployed ⟨actor ms, R, C, E⟩ log founder (· = State.new) cfg ds') {q : Nat} {r : ActorCommand}
    (hr : r ∈ appMessages (outMessages (ds' q).trace))
    (hnew : ∀ p, (ds p).id = (ds' q).id → ∀ c ∈ (ds p).trace.filterMap handed, c.correlationId ≠ r.correlationId) :
    (∃ c ∈ (ds' q).trace.filterMap handed, ∃ st, (st = .rejected ∨ st = .invalidOperation) ∧ r = ⟨c.correlationId, ms.encOut ⟨st, none⟩, []⟩) ∨
    (∃ i ev n e x ctx pl, (∀ p, (ds p).applied < i) ∧ i ≤ (ds' q).applied ∧
      eventOf E.decEntry (log i) = some ev ∧ proposerOf E.decEntry (log i) = some (ds' q).id ∧
      ms.decReq ev.contents = some ⟨n, some ⟨e, x⟩, ctx, pl⟩ ∧
      r = ⟨ev.correlationId,
        ms.encOut (swapAnswer ((eventsUpTo E.decEntry log (i - 1)).foldl (after ms) (initial ms cfg) n).1 e x), []⟩) := by
  rcases C76_answers hm hl h' hr with h1 | ⟨i, ev, n, e, x, ctx, pl, h2, ha, hev, hpr, hd, hrr⟩
  · exact .inl h1
  · refine .inr ⟨i, ev, n, e, x, ctx, pl, fun p => ?_, ha, hev, hpr, hd, hrr⟩
    refine DrvProps.C75_realtime (S := ⟨actor ms, R, C, E⟩) hcod (correlates ms) hl (inert ms) h hca h2 hev (fun q' hq' c hc => ?_) p
    have hid : (ds q').id = (ds' q).id := Option.some.inj (hq'.symm.trans hpr)
    have := hnew q' hid c hc
    rw [hrr] at this
    exact this

/-- A compare-and-swap request. -/
def exCas (n : String) (e x : Int) : Request := ⟨n, some ⟨e, x⟩, [], []⟩

def exCluster : List LogEntry :=
  [⟨some (1, 7), exMsgs.encReq (exCas "a" 5 6)⟩, ⟨some (1, 8), exMsgs.encReq (exCas "a" 5 7)⟩, ⟨some (1, 9), exMsgs.encReq (exCas "b" 0 1)⟩]

/-- C76 is not vacuous: a counter `a` configured to 5 is swapped to 6; a second swap of 5 fails and reports 6; another counter starts at 0. -/
example : Lawful exMsgs ∧ (∀ i, (logOf exCluster i).index = i) ∧
    ∃ ds, Deployed (appSys (actor exMsgs)) (logOf exCluster) 0 (· = State.new) ((Codec.string.pair Codec.int).list.enc [("a", 5)]) ds ∧
      reached [⟨7, exMsgs.encOut ⟨.success, some ⟨5, 6⟩⟩, []⟩, ⟨8, exMsgs.encOut ⟨.invalidArgument, some ⟨6, 0⟩⟩, []⟩,
        ⟨9, exMsgs.encOut ⟨.success, some ⟨0, 1⟩⟩, []⟩] (ds 0) (ds 1) = true :=
  ⟨exMsgs_lawful, logOf_index _, outcome_sound rfl (snap := exMsgs.encSnap [("a", ⟨6, []⟩)])
    (rs := [(7, 1 :: exMsgs.encReq (exCas "a" 5 6), []), (8, 1 :: exMsgs.encReq (exCas "a" 5 7), []), (9, 1 :: exMsgs.encReq (exCas "b" 0 1), [])])
    (by decide +kernel)⟩

/-- `C76_linearizable` is not vacuous: the third request is handed in when the first two were applied. -/
example : (∀ x, DrvExample.codecs.decEntry (DrvExample.codecs.encEntry x) = some x) ∧
    ∃ ds ds', Deployed (appSys (actor exMsgs)) (logOf exCluster) 0 (· = State.new) ((Codec.string.pair Codec.int).list.enc [("a", 5)]) ds ∧
      Causal DrvExample.codecs.decEntry (logOf exCluster) ds ∧ (ds 0).applied = 3 ∧
      Deployed (appSys (actor exMsgs)) (logOf exCluster) 0 (· = State.new) ((Codec.string.pair Codec.int).list.enc [("a", 5)]) ds' ∧
      reached [⟨7, exMsgs.encOut ⟨.success, some ⟨5, 6⟩⟩, []⟩, ⟨8, exMsgs.encOut ⟨.invalidArgument, some ⟨6, 0⟩⟩, []⟩,
        ⟨9, exMsgs.encOut ⟨.success, some ⟨0, 1⟩⟩, []⟩] (ds' 0) (ds' 1) = true ∧
      ∀ q, ∀ c ∈ (ds q).trace.filterMap handed, c.correlationId ≠ 9 :=
  ⟨DrvExample.entryC_lawful, moments_sound rfl (snap := exMsgs.encSnap [("a", ⟨6, []⟩)]) (r1 := (7, 1 :: exMsgs.encReq (exCas "a" 5 6), []))
    (r2 := (8, 1 :: exMsgs.encReq (exCas "a" 5 7), [])) (r3 := (9, 1 :: exMsgs.encReq (exCas "b" 0 1), [])) (by decide +kernel)⟩

end TCP.Counter

/-! ## C77: the willow decryptor -/

namespace TCP.Willow

open TCP ActorSpec Spec Drv DrvSpec AppExample

variable {ρ κ H : Type} {R : RaftT ρ} {C : CommT κ H} {E : Codecs}

/-- C77: no replica of a cluster ever holds more keys than the capacity, and replicas that applied the same part of the log hold the same keys,
each the latest one generated for its id and not used since. -/
theorem C77_keys {env : Env} (he : Lawful env) (hcap : 0 < env.capacity) {log : Nat → Entry} (hl : ∀ i, (log i).index = i) {founder : Nat} {cfg : Bytes}
    {ds : Nat → Driver State ρ κ H} (h : Deployed ⟨actor env, R, C, E⟩ log founder State.Fresh cfg ds) {p : Nat} (hp : (ds p).state ≠ .created) :
    HoldsAtMost (ds p).actor env.capacity ∧
    (∀ q, (ds q).state ≠ .created → (ds q).applied = (ds p).applied → (ds q).actor.keys = (ds p).actor.keys) ∧
    ∀ k kp, stored (ds p).actor k = some kp →
      ∃ g, Current env (eventsUpTo E.decEntry log (ds p).applied) k g ∧ kp = ⟨g.publicKey, g.privateKey, g.order⟩ := by
  obtain ⟨⟨f, I⟩, _⟩ := app_inv hl (inert env) h
  have hp' := (I.actor p hp).1
  refine ⟨C36_capacity he hcap hp', fun q hq ha => ?_, fun k kp hk => ?_⟩
  · have hq' := (I.actor q hq).1
    rw [ha] at hq'
    exact C39_replicas he hq' hp'
  · obtain ⟨a, ev, b, g, h1, h2, h3, h4, h5, h6⟩ := C38_latest_partial he hp' hk
    exact ⟨g, ⟨a, ev, b, h1, h2, h3, h5, h6⟩, h4⟩

/-- What a command can be answered at once. -/
theorem command_reply {env : Env} {ctx : ActorCtx} {s s' : State} {c : Option ActorCommand} {o : CommandOutcome} {r : ActorCommand}
    (h : onProcessCommand env ctx s c = .ok (s', .ok o)) (hr : r ∈ o.commands) :
    (∃ code, ∃ q, c = some q ∧ r = ⟨q.correlationId, env.encResp (.error code), []⟩) ∨
    ∃ q k kp, c = some q ∧ AsksKey env q k ∧ stored s k = some kp ∧ r = ⟨q.correlationId, env.encResp (.generateKey k kp.publicKey), []⟩ := by
  cases c with
  | none =>
    simp only [onProcessCommand, Run.ok.injEq, Prod.mk.injEq, Except.ok.injEq] at h
    rw [← h.2] at hr
    simp at hr
  | some c =>
    simp only [onProcessCommand] at h
    cases hd : env.decReq c.header with
    | none => simp [hd] at h
    | some q =>
      simp only [hd] at h
      cases hlead : ctx.leader with
      | false =>
        simp only [hlead, if_true, Run.ok.injEq, Prod.mk.injEq, Except.ok.injEq] at h
        rw [← h.2] at hr
        exact .inl ⟨.failedPrecondition, c, rfl, by simpa [ActorCommand.withHeader] using hr⟩
      | true =>
        simp only [hlead, Bool.true_eq_false, if_false] at h
        cases q with
        | empty =>
          simp only [Run.ok.injEq, Prod.mk.injEq, Except.ok.injEq] at h
          rw [← h.2] at hr
          exact .inl ⟨.invalidArgument, c, rfl, by simpa [ActorCommand.withHeader] using hr⟩
        | generateKey k =>
          simp only [generateCommand, Run.ok.injEq, Prod.mk.injEq, Except.ok.injEq] at h
          cases hg : SMap.get s.keys k with
          | none =>
            simp only [hg] at h
            rw [← h.2] at hr
            simp at hr
          | some kp =>
            simp only [hg] at h
            rw [← h.2] at hr
            exact .inr ⟨c, k, kp, rfl, hd, hg, by simpa [ActorCommand.withHeader] using hr⟩
        | decrypt k y =>
          simp only [decryptCommand] at h
          cases hg : SMap.get s.keys k with
          | none =>
            simp only [hg, Run.bind_ok, Run.ok.injEq, Prod.mk.injEq, Except.ok.injEq] at h
            rw [← h.2] at hr
            exact .inl ⟨.failedPrecondition, c, rfl, by simpa [ActorCommand.withHeader] using hr⟩
          | some kp =>
            simp only [hg] at h
            cases hx : env.decrypt k kp.privateKey y s.draws with
            | none => simp [hx] at h
            | some x =>
              simp only [hx, Run.bind_ok, Run.ok.injEq, Prod.mk.injEq, Except.ok.injEq] at h
              rw [← h.2] at hr
              simp at hr

/-- C77: every message a replica sends to a client is an error; or the public key the log has made current for the id the client asked for; or
the answer to an event of the log that this replica proposed: the public key generated, or the decryption released, by that event. -/
theorem C77_answers {env : Env} (he : Lawful env) {log : Nat → Entry} (hl : ∀ i, (log i).index = i) {founder : Nat} {cfg : Bytes}
    {ds : Nat → Driver State ρ κ H} (h : Deployed ⟨actor env, R, C, E⟩ log founder State.Fresh cfg ds) {p : Nat} {r : ActorCommand}
    (hr : r ∈ appMessages (outMessages (ds p).trace)) :
    (∃ corr code, r = ⟨corr, env.encResp (.error code), []⟩) ∨
    (∃ c ∈ (ds p).trace.filterMap handed, ∃ k g n, AsksKey env c k ∧ n ≤ (ds p).applied ∧ Current env (eventsUpTo E.decEntry log n) k g ∧
      r = ⟨c.correlationId, env.encResp (.generateKey k g.publicKey), []⟩) ∨
    (∃ i ev, 2 ≤ i ∧ i ≤ (ds p).applied ∧ eventOf E.decEntry (log i) = some ev ∧ proposerOf E.decEntry (log i) = some (ds p).id ∧
      ((∃ g, Generates env ev g ∧ r = ⟨ev.correlationId, env.encResp (.generateKey g.keyId g.publicKey), []⟩) ∨
       ∃ k x, Decrypts env ev k x ∧ r = ⟨ev.correlationId, env.encResp (.decrypt x), []⟩)) := by
  obtain ⟨⟨f, I⟩, _⟩ := app_inv hl (inert env) h
  rcases app_answers hl h I hr with ⟨n, s, s', ctx, c, o, hn, hs, hm', hc, hr⟩ | ⟨i, replica, ev, s, s', ctx, o, h2, ha, hs, hev, hpr, hap, hr⟩
  · rcases command_reply (env := env) hc hr with ⟨code, q, rfl, hq⟩ | ⟨q, k, kp, rfl, hk, hst, hq⟩
    · exact .inl ⟨_, _, hq⟩
    · obtain ⟨a, ev, b, g, h1, h2, h3, h4, h5, h6⟩ := C38_latest_partial he hs.1 hst
      refine .inr (.inl ⟨q, List.mem_filterMap.2 ⟨_, hm', rfl⟩, k, g, n, hk, hn, ⟨a, ev, b, h1, h2, h3, h5, h6⟩, ?_⟩)
      rw [hq, h4]
  · have hap : onApplyEvent env ctx s ⟨i, decide (replica = (ds p).id)⟩ ev = .ok (s', .ok o) := hap
    unfold onApplyEvent at hap
    simp only at hap
    rcases hd : env.decEv ev.contents with _ | g | ⟨k, x⟩ | _
    · rw [hd] at hap; simp at hap
    · rw [hd] at hap
      simp only [Run.ok.injEq, Prod.mk.injEq, Except.ok.injEq] at hap
      rw [← hap.2] at hr
      simp only at hr
      split at hr
      · rename_i hown
        have hid : replica = (ds p).id := by simpa using hown
        subst hid
        exact .inr (.inr ⟨i, ev, h2, ha, hev, hpr, .inl ⟨g, hd, by simpa [ActorCommand.withHeader] using hr⟩⟩)
      · simp at hr
    · rw [hd] at hap
      simp only [Run.ok.injEq, Prod.mk.injEq, Except.ok.injEq] at hap
      rw [← hap.2] at hr
      simp only at hr
      split at hr
      · rename_i hown
        have hid : replica = (ds p).id := by simpa using hown
        subst hid
        exact .inr (.inr ⟨i, ev, h2, ha, hev, hpr, .inr ⟨k, x, hd, by simpa [ActorCommand.withHeader] using hr⟩⟩)
      · simp at hr
    · rw [hd] at hap
      simp only [Run.ok.injEq, Prod.mk.injEq, Except.ok.injEq] at hap
      rw [← hap.2] at hr
      exact .inl ⟨_, _, by simpa [ActorCommand.withHeader] using hr⟩

/-- C77: if consensus commits only what was proposed, then every event that reached a replica was caused by a request some replica was handed: a
key pair was freshly drawn for a requested id that had none, and a released decryption is that of a requested ciphertext, with the private
key then current for the requested id. -/
theorem C77_events {env : Env} (he : Lawful env) (hcod : ∀ x, E.decEntry (E.encEntry x) = some x) {log : Nat → Entry}
    (hl : ∀ i, (log i).index = i) {founder : Nat} {cfg : Bytes} {ds : Nat → Driver State ρ κ H}
    (h : Deployed ⟨actor env, R, C, E⟩ log founder State.Fresh cfg ds) (hca : Causal E.decEntry log ds) {p i : Nat} {ev : ActorEvent}
    (h2 : 2 ≤ i) (ha : i ≤ (ds p).applied) (hev : eventOf E.decEntry (log i) = some ev) :
    ∃ q n c, n ≤ (ds q).applied ∧ c ∈ (ds q).trace.filterMap handed ∧ c.correlationId = ev.correlationId ∧
      ((∃ g draw, Generates env ev g ∧ AsksKey env c g.keyId ∧ (g.publicKey, g.privateKey) = env.gen g.keyId draw) ∨
       (∃ k y x g draw, Decrypts env ev k x ∧ AsksDecrypt env c k y ∧ Current env (eventsUpTo E.decEntry log n) k g ∧
         env.decrypt k g.privateKey y draw = some x)) := by
  obtain ⟨⟨f, I⟩, _⟩ := app_inv hl (inert env) h
  obtain ⟨q, hq⟩ := hca p i ev h2 ha hev
  obtain ⟨n, s, s', ctx, c, o, ev', hn, hs, hm, hc, ho, hb⟩ := app_proposals I hq
  obtain ⟨replica, hpr, hdec⟩ := eventOf_some hev
  rw [hb, hcod] at hdec
  simp only [Option.some.injEq, LogEntry.mk.injEq, Prod.mk.injEq] at hdec
  obtain ⟨⟨rfl, h3⟩, h4⟩ := hdec
  have : ev' = ev := by cases ev; cases ev'; simp_all
  subst this
  cases c with
  | none =>
    simp only [actor, onProcessCommand, Run.ok.injEq, Prod.mk.injEq, Except.ok.injEq] at hc
    rw [← hc.2] at ho
    cases ho
  | some c =>
    refine ⟨q, n, c, hn, List.mem_filterMap.2 ⟨_, hm, rfl⟩, ?_⟩
    rcases command_event (env := env) hc ho with ⟨k, hk, _, rfl⟩ | ⟨k, y, kp, x, hk, hst, hx, rfl⟩
    · exact ⟨rfl, .inl ⟨_, s.draws, he.ev _, hk, rfl⟩⟩
    · obtain ⟨a, ev, b, g, h1, h2, h3, h4, h5, h6⟩ := C38_latest_partial he hs.1 hst
      exact ⟨rfl, .inr ⟨k, y, x, g, s.draws, he.ev _, hk, ⟨a, ev, b, h1, h2, h3, h5, h6⟩, by rw [h4] at hx; exact hx⟩⟩

def exCluster : List LogEntry :=
  [⟨some (1, 7), exEnv.encEv (.generateKey ⟨[0, 1], [9, 0, 1], [1], 1⟩)⟩, ⟨some (1, 8), exEnv.encEv (.decrypt [1] [1, 9, 0, 1, 5])⟩,
   ⟨some (1, 9), exEnv.encEv (.generateKey ⟨[2, 2], [9, 2, 2], [2], 1⟩)⟩]

/-- C77 is not vacuous: a key for `[1]` is generated and used, then one for `[2]` is generated. -/
example : Lawful exEnv ∧ (∀ i, (logOf exCluster i).index = i) ∧ (∀ x, DrvExample.codecs.decEntry (DrvExample.codecs.encEntry x) = some x) ∧
    ∃ ds, Deployed (appSys (actor exEnv)) (logOf exCluster) 0 State.Fresh [] ds ∧
      (reached [⟨7, exEnv.encResp (.generateKey [1] [0, 1]), []⟩, ⟨8, exEnv.encResp (.decrypt [1, 9, 0, 1, 5]), []⟩,
        ⟨9, exEnv.encResp (.generateKey [2] [2, 2]), []⟩] (ds 0) (ds 1) &&
        (ds 0).trace.filterMap proposal == [(logOf exCluster 2).data, (logOf exCluster 3).data, (logOf exCluster 4).data] &&
        (ds 1).actor.keys == [([2], ⟨[2, 2], [9, 2, 2], 1⟩)]) = true :=
  ⟨exEnv_lawful, logOf_index _, DrvExample.entryC_lawful, outcome_sound (a0 := (⟨[], 0⟩ : State)) rfl (snap := exEnv.encSnap [])
    (rs := [(7, [1, 0, 1, 0, 1], []), (8, [1, 1, 1, 0, 1, 1, 0, 5], []), (9, [1, 0, 1, 0, 2], [])])
    (p := fun a b => reached [⟨7, exEnv.encResp (.generateKey [1] [0, 1]), []⟩, ⟨8, exEnv.encResp (.decrypt [1, 9, 0, 1, 5]), []⟩,
        ⟨9, exEnv.encResp (.generateKey [2] [2, 2]), []⟩] a b &&
        a.trace.filterMap proposal == [(logOf exCluster 2).data, (logOf exCluster 3).data, (logOf exCluster 4).data] &&
        b.actor.keys == [([2], ⟨[2, 2], [9, 2, 2], 1⟩)]) (by decide +kernel)⟩

end TCP.Willow

/-! ## C78: the tablet store -/

namespace TCP.TabletStore

open TCP ActorSpec Spec Drv DrvSpec AppExample

variable {ρ κ H : Type} {R : RaftT ρ} {C : CommT κ H} {E : Codecs}

/-- The tablets after the log up to an index, from those the founder started with. -/
noncomputable def tabletsAt (env : Env) (dec : Bytes → Option LogEntry) (log : Nat → Entry) (b : Store) (n : Nat) : Store :=
  (eventsUpTo dec log n).foldl (Store.next env) b

/-- What C78 says of an answer: it refuses a command the replica was handed, or answers the request at index `i` of the log, which this
replica proposed, op by op for the tablets before that index, and says success exactly if every op can be carried out. -/
def Answered (env : Env) (dec : Bytes → Option LogEntry) (log : Nat → Entry) (b : Store) (d : Driver State ρ κ H) (r : ActorCommand)
    (after : Nat → Prop) : Prop :=
  (∃ c ∈ d.trace.filterMap handed, ∃ st, r = ⟨c.correlationId, env.encOut (.error st), []⟩) ∨
  (∃ i ev ops resp, 2 ≤ i ∧ i ≤ d.applied ∧ after i ∧ eventOf dec (log i) = some ev ∧ proposerOf dec (log i) = some d.id ∧
    env.decReq ev.contents = some ops ∧ r = ⟨ev.correlationId, env.encOut .response, env.encResp resp⟩ ∧
    Matched (OpAnswer (tabletsAt env dec log b (i - 1))) ops resp.results ∧
    (resp.succeeded = true ↔ ∀ o ∈ ops, OpSucceeds (tabletsAt env dec log b (i - 1)) o))

theorem answered {env : Env} (he : Lawful env) {log : Nat → Entry} (hl : ∀ i, (log i).index = i) {founder : Nat} {cfg : Bytes}
    {ds : Nat → Driver State ρ κ H} (h : Deployed ⟨actor env, R, C, E⟩ log founder (·.tables = []) cfg ds) {f : State}
    (I : AppInv ⟨actor env, R, C, E⟩ log (·.tables = []) cfg f ds) {p : Nat} {r : ActorCommand}
    (hr : r ∈ appMessages (outMessages (ds p).trace)) : Answered env E.decEntry log (view f) (ds p) r fun _ => True := by
  rcases app_answers hl h I hr with ⟨n, s, s', ctx, c, o, hn, hs, hm', hc, hr⟩ | ⟨i, replica, ev, s, s', ctx, o, h2, ha, hs, hev, hpr, hap, hr⟩
  · left
    cases c with
    | none =>
      simp only [actor, onProcessCommand, Run.ok.injEq, Prod.mk.injEq, Except.ok.injEq] at hc
      rw [← hc.2] at hr
      simp at hr
    | some c =>
      refine ⟨c, List.mem_filterMap.2 ⟨_, hm', rfl⟩, ?_⟩
      obtain ⟨_, e1, e2, e3⟩ := C60_decisions (.command hc)
      have done : ∀ st, (.ok o : Except ActorErr CommandOutcome) = .ok ⟨[.withHeader c.correlationId (env.encOut (.error st))], none⟩ →
          ∃ st, r = ⟨c.correlationId, env.encOut (.error st), []⟩ := by
        intro st ho
        simp only [Except.ok.injEq] at ho
        rw [ho] at hr
        exact ⟨st, by simpa [ActorCommand.withHeader] using hr⟩
      cases hlead : ctx.leader with
      | false => exact done _ (e1 hlead)
      | true =>
        by_cases h1 : env.decIn c.header = some true
        · cases h2 : env.decReq c.payload with
          | none => exact done _ (e3 hlead (.inr h2))
          | some ops =>
            have := e2 hlead h1 (by rw [h2]; rfl)
            simp only [Except.ok.injEq] at this
            rw [this] at hr
            simp at hr
        · exact done _ (e3 hlead (.inl h1))
  · right
    have hmem := member_of (hs.2 (by omega))
    have hv := member_view he hmem
    cases hd : env.decReq ev.contents with
    | none =>
      have := (C40_undecodable hd (.apply hap)).2
      cases this
    | some ops =>
      obtain ⟨resp, h4, h5, h6, _⟩ := C40_atomic (member_reachable hmem) hd (.apply hap)
      simp only [Except.ok.injEq] at h4
      rw [h4] at hr
      simp only at hr
      split at hr
      · rename_i hown
        have hid : replica = (ds p).id := by simpa using hown
        subst hid
        rw [hv] at h5 h6
        exact ⟨i, ev, ops, resp, h2, ha, trivial, hev, hpr, hd, by simpa using hr, h5, h6⟩
      · simp at hr

/-- C78: there is one initial set of tablets, the one the founder drew for the configuration, such that on every replica that joined the
tablets are those, changed by the requests of the log up to the applied index one after the other; and every message a replica sends to a
client refuses a command, or answers the request at some index of the log that it proposed as specified for the tablets before that index. -/
theorem C78_store {env : Env} (he : Lawful env) {log : Nat → Entry} (hl : ∀ i, (log i).index = i) {founder : Nat} {cfg : Bytes}
    {ds : Nat → Driver State ρ κ H} (h : Deployed ⟨actor env, R, C, E⟩ log founder (·.tables = []) cfg ds) :
    ∃ f : State,
      (∀ p, 1 ≤ (ds p).applied → view (ds p).actor = tabletsAt env E.decEntry log (view f) (ds p).applied ∧
        ∃ ctx s0, s0.tables = [] ∧ ctx.config = cfg ∧ Started (actor env) s0 ctx f) ∧
      ∀ p, ∀ r ∈ appMessages (outMessages (ds p).trace), Answered env E.decEntry log (view f) (ds p) r fun _ => True := by
  obtain ⟨⟨f, I⟩, _⟩ := app_inv hl (inert env) h
  refine ⟨f, fun p hp => ?_, fun p r hr => answered he hl h I hr⟩
  have hst : (ds p).state ≠ .created := by
    intro hc
    obtain ⟨d0, outs, h0, hruns⟩ := I.runs p
    have := ((runs_created h0 hruns).inv hc).2.1
    omega
  have hm := (I.actor p hst).2 hp
  refine ⟨member_view he (member_of hm), ?_⟩
  clear hp
  generalize (ds p).actor = a at hm
  generalize eventsUpTo _ log (ds p).applied = evs at hm
  induction hm with
  | boot h0 hc h => exact ⟨_, _, h0, hc, h⟩
  | apply _ _ ih => exact ih
  | command _ _ ih => exact ih
  | save _ _ ih => exact ih
  | load _ _ _ _ ih => exact ih

theorem correlates (env : Env) : Correlates (actor env) := by
  intro ctx s c s' o ev h ho
  obtain ⟨cs, e⟩ := o
  simp only at ho
  subst ho
  obtain ⟨_, _, cmd, _, hc, hev, _⟩ := C60_proposals_decode (.command h)
  exact ⟨cmd, hc, by rw [hev]⟩

/-- C78: requests are linearizable.  The answer to a command that was handed to a replica after some moment (`ds`) is computed from tablets that
include every request any replica had applied at that moment. -/
theorem C78_linearizable {env : Env} (he : Lawful env) (hcod : ∀ x, E.decEntry (E.encEntry x) = some x) {log : Nat → Entry}
    (hl : ∀ i, (log i).index = i) {founder : Nat} {cfg : Bytes} {ds ds' : Nat → Driver State ρ κ H}
    (h : Deployed ⟨actor env, R, C, E⟩ log founder (·.tables = []) cfg ds) (hca : Causal E.decEntry log ds)
    (h' : Deployed ⟨actor env, R, C, E⟩ log founder (·.tables = []) cfg ds') :
    ∃ f : State, (∀ p, 1 ≤ (ds' p).applied → view (ds' p).actor = tabletsAt env E.decEntry log (view f) (ds' p).applied) ∧
      ∀ q, ∀ r ∈ appMessages (outMessages (ds' q).trace),
        (∀ p, (ds p).id = (ds' q).id → ∀ c ∈ (ds p).trace.filterMap handed, c.correlationId ≠ r.correlationId) →
        Answered env E.decEntry log (view f) (ds' q) r fun i => ∀ p, (ds p).applied < i := by
  obtain ⟨f, hf, ha⟩ := C78_store he hl h'
  refine ⟨f, fun p hp => (hf p hp).1, fun q r hr hnew => ?_⟩
  rcases ha q r hr with h1 | ⟨i, ev, ops, resp, h2, ha, _, hev, hpr, hd, hrr, hm, hsucc⟩
  · exact .inl h1
  · refine .inr ⟨i, ev, ops, resp, h2, ha, fun p => ?_, hev, hpr, hd, hrr, hm, hsucc⟩
    refine DrvProps.C75_realtime (S := ⟨actor env, R, C, E⟩) hcod (correlates env) hl (inert env) h hca h2 hev (fun q' hq' c hc => ?_) p
    have hid : (ds q').id = (ds' q).id := Option.some.inj (hq'.symm.trans hpr)
    have := hnew q' hid c hc
    rw [hrr] at this
    exact this

def exCluster : List LogEntry :=
  [⟨some (1, 7), exEnv.encReq [exUpd 10 1]⟩, ⟨some (1, 8), exEnv.encReq [exChk 20 0, exUpd 10 1]⟩, ⟨some (1, 9), exEnv.encReq [exUpd 20 1]⟩]

/-- C78 is not vacuous: an update succeeds; one of the same version, after a check that holds, does not; an update of another tablet does. -/
example : Lawful exEnv ∧ (∀ i, (logOf exCluster i).index = i) ∧ (∀ x, DrvExample.codecs.decEntry (DrvExample.codecs.encEntry x) = some x) ∧
    ∃ ds, Deployed (appSys (actor exEnv)) (logOf exCluster) 0 (·.tables = []) [2] ds ∧
      reached [⟨7, [1], [1]⟩, ⟨8, [1], [0]⟩, ⟨9, [1], [1]⟩] (ds 0) (ds 1) = true :=
  ⟨exEnv_lawful, logOf_index _, DrvExample.entryC_lawful, outcome_sound (a0 := (⟨[], 0⟩ : State)) rfl
    (snap := exEnv.encSnap [("t", [exMeta 10 1, Metadata.new 20])])
    (rs := [(7, [1], exEnv.encReq [exUpd 10 1]), (8, [1], exEnv.encReq [exChk 20 0, exUpd 10 1]), (9, [1], exEnv.encReq [exUpd 20 1])])
    (by decide +kernel)⟩

/-- `C78_linearizable` is not vacuous: the third request is handed in when the first two were applied. -/
example : ∃ ds ds', Deployed (appSys (actor exEnv)) (logOf exCluster) 0 (·.tables = []) [2] ds ∧
      Causal DrvExample.codecs.decEntry (logOf exCluster) ds ∧ (ds 0).applied = 3 ∧
      Deployed (appSys (actor exEnv)) (logOf exCluster) 0 (·.tables = []) [2] ds' ∧
      reached [⟨7, [1], [1]⟩, ⟨8, [1], [0]⟩, ⟨9, [1], [1]⟩] (ds' 0) (ds' 1) = true ∧
      ∀ q, ∀ c ∈ (ds q).trace.filterMap handed, c.correlationId ≠ 9 :=
  moments_sound (a0 := (⟨[], 0⟩ : State)) rfl (snap := exEnv.encSnap [("t", [exMeta 10 1, Metadata.new 20])])
    (r1 := (7, [1], exEnv.encReq [exUpd 10 1])) (r2 := (8, [1], exEnv.encReq [exChk 20 0, exUpd 10 1]))
    (r3 := (9, [1], exEnv.encReq [exUpd 20 1])) (by decide +kernel)

end TCP.TabletStore
