import Verif.Props.ServiceClusterExample

/-!
# C92: what clients of a willow decryptor cluster observe
-/

namespace TCP.Willow

open TCP ActorSpec Spec Drv DrvSpec ServiceSpec

variable {ρ κ H : Type} {R : RaftT ρ} {C : CommT κ H} {E : Codecs}

theorem correlates (env : Env) : Correlates (actor env) := by
  intro ctx s c s' o ev h he
  cases c with
  | none =>
    simp only [actor, onProcessCommand, Run.ok.injEq, Prod.mk.injEq, Except.ok.injEq] at h
    rw [← h.2] at he
    cases he
  | some c =>
    rcases command_event (env := env) h he with ⟨k, _, _, rfl⟩ | ⟨k, q, kp, r, _, _, _, rfl⟩ <;> exact ⟨c, rfl, rfl⟩

theorem echoes (env : Env) : Echoes (actor env) := by
  intro ctx s c s' o r h hr
  rcases command_reply (env := env) h hr with ⟨_, q, hq, hr⟩ | ⟨q, _, _, hq, _, _, hr⟩ <;> exact ⟨q, hq, by rw [hr]⟩

/-- What an event can be answered. -/
theorem apply_reply {env : Env} {ctx : ActorCtx} {s s' : State} {i : Nat} {own : Bool} {ev : ActorEvent} {o : EventOutcome} {r : ActorCommand}
    (hap : onApplyEvent env ctx s ⟨i, own⟩ ev = .ok (s', .ok o)) (hr : r ∈ o.commands) (hne : ¬ IsError env r) :
    own = true ∧ ((∃ g, Generates env ev g ∧ r = ⟨ev.correlationId, env.encResp (.generateKey g.keyId g.publicKey), []⟩) ∨
     ∃ k x, Decrypts env ev k x ∧ r = ⟨ev.correlationId, env.encResp (.decrypt x), []⟩) := by
  unfold onApplyEvent at hap
  simp only at hap
  rcases hd : env.decEv ev.contents with _ | g | ⟨k, x⟩ | _
  · rw [hd] at hap; simp at hap
  · rw [hd] at hap
    simp only [Run.ok.injEq, Prod.mk.injEq, Except.ok.injEq] at hap
    rw [← hap.2] at hr
    simp only at hr
    split at hr
    · rename_i hown
      exact ⟨by simpa using hown, .inl ⟨g, hd, by simpa [ActorCommand.withHeader] using hr⟩⟩
    · simp at hr
  · rw [hd] at hap
    simp only [Run.ok.injEq, Prod.mk.injEq, Except.ok.injEq] at hap
    rw [← hap.2] at hr
    simp only at hr
    split at hr
    · rename_i hown
      exact ⟨by simpa using hown, .inr ⟨k, x, hd, by simpa [ActorCommand.withHeader] using hr⟩⟩
    · simp at hr
  · rw [hd] at hap
    simp only [Run.ok.injEq, Prod.mk.injEq, Except.ok.injEq] at hap
    rw [← hap.2] at hr
    exact absurd ⟨_, _, by simpa [ActorCommand.withHeader] using hr⟩ hne

theorem replies (env : Env) : Replies (actor env) fun r => ¬ IsError env r := by
  intro ctx s i own ev s' o r hap hr hne
  obtain ⟨h1, h2 | h2⟩ := apply_reply (env := env) (ctx := ctx) hap hr hne
  · obtain ⟨g, _, rfl⟩ := h2; exact ⟨h1, rfl⟩
  · obtain ⟨k, x, _, rfl⟩ := h2; exact ⟨h1, rfl⟩

theorem early_read {env : Env} (he : Lawful env) {log : Nat → Entry} {cfg : Bytes} {f : State}
    {h : List (Nat × Service.Event (Req H) (List (Drv.OutMsg H)))} {p n : Nat} {r : ActorCommand} (hne : ¬ IsError env r)
    (hx : EarlyAt ⟨actor env, R, C, E⟩ log State.Fresh cfg f h p r n) : KeyReadAt env E.decEntry log h p r n := by
  obtain ⟨ctx, s, c, s', o, ha, hs, hc, hr⟩ := hx
  rcases command_reply (env := env) hc hr with ⟨code, q, _, hr⟩ | ⟨q, k, kp, rfl, hk, hst, hr⟩
  · exact absurd ⟨_, _, hr⟩ hne
  · obtain ⟨a, ev, b, g, h1, h2, h3, h4, h5, h6⟩ := C38_latest_partial he hs.1 hst
    exact ⟨q, k, g, ha q rfl, hk, ⟨a, ev, b, h1, h2, h3, h5, h6⟩, by rw [hr, h4]⟩

theorem replied_logged {env : Env} {log : Nat → Entry} {cfg : Bytes} {f : State} {id i : Nat} {r : ActorCommand} (hne : ¬ IsError env r)
    (hx : Replied ⟨actor env, R, C, E⟩ log State.Fresh cfg f id r i) : LoggedAt env E.decEntry log id r i := by
  obtain ⟨ev, s, ctx, s', o, h2, hev, hpr, _, hap, hr⟩ := hx
  exact ⟨ev, h2, hev, hpr, (apply_reply (env := env) (ctx := ctx) hap hr hne).2⟩

/-- C92: every answer that a client of any replica's service gets is an error, the public key that is current after some part of the log for
the id it asked for, or the answer to the event at some position of the log.  The positions of the latter respect the real-time order of
the calls of all services; and a key read at a service after an answer of the latter kind was given by the same service is current at some
position not before that answer's.  Missing: the same for services of different replicas, which fails. -/
theorem C92_clients_partial {env : Env} (he : Lawful env) (hcod : ∀ x, E.decEntry (E.encEntry x) = some x) {log : Nat → Entry}
    (hl : ∀ i, (log i).index = i) {founder : Nat} {cfg : Bytes} {ss : Nat → Srv State ρ κ H} {h}
    (hh : Served ⟨actor env, R, C, E⟩ log founder State.Fresh cfg ss h) :
    ∃ pos : Nat → ActorCommand → Nat,
      (∀ p r, Told h p r → IsError env r ∨ (∃ n, KeyReadAt env E.decEntry log h p r n) ∨ LoggedAt env E.decEntry log (replicas ss p).id r (pos p r)) ∧
      InOrder h (fun p => (replicas ss p).id) (fun p r => ¬ IsError env r ∧ ¬ ∃ n, KeyReadAt env E.decEntry log h p r n) pos ∧
      ∀ h1 h2, h = h1 ++ h2 → ∀ p r1 r2, Told h1 p r1 → ¬ IsError env r1 → (¬ ∃ n, KeyReadAt env E.decEntry log h p r1 n) → Told h p r2 →
        ¬ IsError env r2 → (∀ c, Asked h1 p c → c.correlationId ≠ r2.correlationId) →
        (∃ n, pos p r1 ≤ n ∧ KeyReadAt env E.decEntry log h p r2 n) ∨ LoggedAt env E.decEntry log (replicas ss p).id r2 (pos p r2) := by
  obtain ⟨f, _, pos, h1, h2, h3⟩ := ServiceProps.served_order (S := ⟨actor env, R, C, E⟩) hcod (correlates env) (inert env) (replies env) hl hh
  have late : ∀ {p r}, ¬ IsError env r → (¬ ∃ n, KeyReadAt env E.decEntry log h p r n) →
      ¬ ∃ n, EarlyAt ⟨actor env, R, C, E⟩ log State.Fresh cfg f h p r n :=
    fun hne hnr ⟨n, hn⟩ => hnr ⟨n, early_read he hne hn⟩
  refine ⟨pos, fun p r ht => ?_, fun ha hb heq p1 r1 p2 r2 t1 n1 t2 n2 => h2 ha hb heq p1 r1 p2 r2 t1 ⟨n1.1, late n1.1 n1.2⟩ t2 ⟨n2.1, late n2.1 n2.2⟩, ?_⟩
  · by_cases hne : IsError env r
    · exact .inl hne
    · by_cases hnr : ∃ n, KeyReadAt env E.decEntry log h p r n
      · exact .inr (.inl hnr)
      · exact .inr (.inr (replied_logged hne (h1 p r ht hne (late hne hnr))))
  · intro ha hb heq p r1 r2 t1 e1 k1 t2 e2 hnew
    rcases h3 (echoes env) ha hb heq p r1 r2 t1 e1 (late e1 k1) t2 hnew e2 with ⟨n, hn, hx⟩ | hx
    · exact .inl ⟨n, hn, early_read he e2 hx⟩
    · exact .inr (replied_logged e2 hx)

/-! ## The failure -/

open ServiceExample AppExample DrvExample Service

/-- Like `raft`, but a replica that gets a batch believes that it leads from then on. -/
def raft2 : RaftT Raft := { raft with
  getReady := fun r => match r.queue with
    | [] => .panic
    | q :: qs => .ok ({ r with queue := qs, st := ⟨1, 1, [], false⟩, last := q.committed.foldl (fun n e => max n e.index) r.last }, q) }

/-- A key is generated, used, and another one generated. -/
def exStale : List LogEntry :=
  [⟨some (1, 7), exEnv.encEv (.generateKey ⟨[0, 1], [9, 0, 1], [1], 1⟩)⟩, ⟨some (2, 8), exEnv.encEv (.decrypt [1] [0, 9, 0, 1, 5])⟩,
   ⟨some (2, 9), exEnv.encEv (.generateKey ⟨[1, 1], [9, 1, 1], [1], 1⟩)⟩]

/-- What the second replica gets when it joins and takes over. -/
def joinBatch : Ready := ⟨[], [], [], [logOf exStale 2], none, ⟨⟨1, 1, ⟨[1], [], []⟩⟩, exEnv.encSnap []⟩, 1⟩

/-- The first replica starts and generates a key; the second one joins, takes over, uses the key and generates another one; then the first
replica, which still believes that it leads, is asked for the key. -/
def staleCalls : List (Bool × Act) :=
  whole false 0 (1, start true 1 []) ++ whole false 1 (2, request 7 [1, 0, 1, 0, 1] []) ++ whole true 0 (1, start false 2 []) ++ whole true 1 (2, none) ++
  whole true 2 (3, request 8 [1, 1, 1, 0, 1, 1, 0, 5] []) ++ whole true 3 (4, request 9 [1, 0, 1, 0, 1] []) ++ whole false 2 (5, request 10 [1, 0, 1, 0, 1] [])

def staleEnd : Option ((AppSrv State × AppSrv State) × Hist) :=
  serveAll (actor exEnv) raft2 (logOf exStale) [] (idle ⟨[], 0⟩ []) (.new (idle ⟨[], 0⟩ []), .new (idle ⟨[], 0⟩ [joinBatch])) [] staleCalls

def staleOk : Bool :=
  match staleEnd with
  | some x => decide ((x.2.take 18).flatMap replies? = [(0, ⟨7, exEnv.encResp (.generateKey [1] [0, 1]), []⟩),
      (1, ⟨8, exEnv.encResp (.decrypt [0, 9, 0, 1, 5]), []⟩), (1, ⟨9, exEnv.encResp (.generateKey [1] [1, 1]), []⟩)] ∧
      (x.2.drop 18).flatMap replies? = [(0, ⟨10, exEnv.encResp (.generateKey [1] [0, 1]), []⟩)] ∧
      ((x.2.take 18).filterMap asks?).all (fun x => x.2.correlationId != 10) = true)
  | none => false

theorem stale_events {n : Nat} (hn : 3 ≤ n) : ∃ q, (q = [] ∨ q = [⟨9, exEnv.encEv (.generateKey ⟨[1, 1], [9, 1, 1], [1], 1⟩)⟩]) ∧
    eventsUpTo codecs.decEntry (logOf exStale) n
      = ⟨7, exEnv.encEv (.generateKey ⟨[0, 1], [9, 0, 1], [1], 1⟩)⟩ :: ⟨8, exEnv.encEv (.decrypt [1] [0, 9, 0, 1, 5])⟩ :: q := by
  have h4 : ∀ m, 4 ≤ m → eventsUpTo codecs.decEntry (logOf exStale) m = eventsUpTo codecs.decEntry (logOf exStale) 4 := by
    intro m hm
    induction m with
    | zero => omega
    | succ m ih =>
      rcases Nat.lt_or_ge m 4 with hlt | hge
      · have : m = 3 := by omega
        subst this; rfl
      · rw [eventsUpTo_succ (by omega), ih hge]
        match m, hge with
        | m + 4, _ => simp [logOf, exStale, eventOf]
  rcases Nat.lt_or_ge n 4 with hlt | hge
  · have : n = 3 := by omega
    subst this
    exact ⟨[], .inl rfl, by decide +kernel⟩
  · exact ⟨_, .inr rfl, by rw [h4 n hge]; decide +kernel⟩

/-- C92, what fails: clients of the second replica's service got the decryption with the key and the next key for the same id, and only then
another client asks the first replica's service for the key of that id; it gets the key that was used, which after the part of the log
the first answers belong to is not current any more. -/
theorem C92_stale_fails : ∃ (ss : Nat → AppSrv State) (h1 h2 : Hist),
    Served ⟨actor exEnv, raft2, comm, codecs⟩ (logOf exStale) 0 State.Fresh [] ss (h1 ++ h2) ∧
    Told h1 1 ⟨8, exEnv.encResp (.decrypt [0, 9, 0, 1, 5]), []⟩ ∧ Told h1 1 ⟨9, exEnv.encResp (.generateKey [1] [1, 1]), []⟩ ∧
    (∀ id i, LoggedAt exEnv codecs.decEntry (logOf exStale) id ⟨8, exEnv.encResp (.decrypt [0, 9, 0, 1, 5]), []⟩ i → 3 ≤ i) ∧
    (∀ p c, Asked h1 p c → c.correlationId ≠ 10) ∧ Told (h1 ++ h2) 0 ⟨10, exEnv.encResp (.generateKey [1] [0, 1]), []⟩ ∧
    ∀ p n, KeyReadAt exEnv codecs.decEntry (logOf exStale) (h1 ++ h2) p ⟨10, exEnv.encResp (.generateKey [1] [0, 1]), []⟩ n → n < 3 := by
  have hok : staleOk = true := by decide +kernel
  unfold staleOk at hok
  split at hok
  · rename_i x hx
    obtain ⟨k1, k2, k3⟩ := of_decide_eq_true hok
    refine ⟨services (idle ⟨[], 0⟩ []) x.1, x.2.take 18, x.2.drop 18, ?_, replies_sound (by rw [k1]; simp), replies_sound (by rw [k1]; simp), ?_,
      fun p c hc => ?_, replies_sound (by rw [List.flatMap_append, k2]; simp), ?_⟩
    · rw [List.take_append_drop]
      refine serveAll_sound (ab' := x.1) hx (.new fun p => ?_)
      unfold services
      split
      · exact ⟨⟨[], 0⟩, _, _, rfl, rfl⟩
      · split <;> exact ⟨⟨[], 0⟩, _, _, rfl, rfl⟩
    · rintro id i ⟨ev, h2, hev, _, hr⟩
      rcases Nat.lt_or_ge i 3 with hlt | hge
      · exfalso
        have : i = 2 := by omega
        subst this
        have h7 : eventOf codecs.decEntry (logOf exStale 2) = some ⟨7, exEnv.encEv (.generateKey ⟨[0, 1], [9, 0, 1], [1], 1⟩)⟩ := by decide +kernel
        rw [h7] at hev
        cases hev
        rcases hr with ⟨g, _, hr⟩ | ⟨k, x, _, hr⟩ <;> (have := congrArg ActorCommand.correlationId hr; simp at this)
      · exact hge
    · have := List.all_eq_true.1 k3 _ (asks_complete hc)
      simpa using this
    · rintro p n ⟨c, k, g, _, _, ⟨a, ev, b, he, hg, hk, hb1, hb2⟩, hr⟩
      rcases Nat.lt_or_ge n 3 with hlt | hge
      · exact hlt
      · exfalso
        have henc := congrArg ActorCommand.header hr
        simp only at henc
        have hinj := (Codec.decode_enc exResp (.generateKey [1] [0, 1])).symm.trans ((congrArg exResp.decode henc).trans (Codec.decode_enc exResp (.generateKey k g.publicKey)))
        simp only [Option.some.injEq, Response.generateKey.injEq] at hinj
        obtain ⟨rfl, hpk⟩ := hinj
        obtain ⟨q, hq, hev⟩ := stale_events hge
        rw [hev] at he
        match a, he with
        | [], he =>
          simp only [List.nil_append, List.cons.injEq] at he
          refine hb2 ⟨8, exEnv.encEv (.decrypt [1] [0, 9, 0, 1, 5])⟩ (by rw [← he.2]; simp) [0, 9, 0, 1, 5] ?_
          exact exEnv_lawful.ev (.decrypt [1] [0, 9, 0, 1, 5])
        | [_], he =>
          simp only [List.cons_append, List.nil_append, List.cons.injEq] at he
          rw [← he.2.1] at hg
          have := (exEnv_lawful.ev (.decrypt [1] [0, 9, 0, 1, 5])).symm.trans hg
          cases this
        | _ :: _ :: a, he =>
          simp only [List.cons_append, List.cons.injEq] at he
          rcases hq with rfl | rfl
          · exact absurd he.2.2 (by simp)
          · have hea : ev = ⟨9, exEnv.encEv (.generateKey ⟨[1, 1], [9, 1, 1], [1], 1⟩)⟩ := by
              have := he.2.2
              cases a with
              | nil => simp only [List.nil_append, List.cons.injEq] at this; exact this.1.symm
              | cons y a => simp at this
            rw [hea] at hg
            have := (exEnv_lawful.ev (.generateKey ⟨[1, 1], [9, 1, 1], [1], 1⟩)).symm.trans hg
            cases this
            exact absurd hpk (by decide)
  · cases hok

/-- C92 is not vacuous: the hypotheses are those that the failure above meets, with answers of the log's kind at both services. -/
example : Lawful exEnv ∧ (∀ x, codecs.decEntry (codecs.encEntry x) = some x) ∧ (∀ i, (logOf exStale i).index = i) ∧
    ∃ (ss : Nat → AppSrv State) (h1 h2 : Hist), Served ⟨actor exEnv, raft2, comm, codecs⟩ (logOf exStale) 0 State.Fresh [] ss (h1 ++ h2) ∧
      Told h1 1 ⟨8, exEnv.encResp (.decrypt [0, 9, 0, 1, 5]), []⟩ ∧ ¬ IsError exEnv ⟨8, exEnv.encResp (.decrypt [0, 9, 0, 1, 5]), []⟩ ∧
      (¬ ∃ n, KeyReadAt exEnv codecs.decEntry (logOf exStale) (h1 ++ h2) 1 ⟨8, exEnv.encResp (.decrypt [0, 9, 0, 1, 5]), []⟩ n) := by
  obtain ⟨ss, h1, h2, hs, ht, _⟩ := C92_stale_fails
  refine ⟨exEnv_lawful, entryC_lawful, logOf_index _, ss, h1, h2, hs, ht, ?_, ?_⟩
  · rintro ⟨corr, code, hr⟩
    have := (Codec.decode_enc exResp (.decrypt [0, 9, 0, 1, 5])).symm.trans
      ((congrArg exResp.decode (congrArg ActorCommand.header hr)).trans (Codec.decode_enc exResp (.error code)))
    simp at this
  · rintro ⟨n, c, k, g, _, _, _, hr⟩
    have := (Codec.decode_enc exResp (.decrypt [0, 9, 0, 1, 5])).symm.trans
      ((congrArg exResp.decode (congrArg ActorCommand.header hr)).trans (Codec.decode_enc exResp (.generateKey k g.publicKey)))
    simp at this

end TCP.Willow
