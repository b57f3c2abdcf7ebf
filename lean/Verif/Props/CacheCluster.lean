import Verif.Proofs.StoreCluster
import Verif.Props.CacheMany

/-!
# C90: transactions on a replicated tablet store
-/

namespace TCP.Cache.Props

open TCP TCP.Cache TCP.Cache.Spec TCP.TabletStore ActorSpec Drv DrvSpec

section
variable {ρ κ H : Type} {R : RaftT ρ} {C : CommT κ H} {E : Codecs} {senv : TabletStore.Env}

/-- C90 (the store): a replicated tablet store acts as a single one.  There are a state `f` in which a store started with the configuration, and
a list of requests – those in the replicated log – with the responses such a store gives when it carries them out one after the other,
such that the tables of every replica that joined are those of that store after the requests it has applied, and every message a replica
sends to a client refuses a command it was handed, or is the response to a request of that list which the replica proposed.  (The messages of
an earlier moment `ds0` answer requests applied at that moment.) -/
theorem C90_store (he : TabletStore.Spec.Lawful senv) {slog : Nat → Drv.Entry} (hl : ∀ i, (slog i).index = i) {founder : Nat} {scfg : Bytes}
    {ds : Nat → Driver State ρ κ H} (h : Deployed ⟨actor senv, R, C, E⟩ slog founder (·.tables = []) scfg ds) (hf : ∃ p, 1 ≤ (ds p).applied) :
    ∃ (f : State) (log : List (List TabletOp × Response)) (t : Tables),
      (∃ ctx s0, s0.tables = [] ∧ ctx.config = scfg ∧ Started (actor senv) s0 ctx f) ∧ Log senv f.tables log t ∧
      (∃ q, log.map Prod.fst = requestsIn senv (eventsUpTo E.decEntry slog (ds q).applied)) ∧
      (∀ p, 1 ≤ (ds p).applied → ∃ pre post tp, log = pre ++ post ∧ pre.map Prod.fst = requestsIn senv (eventsUpTo E.decEntry slog (ds p).applied) ∧
        Log senv f.tables pre tp ∧ ∀ n, tp.get n = (ds p).actor.tables.get n) ∧
      ∀ ds0 : Nat → Driver State ρ κ H, Deployed ⟨actor senv, R, C, E⟩ slog founder (·.tables = []) scfg ds0 → (∀ p, (ds0 p).trace <+: (ds p).trace) →
        ∀ p, ∀ r ∈ appMessages (outMessages (ds0 p).trace),
        (∃ c ∈ (ds0 p).trace.filterMap handed, ∃ st, r = ⟨c.correlationId, senv.encOut (.error st), []⟩) ∨
        ∃ i ev ops resp pre post, 2 ≤ i ∧ i ≤ (ds0 p).applied ∧ i ≤ (ds p).applied ∧ eventOf E.decEntry (slog i) = some ev ∧ proposerOf E.decEntry (slog i) = some (ds0 p).id ∧
          senv.decReq ev.contents = some ops ∧ r = ⟨ev.correlationId, senv.encOut .response, senv.encResp resp⟩ ∧
          log = pre ++ (ops, resp) :: post ∧ pre.map Prod.fst = requestsIn senv (eventsUpTo E.decEntry slog (i - 1)) := by
  obtain ⟨⟨f, I⟩, _⟩ := app_inv hl (inert senv) h
  have mem : ∀ p, 1 ≤ (ds p).applied → TabletStore.Spec.Member senv scfg f (eventsUpTo E.decEntry slog (ds p).applied) (ds p).actor := by
    intro p hp
    have hst : (ds p).state ≠ .created := by
      intro hc
      obtain ⟨d0, outs, h0, hruns⟩ := I.runs p
      have := ((runs_created h0 hruns).inv hc).2.1
      omega
    exact member_of ((I.actor p hst).2 hp)
  obtain ⟨q, hq⟩ := deployed_max h
  obtain ⟨p1, hp1⟩ := hf
  have hmq := mem q (Nat.le_trans hp1 (hq p1))
  obtain ⟨log, t, h1, h2, h3⟩ := member_log he hmq
  have grow : ∀ {n : Nat} {k : List (List TabletOp × Response)} {t'}, n ≤ (ds q).applied → Log senv f.tables k t' →
      k.map Prod.fst = requestsIn senv (eventsUpTo E.decEntry slog n) → ∃ post, log = k ++ post := by
    intro n k t' hn hk he
    refine log_prefix h1 hk ?_
    obtain ⟨more, hm⟩ := eventsUpTo_le (dec := E.decEntry) (log := slog) hn
    rw [h3, he, hm]
    unfold requestsIn
    rw [List.filterMap_append]
    exact List.prefix_append _ _
  refine ⟨f, log, t, ?_, h1, ⟨q, h3⟩, fun p hp => ?_, fun ds0 hd0 hlater p r hr => ?_⟩
  · clear h2 h3 grow
    generalize (ds q).actor = a at hmq
    generalize eventsUpTo _ slog (ds q).applied = evs at hmq
    induction hmq with
    | boot h0 hc h => exact ⟨_, _, h0, hc, h⟩
    | apply _ _ ih => exact ih
    | command _ _ ih => exact ih
    | save _ _ ih => exact ih
    | load _ _ _ _ ih => exact ih
  · obtain ⟨k, tp, k1, k2, k3⟩ := member_log he (mem p hp)
    obtain ⟨post, hpost⟩ := grow (hq p) k1 k3
    exact ⟨k, post, tp, hpost, k3, k1, k2⟩
  · obtain ⟨⟨f0, I0⟩, _⟩ := app_inv hl (inert senv) hd0
    rcases app_answers_later hl hd0 I0 I (hlater p) hr with
      ⟨n, s, s', ctx, c, o, _, _, hm', hc, hr'⟩ | ⟨i, replica, ev, s, s', ctx, o, h2, ha0, ha, hs, hev, hpr, hap, hr'⟩
    · obtain ⟨q, rfl, st, h4⟩ := command_refuses hc hr'
      exact .inl ⟨q, List.mem_filterMap.2 ⟨_, hm', rfl⟩, st, h4⟩
    · right
      have hmem := member_of (hs.2 (by omega))
      obtain ⟨k, tp, k1, k2, k3⟩ := member_log he hmem
      rcases apply_cases (ctx := ctx) hap with ⟨_, _, hx⟩ | ⟨ops, resp, hd, h4, _, hx⟩
      · cases hx
      · simp only [Except.ok.injEq] at hx
        rw [hx] at hr'
        simp only at hr'
        split at hr'
        · rename_i hown
          have hid : replica = (ds0 p).id := by simpa using hown
          subst hid
          obtain ⟨tp', h5, _⟩ := applyRequest_same k2.symm h4
          have k4 : (k ++ [(ops, resp)]).map Prod.fst = requestsIn senv (eventsUpTo E.decEntry slog i) := by
            have := eventsUpTo_succ (dec := E.decEntry) (log := slog) (n := i - 1) (by omega)
            rw [show i - 1 + 1 = i by omega] at this
            rw [this, hev]
            unfold requestsIn at k3 ⊢
            simp [hd, k3]
          obtain ⟨post, hpost⟩ := grow (Nat.le_trans ha (hq p)) (k1.snoc h5) k4
          exact ⟨i, ev, ops, resp, k, post, h2, ha0, ha, hev, hpr, hd, by simpa using hr', by rw [hpost]; simp, k3⟩
        · simp at hr'

end

section
variable {α η ω : Type} [DecidableEq α] [DecidableEq η] [DecidableEq ω]
variable {ρ κ H : Type} {R : RaftT ρ} {C : CommT κ H} {E : Codecs} {senv : TabletStore.Env}
variable {ι : Type} {env : TxnEnv α η ω} {blank : Bytes} {cfg : ι → List (String × UInt32)} {evs : ι → List (MEvent η)} {c : ι → Client α η ω}

/-- What is in the replicated log was handed to some replica. -/
theorem event_handed (hcod : ∀ x, E.decEntry (E.encEntry x) = some x) {slog : Nat → Drv.Entry} (hl : ∀ i, (slog i).index = i) {founder : Nat} {scfg : Bytes}
    {ds : Nat → Driver State ρ κ H} (h : Deployed ⟨actor senv, R, C, E⟩ slog founder (·.tables = []) scfg ds) (hca : Causal E.decEntry slog ds)
    {p i : Nat} {ev : ActorEvent} (h2 : 2 ≤ i) (ha : i ≤ (ds p).applied) (hev : eventOf E.decEntry (slog i) = some ev) :
    ∃ q, ∃ m ∈ (ds q).trace.filterMap handed, m.correlationId = ev.correlationId ∧ m.payload = ev.contents := by
  obtain ⟨⟨f, I⟩, _⟩ := app_inv hl (inert senv) h
  obtain ⟨q, hq⟩ := hca p i ev h2 ha hev
  obtain ⟨n, s, s', ctx, c, o, ev', _, _, hm, hc, ho, hb⟩ := app_proposals I hq
  obtain ⟨replica, _, hdec⟩ := eventOf_some hev
  rw [hb, hcod] at hdec
  simp only [Option.some.injEq, LogEntry.mk.injEq, Prod.mk.injEq] at hdec
  obtain ⟨⟨_, h3⟩, h4⟩ := hdec
  obtain ⟨cs, e⟩ := o
  simp only at ho
  subst ho
  obtain ⟨_, _, cmd, _, rfl, hev', _⟩ := C60_proposals_decode (.command hc)
  refine ⟨q, cmd, List.mem_filterMap.2 ⟨_, hm, rfl⟩, ?_, ?_⟩
  · rw [← h3, hev']
  · rw [← h4, hev']

theorem eventsUpTo_mem {dec : Bytes → Option LogEntry} {slog : Nat → Drv.Entry} {n : Nat} {ev : ActorEvent} (h : ev ∈ eventsUpTo dec slog n) :
    ∃ i, 2 ≤ i ∧ i ≤ n ∧ eventOf dec (slog i) = some ev := by
  induction n with
  | zero => simp [eventsUpTo, segment] at h
  | succ n ih =>
    by_cases hn : 1 ≤ n
    · rw [eventsUpTo_succ hn] at h
      rcases List.mem_append.mp h with h | h
      · obtain ⟨i, h1, h2, h3⟩ := ih h
        exact ⟨i, h1, by omega, h3⟩
      · exact ⟨n + 1, by omega, Nat.le_refl _, by simpa using h⟩
    · have : n = 0 := by omega
      subst this
      simp [eventsUpTo, segment] at h

/-- A replicated tablet store, for the managers, is one tablet store.  What a manager had been told at an earlier moment is the response to an entry
of the log that some replica had applied at that moment. -/
theorem replicated_deployment (henc : Encodings senv) (hcod : ∀ x, E.decEntry (E.encEntry x) = some x) {slog : Nat → Drv.Entry} (hl : ∀ i, (slog i).index = i)
    {founder : Nat} {scfg : Bytes} {ds : Nat → Driver State ρ κ H} (h : Deployed ⟨actor senv, R, C, E⟩ slog founder (·.tables = []) scfg ds)
    (hca : Causal E.decEntry slog ds) (hf : ∃ p, 1 ≤ (ds p).applied) {tag : ι → Nat → Nat} (N : Network senv ds tag evs) (M : Managers env blank cfg evs c)
    (ht : ∀ p, TablesConfigured senv scfg (evs p)) :
    ∃ (f : State) (log : List (List TabletOp × Response)) (t : Tables),
      (∃ ctx s0, s0.tables = [] ∧ ctx.config = scfg ∧ Started (actor senv) s0 ctx f) ∧
      (∃ q, log.map Prod.fst = requestsIn senv (eventsUpTo E.decEntry slog (ds q).applied)) ∧ Deployment env senv f log t blank cfg evs c ∧
      ∀ ds0 evs0, Deployed ⟨actor senv, R, C, E⟩ slog founder (·.tables = []) scfg ds0 → EarlierMoment senv ds0 ds tag evs0 evs →
        ∀ p corr r, .input (.response corr r) ∈ evs0 p → ∃ i ev ops pre post, 2 ≤ i ∧ (∃ q, i ≤ (ds0 q).applied) ∧ (∃ q, i ≤ (ds q).applied) ∧
          eventOf E.decEntry (slog i) = some ev ∧ ev.correlationId = tag p corr ∧ senv.decReq ev.contents = some ops ∧
          log = pre ++ (ops, r) :: post ∧ pre.map Prod.fst = requestsIn senv (eventsUpTo E.decEntry slog (i - 1)) ∧
          ∀ i ops', .commit i [(corr, ops')] ∈ evs p → ops' = ops := by
  obtain ⟨f, log, t, ⟨ctx, s0, h0, h1, hst⟩, hlog, ⟨q, hq⟩, _, hans⟩ := C90_store henc.lawful hl h hf
  have key : ∀ ds0 evs0, Deployed ⟨actor senv, R, C, E⟩ slog founder (·.tables = []) scfg ds0 → EarlierMoment senv ds0 ds tag evs0 evs →
        ∀ p corr r, .input (.response corr r) ∈ evs0 p → ∃ i ev ops pre post, 2 ≤ i ∧ (∃ q, i ≤ (ds0 q).applied) ∧ (∃ q, i ≤ (ds q).applied) ∧
          eventOf E.decEntry (slog i) = some ev ∧ ev.correlationId = tag p corr ∧ senv.decReq ev.contents = some ops ∧
          log = pre ++ (ops, r) :: post ∧ pre.map Prod.fst = requestsIn senv (eventsUpTo E.decEntry slog (i - 1)) ∧
          ∀ i ops', .commit i [(corr, ops')] ∈ evs p → ops' = ops := by
    intro ds0 evs0 hd0 hearly p corr r hr
    obtain ⟨q, hq⟩ := hearly.response p corr r hr
    rcases hans ds0 hd0 hearly.replicas q _ hq with ⟨c, _, st, he⟩ | ⟨i, ev, ops, resp, pre, post, h2, ha0, ha, hev, _, hd, he, hlog, hpre⟩
    · simp only [ActorCommand.mk.injEq] at he
      exact absurd he.2.1.symm (henc.error st)
    · simp only [ActorCommand.mk.injEq, true_and] at he
      obtain ⟨e1, e2⟩ := he
      cases henc.response _ _ e2
      refine ⟨i, ev, ops, pre, post, h2, ⟨q, ha0⟩, ⟨q, ha⟩, hev, e1.symm, hd, hlog, hpre, fun j ops' hc => ?_⟩
      obtain ⟨q', m, hm, k1, k2⟩ := event_handed hcod hl h hca h2 ha hev
      have := N.commit q' m hm p j corr ops' hc (k1.trans e1.symm)
      rw [k2, hd] at this
      exact (Option.some.inj this).symm
  have now := key ds evs h ⟨fun _ => List.prefix_refl _, fun _ => List.prefix_refl _, N.response⟩
  refine ⟨f, log, t, ⟨ctx, s0, h0, h1, hst⟩, ⟨q, hq⟩, ⟨M.uris, M.history, M.configured, hlog, fun p => ⟨fun corr r hr => ?_, fun i corr ops r hc hr => ?_⟩, fun p i corr ops hc o ho => ?_,
    M.rejected, M.once, fun table id m hm => ?_, fun ops r hm table u hu => ?_, M.storage, M.hashes, M.codec⟩, key⟩
  · obtain ⟨_, _, ops, _, _, _, _, _, _, _, _, k, _⟩ := now p corr r hr
    exact ⟨ops, by rw [k]; simp⟩
  · obtain ⟨_, _, ops', _, _, _, _, _, _, _, _, k1, _, k2⟩ := now p corr r hr
    rw [k2 i ops hc, k1]
    simp
  · obtain ⟨cs, n, k1, k2⟩ := ht p i corr ops hc o ho
    obtain ⟨cs', k3, rfl⟩ := started_eq hst
    rw [h1, k1] at k3
    cases Option.some.inj k3
    exact initTables_names cs (.inl (List.mem_map.mpr ⟨_, k2, rfl⟩))
  · rw [started_new h0 hst hm]
    rfl
  · have : ops ∈ log.map Prod.fst := List.mem_map.mpr ⟨_, hm, rfl⟩
    rw [hq] at this
    obtain ⟨ev, hev, hd⟩ := List.mem_filterMap.mp this
    obtain ⟨i, k1, k2, k3⟩ := eventsUpTo_mem hev
    obtain ⟨q', m, hm, _, k5⟩ := event_handed hcod hl h hca k1 k2 k3
    exact N.writes q' m hm ops (by rw [k5]; exact hd) table u hu

theorem steps_cut {env : TxnEnv α η ω} {c0 c : Client α η ω} {a b : List (MEvent η)} (h : MSteps env c0 (a ++ b) c) : ∃ c1, MSteps env c0 a c1 := by
  cases b with
  | nil => exact ⟨c, by simpa using h⟩
  | cons e b =>
    obtain ⟨c1, _, k, _⟩ := h.split rfl
    exact ⟨c1, k⟩

theorem least {Q : Nat → Prop} {n : Nat} (h : Q n) : ∃ m, Q m ∧ ∀ k, Q k → m ≤ k := by
  induction n using Nat.strongRecOn with
  | _ n ih =>
    by_cases hs : ∃ k, k < n ∧ Q k
    · obtain ⟨k, h1, h2⟩ := hs
      exact ih k h1 h2
    · exact ⟨n, h, fun k hk => Nat.le_of_not_lt fun hlt => hs ⟨k, hlt, hk⟩⟩

theorem requests_before {dec : Bytes → Option LogEntry} {slog : Nat → Drv.Entry} {i j : Nat} {ev : ActorEvent} {ops : List TabletOp} (h2 : 2 ≤ i) (hij : i < j)
    (hev : eventOf dec (slog i) = some ev) (hd : senv.decReq ev.contents = some ops) :
    (requestsIn senv (eventsUpTo dec slog (i - 1))).length < (requestsIn senv (eventsUpTo dec slog (j - 1))).length := by
  obtain ⟨more, hm⟩ := eventsUpTo_le (dec := dec) (log := slog) (show i ≤ j - 1 by omega)
  have := eventsUpTo_succ (dec := dec) (log := slog) (n := i - 1) (by omega)
  rw [show i - 1 + 1 = i by omega, hev] at this
  rw [hm, this]
  unfold requestsIn
  simp only [Option.toList_some, List.append_assoc, List.filterMap_append, List.length_append, List.cons_append, List.nil_append, List.filterMap_cons, hd, List.length_cons]
  omega

/-- C90: transactions on a replicated tablet store are strictly serializable.  Any number of managers work on a tablet store that any number of
replicas replicate, and on one blob storage.  Then the transactions that succeed have distinct places in one list of requests, and the
contents of tablets are a function of their metadata, blank for new tablets, such that every transaction that succeeds reads the contents the
tablets of a store that carries out the requests in order has just before its place, and writes those it has just after it; and a transaction
that was reported as succeeded before the commit of another reached any replica comes before it.
Missing: as for C85 (see `Managers` and `Succeeded`). -/
theorem C90_strict_partial (hsane : Sane env) (ho : senv.overflowChecks = true) (henc : Encodings senv) (hcod : ∀ x, E.decEntry (E.encEntry x) = some x)
    {slog : Nat → Drv.Entry} (hl : ∀ i, (slog i).index = i) {founder : Nat} {scfg : Bytes} {ds : Nat → Driver State ρ κ H}
    (h : Deployed ⟨actor senv, R, C, E⟩ slog founder (·.tables = []) scfg ds) (hca : Causal E.decEntry slog ds) (hf : ∃ p, 1 ≤ (ds p).applied)
    {tag : ι → Nat → Nat} (N : Network senv ds tag evs) (M : Managers env blank cfg evs c) (ht : ∀ p, TablesConfigured senv scfg (evs p)) :
    ∃ (f : State) (log : List (List TabletOp × Response)) (t : Tables) (value : Metadata → Option α) (place : ι → Nat → Nat),
      (∃ ctx s0, s0.tables = [] ∧ ctx.config = scfg ∧ Started (actor senv) s0 ctx f) ∧ Log senv f.tables log t ∧
      (∃ q, log.map Prod.fst = requestsIn senv (eventsUpTo E.decEntry slog (ds q).applied)) ∧
      (∀ m, m.uri = "" → value m = env.data.deser blank) ∧
      (∀ p i corr ops a b c1, Succeeded env (cfg p) (evs p) (c p) i corr ops a b c1 →
        ∃ pre before after, pre.length = place p corr ∧ AppliedAt senv f.tables log ops pre before after ∧
          (∀ table id v, Read env a c1 i table id v → (stored before table id).bind value = some v) ∧
          (∀ table id v, Wrote env a c1 i table id v → (stored after table id).bind value = some v)) ∧
      ∀ p i corr ops a b c1, Succeeded env (cfg p) (evs p) (c p) i corr ops a b c1 →
        ∀ p' i' corr' ops' a' b' c1', Succeeded env (cfg p') (evs p') (c p') i' corr' ops' a' b' c1' →
          (tag p corr ≠ tag p' corr' → place p corr ≠ place p' corr') ∧
          ∀ ds0 evs0, Deployed ⟨actor senv, R, C, E⟩ slog founder (·.tables = []) scfg ds0 → Causal E.decEntry slog ds0 →
            EarlierMoment senv ds0 ds tag evs0 evs → .check i (some .succeeded) ∈ evs0 p → Unsent ds0 tag p' corr' → place p corr < place p' corr' := by
  obtain ⟨f, log, t, hst, hq, D, hans⟩ := replicated_deployment henc hcod hl h hca hf N M ht
  have hreach : TabletStore.Spec.Reachable senv scfg f := by
    obtain ⟨ctx, s0, k1, k2, k3⟩ := hst
    exact ⟨s0, ctx, f, [], k1, k2, k3, .refl⟩
  obtain ⟨value, hnew, hall⟩ := C88_every_partial hsane ho hreach D
  let At : ι → Nat → Nat → Nat → Prop := fun p corr i n => ∃ ev ops r, 2 ≤ i ∧ eventOf E.decEntry (slog i) = some ev ∧
    ev.correlationId = tag p corr ∧ senv.decReq ev.contents = some ops ∧ n = (requestsIn senv (eventsUpTo E.decEntry slog (i - 1))).length ∧
    log[n]? = some (ops, r) ∧ r.succeeded = true ∧ ∀ j ops', .commit j [(corr, ops')] ∈ evs p → ops' = ops
  let Q : ι → Nat → Nat → Prop := fun p corr n => ∃ i, At p corr i n
  have hplace : ∃ place : ι → Nat → Nat, ∀ p corr n, Q p corr n → Q p corr (place p corr) ∧ place p corr ≤ n := by
    classical
    refine ⟨fun p corr => if hx : ∃ n, Q p corr n then (least hx.choose_spec).choose else 0, fun p corr n hn => ?_⟩
    dsimp only
    have hx : ∃ n, Q p corr n := ⟨n, hn⟩
    rw [dif_pos hx]
    have := (least hx.choose_spec).choose_spec
    exact ⟨this.1, this.2 n hn⟩
  obtain ⟨place, hplace⟩ := hplace
  -- a success that was reported is in the log
  have found : ∀ ds0 evs0, Deployed ⟨actor senv, R, C, E⟩ slog founder (·.tables = []) scfg ds0 → EarlierMoment senv ds0 ds tag evs0 evs →
      ∀ p i corr ops a b c1, Succeeded env (cfg p) (evs p) (c p) i corr ops a b c1 → .check i (some .succeeded) ∈ evs0 p →
        ∃ j n, At p corr j n ∧ ∃ q, j ≤ (ds0 q).applied := by
    intro ds0 evs0 hd0 hearly p i corr ops a b c1 S hok
    obtain ⟨more, hmore⟩ := hearly.managers p
    have hsub : ∀ e ∈ evs0 p, e ∈ evs p := fun e he => by rw [← hmore]; exact List.mem_append_left _ he
    obtain ⟨c0, hc0⟩ : ∃ c0, MHistory env (evs0 p) c0 := by
      obtain ⟨x1, x2, x3, x4, x5⟩ := D.history p
      rw [← hmore] at x5
      obtain ⟨c0, k⟩ := steps_cut x5
      exact ⟨c0, x1, x2, x3, x4, k⟩
    obtain ⟨corr', ops', k1, k2⟩ := C85_answered hc0 hok (reachable_wf hreach) D.applied
      ⟨fun corr r hr => (D.fromLog p).responses corr r (hsub _ hr), fun i corr ops r hc hr => (D.fromLog p).commits i corr ops r (hsub _ hc) (hsub _ hr)⟩
      (fun i corr ops hc => D.tables p i corr ops (hsub _ hc))
    have he := (C53_requests (D.history p) (show MEvent.commit i [(corr, ops)] ∈ evs p by rw [S.events]; simp)).2.1 [(corr', ops')] (hsub _ k1)
    simp only [List.cons.injEq, Prod.mk.injEq, and_true] at he
    obtain ⟨rfl, rfl⟩ := he
    obtain ⟨r, h3, _, h4⟩ := k2 S.some
    obtain ⟨j, ev, ops2, pre, post, l1, l2, _, l3, l4, l5, l6, l7, l8⟩ := hans ds0 evs0 hd0 hearly p corr' r h3
    refine ⟨j, pre.length, ⟨ev, ops2, r, l1, l3, l4, l5, ?_, by rw [l6]; simp, h4, l8⟩, l2⟩
    rw [← l7, List.length_map]
  have now : EarlierMoment senv ds ds tag evs evs := ⟨fun _ => List.prefix_refl _, fun _ => List.prefix_refl _, N.response⟩
  have placed : ∀ p i corr ops a b c1, Succeeded env (cfg p) (evs p) (c p) i corr ops a b c1 → ∃ j, At p corr j (place p corr) := by
    intro p i corr ops a b c1 S
    obtain ⟨j, n, k, _⟩ := found ds evs h now p i corr ops a b c1 S (by rw [S.events]; simp [S.success])
    exact (hplace p corr n ⟨j, k⟩).1
  refine ⟨f, log, t, value, place, hst, D.applied, hq, hnew, fun p i corr ops a b c1 S => ?_, fun p i corr ops a b c1 S p' i' corr' ops' a' b' c1' S' => ⟨fun hne he => ?_, ?_⟩⟩
  · obtain ⟨j, ev, ops', r, l1, l2, l3, l4, l5, l6, l7, l8⟩ := placed p i corr ops a b c1 S
    have := l8 i ops (by rw [S.events]; simp)
    subst this
    obtain ⟨hlt, hget⟩ := List.getElem?_eq_some_iff.mp l6
    have hsplit : log = log.take (place p corr) ++ (ops, r) :: log.drop (place p corr + 1) := by
      rw [← hget, List.getElem_cons_drop, List.take_append_drop]
    have D' := D.applied
    obtain ⟨t2, g1, _⟩ := D'.split (a := log.take (place p corr) ++ [(ops, r)]) (b := log.drop (place p corr + 1)) (by rw [List.append_assoc]; exact hsplit)
    generalize hl : log.take (place p corr) ++ [(ops, r)] = l at g1
    cases g1 with
    | nil => simp at hl
    | snoc g1 g2 =>
      obtain ⟨e1, e2⟩ := List.append_inj' hl rfl
      simp only [List.cons.injEq, Prod.mk.injEq, and_true] at e2
      obtain ⟨rfl, rfl⟩ := e2
      rw [← e1] at g1
      have hat : AppliedAt senv f.tables log ops (log.take (place p corr)) _ t2 := ⟨r, _, hsplit, g1, g2, l7⟩
      exact ⟨_, _, _, by rw [List.length_take]; omega, hat, hall p i corr ops a b c1 S _ _ _ hat⟩
  · obtain ⟨j, ev, ops2, r, l1, l2, l3, l4, l5, _⟩ := placed p i corr ops a b c1 S
    obtain ⟨j', ev', ops2', r', m1, m2, m3, m4, m5, _⟩ := placed p' i' corr' ops' a' b' c1' S'
    rcases Nat.lt_trichotomy j j' with hj | rfl | hj
    · have := requests_before l1 hj l2 l4
      omega
    · rw [l2] at m2
      cases m2
      exact hne (l3.symm.trans m3)
    · have := requests_before m1 hj m2 m4
      omega
  · intro ds0 evs0 hd0 hca0 hearly hok hun
    obtain ⟨j, n, k, q, hjq⟩ := found ds0 evs0 hd0 hearly p i corr ops a b c1 S hok
    have hle := (hplace p corr n ⟨j, k⟩).2
    obtain ⟨ev, ops2, r, l1, l2, l3, l4, l5, _⟩ := k
    obtain ⟨j', ev', ops2', r', m1, m2, m3, m4, m5, _⟩ := placed p' i' corr' ops' a' b' c1' S'
    have hlt : (ds0 q).applied < j' := by
      refine DrvProps.C75_realtime (S := ⟨actor senv, R, C, E⟩) hcod (correlates senv) hl (inert senv) hd0 hca0 m1 m2 (fun q' _ m hm => ?_) q
      rw [m3]
      exact hun q' m hm
    have := requests_before (senv := senv) l1 (show j < j' by omega) l2 l4
    omega

end

end TCP.Cache.Props
