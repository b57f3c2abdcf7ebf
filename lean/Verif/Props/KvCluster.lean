import Verif.Spec.KvCluster
import Verif.Props.KvMap
import Verif.Props.CacheCluster

/-!
# C103: key-value stores on a replicated tablet store
-/

namespace TCP.Cache.Props

open TCP TCP.Cache TCP.Cache.Spec TCP.TabletStore ActorSpec Drv DrvSpec

section
variable {ρ κ H : Type} {R : RaftT ρ} {C : CommT κ H} {E : Codecs} {senv : TabletStore.Env}
variable {ι : Type} {env : KvEnv} {data : DataEnv Bytes} {evict : AMap String (Entry Bytes) → List String} {blank : Bytes}
  {cfg : ι → List (String × UInt32)} {evs : ι → List KEvent} {s : ι → Sys}

theorem sent_request {evs : List KEvent} {s : Sys} {corr : Nat} {ops : List TabletOp} (h : Sent evs corr ops) : (corr, ops) ∈ krequests evs s := by
  obtain ⟨outs, h1, h2⟩ := h
  refine List.mem_append_left _ (List.mem_flatMap.mpr ⟨_, h1, List.mem_filterMap.mpr ⟨_, h2, rfl⟩⟩)

/-- A replicated tablet store, for the key-value stores, is one tablet store; what a store had been told at an earlier moment is the response to an entry of the
log that some replica had applied at that moment. -/
theorem kv_replicated (henc : Encodings senv) (hcod : ∀ x, E.decEntry (E.encEntry x) = some x) {slog : Nat → Drv.Entry} (hl : ∀ i, (slog i).index = i)
    {founder : Nat} {scfg : Bytes} {ds : Nat → Driver State ρ κ H} (h : Deployed ⟨actor senv, R, C, E⟩ slog founder (·.tables = []) scfg ds)
    (hca : Causal E.decEntry slog ds) (hf : ∃ p, 1 ≤ (ds p).applied) {tag : ι → Nat → Nat} (N : KvNetwork senv ds tag evs s)
    (K : KvStores env data evict blank cfg evs s) (hk : KvSpared evs s) (ht : ∀ p, KvTables senv scfg (krequests (evs p) (s p))) :
    ∃ (f : State) (log : List (List TabletOp × Response)) (t : Tables),
      (∃ ctx s0, s0.tables = [] ∧ ctx.config = scfg ∧ Started (actor senv) s0 ctx f) ∧
      (∃ q, log.map Prod.fst = requestsIn senv (eventsUpTo E.decEntry slog (ds q).applied)) ∧ KvDeployment env data evict senv f log t blank cfg evs s ∧
      ∀ ds0 evs0, Deployed ⟨actor senv, R, C, E⟩ slog founder (·.tables = []) scfg ds0 → KvEarlier senv ds0 ds tag evs0 evs →
        ∀ p corr r, .input (.response corr r) ∈ evs0 p → ∃ i ev ops pre post, 2 ≤ i ∧ (∃ q, i ≤ (ds0 q).applied) ∧ (∃ q, i ≤ (ds q).applied) ∧
          eventOf E.decEntry (slog i) = some ev ∧ ev.correlationId = tag p corr ∧ senv.decReq ev.contents = some ops ∧
          log = pre ++ (ops, r) :: post ∧ pre.map Prod.fst = requestsIn senv (eventsUpTo E.decEntry slog (i - 1)) ∧
          (∃ ops', (corr, ops') ∈ krequests (evs p) (s p)) ∧ ∀ ops', (corr, ops') ∈ krequests (evs p) (s p) → ops' = ops := by
  obtain ⟨f, log, t, ⟨ctx, s0, h0, h1, hst⟩, hlog, ⟨q, hq⟩, _, hans⟩ := C90_store henc.lawful hl h hf
  have key : ∀ ds0 evs0, Deployed ⟨actor senv, R, C, E⟩ slog founder (·.tables = []) scfg ds0 → KvEarlier senv ds0 ds tag evs0 evs →
        ∀ p corr r, .input (.response corr r) ∈ evs0 p → ∃ i ev ops pre post, 2 ≤ i ∧ (∃ q, i ≤ (ds0 q).applied) ∧ (∃ q, i ≤ (ds q).applied) ∧
          eventOf E.decEntry (slog i) = some ev ∧ ev.correlationId = tag p corr ∧ senv.decReq ev.contents = some ops ∧
          log = pre ++ (ops, r) :: post ∧ pre.map Prod.fst = requestsIn senv (eventsUpTo E.decEntry slog (i - 1)) ∧
          (∃ ops', (corr, ops') ∈ krequests (evs p) (s p)) ∧ ∀ ops', (corr, ops') ∈ krequests (evs p) (s p) → ops' = ops := by
    intro ds0 evs0 hd0 hearly p corr r hr
    obtain ⟨q, hq⟩ := hearly.response p corr r hr
    rcases hans ds0 hd0 hearly.replicas q _ hq with ⟨c, _, st, he⟩ | ⟨i, ev, ops, resp, pre, post, h2, ha0, ha, hev, _, hd, he, hlog, hpre⟩
    · simp only [ActorCommand.mk.injEq] at he
      exact absurd he.2.1.symm (henc.error st)
    · simp only [ActorCommand.mk.injEq, true_and] at he
      obtain ⟨e1, e2⟩ := he
      cases henc.response _ _ e2
      obtain ⟨q', m, hm, k1, k2⟩ := event_handed hcod hl h hca h2 ha hev
      refine ⟨i, ev, ops, pre, post, h2, ⟨q, ha0⟩, ⟨q, ha⟩, hev, e1.symm, hd, hlog, hpre, ?_, fun ops' hc => ?_⟩
      · obtain ⟨ops', k3⟩ := N.sent q' m hm p corr (k1.trans e1.symm)
        exact ⟨ops', sent_request k3⟩
      · have := N.request q' m hm p corr ops' hc (k1.trans e1.symm)
        rw [k2, hd] at this
        exact (Option.some.inj this).symm
  have now := key ds evs h ⟨fun _ => List.prefix_refl _, fun _ => List.prefix_refl _, N.response, N.sent⟩
  refine ⟨f, log, t, ⟨ctx, s0, h0, h1, hst⟩, ⟨q, hq⟩, ⟨⟨K, hlog, fun p corr r hr => ?_, fun p corr ops r hc hr => ?_, fun p corr ops hc o ho => ?_,
    fun table id m hm => ?_, fun ops r hm table u hu => ?_⟩, hk⟩, key⟩
  · obtain ⟨_, _, ops, _, _, _, _, _, _, _, _, k, _, ⟨ops', k1⟩, k2⟩ := now p corr r hr
    cases k2 ops' k1
    exact ⟨ops, k1, by rw [k]; simp⟩
  · obtain ⟨_, _, ops', _, _, _, _, _, _, _, _, k1, _, _, k2⟩ := now p corr r hr
    rw [k2 ops hc, k1]
    simp
  · obtain ⟨cs, n, k1, k2⟩ := ht p corr ops hc o ho
    obtain ⟨cs', k3, rfl⟩ := started_eq hst
    rw [h1, k1] at k3
    cases Option.some.inj k3
    exact initTables_names cs (.inl (List.mem_map.mpr ⟨_, k2, rfl⟩))
  · rw [started_new h0 hst hm]
    rfl
  · have : ops ∈ log.map Prod.fst := List.mem_map.mpr ⟨_, hm, rfl⟩
    rw [hq] at this
    obtain ⟨ev, hev, hd⟩ := List.mem_filterMap.mp this
    obtain ⟨i, k1, k2, k3⟩ := eventsUpTo_mem hev
    obtain ⟨q', m, hm, _, k5⟩ := event_handed hcod hl h hca k1 k2 k3
    exact N.writes q' m hm ops (by rw [k5]; exact hd) table u hu

theorem execReqs_sig {r : KvResponse} : ∀ {rs : List KvRequest} {d : Dict}, r ∈ (execReqs d rs).2 → ∃ q ∈ rs, reqSig q = respSig r := by
  intro rs
  induction rs with
  | nil => intro d h; cases h
  | cons q rest ih =>
    intro d h
    rcases List.mem_cons.mp h with rfl | h
    · exact ⟨q, by simp, by cases q <;> rfl⟩
    · obtain ⟨q', h1, h2⟩ := ih h
      exact ⟨q', by simp [h1], h2⟩

/-- A successful request of the log was applied at its place. -/
theorem applied_at {t0 t : Tables} {log : List (List TabletOp × Response)} (h : Log senv t0 log t) {n : Nat} {ops : List TabletOp} {r : Response}
    (hn : log[n]? = some (ops, r)) (hr : r.succeeded = true) : ∃ before after, AppliedAt senv t0 log ops (log.take n) before after ∧ (log.take n).length = n := by
  obtain ⟨hlt, hget⟩ := List.getElem?_eq_some_iff.mp hn
  have hsplit : log = log.take n ++ (ops, r) :: log.drop (n + 1) := by rw [← hget, List.getElem_cons_drop, List.take_append_drop]
  obtain ⟨t2, m1⟩ := log_take h (k := log.take n ++ [(ops, r)]) (l2 := log.drop (n + 1)) (by simpa using hsplit)
  generalize hlx : log.take n ++ [(ops, r)] = l at m1
  cases m1 with
  | nil => simp at hlx
  | snoc m1 m2 =>
    obtain ⟨e1, e2⟩ := List.append_inj' hlx rfl
    simp only [List.cons.injEq, Prod.mk.injEq, and_true] at e2
    obtain ⟨rfl, rfl⟩ := e2
    rw [← e1] at m1
    exact ⟨_, t2, ⟨_, _, hsplit, m1, m2, hr⟩, by rw [List.length_take]; omega⟩

/-- C103: key-value stores on a replicated tablet store behave as one map, in real time.  Any number of key-value stores work on a tablet store that any number of
replicas replicate, and on one blob storage.  Then there is one map per table, blank at first, that changes, if at all, with the requests in the replicated log, by
requests of clients that had been accepted before the request in the log was sent, each no more often than it was accepted, and every response to a client has a place in that log at which the map gives this response to the request – in a batch of requests of
the same store, whose puts are in the map right after that place; and if a response was given before the request that another one answers was accepted, by any
store, its place comes before that of the other.
Missing: as for C102 (see `KvSpared`). -/
theorem C103_realtime_partial (hsane : Sane (txnEnv env data evict)) (ho : senv.overflowChecks = true) (henc : Encodings senv)
    (hcod : ∀ x, E.decEntry (E.encEntry x) = some x) {slog : Nat → Drv.Entry} (hl : ∀ i, (slog i).index = i) {founder : Nat} {scfg : Bytes}
    {ds : Nat → Driver State ρ κ H} (h : Deployed ⟨actor senv, R, C, E⟩ slog founder (·.tables = []) scfg ds) (hca : Causal E.decEntry slog ds)
    (hf : ∃ p, 1 ≤ (ds p).applied) {tag : ι → Nat → Nat} (N : KvNetwork senv ds tag evs s) (K : KvStores env data evict blank cfg evs s) (hk : KvSpared evs s)
    (ht : ∀ p, KvTables senv scfg (krequests (evs p) (s p))) :
    ∃ (f : State) (log : List (List TabletOp × Response)) (t : Tables) (M : Tables → String → Dict) (done : ι → Nat → List KvRequest) (place : ι → List KEvent → KvResponse → Nat),
      (∃ ctx s0, s0.tables = [] ∧ ctx.config = scfg ∧ Started (actor senv) s0 ctx f) ∧ Log senv f.tables log t ∧
      (∃ q, log.map Prod.fst = requestsIn senv (eventsUpTo E.decEntry slog (ds q).applied)) ∧
      (∀ table k v, M f.tables table k = some v → ∃ d, (data.deser blank).bind env.dec = some d ∧ d.get k = some v) ∧
      (∀ pre ops r post before after, log = pre ++ (ops, r) :: post → Log senv f.tables pre before → applyRequest senv before ops = .ok (after, r) →
        (M after = M before ∧ ∀ p, done p pre.length = []) ∨
        ∃ p corr ka kb, (corr, ops) ∈ krequests (evs p) (s p) ∧ evs p = ka ++ kb ∧ NotYetSent ka corr ops ∧ (∀ q ∈ done p pre.length, .accept q ∈ ka) ∧
          (∀ p', p' ≠ p → done p' pre.length = []) ∧
          ∀ table, ((∃ a b cs, .init table a b cs ∈ evs p) → M after table = (execReqs (M before table) (done p pre.length)).1) ∧
            ((¬ ∃ a b cs, .init table a b cs ∈ evs p) → M after table = M before table)) ∧
      (∀ p q, ((List.range log.length).map fun n => (done p n).count q).sum ≤ (evs p).count (.accept q)) ∧
      (∀ p k1 r, Responds (evs p) k1 r → ∃ pre ops before after table batch, pre.length = place p k1 r ∧ AppliedAt senv f.tables log ops pre before after ∧
        (∃ a b cs, .init table a b cs ∈ evs p) ∧ (∀ q ∈ batch, .accept q ∈ k1) ∧ r ∈ (execReqs (M before table) batch).2 ∧
        ∀ q ∈ batch, q.isPut = true → M after table q.key = (execReqs (M before table) batch).1 q.key) ∧
      ∀ ds0 evs0, Deployed ⟨actor senv, R, C, E⟩ slog founder (·.tables = []) scfg ds0 → Causal E.decEntry slog ds0 → KvEarlier senv ds0 ds tag evs0 evs →
        ∀ p k1 r p' k1' r', Responds (evs p) k1 r → Responds (evs p') k1' r' → k1.length < (evs0 p).length →
          (∀ q, reqSig q = respSig r' → .accept q ∉ evs0 p') → place p k1 r < place p' k1' r' := by
  obtain ⟨f, log, t, hst, hq, D, hans⟩ := kv_replicated henc hcod hl h hca hf N K hk ht
  have hreach : TabletStore.Spec.Reachable senv scfg f := by
    obtain ⟨ctx, s0, k1, k2, k3⟩ := hst
    exact ⟨s0, ctx, f, [], k1, k2, k3, .refl⟩
  obtain ⟨M, done, hstart, hstep, honce, hresp⟩ := C104_once_partial hsane ho hreach D
  -- an entry of the replicated log with a successful request of the store
  let At : ι → Nat → Nat → Nat → Prop := fun p corr i n => ∃ ev ops r, 2 ≤ i ∧ eventOf E.decEntry (slog i) = some ev ∧
    ev.correlationId = tag p corr ∧ senv.decReq ev.contents = some ops ∧ n = (requestsIn senv (eventsUpTo E.decEntry slog (i - 1))).length ∧
    log[n]? = some (ops, r) ∧ r.succeeded = true ∧ (∃ q, i ≤ (ds q).applied) ∧ ∀ ops', (corr, ops') ∈ krequests (evs p) (s p) → ops' = ops
  let Q : ι → Nat → Nat → Prop := fun p corr n => ∃ i, At p corr i n
  have hplace : ∃ place : ι → Nat → Nat, ∀ p corr n, Q p corr n → Q p corr (place p corr) ∧ place p corr ≤ n := by
    classical
    refine ⟨fun p corr => if hx : ∃ n, Q p corr n then (least hx.choose_spec).choose else 0, fun p corr n hn => ?_⟩
    dsimp only
    have hx : ∃ n, Q p corr n := ⟨n, hn⟩
    rw [dif_pos hx]
    have := (least hx.choose_spec).choose_spec
    exact ⟨this.1, this.2 n hn⟩
  obtain ⟨place, hplace⟩ := hplace
  let Good : ι → List KEvent → KvResponse → Nat → Prop := fun p k1 r corr => ∃ ka kb ops rr table batch, k1 = ka ++ kb ∧ (corr, ops) ∈ krequests (evs p) (s p) ∧
    NotYetSent ka corr ops ∧ .input (.response corr rr) ∈ kb ∧ rr.succeeded = true ∧
    (∃ a b cs, .init table a b cs ∈ evs p) ∧ (∀ q ∈ batch, .accept q ∈ ka) ∧
    ∀ pre before after, AppliedAt senv f.tables log ops pre before after → r ∈ (execReqs (M before table) batch).2 ∧
      ∀ q ∈ batch, q.isPut = true → M after table q.key = (execReqs (M before table) batch).1 q.key
  have hgood : ∃ corrOf : ι → List KEvent → KvResponse → Nat, ∀ p k1 r, Responds (evs p) k1 r → Good p k1 r (corrOf p k1 r) := by
    classical
    refine ⟨fun p k1 r => if hx : ∃ corr, Good p k1 r corr then hx.choose else 0, fun p k1 r hr => ?_⟩
    have hx : ∃ corr, Good p k1 r corr := by
      obtain ⟨rs, k2, e1, e2⟩ := hr
      obtain ⟨ka, kb, corr, ops, rr, table, batch, g1, g2, g3, g4, _, g5, g6, g7, g8⟩ := hresp p k1 rs k2 r e1 e2
      exact ⟨corr, ka, kb, ops, rr, table, batch, g1, g2, g3, g4, g5, g6, g7, g8⟩
    dsimp only
    rw [dif_pos hx]
    exact hx.choose_spec
  obtain ⟨corrOf, hgood⟩ := hgood
  -- a response that had arrived at an earlier moment is in the log that was applied then
  have found : ∀ ds0 evs0, Deployed ⟨actor senv, R, C, E⟩ slog founder (·.tables = []) scfg ds0 → KvEarlier senv ds0 ds tag evs0 evs →
      ∀ p corr rr, .input (.response corr rr) ∈ evs0 p → rr.succeeded = true → ∃ j n, At p corr j n ∧ ∃ q, j ≤ (ds0 q).applied := by
    intro ds0 evs0 hd0 hearly p corr rr hin hok
    obtain ⟨j, ev, ops, pre, post, l1, l2, l2', l3, l4, l5, l6, l7, _, l8⟩ := hans ds0 evs0 hd0 hearly p corr rr hin
    refine ⟨j, pre.length, ⟨ev, ops, rr, l1, l3, l4, l5, ?_, by rw [l6]; simp, hok, l2', l8⟩, l2⟩
    rw [← l7, List.length_map]
  have now : KvEarlier senv ds ds tag evs evs := ⟨fun _ => List.prefix_refl _, fun _ => List.prefix_refl _, N.response, N.sent⟩
  have placed : ∀ p k1 r, Responds (evs p) k1 r → ∃ j, At p (corrOf p k1 r) j (place p (corrOf p k1 r)) := by
    intro p k1 r hr
    obtain ⟨ka, kb, ops, rr, table, batch, g1, _, _, g4, g5, _⟩ := hgood p k1 r hr
    obtain ⟨rs, k2, e1, _⟩ := hr
    obtain ⟨j, n, k, _⟩ := found ds evs h now p _ rr (by rw [e1, g1]; exact List.mem_append_left _ (List.mem_append_right _ g4)) g5
    exact (hplace p _ n ⟨j, k⟩).1
  refine ⟨f, log, t, M, done, fun p k1 r => place p (corrOf p k1 r), hst, D.applied, hq, hstart, hstep, honce, fun p k1 r hr => ?_, ?_⟩
  · obtain ⟨j, ev, ops', rr', l1, l2, l3, l4, l5, l6, l7, _, l8⟩ := placed p k1 r hr
    obtain ⟨ka, kb, ops, rr, table, batch, g1, g2, g3, g4, g5, g6, g7, g8⟩ := hgood p k1 r hr
    have := l8 ops g2
    subst this
    obtain ⟨b4, t2, hat, hlen⟩ := applied_at D.applied l6 l7
    obtain ⟨n1, n2⟩ := g8 _ _ _ hat
    exact ⟨_, ops, _, _, table, batch, hlen, hat, g6, fun q hq => by rw [g1]; simp [g7 q hq], n1, n2⟩
  · intro ds0 evs0 hd0 hca0 hearly p k1 r p' k1' r' hr hr' hlen hnew
    obtain ⟨ka, kb, ops, rr, table, batch, g1, g2, g3, g4, g5, g6, g7, g8⟩ := hgood p k1 r hr
    have hin : .input (.response (corrOf p k1 r) rr) ∈ evs0 p := by
      obtain ⟨rs, k2, e1, _⟩ := hr
      obtain ⟨more, hm⟩ := hearly.stores p
      have : evs0 p = (evs p).take (evs0 p).length := by rw [← hm]; simp
      rw [this, e1, List.take_append]
      refine List.mem_append_left _ ?_
      rw [List.take_of_length_le (by omega)]
      have hsub : ∀ e ∈ kb, e ∈ k1 := fun e he => by rw [g1]; exact List.mem_append_right _ he
      exact hsub _ g4
    obtain ⟨j, n, k, q, hjq⟩ := found ds0 evs0 hd0 hearly p _ rr hin g5
    have hle := (hplace p _ n ⟨j, k⟩).2
    obtain ⟨ev, ops2, r2, l1, l2, l3, l4, l5, _⟩ := k
    have hunsent : Unsent ds0 tag p' (corrOf p' k1' r') := by
      intro q' m hm he
      obtain ⟨ka', kb', ops', rr', table', batch', g1', g2', g3', g4', g5', _, g7', g8'⟩ := hgood p' k1' r' hr'
      obtain ⟨ops3, outs, m1, m2⟩ := hearly.sent q' m hm p' _ he
      obtain ⟨more, hmore⟩ := hearly.stores p'
      have m3 := N.request q' m (by
        obtain ⟨more', hmore'⟩ := hearly.replicas q'
        rw [← hmore', List.filterMap_append]
        exact List.mem_append_left _ hm) p' _ ops' g2' he
      have m4 := N.request q' m (by
        obtain ⟨more', hmore'⟩ := hearly.replicas q'
        rw [← hmore', List.filterMap_append]
        exact List.mem_append_left _ hm) p' _ ops3 (sent_request ⟨outs, by rw [← hmore]; simp [m1], m2⟩) he
      rw [m3] at m4
      have := Option.some.inj m4
      subst this
      -- the request had been sent, but not when the batch had been accepted; so the batch was accepted by then
      obtain ⟨j', ev', ops4, r4, _, _, _, _, _, n5, n6, _, n7⟩ := placed p' k1' r' hr'
      have := n7 ops' g2'
      subst this
      obtain ⟨b4, t2, hat, -⟩ := applied_at D.applied n5 n6
      obtain ⟨q3, m5, m6⟩ := execReqs_sig (g8' _ _ _ hat).1
      refine hnew q3 m6 ?_
      have hq3 := g7' q3 m5
      obtain ⟨rs', k2', e1', _⟩ := hr'
      by_cases hc : (evs0 p').length ≤ ka'.length
      · -- everything that had happened is in `ka'`, so the request had not been sent
        exfalso
        refine g3' outs ?_ m2
        have hp : evs0 p' <+: ka' := by
          refine List.prefix_of_prefix_length_le (l₃ := evs p') ⟨more, hmore⟩ ⟨kb' ++ .responses rs' :: k2', ?_⟩ hc
          rw [e1', g1']; simp
        exact hp.subset m1
      · have hp : ka' <+: evs0 p' := by
          refine List.prefix_of_prefix_length_le (l₃ := evs p') ⟨kb' ++ .responses rs' :: k2', ?_⟩ ⟨more, hmore⟩ (by omega)
          rw [e1', g1']; simp
        exact hp.subset hq3
    obtain ⟨j', ev', ops2', r2', m1, m2, m3, m4, m5, _⟩ := placed p' k1' r' hr'
    have hlt : (ds0 q).applied < j' := by
      refine DrvProps.C75_realtime (S := ⟨actor senv, R, C, E⟩) hcod (correlates senv) hl (inert senv) hd0 hca0 m1 m2 (fun q' _ m hm => ?_) q
      rw [m3]
      exact hunsent q' m hm
    have := requests_before (senv := senv) l1 (show j < j' by omega) l2 l4
    show place p _ < place p' _
    omega

end

end TCP.Cache.Props
