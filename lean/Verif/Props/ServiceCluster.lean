import Verif.Proofs.ServiceCluster
import Verif.Props.Apps
import Verif.Props.CacheCluster

/-!
# C91: what clients of a cluster's services observe

Linearizability as clients see it: calls of the gRPC services of all replicas and their answers, in the order they happened.
-/

namespace TCP.ServiceProps

open TCP TCP.Service TCP.ServiceSpec TCP.Drv TCP.DrvSpec

variable {σ ρ κ H : Type} {S : Sys σ ρ κ H} {log : Nat → Entry} {founder : Nat} {fresh : σ → Prop} {cfg : Bytes}

theorem least {P : Nat → Prop} {i : Nat} (h : P i) : ∃ m, P m ∧ ∀ j, P j → m ≤ j := by
  induction i using Nat.strongRecOn with
  | ind i ih =>
    by_cases hx : ∃ j, j < i ∧ P j
    · obtain ⟨j, hj, hp⟩ := hx
      exact ih j hj hp
    · exact ⟨i, h, fun j hj => Nat.le_of_not_lt fun hlt => hx ⟨j, hlt, hj⟩⟩

theorem asked_later {h1 h2 : List (Nat × Event (Req H) (List (OutMsg H)))} {p : Nat} {c : ActorCommand} (h : Asked h1 p c) : Asked (h1 ++ h2) p c := by
  obtain ⟨i, t, hm⟩ := h
  exact ⟨i, t, List.mem_append_left _ hm⟩

theorem calls_read {f : σ} {ds : Nat → Driver σ ρ κ H} (I : AppInv S log fresh cfg f ds) {p : Nat} {r : ActorCommand}
    (hr : r ∈ appMessages (outMessages (ds p).trace)) :
    (∃ t1 ctx c o t2, (ds p).trace = t1 ++ .actor (.command ctx c (.ok o)) :: t2 ∧ r ∈ o.commands) ∨
    ∃ ctx i own ev o, .actor (.apply ctx ⟨i, own⟩ ev (.ok o)) ∈ (ds p).trace ∧ r ∈ o.commands := by
  obtain ⟨d0, outs, h0, hruns⟩ := I.runs p
  rw [calls_replies h0 (runs_calls hruns)] at hr
  obtain ⟨e, hm, hr⟩ := List.mem_flatMap.1 hr
  match e, hm, hr with
  | .actor (.command ctx c (.ok o)), hm, hr =>
    obtain ⟨t1, t2, ht⟩ := List.append_of_mem hm
    exact .inl ⟨t1, ctx, c, o, t2, ht, hr⟩
  | .actor (.apply ctx ⟨i, w⟩ ev (.ok o)), hm, hr => exact .inr ⟨ctx, i, w, ev, o, hm, hr⟩

/-- The reply to an event some replica applied. -/
theorem replied_at (hl : ∀ i, (log i).index = i) {f f1 : σ} {ss ss1 : Nat → Srv σ ρ κ H} {h1}
    (h1s : Served S log founder fresh cfg ss1 h1) (I1 : AppInv S log fresh cfg f1 (replicas ss1)) (I : AppInv S log fresh cfg f (replicas ss))
    {p : Nat} (hon : Onwards (replicas ss1 p) (replicas ss p)) {ctx i own ev o}
    (hm : .actor (.apply ctx ⟨i, own⟩ ev (.ok o)) ∈ (replicas ss1 p).trace) {r : ActorCommand} (hr : r ∈ o.commands) (hown : own = true) :
    i ≤ (replicas ss1 p).applied ∧ i ∈ applyIndices (observed (replicas ss1 p).trace) ∧ Replied S log fresh cfg f (replicas ss p).id r i := by
  obtain ⟨d0, outs, h0, hruns⟩ := I1.runs p
  obtain ⟨y, hy⟩ := I1.pos p
  obtain ⟨more, hmore⟩ := hon.1
  have hm' : .actor (.apply ctx ⟨i, own⟩ ev (.ok o)) ∈ (replicas ss p).trace := by rw [← hmore]; exact List.mem_append_left _ hm
  obtain ⟨t1, t2, ht⟩ := List.append_of_mem hm'
  obtain ⟨n, s, s', g1, g2, g3, g4, _⟩ := I.calls p t1 _ t2 ht
  have hn := g4 _ _ _ _ rfl
  simp only at hn
  have ho : .apply i own ev ∈ observed (replicas ss1 p).trace := List.mem_filterMap.2 ⟨_, hm, rfl⟩
  obtain ⟨e, he, hi, hd, hty, replica, hdec, hw⟩ := runs_stems h0 hruns (I1.normal p) _ ho
  obtain ⟨j, rfl⟩ := follows_delivered (advances_follows hy) e he
  have h2i := deployed_first (served_deployed h1s).1 p _ he
  rw [hl] at hi h2i
  subst hi
  have hidx : j ∈ applyIndices (observed (replicas ss1 p).trace) := List.mem_filterMap.2 ⟨_, ho, rfl⟩
  have hle := (runs_ascending hl h0 hruns (I1.normal p) hy).bound _ hidx
  have hst : (replicas ss1 p).state ≠ .created := by
    intro hc
    have := ((runs_created h0 hruns).inv hc).2.1
    omega
  cases g3 with
  | apply g3 =>
    subst hown
    have hid : replica = (replicas ss1 p).id := of_decide_eq_true hw.symm
    refine ⟨hle, hidx, ev, s, ctx, s', o, h2i, ?_, ?_, by rw [show j - 1 = n by omega]; exact g2, g3, hr⟩
    · unfold eventOf
      rw [if_neg hd, if_neg hty, hdec]
    · unfold proposerOf
      rw [if_neg hd, if_neg hty, hdec, hid, (hon.2 hst).2]

theorem served_order (hcod : ∀ x, S.E.decEntry (S.E.encEntry x) = some x) (hcor : Correlates S.A) (hin : Inert S.A) {kind : ActorCommand → Prop} (hrep : Replies S.A kind)
    (hl : ∀ i, (log i).index = i) {ss : Nat → Srv σ ρ κ H} {h} (hh : Served S log founder fresh cfg ss h) :
    ∃ f, (∀ p, (replicas ss p).state ≠ .created → Reflects S log fresh cfg f (replicas ss p).applied (replicas ss p).actor) ∧
      ∃ pos : Nat → ActorCommand → Nat,
        (∀ p r, Told h p r → kind r → ¬ (∃ n, EarlyAt S log fresh cfg f h p r n) → Replied S log fresh cfg f (replicas ss p).id r (pos p r)) ∧
        InOrder h (fun p => (replicas ss p).id) (fun p r => kind r ∧ ¬ (∃ n, EarlyAt S log fresh cfg f h p r n)) pos ∧
        (Echoes S.A → ∀ h1 h2, h = h1 ++ h2 → ∀ p r1 r2, Told h1 p r1 → kind r1 → ¬ (∃ n, EarlyAt S log fresh cfg f h p r1 n) → Told h p r2 →
          (∀ c, Asked h1 p c → c.correlationId ≠ r2.correlationId) → kind r2 →
          (∃ n, pos p r1 ≤ n ∧ EarlyAt S log fresh cfg f h p r2 n) ∨ Replied S log fresh cfg f (replicas ss p).id r2 (pos p r2)) := by
  obtain ⟨⟨f, I⟩, _⟩ := app_inv hl hin (served_deployed hh).1
  -- what a client was told by some moment
  have told : ∀ {h1 h2 ss1 p r}, h = h1 ++ h2 → Served S log founder fresh cfg ss1 h1 → (∀ p, Onwards (replicas ss1 p) (replicas ss p)) →
      Told h1 p r → kind r → ¬ (∃ n, EarlyAt S log fresh cfg f h p r n) → ∃ i, i ≤ (replicas ss1 p).applied ∧
        i ∈ applyIndices (observed (replicas ss1 p).trace) ∧ Replied S log fresh cfg f (replicas ss p).id r i := by
    intro h1 h2 ss1 p r he h1s hon ht hk hne
    obtain ⟨⟨f1, I1⟩, _⟩ := app_inv hl hin (served_deployed h1s).1
    rcases calls_read I1 (served_told h1s ht) with ⟨t1, ctx, c, o, t2, htr, hr⟩ | ⟨ctx, i, own, ev, o, hm, hr⟩
    · obtain ⟨more, hmore⟩ := (hon p).1
      obtain ⟨n, s, s', _, hs, hst, _⟩ := I.calls p t1 (.command ctx c (.ok o)) (t2 ++ more) (by rw [← hmore, htr]; simp)
      cases hst with
      | command hc =>
        refine absurd ⟨n, ctx, s, c, s', o, fun x hx => ?_, hs, hc, hr⟩ hne
        rw [he]
        exact asked_later (served_handed h1s (List.mem_filterMap.2 ⟨.actor (.command ctx c (.ok o)), by rw [htr]; simp, by rw [hx]; rfl⟩))
    · obtain ⟨t1, t2, htr⟩ := List.append_of_mem hm
      obtain ⟨n, s, s', _, _, hst, _⟩ := I1.calls p t1 _ t2 htr
      cases hst with
      | apply hap =>
        obtain ⟨hown, _⟩ := hrep hap hr hk
        obtain ⟨a1, a2, a3⟩ := replied_at hl h1s I1 I (hon p) hm hr hown
        exact ⟨i, a1, a2, a3⟩
  have self : ∀ p r, Told h p r → kind r → ¬ (∃ n, EarlyAt S log fresh cfg f h p r n) → ∃ i, Replied S log fresh cfg f (replicas ss p).id r i := by
    intro p r ht hk hne
    obtain ⟨i, _, _, hi⟩ := told (h2 := []) (by simp) hh (fun p => .refl _) ht hk hne
    exact ⟨i, hi⟩
  have pick : ∀ p r, ∃ i, (Told h p r → kind r → ¬ (∃ n, EarlyAt S log fresh cfg f h p r n) → Replied S log fresh cfg f (replicas ss p).id r i) ∧
      (∀ j, Replied S log fresh cfg f (replicas ss p).id r j → i ≤ j) ∧
      ((∃ i, Replied S log fresh cfg f (replicas ss p).id r i) → Replied S log fresh cfg f (replicas ss p).id r i) := by
    intro p r
    by_cases hx : ∃ i, Replied S log fresh cfg f (replicas ss p).id r i
    · obtain ⟨i, hi⟩ := hx
      obtain ⟨m, hm, hmin⟩ := least hi
      exact ⟨m, fun _ _ _ => hm, hmin, fun _ => hm⟩
    · exact ⟨0, fun ht hk hne => absurd (self p r ht hk hne) hx, fun j _ => Nat.zero_le _, fun h => absurd h hx⟩
  refine ⟨f, fun p hp => I.actor p hp, fun p r => Classical.choose (pick p r), fun p r => (Classical.choose_spec (pick p r)).1, ?_, ?_⟩
  · intro h1 h2 he p1 r1 p2 r2 ht1 hn1 ht2 hn2 hnew
    obtain ⟨ss1, h1s, hon⟩ := served_cut hh he
    obtain ⟨i1, ha1, _, hi1⟩ := told he h1s hon ht1 hn1.1 hn1.2
    have hle := (Classical.choose_spec (pick p1 r1)).2.1 i1 hi1
    obtain ⟨ev, s, ctx, s', o, h2', hev, hpr, hs, hap, hr⟩ := (Classical.choose_spec (pick p2 r2)).1 ht2 hn2.1 hn2.2
    obtain ⟨⟨f1, I1⟩, _⟩ := app_inv hl hin (served_deployed h1s).1
    have hlt := app_realtime hcod hcor I1 (served_deployed h1s).2 h2' hev (fun q hq c hc => by
      have hst := served_started h1s hc
      have hid : (replicas ss1 q).id = (replicas ss p2).id := Option.some.inj (hq.symm.trans hpr)
      have := hnew q c (served_handed h1s hc) (((hon q).2 hst).2.trans hid)
      rw [(hrep hap hr hn2.1).2] at this
      exact this) p1
    show Classical.choose (pick p1 r1) < Classical.choose (pick p2 r2)
    omega
  · intro hec h1 h2 he p r1 r2 ht1 hk1 hn1 ht2 hnew hk2
    obtain ⟨ss1, h1s, hon⟩ := served_cut hh he
    obtain ⟨i1, _, hidx, hi1⟩ := told he h1s hon ht1 hk1 hn1
    have hle := (Classical.choose_spec (pick p r1)).2.1 i1 hi1
    have logged : (∃ i, Replied S log fresh cfg f (replicas ss p).id r2 i) →
        Replied S log fresh cfg f (replicas ss p).id r2 (Classical.choose (pick p r2)) := (Classical.choose_spec (pick p r2)).2.2
    rcases calls_read I (served_told hh ht2) with ⟨t1, ctx, c, o, t2, htr, hr⟩ | ⟨ctx, i, own, ev, o, hm, hr⟩
    · obtain ⟨n, s, s', _, hs, hst, _, hall⟩ := I.calls p t1 _ t2 htr
      cases hst with
      | command hc =>
        obtain ⟨q, rfl, hq⟩ := hec hc hr
        have hask : ∀ x, some q = some x → Asked h p x := by
          intro x hx
          cases hx
          exact served_handed hh (List.mem_filterMap.2 ⟨.actor (.command ctx (some q) (.ok o)), by rw [htr]; simp, rfl⟩)
        refine .inl ⟨n, Nat.le_trans hle (hall _ ?_), ctx, s, some q, s', o, hask, hs, hc, hr⟩
        -- the command came after everything the replica did by then
        have hpre : (replicas ss1 p).trace <+: t1 := by
          rcases Nat.lt_or_ge t1.length (replicas ss1 p).trace.length with hlt | hge
          · exfalso
            have hp : t1 ++ [.actor (.command ctx (some q) (.ok o))] <+: (replicas ss1 p).trace :=
              List.prefix_of_prefix_length_le ⟨t2, by rw [htr]; simp⟩ (hon p).1 (by simp; omega)
            have hmem : .actor (.command ctx (some q) (.ok o)) ∈ (replicas ss1 p).trace := hp.subset (by simp)
            exact hnew q (served_handed h1s (List.mem_filterMap.2 ⟨_, hmem, rfl⟩)) hq.symm
          · exact List.prefix_of_prefix_length_le (hon p).1 ⟨_, htr.symm⟩ hge
        obtain ⟨more, hmore⟩ := hpre
        rw [← hmore]
        simp only [applyIndices, observed, List.filterMap_append]
        exact List.mem_append_left _ hidx
    · obtain ⟨t1, t2, htr⟩ := List.append_of_mem hm
      obtain ⟨n, s, s', _, _, hst, _⟩ := I.calls p t1 _ t2 htr
      cases hst with
      | apply hap =>
        obtain ⟨hown, _⟩ := hrep hap hr hk2
        exact .inr (logged ⟨i, (replied_at hl hh I I (.refl _) hm hr hown).2.2⟩)

/-- C91, for any application that keeps to a few rules: every answer of some kind that a client gets was given when the command was called for, or is the
reply to an event at some index of the log, on the replica that proposed it and in a state that reflects the log before; and those indices
respect the real-time order of the calls of all services. -/
theorem C91_order (hcod : ∀ x, S.E.decEntry (S.E.encEntry x) = some x) (hcor : Correlates S.A) (hin : Inert S.A) {kind : ActorCommand → Prop} (hrep : Replies S.A kind)
    (hl : ∀ i, (log i).index = i) {ss : Nat → Srv σ ρ κ H} {h} (hh : Served S log founder fresh cfg ss h) :
    ∃ f, (∀ p, (replicas ss p).state ≠ .created → Reflects S log fresh cfg f (replicas ss p).applied (replicas ss p).actor) ∧
      ∃ pos : Nat → ActorCommand → Nat,
        (∀ p r, Told h p r → kind r → ¬ (∃ n, EarlyAt S log fresh cfg f h p r n) → Replied S log fresh cfg f (replicas ss p).id r (pos p r)) ∧
        InOrder h (fun p => (replicas ss p).id) (fun p r => kind r ∧ ¬ (∃ n, EarlyAt S log fresh cfg f h p r n)) pos := by
  obtain ⟨f, h1, pos, h2, h3, _⟩ := served_order hcod hcor hin hrep hl hh
  exact ⟨f, h1, pos, h2, h3⟩

end TCP.ServiceProps

namespace TCP.Counter

open TCP ActorSpec Spec Drv DrvSpec ServiceSpec

variable {ρ κ H : Type} {R : RaftT ρ} {C : CommT κ H} {E : Codecs}

theorem replies (ms : Msgs) : Replies (actor ms) fun _ => True := by
  intro ctx s i own ev s' o r hap hr _
  rcases apply_cases (ctx := ctx) hap with ⟨_, _, hres⟩ | ⟨n, cas, x, pl, hd, _, hres⟩
  · cases hres
  · simp only [Except.ok.injEq] at hres
    rw [hres] at hr
    simp only at hr
    split at hr
    · rename_i hown
      simp only [List.mem_singleton] at hr
      exact ⟨by simpa using hown, by rw [hr]; rfl⟩
    · simp at hr

theorem early_refusal {ms : Msgs} {h : List (Nat × Service.Event (Req H) (List (OutMsg H)))} {p : Nat} {r : ActorCommand}
    (he : ∃ n, EarlyAt ⟨actor ms, R, C, E⟩ log fresh cfg f h p r n) : Refusal ms h p r := by
  obtain ⟨_, ctx, s, c, s', o, ha, _, hc, hr⟩ := he
  cases c with
  | none =>
    simp only [actor, onProcessCommand, Run.ok.injEq, Prod.mk.injEq, Except.ok.injEq] at hc
    rw [← hc.2] at hr
    simp at hr
  | some c =>
    refine ⟨c, ha c rfl, ?_⟩
    have hss : s' = s := command_state (ms := ms) (ctx := ctx) (c := some c) (res := .ok o) hc
    subst hss
    obtain ⟨d1, d2⟩ := C35_decisions c hc
    have done : ∀ st, o = ⟨[⟨c.correlationId, ms.encOut ⟨st, none⟩, []⟩], none⟩ → r = ⟨c.correlationId, ms.encOut ⟨st, none⟩, []⟩ := by
      intro st ho
      rw [ho] at hr
      simpa using hr
    rcases hd : ms.decIn c.header with _ | _ | q
    · exact ⟨.invalidOperation, .inr rfl, done _ (d1 (.inl hd))⟩
    · exact ⟨.invalidOperation, .inr rfl, done _ (d1 (.inr hd))⟩
    · obtain ⟨e1, e2, e3⟩ := d2 q hd
      cases hlead : ctx.leader with
      | false => exact ⟨.rejected, .inl rfl, done _ (e1 hlead)⟩
      | true =>
        by_cases hop : q.op = none
        · exact ⟨.invalidOperation, .inr rfl, done _ (e2 hlead hop)⟩
        · rw [e3 hlead hop] at hr
          simp at hr

/-- C91 for the atomic counter: compare-and-swaps are linearizable.  Every answer that a client of any replica's service gets and that does
not refuse a command is the answer to the compare-and-swap at some position of one order, for the counters after those before it; and if a
client had an answer before another command was called for, then its position is before. -/
theorem C91_counters {ms : Msgs} (hm : Lawful ms) (hcod : ∀ x, E.decEntry (E.encEntry x) = some x) {log : Nat → Entry}
    (hl : ∀ i, (log i).index = i) {founder : Nat} {cfg : Bytes} {ss : Nat → Srv State ρ κ H} {h}
    (hh : Served ⟨actor ms, R, C, E⟩ log founder (· = State.new) cfg ss h) :
    ∃ pos : Nat → ActorCommand → Nat,
      (∀ p r, Told h p r → ¬ Refusal ms h p r → SwapAt ms E.decEntry log cfg (replicas ss p).id r (pos p r)) ∧
      InOrder h (fun p => (replicas ss p).id) (fun p r => ¬ Refusal ms h p r) pos := by
  obtain ⟨f, _, pos, h1, h2⟩ := ServiceProps.C91_order (S := ⟨actor ms, R, C, E⟩) hcod (correlates ms) (inert ms) (replies ms) hl hh
  refine ⟨pos, fun p r ht hr => ?_, fun ha hb he p1 r1 p2 r2 t1 n1 t2 n2 => h2 ha hb he p1 r1 p2 r2 t1 ⟨trivial, fun e => n1 (early_refusal e)⟩ t2
    ⟨trivial, fun e => n2 (early_refusal e)⟩⟩
  obtain ⟨ev, s, ctx, s', o, h2, hev, hpr, hs, hap, hr⟩ := h1 p r ht trivial fun e => hr (early_refusal e)
  have hv := replica_view hm hs.1
  rcases apply_cases (ctx := ctx) hap with ⟨_, _, hres⟩ | ⟨n, cas, x, pl, hd, _, hres⟩
  · cases hres
  · simp only [Except.ok.injEq] at hres
    rw [hres] at hr
    simp only [if_true] at hr
    refine ⟨ev, n, cas.expected, cas.new, x, pl, h2, hev, hpr, hd, ?_⟩
    simp only [List.mem_singleton] at hr
    refine hr.trans ?_
    rw [response_compareAndSwap, hv]
    rfl

end TCP.Counter

namespace TCP.TabletStore

open TCP ActorSpec Spec Drv DrvSpec ServiceSpec

variable {ρ κ H : Type} {R : RaftT ρ} {C : CommT κ H} {E : Codecs}

theorem replies (env : Env) : Replies (actor env) fun _ => True := by
  intro ctx s i own ev s' o r hap hr _
  rcases apply_cases (ctx := ctx) hap with ⟨_, _, hx⟩ | ⟨ops, resp, hd, h4, _, hx⟩
  · cases hx
  · simp only [Except.ok.injEq] at hx
    rw [hx] at hr
    simp only at hr
    split at hr
    · rename_i hown
      simp only [List.mem_singleton] at hr
      exact ⟨by simpa using hown, by rw [hr]⟩
    · simp at hr

theorem early_refusal {env : Env} {h : List (Nat × Service.Event (Req H) (List (Drv.OutMsg H)))} {p : Nat} {r : ActorCommand}
    (he : ∃ n, EarlyAt ⟨actor env, R, C, E⟩ log fresh cfg f h p r n) : Refusal env h p r := by
  obtain ⟨_, ctx, s, c, s', o, ha, _, hc, hr⟩ := he
  obtain ⟨q, rfl, st, h4⟩ := command_refuses hc hr
  exact ⟨q, ha q rfl, st, h4⟩

/-- C91 for the tablet store: requests are linearizable.  There is one initial set of tablets, the one the founder drew for the
configuration; every answer that a client of any replica's service gets and that does not refuse a command is the answer to the request at
some position of one order, for the tablets after the requests before it; and if a client had an answer before another command was called
for, then its position is before. -/
theorem C91_tablets {env : Env} (he : Lawful env) (hcod : ∀ x, E.decEntry (E.encEntry x) = some x) {log : Nat → Entry}
    (hl : ∀ i, (log i).index = i) {founder : Nat} {cfg : Bytes} {ss : Nat → Srv State ρ κ H} {h}
    (hh : Served ⟨actor env, R, C, E⟩ log founder (·.tables = []) cfg ss h) :
    ∃ (f : State) (pos : Nat → ActorCommand → Nat),
      (∀ p, 1 ≤ (replicas ss p).applied → ∃ ctx s0, s0.tables = [] ∧ ctx.config = cfg ∧ Started (actor env) s0 ctx f) ∧
      (∀ p r, Told h p r → ¬ Refusal env h p r → AnswerAt env E.decEntry log (view f) (replicas ss p).id r (pos p r)) ∧
      InOrder h (fun p => (replicas ss p).id) (fun p r => ¬ Refusal env h p r) pos := by
  obtain ⟨f, hf, pos, h1, h2⟩ := ServiceProps.C91_order (S := ⟨actor env, R, C, E⟩) hcod (correlates env) (inert env) (replies env) hl hh
  refine ⟨f, pos, fun p hp => ?_, fun p r ht hr => ?_, fun ha hb he p1 r1 p2 r2 t1 n1 t2 n2 => h2 ha hb he p1 r1 p2 r2 t1
    ⟨trivial, fun e => n1 (early_refusal e)⟩ t2 ⟨trivial, fun e => n2 (early_refusal e)⟩⟩
  · have hst : (replicas ss p).state ≠ .created := by
      intro hc
      obtain ⟨⟨f, I⟩, _⟩ := app_inv hl (inert env) (served_deployed hh).1
      obtain ⟨d0, outs, h0, hruns⟩ := I.runs p
      have := ((runs_created h0 hruns).inv hc).2.1
      omega
    have hm := (hf p hst).2 hp
    clear hp hst
    generalize (replicas ss p).actor = a at hm
    generalize eventsUpTo _ log (replicas ss p).applied = evs at hm
    induction hm with
    | boot h0 hc h => exact ⟨_, _, h0, hc, h⟩
    | apply _ _ ih => exact ih
    | command _ _ ih => exact ih
    | save _ _ ih => exact ih
    | load _ _ _ _ ih => exact ih
  · obtain ⟨ev, s, ctx, s', o, h2, hev, hpr, hs, hap, hr⟩ := h1 p r ht trivial fun e => hr (early_refusal e)
    have hmem := member_of (hs.2 (by omega))
    have hv := member_view he hmem
    cases hd : env.decReq ev.contents with
    | none =>
      have := (C40_undecodable hd (.apply hap)).2
      cases this
    | some ops =>
      obtain ⟨resp, h4, h5, h6, _⟩ := C40_atomic (member_reachable hmem) hd (.apply hap)
      simp only [Except.ok.injEq] at h4
      rw [h4] at hr
      simp only [if_true] at hr
      rw [hv] at h5 h6
      exact ⟨ev, ops, resp, h2, hev, hpr, hd, by simpa using hr, h5, h6⟩

end TCP.TabletStore
