import Verif.Proofs.DriverOwner
import Verif.Props.DriverLogExample

/-!
# Properties of the replica driver: C22–C24, the log

The consensus layer is any implementation of `RaftT`; what it delivered is read from the recorded interactions (`Spec/DriverLog`).
-/

namespace TCP.DrvProps

open TCP TCP.Drv TCP.DrvSpec TCP.DrvExample TCP.ActorSpec

variable {σ ρ κ H V : Type} {S : Sys σ ρ κ H}

/-! ## C22: exactly once, in order -/

/-- C22: whatever consensus delivers, in whatever batches, the actor sees exactly that: per batch the snapshot, if there is one, and then
every entry with a payload, in the order of the indices; and the applied index is the index of the last entry or snapshot delivered. -/
theorem C22_feed {d0 d : Driver σ ρ κ H} {outs} (h0 : Fresh d0) (h : Runs S d0 outs d) (he : d.ephemeral = false) :
    Trail (Feed S.E.decEntry d.id) d.trace ([], 0) (observed d.trace, d.applied) :=
  (runs_log h0 h).1.feed he

/-- C22: if the batches are consecutive parts of a log, then what the actor saw since the last snapshot (index `b`) is the payloads of the
entries after `b` up to the applied index: every entry exactly once, in log order. -/
theorem C22_log {log : Nat → Entry} (hl : ∀ i, (log i).index = i) {d0 d : Driver σ ρ κ H} {outs} (h0 : Fresh d0) (h : Runs S d0 outs d)
    (he : d.ephemeral = false) {b a : Nat} (hg : Trail (Follows log) d.trace (0, 0) (b, a)) :
    d.applied = a ∧ b ≤ a ∧ payloads S.E.decEntry d.id (segment log b (a - b)) = some (sinceLoad (observed d.trace)) := by
  obtain ⟨rfl, hp⟩ := runs_position hl h0 h he hg
  exact ⟨rfl, hp.le, hp.seen⟩

/-- C22: if moreover consensus never installs a snapshot older than what it delivered, no entry is applied twice, even across snapshots: the
indices the actor saw strictly increase, up to the applied index. -/
theorem C22_once {log : Nat → Entry} (hl : ∀ i, (log i).index = i) {d0 d : Driver σ ρ κ H} {outs} (h0 : Fresh d0) (h : Runs S d0 outs d)
    (he : d.ephemeral = false) {y : Nat × Nat} (hg : Trail (Advances log) d.trace (0, 0) y) :
    (applyIndices (observed d.trace)).Pairwise (· < ·) ∧ ∀ i ∈ applyIndices (observed d.trace), i ≤ d.applied :=
  ⟨(runs_ascending hl h0 h he hg).sorted, (runs_ascending hl h0 h he hg).bound⟩

/-- C22 is not vacuous: a replica gets a snapshot and then an entry in another batch. -/
example : ∃ d outs, Runs sys follower outs d ∧ d.ephemeral = false ∧ Trail (Advances log) d.trace (0, 0) (3, 4) ∧ d.applied = 4 ∧
    observed d.trace = [.load [10, 20, 21], .apply 4 false ⟨9, [30]⟩] := by
  have h : check follower [(1, some (some (.startReplica { startReq false false with idHint := 2 }))), (2, none)] (fun d rs =>
      allOk rs && decide (d.ephemeral = false ∧ follows d.trace (0, 0) = some (3, 4) ∧ d.applied = 4 ∧
        observed d.trace = [.load [10, 20, 21], .apply 4 false ⟨9, [30]⟩])) = true := by decide +kernel
  obtain ⟨d, outs, hr, hp⟩ := check_runs h
  obtain ⟨h1, h2, h3⟩ := of_decide_eq_true hp
  exact ⟨d, outs, hr, h1, follows_sound h2, h3⟩

/-! ## C23: only the proposer answers -/

/-- C23: a replica proposes exactly the events its actor asked to replicate, each once and in order, marked with its own id. -/
theorem C23_proposals {d0 d : Driver σ ρ κ H} {outs} (h0 : Fresh d0) (h : Runs S d0 outs d) (he : d.ephemeral = false) :
    d.trace.filterMap proposal = (d.trace.filterMap requested).map fun ev => S.E.encEntry ⟨some (d.id, ev.correlationId), ev.contents⟩ :=
  ((runs_log h0 h).1.proposals he).1.symm

/-- C23: if replica `p` proposed the entry at index `i` of the log, then replica `q` sees it as the event `p`'s actor asked for, and as its own
exactly if it is `p`. -/
theorem C23_owner {log : Nat → Entry} (hl : ∀ i, (log i).index = i) (hc : ∀ x, S.E.decEntry (S.E.encEntry x) = some x)
    {p0 p q0 q : Driver σ ρ κ H} {outp outq} (hp0 : Fresh p0) (hp : Runs S p0 outp p) (ep : p.ephemeral = false)
    (hq0 : Fresh q0) (hq : Runs S q0 outq q) (eq : q.ephemeral = false) {y : Nat × Nat} (hg : Trail (Follows log) q.trace (0, 0) y)
    {i : Nat} (hi : .propose (log i).data ∈ p.trace) {owned : Bool} {ev : ActorEvent} (ho : .apply i owned ev ∈ observed q.trace) :
    ev ∈ p.trace.filterMap requested ∧ (owned = true ↔ p.id = q.id) := by
  obtain ⟨r, hr, rfl⟩ := runs_stems_log hl hq0 hq eq hg ho
  obtain ⟨ev', hm, hb⟩ := runs_proposal hp0 hp ep hi
  rw [hb, encode, hc] at hr
  simp only [Option.some.injEq, LogEntry.mk.injEq, Prod.mk.injEq] at hr
  obtain ⟨⟨rfl, h1⟩, h2⟩ := hr
  have : ev' = ev := by cases ev; cases ev'; simp_all
  subst this
  exact ⟨hm, by simp⟩

/-- C23: at most one replica sees an entry as its own. -/
theorem C23_single {log : Nat → Entry} (hl : ∀ i, (log i).index = i)
    {p0 p q0 q : Driver σ ρ κ H} {outp outq} (hp0 : Fresh p0) (hp : Runs S p0 outp p) (ep : p.ephemeral = false)
    (hq0 : Fresh q0) (hq : Runs S q0 outq q) (eq : q.ephemeral = false) {x y : Nat × Nat} (fp : Trail (Follows log) p.trace (0, 0) x)
    (fq : Trail (Follows log) q.trace (0, 0) y) {i : Nat} {ev ev' : ActorEvent} (h1 : .apply i true ev ∈ observed p.trace)
    (h2 : .apply i true ev' ∈ observed q.trace) : p.id = q.id ∧ ev = ev' := by
  obtain ⟨r, hr, h3⟩ := runs_stems_log hl hp0 hp ep fp h1
  obtain ⟨r', hr', h4⟩ := runs_stems_log hl hq0 hq eq fq h2
  rw [hr] at hr'
  simp only [Option.some.injEq, LogEntry.mk.injEq, Prod.mk.injEq] at hr'
  obtain ⟨⟨rfl, h5⟩, h6⟩ := hr'
  have e1 := of_decide_eq_true h3.symm
  have e2 := of_decide_eq_true h4.symm
  exact ⟨e1.symm.trans e2, by cases ev; cases ev'; simp_all⟩

/-- C23: if an application keeps the correlation ids and answers only owned events, and consensus commits under a replica's id only what this
replica proposed, then every message a replica sends to clients answers a command it was handed itself. -/
theorem C23_replies (ha : Answers S.A) (hc : ∀ x, S.E.decEntry (S.E.encEntry x) = some x) {d0 d : Driver σ ρ κ H} {outs} (h0 : Fresh d0)
    (h : Runs S d0 outs d) (he : d.ephemeral = false)
    (hprop : ∀ e ∈ d.trace.flatMap delivered, ∀ corr contents, S.E.decEntry e.data = some ⟨some (d.id, corr), contents⟩ → .propose e.data ∈ d.trace)
    {r : ActorCommand} (hr : r ∈ appMessages (sent (outs.map .ok))) :
    ∃ c ∈ d.trace.filterMap handed, r.correlationId = c.correlationId := by
  have hcalls := runs_calls h
  have hrep : appMessages (sent (outs.map .ok)) = d.trace.flatMap actorReplies := by
    rw [← show _ = _ from calls_replies h0 hcalls, ← calls_sent h0 hcalls, runs_messages h0 h, List.append_nil]
  rw [hrep] at hr
  obtain ⟨e, hm, hr⟩ := List.mem_flatMap.1 hr
  -- an event the actor asked for belongs to a command
  have hreq : ∀ ev ∈ d.trace.filterMap requested, ∃ c ∈ d.trace.filterMap handed, ev.correlationId = c.correlationId := by
    intro ev hev
    obtain ⟨e, hm, hx⟩ := List.mem_filterMap.1 hev
    match e, hm, hx with
    | .actor (.command ctx c (.ok o)), hm, hx =>
      obtain ⟨s1, s2, hs⟩ := calls_mem h0 hcalls hm
      cases hs with
      | command hs =>
        obtain ⟨q, rfl, hq⟩ := ha.event hs hx
        exact ⟨q, List.mem_filterMap.2 ⟨_, hm, rfl⟩, hq⟩
  match e, hm, hr with
  | .actor (.command ctx c (.ok o)), hm, hr =>
    obtain ⟨s1, s2, hs⟩ := calls_mem h0 hcalls hm
    cases hs with
    | command hs =>
      obtain ⟨q, rfl, hq⟩ := ha.command hs r hr
      exact ⟨q, List.mem_filterMap.2 ⟨_, hm, rfl⟩, hq⟩
  | .actor (.apply ctx ec ev (.ok o)), hm, hr =>
    obtain ⟨s1, s2, hs⟩ := calls_mem h0 hcalls hm
    cases hs with
    | apply hs =>
      obtain ⟨howned, hcorr⟩ := ha.apply hs r hr
      have ho : Obs.apply ec.index true ev ∈ observed d.trace := List.mem_filterMap.2 ⟨_, hm, by simp [observation, howned]⟩
      obtain ⟨e, hm, _, _, _, replica, hdec, hid⟩ := runs_stems h0 h he _ ho
      have hid := of_decide_eq_true hid.symm
      subst hid
      obtain ⟨ev', hm', hb⟩ := runs_proposal h0 h he (hprop e hm _ _ hdec)
      rw [hb, encode, hc] at hdec
      simp only [Option.some.injEq, LogEntry.mk.injEq, Prod.mk.injEq] at hdec
      obtain ⟨c, h1, h2⟩ := hreq ev' hm'
      exact ⟨c, h1, by rw [hcorr, ← h2, hdec.1.2]⟩

/-- C23 is not vacuous: a replica with id 1 proposes three entries, sees them as its own and answers them; a replica with id 2 sees the same
entry as foreign. -/
example : ∃ p outp q outq, Runs sys d0 outp p ∧ p.ephemeral = false ∧ Runs sys follower outq q ∧ q.ephemeral = false ∧
    (∃ y, Trail (Follows log) p.trace (0, 0) y) ∧ (∃ y, Trail (Follows log) q.trace (0, 0) y) ∧
    .propose (log 4).data ∈ p.trace ∧ .apply 4 true ⟨9, [30]⟩ ∈ observed p.trace ∧ .apply 4 false ⟨9, [30]⟩ ∈ observed q.trace ∧
    (∀ e ∈ p.trace.flatMap delivered, ∀ corr contents, sys.E.decEntry e.data = some ⟨some (p.id, corr), contents⟩ → .propose e.data ∈ p.trace) ∧
    (appMessages (sent (outp.map .ok))).map ActorCommand.correlationId = [7, 8, 9] := by
  have h : check d0 [startLeader, (2, app 7 [10]), (3, app 8 [20, 21]), (4, app 9 [30])] (fun d rs =>
      allOk rs && (decide (d.ephemeral = false) && (follows d.trace (0, 0)).isSome && decide ((log 4).data ∈ d.trace.filterMap proposal) &&
        decide (Obs.apply 4 true ⟨9, [30]⟩ ∈ observed d.trace) &&
        (d.trace.flatMap delivered).all (fun e => decide (e.data ∈ d.trace.filterMap proposal)) &&
        decide ((appMessages (sent rs)).map ActorCommand.correlationId = [7, 8, 9]))) = true := by decide +kernel
  have g : check follower [(1, some (some (.startReplica { startReq false false with idHint := 2 }))), (2, none)] (fun d rs =>
      allOk rs && (decide (d.ephemeral = false) && (follows d.trace (0, 0)).isSome && decide (Obs.apply 4 false ⟨9, [30]⟩ ∈ observed d.trace))) = true := by
    decide +kernel
  obtain ⟨p, outp, hp, hx⟩ := check_runs h
  obtain ⟨q, outq, hq, hy⟩ := check_runs g
  simp only [Bool.and_eq_true] at hx hy
  obtain ⟨⟨⟨⟨⟨h1, h2⟩, h3⟩, h4⟩, h5⟩, h6⟩ := hx
  obtain ⟨⟨g1, g2⟩, g3⟩ := hy
  obtain ⟨y, hy⟩ := Option.isSome_iff_exists.1 h2
  obtain ⟨z, hz⟩ := Option.isSome_iff_exists.1 g2
  have prop : ∀ b, b ∈ p.trace.filterMap proposal → .propose b ∈ p.trace := by
    intro b hb
    obtain ⟨e, hm, he⟩ := List.mem_filterMap.1 hb
    match e, hm, he with
    | .propose b', hm, he => cases he; exact hm
  exact ⟨p, outp, q, outq, hp, of_decide_eq_true h1, hq, of_decide_eq_true g1, ⟨y, follows_only (follows_sound hy)⟩,
    ⟨z, follows_only (follows_sound hz)⟩, prop _ (of_decide_eq_true h3), of_decide_eq_true h4, of_decide_eq_true g3,
    fun e he _ _ _ => prop _ (of_decide_eq_true (List.all_eq_true.1 h5 e he)), of_decide_eq_true h6⟩

/-- The contracts C23 asks for are met by the concrete system. -/
example : Answers sys.A ∧ ∀ x, sys.E.decEntry (sys.E.encEntry x) = some x := ⟨actor_answers, entryC_lawful⟩

/-! ## C24: replicas agree -/

/-- C24: in a cluster, replicas that applied the same part of the log are in the same state, whether they applied it from the start or
installed snapshots on the way. -/
theorem C24_agree {log : Nat → Entry} (hl : ∀ i, (log i).index = i) {view : σ → V} {step : V → Nat → ActorEvent → V}
    (hd : Deterministic S.A view step) {founder : Nat} {ds : Nat → Driver σ ρ κ H} (h : Cluster S log founder ds) {p q : Nat}
    (hp : 1 ≤ (ds p).applied) (hpq : (ds p).applied = (ds q).applied) : view (ds p).actor = view (ds q).actor := by
  obtain ⟨⟨v, I⟩, _⟩ := cluster_inv hl hd h
  have h1 := I.actor p hp
  have h2 := I.actor q (hpq ▸ hp)
  rw [← hpq] at h2
  exact at_det h1 h2

/-- C24: the state of every replica is the result of applying the log, up to its applied index, to one common initial state. -/
theorem C24_state {log : Nat → Entry} (hl : ∀ i, (log i).index = i) {view : σ → V} {step : V → Nat → ActorEvent → V}
    (hd : Deterministic S.A view step) {founder : Nat} {ds : Nat → Driver σ ρ κ H} (h : Cluster S log founder ds) :
    ∃ v, ∀ p, 1 ≤ (ds p).applied → ∃ ps, payloads S.E.decEntry 0 (segment log 1 ((ds p).applied - 1)) = some ps ∧
      view (ds p).actor = replay step v (events ps) := by
  obtain ⟨⟨v, I⟩, _⟩ := cluster_inv hl hd h
  exact ⟨v, fun p hp => I.actor p hp⟩

/-- C24 is not vacuous: one replica applies entries 2 to 4, the other installs a snapshot of index 3 and applies entry 4. -/
example : Deterministic sys.A id (fun v _ ev => v ++ ev.contents) ∧ (∀ i, (log i).index = i) ∧
    ∃ ds, Cluster sys log 0 ds ∧ (ds 0).applied = 4 ∧ (ds 1).applied = 4 ∧
      applyIndices (observed (ds 0).trace) = [2, 3, 4] ∧ applyIndices (observed (ds 1).trace) = [4] ∧ (ds 0).actor = [10, 20, 21, 30] := by
  refine ⟨actor_deterministic, log_index, ?_⟩
  have h : (match cluster (d0, follower) script with
    | some x => decide (x.1.applied = 4 ∧ x.2.applied = 4 ∧ applyIndices (observed x.1.trace) = [2, 3, 4] ∧
        applyIndices (observed x.2.trace) = [4] ∧ x.1.actor = [10, 20, 21, 30])
    | none => false) = true := by decide +kernel
  rcases hc : cluster (d0, follower) script with _ | ab <;> rw [hc] at h
  · cases h
  · refine ⟨pair ab, cluster_sound hc (.init ?_), of_decide_eq_true h⟩
    intro p
    simp only [pair]
    split
    · exact ⟨_, _, _, rfl⟩
    · split <;> exact ⟨_, _, _, rfl⟩

end TCP.DrvProps
