import Verif.Proofs.Short
import Verif.Proofs.Answered
import Verif.Props.Replica
import Verif.Props.SurviveStoreExample

/-!
# C100: the log of a replica stays short

A replica is started with the number of entries after which a snapshot is due.  Between calls it holds at most one more applied entry than that, and
no peer waits for a snapshot it could be given.
-/

namespace TCP.Short

open TCP TCP.Drv TCP.Replica TCP.Storage.Spec

variable {σ ν Y P S E H : Type} {A : Actor σ} {N : NodeT ν Y} {ops : Comm.Ops S E H} {V : Env P S E H} {codecs : Codecs}

/-- A replica started with a snapshot count of `c` never holds, between calls, a snapshot that is more than `c` entries behind what it has
applied, whatever the application does and whatever messages arrive. -/
theorem C100_snapshot_recent (hN : NodeContract N) (hr : Quiet N) {a : σ} {p : P} {q : StartReq} {i o} {outs} {d1 d : Driver σ (Simple ν Y) (Channels P S E H) H}
    (hq : q.isEphemeral = false) (h1 : receive (sys A N ops V codecs) i (some (some (.startReplica q))) (fresh a p) = .ok (d1, .ok o))
    (h : Runs (sys A N ops V codecs) d1 outs d) :
    ∃ n, d.raft.node = some n ∧ d.applied ≤ (N.store n).snap.index + snapshotCount q := by
  obtain ⟨k1, k2⟩ := started_counts hN hq h1
  obtain ⟨_, n, hn, hc⟩ := (counts_leaves hN _).runs h k1
  have ht : d.ephemeral = false → Tight N d := tight_runs hN hr (tight_receive hN hr (fun _ n hn => by simp [fresh, Driver.new, Simple.new] at hn) h1) h
  have he : d.ephemeral = false := (runs_moves k1.1 k2 h).2.1
  have := ht he n hn
  refine ⟨n, hn, ?_⟩
  unfold Storage.shouldSnapshot at this
  rw [Bool.or_eq_false_iff, hc] at this
  have := of_decide_eq_false this.1
  omega

/-- So if raft-rs only stores consecutive entries, the store holds at most `c + 1` entries the application has been given. -/
theorem C100_log_short (hN : NodeContract N) (hr : Quiet N) {a : σ} {p : P} {q : StartReq} {i o} {outs} {d1 d : Driver σ (Simple ν Y) (Channels P S E H) H}
    (hq : q.isEphemeral = false) (h1 : receive (sys A N ops V codecs) i (some (some (.startReplica q))) (fresh a p) = .ok (d1, .ok o))
    (h : Runs (sys A N ops V codecs) d1 outs d) (hb : ∀ es x, .storeAppend es x ∈ d.trace → Batch (es.map toStoreEntry)) :
    ∃ n, d.raft.node = some n ∧ (done (N.store n) d.applied).length ≤ snapshotCount q + 1 := by
  obtain ⟨n, hn, hk⟩ := C100_snapshot_recent hN hr hq h1 h
  have h0 : Runs (sys A N ops V codecs) (fresh a p) ([o] ++ outs) d := runs_append (Runs.snoc .nil h1) h
  exact ⟨n, hn, done_short (C69_store_reachable hN (runs_calls h0) hb hn) hk⟩

/-- Between calls no peer waits for a snapshot although it is a member and the index it asked for was applied. -/
theorem C100_requests_served (hN : NodeContract N) (hr : Quiet N) {a : σ} {p : P} {outs} {d : Driver σ (Simple ν Y) (Channels P S E H) H}
    (h : Runs (sys A N ops V codecs) (fresh a p) outs d) (he : d.ephemeral = false) {n : ν} (hn : d.raft.node = some n) {peer index : Nat}
    (hw : (peer, index) ∈ (N.store n).requests) : ¬ (Knows d.conf peer ∧ index ≤ d.applied) := by
  have ht := tight_runs hN hr (fun _ n hn => by simp [fresh, Driver.new, Simple.new] at hn) h he n hn
  unfold Storage.shouldSnapshot at ht
  rw [Bool.or_eq_false_iff, List.any_eq_false] at ht
  rintro ⟨h1, h2⟩
  exact ht.2 _ hw (Storage.satisfies_iff.2 ⟨h2, h1⟩)

/-! ## Concrete cases -/

open SurvStoreExample in
/-- Telling the example node about a transfer does not touch its store. -/
theorem node_quiet : Quiet SurvStoreExample.node := fun n _ _ n' h => by
  simp only [SurvStoreExample.node, Run.ok.injEq] at h
  rw [h]

open SurvStoreExample in
theorem runs_runAll {d d' : Rep} {cs out} (h : runAll d cs = .ok (d', out)) : ∃ outs, Runs counterSys d outs d' := by
  induction cs generalizing d out with
  | nil =>
    simp only [runAll, Run.ok.injEq, Prod.mk.injEq] at h
    rw [h.1]; exact ⟨[], .nil⟩
  | cons m cs ih =>
    simp only [runAll, Run.bind_eq_ok] at h
    obtain ⟨⟨d1, o1⟩, h1, ⟨d2, o2⟩, h2, h3⟩ := h
    simp only [Run.ok.injEq, Prod.mk.injEq] at h3
    obtain ⟨rfl, _⟩ := h3
    obtain ⟨outs, hr⟩ := ih h2
    simp only [serve, Run.bind_eq_ok] at h1
    obtain ⟨⟨d3, r⟩, h1, h4⟩ := h1
    cases r with
    | error e => cases h4
    | ok r =>
      simp only [Run.ok.injEq, Prod.mk.injEq] at h4
      rw [← h4.1] at hr
      exact ⟨_, runs_append (Runs.snoc .nil h1) hr⟩

open SurvStoreExample in
/-- The counter with a snapshot count of 1 commits two commands: the snapshot moves from 1 to 3, and of the entries the last one is kept. -/
example : ∃ d1 o outs d, receive counterSys 1 (some (some (.startReplica (startReq true)))) new = .ok (d1, .ok o) ∧ Runs counterSys d1 outs d ∧
    snapshotCount (startReq true) = 1 ∧ (∀ es x, .storeAppend es x ∈ d.trace → Batch (es.map toStoreEntry)) ∧
    d.applied = 3 ∧ ∃ s, log d = some s ∧ s.snap.index = 3 ∧ (done s d.applied).length = 1 := by
  have h : check [start true, SurvExample.app SurvExample.swap, none, SurvExample.app SurvExample.swap, none, none]
      (fun d _ => d.applied == 3 && (log d).any (fun s => s.snap.index == 3 && (done s d.applied).length == 1) &&
        d.trace.all fun e => match e with | .storeAppend es _ => es.length == 1 | _ => true) = true := by decide +kernel
  obtain ⟨d, out, hr, hp⟩ := check_sound h
  simp only [runAll, Run.bind_eq_ok] at hr
  obtain ⟨⟨d1, o1⟩, h1, ⟨d2, o2⟩, h2, h3⟩ := hr
  simp only [Run.ok.injEq, Prod.mk.injEq] at h3
  obtain ⟨outs, hruns⟩ := runs_runAll (cs := [SurvExample.app SurvExample.swap, none, SurvExample.app SurvExample.swap, none, none]) (d := d1) (d' := d2)
    (out := o2) (by simpa [runAll, Run.bind_eq_ok] using h2)
  rw [h3.1] at hruns
  simp only [serve, Run.bind_eq_ok] at h1
  obtain ⟨⟨d3, r⟩, h1, h4⟩ := h1
  cases r with
  | error e => cases h4
  | ok r =>
    simp only [Run.ok.injEq, Prod.mk.injEq] at h4
    rw [h4.1] at h1
    simp only [Bool.and_eq_true, beq_iff_eq] at hp
    obtain ⟨⟨p1, p2⟩, p3⟩ := hp
    obtain ⟨s, hs, p4⟩ := (Option.any_eq_true _ _).1 p2
    simp only [Bool.and_eq_true, beq_iff_eq] at p4
    refine ⟨d1, r, outs, d, h1, hruns, rfl, fun es x he => ?_, p1, s, hs, p4⟩
    have := List.all_eq_true.1 p3 _ he
    simp only [beq_iff_eq] at this
    obtain ⟨e, rfl⟩ := List.length_eq_one_iff.1 this
    exact ⟨rfl, trivial⟩

open SurvStoreExample in
/-- Replica 2 asks for a snapshot before it is a member and has to wait.  In the call that makes it a member the snapshot is taken, although only
one entry was applied since the last one, and nobody waits any more. -/
example : ∃ d d' : Rep, (∃ o, Runs counterSys new o d) ∧ (∃ o, Runs counterSys new o d') ∧ d.ephemeral = false ∧ d'.ephemeral = false ∧
    (∃ s, log d = some s ∧ (2, 1) ∈ s.requests ∧ ¬ Knows d.conf 2) ∧
    (∃ s, log d' = some s ∧ s.requests = [] ∧ s.snap.index = 2 ∧ Knows s.snap.conf 2) := by
  have h : check [start true, RepExample.greet, RepExample.message 1 2]
      (fun d _ => !d.ephemeral && (log d).any fun s => s.requests == [(2, 1)] && !d.conf.containsNode 2) = true := by decide +kernel
  have h' : check [start true, RepExample.greet, RepExample.message 1 2, some (some (.changeCluster 1 2 1))]
      (fun d _ => !d.ephemeral && (log d).any fun s => s.requests.isEmpty && s.snap.index == 2 && decide (s.snap.conf = ⟨[1, 2], [], []⟩)) = true := by decide +kernel
  obtain ⟨d, _, hr, hp⟩ := check_sound h
  obtain ⟨d', _, hr', hp'⟩ := check_sound h'
  simp only [Bool.and_eq_true, Bool.not_eq_true'] at hp hp'
  obtain ⟨s, hs, q1⟩ := (Option.any_eq_true _ _).1 hp.2
  obtain ⟨s', hs', q2⟩ := (Option.any_eq_true _ _).1 hp'.2
  simp only [Bool.and_eq_true, beq_iff_eq, Bool.not_eq_true', decide_eq_true_eq, List.isEmpty_iff] at q1 q2
  refine ⟨d, d', runs_runAll hr, runs_runAll hr', hp.1, hp'.1, ⟨s, hs, by rw [q1.1]; simp, fun hk => ?_⟩, s', hs', q2.1.1, q2.1.2, by rw [q2.2]; simp [Knows]⟩
  have : d.conf.containsNode 2 = true := by
    unfold Storage.ConfState.containsNode
    rw [List.any_eq_true]
    refine ⟨2, ?_, by simp⟩
    simp only [List.mem_append]
    unfold Knows at hk
    exact or_assoc.2 hk
  rw [q1.2] at this
  cases this

end TCP.Short
