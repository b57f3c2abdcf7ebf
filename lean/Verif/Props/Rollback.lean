import Verif.Proofs.Rollback
import Verif.Props.DriverLog
import Verif.Props.SurviveStore

/-!
# C99: Rollback and forking

`docs/key_value_store.md` promises "rollback, forking and replay protections".  A replica that keeps running never goes back.  But nothing
outlives a process: the log and the vote are in memory only, and the host picks the id of a replica and whether it founds a cluster.
-/

namespace TCP.Rollback

open TCP TCP.Drv TCP.DrvSpec

section
variable {σ ρ κ H : Type} {S : Sys σ ρ κ H}

/-- C99: a running replica never goes back.  Provided that consensus does not go back in the log, whatever calls are made the index it has
reached does not decrease, what its application has seen stays what it has seen, and every event it is handed from then on comes after
that index. -/
theorem C99_forward_partial {log : Nat → Entry} (hl : ∀ i, (log i).index = i) {d0 d1 d2 : Driver σ ρ κ H} {o1 o2} (h0 : Fresh d0)
    (h1 : Runs S d0 o1 d1) (hs : d1.state ≠ .created) (he : d1.ephemeral = false) (h2 : Runs S d1 o2 d2) {y : Nat × Nat}
    (hg : Trail (Advances log) d2.trace (0, 0) y) :
    d1.applied ≤ d2.applied ∧ ∃ later, observed d2.trace = observed d1.trace ++ later ∧
      ∀ i ∈ applyIndices later, d1.applied < i ∧ i ≤ d2.applied := by
  obtain ⟨_, he2, p, h3, h4⟩ := runs_past hl h0 h1 hs he h2 hg
  refine ⟨runs_forward hl h0 h1 hs he h2 hg, p, h3, fun i hi => ⟨h4 i hi, ?_⟩⟩
  refine (runs_ascending hl h0 (runs_append h1 h2) he2 hg).bound i ?_
  rw [h3]
  simp only [applyIndices, List.filterMap_append, List.mem_append]
  exact Or.inr hi

/-- C99 is violated: the id of a replica is the one the host asked for, also if another replica already has it, and if the host asks for it the
replica founds a cluster of its own, with the state its application has right after its start, whatever clusters there are or were. -/
theorem C99_identity_fails {d0 d : Driver σ ρ κ H} {i : Nat} {q : StartReq} {out} (h0 : Fresh d0)
    (h : receive S i (some (some (.startReplica q))) d0 = .ok (d, .ok out)) (he : d.ephemeral = false) :
    d.id = q.idHint ∧ q.idHint ∈ startedIds (sent [.ok out]) ∧ ∃ ctx a1 a2 b rest, S.A.onInit ctx d0.actor = .ok (a1, .ok ()) ∧
      S.A.onSaveSnapshot ctx a1 = .ok (a2, .ok b) ∧ d.trace = .actorInit ctx (.ok ()) :: .actor (.save ctx (.ok b)) ::
        .raftInit q.idHint b q.isLeader (.ok ()) :: .out (.startReplica q.idHint) :: rest := by
  obtain ⟨h1, h2, h3⟩ := start_founds h0 h he
  exact ⟨h1, List.mem_filterMap.2 ⟨_, h2, rfl⟩, h3⟩
end

/-- C99 is not vacuous: a replica installs a snapshot of index 3, and applies entry 4 later. -/
example : (∀ i, (DrvExample.log i).index = i) ∧ Fresh DrvExample.follower ∧ ∃ d1 d2 o1 o2, Runs DrvExample.sys DrvExample.follower o1 d1 ∧
    d1.state ≠ .created ∧ d1.ephemeral = false ∧ Runs DrvExample.sys d1 o2 d2 ∧ Trail (Advances DrvExample.log) d2.trace (0, 0) (3, 4) ∧
    d1.applied = 3 ∧ d2.applied = 4 := by
  refine ⟨DrvExample.log_index, ⟨_, _, _, rfl⟩, ?_⟩
  have h : DrvExample.check DrvExample.follower [(1, some (some (.startReplica { DrvExample.startReq false false with idHint := 2 })))] (fun d rs =>
      DrvExample.allOk rs && (decide (d.state ≠ .created ∧ d.ephemeral = false ∧ d.applied = 3) && DrvExample.check d [(2, none)] (fun d2 rs =>
        DrvExample.allOk rs && decide (DrvExample.follows d2.trace (0, 0) = some (3, 4) ∧ d2.applied = 4)))) = true := by decide +kernel
  obtain ⟨d1, o1, hr, hp⟩ := DrvExample.check_runs h
  simp only [Bool.and_eq_true] at hp
  obtain ⟨h1, h2, h3⟩ := of_decide_eq_true hp.1
  obtain ⟨d2, o2, hr2, hp2⟩ := DrvExample.check_runs hp.2
  obtain ⟨h4, h5⟩ := of_decide_eq_true hp2
  exact ⟨d1, d2, o1, o2, hr, h1, h2, hr2, DrvExample.follows_sound h4, h3, h5⟩

open SurvStoreExample

/-- The command to swap the counter "a" from 0 to a value. -/
def swapTo (new : Int) : Option (Option (InMsg Nat)) :=
  some (some (.appMessage ⟨7, 1 :: Counter.Spec.exMsgs.encReq ⟨"a", some ⟨0, new⟩, [], []⟩, []⟩))

/-- The answer to a swap: the status, the value found and the value written. -/
def answer (status : Counter.Status) (old new : Int) : ActorCommand :=
  .withHeader 7 (Counter.Spec.exMsgs.encOut ⟨status, some ⟨old, new⟩⟩)

/-- C99 is violated: a process founds a cluster, commits a swap of the counter from 0 to 5 and answers it.  Afterwards, or at the same time,
another process is started with the same request.  It gets the same id, and commits and answers a swap of the same counter from 0 to 7.
One counter cannot do both; the first process refuses the second swap.  Consensus is a node over the log store of the code, with the
replica as the only voter. -/
theorem C99_restart_fails :
    (∃ d out d' out', runAll new [start true, swapTo 5, none] = .ok (d, out) ∧ runAll new [start true, swapTo 7, none] = .ok (d', out') ∧
      startedIds out = [1] ∧ startedIds out' = [1] ∧ appMessages out = [answer .success 0 5] ∧ appMessages out' = [answer .success 0 7]) ∧
    ¬ Possible [(0, 5), (0, 7)] ∧
    ∃ d out, runAll new [start true, swapTo 5, none, swapTo 7, none] = .ok (d, out) ∧
      appMessages out = [answer .success 0 5, answer .invalidArgument 5 0] := by
  have h1 : check [start true, swapTo 5, none] (fun _ out => decide (startedIds out = [1] ∧ appMessages out = [answer .success 0 5])) = true := by
    decide +kernel
  have h2 : check [start true, swapTo 7, none] (fun _ out => decide (startedIds out = [1] ∧ appMessages out = [answer .success 0 7])) = true := by
    decide +kernel
  have h3 : check [start true, swapTo 5, none, swapTo 7, none] (fun _ out =>
      decide (appMessages out = [answer .success 0 5, answer .invalidArgument 5 0])) = true := by
    decide +kernel
  obtain ⟨d, out, r1, p1⟩ := check_sound h1
  obtain ⟨d', out', r2, p2⟩ := check_sound h2
  obtain ⟨d3, out3, r3, p3⟩ := check_sound h3
  obtain ⟨i1, a1⟩ := of_decide_eq_true p1
  obtain ⟨i2, a2⟩ := of_decide_eq_true p2
  refine ⟨⟨d, out, d', out', r1, r2, i1, i2, a1, a2⟩, ?_, d3, out3, r3, of_decide_eq_true p3⟩
  rintro ⟨order, hp, ho⟩
  have hl := hp.length_eq
  match order, hl with
  | [x, y], _ =>
    have hx := hp.mem_iff.1 (List.mem_cons_self (a := x) (l := [y]))
    have hy := hp.mem_iff.1 (List.mem_cons_of_mem x (List.mem_singleton.2 (rfl : y = y)))
    simp only [List.mem_cons, List.not_mem_nil, or_false] at hx hy
    obtain ⟨_, h2, _⟩ := ho
    rcases hx with rfl | rfl <;> rcases hy with rfl | rfl <;> exact absurd h2 (by decide)

/-- Two swaps that one counter can make, reported in the other order. -/
example : Possible [(5, 7), (0, 5)] := ⟨[(0, 5), (5, 7)], .swap .., rfl, rfl, trivial⟩

end TCP.Rollback
