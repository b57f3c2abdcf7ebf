import Verif.Props.Report
import Verif.Props.Short

/-! # C110 for the shipped log store: the reported size is that of the snapshot other replicas are given -/

namespace TCP.ReportProps

open TCP TCP.Drv TCP.DrvSpec TCP.Replica TCP.DrvProps

variable {σ ν Y P S E H : Type} {A : Actor σ} {N : NodeT ν Y} {ops : Comm.Ops S E H} {V : Env P S E H} {codecs : Codecs}

/-- C110: a replica that replicates reports the size of the snapshot its store holds, which is the one any peer asking for a snapshot is given. -/
theorem C110_size {a : σ} {p : P} {outs} {d d' : Driver σ (Simple ν Y) (Channels P S E H) H}
    (h : Runs (sys A N ops V codecs) (fresh a p) outs d) (he : d.ephemeral = false) {instant : Nat} {os : List (OutMsg H)}
    (hr : receive (sys A N ops V codecs) instant (some (some .getReplicaState)) d = .ok (d', .ok (some os))) :
    ∃ n k, d.raft.node = some n ∧ stateReports os = [(d.applied, k)] ∧ (N.store n).snap.data.length = k ∧
      ∀ index peer snap, (Storage.snapshot (N.store n) index peer).2 = .ok snap → snap.data.length = k := by
  obtain ⟨i, k, h1, h2 | ⟨_, hi, hk⟩⟩ := C110_one_report (C31_empty (fresh_fresh a p) h) hr
  · rw [he] at h2; cases h2.1
  · have hk : (d.raft.get.bind fun n => .ok (Storage.latestSnapshotSize (N.store n))) = .ok k := hk
    rw [Run.bind_eq_ok] at hk
    obtain ⟨n, hn, hk⟩ := hk
    simp only [Storage.latestSnapshotSize, Run.ok.injEq] at hk
    refine ⟨n, k, ?_, by rw [h1, hi], hk, fun index peer snap hs => ?_⟩
    · unfold Simple.get at hn
      cases hd : d.raft.node with
      | none => rw [hd] at hn; cases hn
      | some m => rw [hd] at hn; simp [Run.unwrap] at hn; rw [hn]
    · rcases Classical.em (index ≤ (N.store n).snap.index ∧ Storage.Spec.Knows (N.store n).snap.conf peer) with hc | hc
      · rw [(Storage.C07_snapshot_answer _ _ _).1 hc] at hs
        cases hs; exact hk
      · rw [((Storage.C07_snapshot_answer _ _ _).2 hc).1] at hs
        cases hs

open SurvStoreExample in
/-- The counter has committed two commands and taken a snapshot of 110 bytes. -/
example : ∃ (d d' : Rep) (o : List (Option (List (OutMsg Nat)))) (os : List (OutMsg Nat)), Runs counterSys new o d ∧ d.ephemeral = false ∧
    receive counterSys 1 (some (some .getReplicaState)) d = .ok (d', .ok (some os)) ∧ stateReports os = [(3, 110)] := by
  have h : check [start true, SurvExample.app SurvExample.swap, none, SurvExample.app SurvExample.swap, none, none]
      (fun d _ => !d.ephemeral && match receive counterSys 1 (some (some .getReplicaState)) d with
        | .ok (_, .ok (some os)) => decide (stateReports os = [(3, 110)])
        | _ => false) = true := by decide +kernel
  obtain ⟨d, out, hr, hp⟩ := check_sound h
  obtain ⟨outs, hruns⟩ := Short.runs_runAll hr
  simp only [Bool.and_eq_true, Bool.not_eq_true'] at hp
  obtain ⟨he, hp⟩ := hp
  split at hp
  · rename_i d' os hq
    exact ⟨d, d', outs, os, hruns, he, hq, of_decide_eq_true hp⟩
  · cases hp

end TCP.ReportProps
