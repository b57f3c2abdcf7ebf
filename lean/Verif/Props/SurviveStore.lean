import Verif.Props.Survive
import Verif.Props.SurviveStoreExample

/-!
# C96: the shipped log store takes whatever raft-rs hands out

C95 asks consensus for promises.  Here consensus is the code that is shipped: `RaftSimple` (consensus.rs) over the in-memory log store (storage.rs), and
the promises are those of raft-rs' `RawNode` alone.  Partial: raft-rs is not modelled, its promises (`NodeSafe`) are hypotheses.
-/

namespace TCP.Survive

open TCP TCP.Drv TCP.Replica TCP.SurvStoreExample

variable {σ ν Y P S E H : Type}

/-- The start of a replica with the shipped log store and every call after it return, provided the application, raft-rs and the sessions keep
their promises. -/
theorem C96_survives_partial {A : Actor σ} {N : NodeT ν Y} {ops : Comm.Ops S E H} {V : Env P S E H} {codecs : Codecs} {T : Terms σ (Simple ν Y)}
    {K : NodeTerms ν Y} {a0 : σ} (hA : ActorSafe A (overStore N K T) a0) (hC : NodeContract N) (hN : NodeSafe N codecs T K) (hV : ChannelsSafe ops V) (p : P) :
    (∀ q i, GoodStart T q → ∃ d out, serve (sys A N ops V codecs) i (some (some (.startReplica q))) (fresh a0 p) = .ok (d, out)) ∧
    ∀ d, Kept (sys A N ops V codecs) (overStore N K T) (fresh a0 p) d → ∀ i msg, Fair (sys A N ops V codecs) (overStore N K T) d msg →
      ∃ d' out, serve (sys A N ops V codecs) i msg d = .ok (d', out) := by
  obtain ⟨h1, h2⟩ := C95_survives_partial hA (simple_safe hC hN) hV p
  exact ⟨fun q i hq => h1 q i ⟨hq.id, hq.ephemeral, hq.endorsements, hq.config, hq.raftConfig, hq.chunkSize⟩, h2⟩

/-- The counter is started and two commands are committed, so that the log is replaced by a snapshot; whatever comes next, the replica survives it. -/
example : ∃ d out, runAll new [start true, SurvExample.app SurvExample.swap, none, SurvExample.app SurvExample.swap, none, none] = .ok (d, out) ∧
    (∃ s, log d = some s ∧ s.snap.index = 3) ∧
    ∀ i msg, Fair counterSys (overStore node (nodeTerms counter) counter) d msg → ∃ d' out, serve counterSys i msg d = .ok (d', out) := by
  obtain ⟨d, out, h1, h2, h3⟩ := kept_check (cs := [SurvExample.app SurvExample.swap, none, SurvExample.app SurvExample.swap, none, none])
    (p := fun d _ => (log d).any fun s => s.snap.index == 3) (by decide +kernel) (fun m hm => by
      simp only [List.mem_cons, List.not_mem_nil, or_false] at hm
      rcases hm with rfl | rfl | rfl | rfl | rfl
      · exact .inr ⟨_, rfl⟩
      · exact .inl rfl
      · exact .inr ⟨_, rfl⟩
      · exact .inl rfl
      · exact .inl rfl)
  refine ⟨d, out, h1, ?_, ?_⟩
  · obtain ⟨s, hs, h4⟩ := (Option.any_eq_true _ _).1 h2
    exact ⟨s, hs, by simpa using h4⟩
  · exact (C96_survives_partial (counter_safe Counter.Spec.exMsgs_lawful (overStore node (nodeTerms counter) counter)) node_contract (node_safe _) SurvExample.channels_safe ()).2 d h3

/-- Between calls the log of the replica holds all it has applied: its snapshot is not ahead, the log does not end before it, and entries are
missing nowhere. -/
theorem C96_log_partial {A : Actor σ} {N : NodeT ν Y} {ops : Comm.Ops S E H} {V : Env P S E H} {codecs : Codecs} {T : Terms σ (Simple ν Y)}
    {K : NodeTerms ν Y} {a0 : σ} (hA : ActorSafe A (overStore N K T) a0) (hC : NodeContract N) (hN : NodeSafe N codecs T K) (hV : ChannelsSafe ops V) (p : P)
    {d : Driver σ (Simple ν Y) (Channels P S E H) H} (hd : Kept (sys A N ops V codecs) (overStore N K T) (fresh a0 p) d) :
    ∃ n, d.raft.node = some n ∧ (N.store n).snap.index ≤ d.applied ∧ (d.applied = (N.store n).snap.index → d.conf = (N.store n).snap.conf) ∧
      d.applied ≤ Storage.lastIndex (N.store n) ∧ Storage.firstIndex (N.store n) ≤ (N.store n).snap.index + 1 ∧
      Storage.Spec.ConsecutiveFrom (Storage.firstIndex (N.store n)) (N.store n).entries := by
  obtain ⟨n, h1, _, h2, _⟩ := (hd.fine hA (simple_safe hC hN) hV (new_fresh a0 Simple.new p)).raft
  exact ⟨n, h1, h2.behind, h2.members, h2.within, (Storage.inv_reachable h2.reachable).hi, (Storage.inv_reachable h2.reachable).cons⟩

/-- In the run above the log holds the entries after index 1, and no gap. -/
example : check [start true, SurvExample.app SurvExample.swap, none] (fun d _ => (log d).any fun s => s.snap.index == 1 && d.applied == 2 && Storage.lastIndex s == 2) = true := by
  decide +kernel

/-- No command whatsoever ends a replica of the counter over the shipped log store. -/
theorem C96_counter_partial {ms : Counter.Msgs} (hl : Counter.Spec.Lawful ms) {N : NodeT ν Y} {ops : Comm.Ops S E H} {V : Env P S E H} {codecs : Codecs}
    {T : Terms Counter.State (Simple ν Y)} {K : NodeTerms ν Y} (hC : NodeContract N) (hN : NodeSafe N codecs (counterTerms ms T) K)
    (hV : ChannelsSafe ops V) (p : P) {d : Driver Counter.State (Simple ν Y) (Channels P S E H) H}
    (hd : Kept (sys (Counter.actor ms) N ops V codecs) (overStore N K (counterTerms ms T)) (fresh .new p) d) (i : Nat) (c : ActorCommand) :
    ∃ d' out, serve (sys (Counter.actor ms) N ops V codecs) i (some (some (.appMessage c))) d = .ok (d', out) :=
  (C96_survives_partial (counter_safe hl (overStore N K T)) hC hN hV p).2 d hd i _ trivial

example : NodeSafe node SurvStoreExample.codecs (counterTerms Counter.Spec.exMsgs counter) (nodeTerms counter) :=
  node_safe (counterTerms Counter.Spec.exMsgs counter)

end TCP.Survive
