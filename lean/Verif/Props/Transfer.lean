import Verif.Proofs.TransferNetwork
import Verif.Props.TransferExample
import Verif.Props.DriverAppExample
import Verif.Props.Replica

/-!
# C93: a snapshot arrives as it was sent

A leader cuts a snapshot its consensus wants sent to a replica into pieces, which travel as separate messages; the replica puts them
together and hands the result to its consensus.
-/

namespace TCP.Replica

open TCP TCP.Drv TCP.DrvSpec TCP.Replica.Spec

variable {ν Y P S E H σ : Type} {A : Actor σ} {N : NodeT ν Y} {ops : Comm.Ops S E H} {V : Env P S E H} {codecs : Codecs}

/-- C93, the part that holds: if the channels from the other replicas invent nothing and do not mix transfers, then every snapshot a replica
hands to its consensus, metadata and data, is one that consensus of the replica it came from wanted sent to it.  Missing: channels may
reorder messages, see `C93_order_fails`. -/
theorem C93_intact_partial (hf : Faithful codecs) {a : σ} {e : P} {rs} {d : Driver σ (Simple ν Y) (Channels P S E H) H}
    (h : Calls (sys A N ops V codecs) (fresh a e) rs d) (he : d.ephemeral = false) (hid : d.id ≠ 0)
    {peers : Nat → Driver σ (Simple ν Y) (Channels P S E H) H}
    (hp : ∀ q, ∃ a e rs, Calls (sys A N ops V codecs) (fresh a e) rs (peers q))
    (hc : ∀ q, Carried q d.id (peers q).comm.log d.comm.log) (hu : ∀ q, Unmixed (pieces codecs (received q d.comm.log))) :
    ∀ m ∈ stepped d.trace, m.type = .snapshot → ∃ to q s, m = ⟨to, q, .snapshot, some s, []⟩ ∧ Offers (peers q).trace d.id s := by
  refine stepped_offered hf (coll_leaves.calls h ⟨fresh_guarded a e, coll_fresh a e⟩) he hid (fun q => ?_) hc hu
  obtain ⟨a, e, rs, hq⟩ := hp q
  exact (ships_leaves hf).calls hq (ships_fresh a e)

/-- C93 is not vacuous: replica 2 of the example hands its consensus two snapshots of replica 1, each put together from two pieces. -/
example : ∃ (l d : TransferExample.Rep) (rs rs' : List (Except PalErr (Option (List (OutMsg Nat))))),
    Calls TransferExample.rep TransferExample.first rs l ∧ Calls TransferExample.rep TransferExample.second rs' d ∧
    d.ephemeral = false ∧ d.id = 2 ∧ (∀ q, Carried q 2 (TransferExample.peers l q).comm.log d.comm.log) ∧
    (∀ q, Unmixed (pieces TransferExample.codecs (received q d.comm.log))) ∧
    (∀ q, pieces TransferExample.codecs (received q d.comm.log) <+: pieces TransferExample.codecs (given 2 (TransferExample.peers l q).comm.log)) ∧
    (∀ q, Smooth (TransferExample.peers l q).comm.log) ∧
    (stepped d.trace).map (fun m => m.snapshot.map (·.data)) = [some [10, 11], some [20, 21]] := by
  have h : TransferExample.check id (fun l d => decide (d.ephemeral = false ∧ d.id = 2 ∧ received 1 d.comm.log = given 2 l.comm.log ∧
      (stepped d.trace).map (fun m => m.snapshot.map (·.data)) = [some [10, 11], some [20, 21]]) &&
      (TransferExample.passed d.comm.log).all (fun x => x.sender == 1) &&
      TransferExample.unmixed (pieces TransferExample.codecs (received 1 d.comm.log)) && TransferExample.smooth l.comm.log) = true := by decide +kernel
  obtain ⟨l, d, rs, rs', hl, hd, hp⟩ := TransferExample.check_sound h
  simp only [Bool.and_eq_true] at hp
  obtain ⟨⟨⟨h1, h2⟩, h3⟩, h8⟩ := hp
  obtain ⟨h4, h5, h6, h7⟩ := of_decide_eq_true h1
  have hno : ∀ q, q ≠ 1 → received q d.comm.log = [] := fun q hq => TransferExample.received_none h2 hq
  refine ⟨l, d, rs, rs', hl, hd, h4, h5, fun q => ?_, fun q => ?_, fun q => ?_, fun q => ?_, h7⟩ <;> by_cases hq : q = 1
  · subst hq
    intro x hx
    exact ⟨x, by rw [h6] at hx; exact hx, rfl, rfl⟩
  · intro x hx; rw [hno q hq] at hx; simp at hx
  · subst hq; exact TransferExample.unmixed_sound h3
  · rw [hno q hq]; exact Snap.unmixed_nil
  · subst hq; rw [h6]; exact List.prefix_refl _
  · rw [hno q hq]; exact List.nil_prefix
  · subst hq; exact TransferExample.smooth_sound h8
  · intro u f e hx; simp [TransferExample.peers, hq, TransferExample.second, fresh, Driver.new, Channels.new] at hx

/-- C93 fails without the order: replica 1 sends replica 2 two snapshots, the last of the four messages overtakes the two before it, and
replica 2, which is passed up exactly what replica 1 gave its channel layer, in another order, installs a snapshot that nobody offered:
the first half of one and the second half of the other.  Its application gets into a state no event or snapshot put it in. -/
theorem C93_order_fails : ∃ (l d : TransferExample.Rep) (rs rs' : List (Except PalErr (Option (List (OutMsg Nat))))),
    Calls TransferExample.rep TransferExample.first rs l ∧ Calls TransferExample.rep TransferExample.second rs' d ∧
    d.ephemeral = false ∧ d.id = 2 ∧ (received 1 d.comm.log).Perm (given 2 l.comm.log) ∧ (∀ q, q ≠ 1 → received q d.comm.log = []) ∧
    (∃ m ∈ stepped d.trace, m.type = .snapshot ∧ ∀ s, m.snapshot = some s → ∀ q p, ¬ Offers (TransferExample.peers l q).trace p s) ∧
    (∀ q p s, Offers (TransferExample.peers l q).trace p s → s.data = [10, 11] ∨ s.data = [20, 21]) ∧ d.actor = [10, 21] := by
  have h : TransferExample.check TransferExample.overtake (fun l d => decide (d.ephemeral = false ∧ d.id = 2 ∧ d.actor = [10, 21] ∧
      stepped d.trace = [⟨2, 1, .snapshot, some ⟨⟨1, 1, ⟨[1], [], []⟩⟩, [10, 21]⟩, []⟩]) &&
      (received 1 d.comm.log).isPerm (given 2 l.comm.log) &&
      (TransferExample.passed d.comm.log).all (fun x => x.sender == 1) &&
      (TransferExample.posted l.trace).all (fun m => match m.snapshot with
        | some s => s.data == [10, 11] || s.data == [20, 21]
        | none => true)) = true := by decide +kernel
  obtain ⟨l, d, rs, rs', hl, hd, hp⟩ := TransferExample.check_sound h
  simp only [Bool.and_eq_true] at hp
  obtain ⟨⟨⟨h1, h2⟩, h3⟩, h8⟩ := hp
  obtain ⟨h4, h5, h6, h7⟩ := of_decide_eq_true h1
  have hoff : ∀ q p s, Offers (TransferExample.peers l q).trace p s → s.data = [10, 11] ∨ s.data = [20, 21] := by
    rintro q p s ⟨m, hm, _, _, hs⟩
    unfold TransferExample.peers at hm
    split at hm
    · have := List.all_eq_true.1 h8 m (TransferExample.posted_sound hm)
      rw [hs] at this
      simpa using this
    · have := TransferExample.posted_sound hm
      simp [TransferExample.posted, TransferExample.second, fresh, Driver.new] at this
  refine ⟨l, d, rs, rs', hl, hd, h4, h5, List.isPerm_iff.1 h2, fun q hq => TransferExample.received_none h3 hq, ?_, hoff, h6⟩
  refine ⟨⟨2, 1, .snapshot, some ⟨⟨1, 1, ⟨[1], [], []⟩⟩, [10, 21]⟩, []⟩, by rw [h7]; simp, rfl, fun s hs q p ho => ?_⟩
  simp only [Option.some.injEq] at hs
  subst hs
  rcases hoff q p _ ho with h | h <;> simp at h

/-- C93, for channels that keep the order: if what a replica is passed up about transfers from each other replica is, in that order, a first
part of what that replica gave its channel layer for it, and that channel layer never refused a message, the snapshots arrive intact. -/
theorem C93_ordered_partial (hf : Faithful codecs) {a : σ} {e : P} {rs} {d : Driver σ (Simple ν Y) (Channels P S E H) H}
    (h : Calls (sys A N ops V codecs) (fresh a e) rs d) (he : d.ephemeral = false) (hid : d.id ≠ 0)
    {peers : Nat → Driver σ (Simple ν Y) (Channels P S E H) H}
    (hp : ∀ q, ∃ a e rs, Calls (sys A N ops V codecs) (fresh a e) rs (peers q))
    (hc : ∀ q, Carried q d.id (peers q).comm.log d.comm.log)
    (ho : ∀ q, pieces codecs (received q d.comm.log) <+: pieces codecs (given d.id (peers q).comm.log)) (hs : ∀ q, Smooth (peers q).comm.log) :
    ∀ m ∈ stepped d.trace, m.type = .snapshot → ∃ to q s, m = ⟨to, q, .snapshot, some s, []⟩ ∧ Offers (peers q).trace d.id s := by
  refine C93_intact_partial hf h he hid hp hc fun q => ?_
  obtain ⟨a, e, rs, hq⟩ := hp q
  exact Snap.unmixed_prefix (((ships_leaves hf).calls hq (ships_fresh a e)).unmixed (hs q) d.id) (ho q)

/-- C93, for clusters: in a cluster whose replicas send each other snapshots through channels that invent nothing and do not mix transfers,
every snapshot that is installed was made by a replica of the cluster.  So such a cluster is one in the sense of `Deployed`, about which
C75 to C78 are proved. -/
theorem C93_cluster_partial (hf : Faithful codecs) {log : Nat → Drv.Entry} {founder : Nat} {new : σ → Prop} {cfg : Bytes}
    {ds : Nat → Driver σ (Simple ν Y) (Channels P S E H) H} (h : Networked A N ops V codecs log founder new cfg ds) :
    Deployed (sys A N ops V codecs) log founder new cfg ds ∧
    ∀ p r, .ready r ∈ (ds p).trace → r.snapshot.metadata.index ≠ 0 → Created ds r.snapshot.metadata.index r.snapshot.data :=
  ⟨(networked_deployed hf h).2, (networked_deployed hf h).1.ready⟩

/-- C93 for clusters is not vacuous: in a cluster of two replicas, replica 2 gets two snapshots from replica 1, the second of which contains
the entry at index 2. -/
example : ∃ ds, Networked TransferExample.actor TransferExample.node Comm.exOps RepExample.env TransferExample.codecs TransferExample.log 1
      (fun _ => True) [] ds ∧ (ds 2).applied = 2 ∧ (ds 2).actor = [20, 21] ∧ (ds 1).actor = [20, 21] ∧
    (stepped (ds 2).trace).length = 2 := by
  have h : (match TransferExample.network TransferExample.log (TransferExample.first, TransferExample.second) TransferExample.scenario with
      | some x => decide (x.2.applied = 2 ∧ x.2.actor = [20, 21] ∧ x.1.actor = [20, 21] ∧ (stepped x.2.trace).length = 2)
      | none => false) = true := by decide +kernel
  split at h
  · rename_i x hx
    refine ⟨_, TransferExample.network_sound hx (.init fun p => ?_), of_decide_eq_true h⟩
    unfold TransferExample.two
    split
    · exact ⟨_, _, trivial, rfl⟩
    · split <;> exact ⟨_, _, trivial, rfl⟩
  · cases h

end TCP.Replica
