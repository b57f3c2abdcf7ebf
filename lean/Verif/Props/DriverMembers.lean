import Verif.Proofs.DriverMembers
import Verif.Props.DriverExample

/-! # C71: the members of a cluster

`DrvSpec.membersOf` reads the members off the interactions of a driver with the consensus module and its storage: a founder is alone;
afterwards the members are what consensus answered to the last applied change, or what the last installed snapshot says. -/

namespace TCP.DrvProps

open TCP TCP.Drv TCP.DrvSpec

variable {σ ρ κ H : Type} {S : Sys σ ρ κ H}

/-- C71: after any calls, with any results, the members a driver reports and gives to its other modules are those of its interactions. -/
theorem C71_members {d0 d : Driver σ ρ κ H} {rs} (h0 : Fresh d0) (h : Calls S d0 rs d) : d.conf = membersOf d.trace := members_calls h0 h

/-- C71: every snapshot is stored with the members of the moment, so a replica that installs it knows who takes part. -/
theorem C71_snapshot_members {d0 d : Driver σ ρ κ H} {rs} (h0 : Fresh d0) (h : Calls S d0 rs d) {before after : List (Ev H)} {index : Nat}
    {members : Storage.ConfState} {data : Bytes} (ht : d.trace = before ++ .storeCreate index members data :: after) :
    members = membersOf before := by
  have hm := members_trail h0 h
  rw [ht] at hm
  obtain ⟨c, h1, c', h2, _⟩ := trail_append.1 hm
  rw [h2.2.1 _ _ _ rfl]
  exact trail_members h1

/-- C71: whenever the channel module is told who takes part, it is told the voters of the moment. -/
theorem C71_channel_members {d0 d : Driver σ ρ κ H} {rs} (h0 : Fresh d0) (h : Calls S d0 rs d) {before after : List (Ev H)} {ids : List Nat}
    (ht : d.trace = before ++ .commCluster ids :: after) : ids = (membersOf before).voters := by
  have hm := members_trail h0 h
  rw [ht] at hm
  obtain ⟨c, h1, c', h2, _⟩ := trail_append.1 hm
  rw [h2.2.2 _ rfl]
  exact congrArg _ (trail_members h1)

end TCP.DrvProps

namespace TCP.DrvExample

open TCP TCP.Drv TCP.DrvSpec

/-- Consensus that will deliver a change adding replica 2 and then an event. -/
def grows : Driver Bytes Raft (List (Comm.OutMsg Nat)) Nat :=
  .new [] ⟨false, .new, 0, [batch [⟨2, 1, .confChange, [2, 1]⟩], batch [⟨3, 1, .normal, codecs.encEntry ⟨some (1, 7), [10]⟩⟩]]⟩ []

/-- Split interactions at the first one that satisfies a predicate. -/
def cut (p : Ev Nat → Bool) : List (Ev Nat) → Option (List (Ev Nat) × Ev Nat × List (Ev Nat))
  | [] => none
  | e :: t => if p e then some ([], e, t) else (cut p t).map fun x => (e :: x.1, x.2)

theorem cut_sound {p : Ev Nat → Bool} {t : List (Ev Nat)} {x} (h : cut p t = some x) : t = x.1 ++ x.2.1 :: x.2.2 := by
  induction t generalizing x with
  | nil => cases h
  | cons e t ih =>
    simp only [cut] at h
    split at h
    · cases h; rfl
    · obtain ⟨y, hy, rfl⟩ := Option.map_eq_some_iff.1 h
      rw [ih hy]; rfl

def isCreate : Ev Nat → Bool
  | .storeCreate .. => true
  | _ => false

/-- C71 is not vacuous: a founder alone at first is joined by replica 2 and then stores a snapshot, with both members. -/
example : ∃ d rs before after data, Calls sys grows rs d ∧ d.trace = before ++ .storeCreate 3 ⟨[1, 2], [], []⟩ data :: after ∧ data = [10] ∧
    membersOf before = ⟨[1, 2], [], []⟩ ∧ Ev.raftInit 1 [] true (.ok ()) ∈ before := by
  obtain ⟨d, rs, h, hp⟩ := check_sound (b := grows) (cs := [startLeader, (2, none), (3, none), (4, none)])
    (p := fun d _ => match cut isCreate d.trace with
      | some x => x.2.1 == .storeCreate 3 ⟨[1, 2], [], []⟩ [10] && x.1.contains (.raftInit 1 [] true (.ok ()))
      | none => false) (by decide +kernel)
  cases hc : cut isCreate d.trace with
  | none => rw [hc] at hp; cases hp
  | some x =>
    rw [hc] at hp
    simp only [Bool.and_eq_true, beq_iff_eq] at hp
    have ht := cut_sound hc
    rw [hp.1] at ht
    exact ⟨d, rs, x.1, x.2.2, _, h, ht, rfl, (DrvProps.C71_snapshot_members ⟨_, _, _, rfl⟩ h ht).symm, by simpa using hp.2⟩

end TCP.DrvExample
