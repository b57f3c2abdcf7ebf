import Verif.Proofs.Removed
import Verif.Props.Replica
import Verif.Props.DriverMembers
import Verif.Props.RemovedExample

/-!
# C101: a replica that was removed from the cluster is cut off
-/

namespace TCP.Removed

open TCP TCP.Drv TCP.DrvSpec TCP.Replica TCP.Replica.Spec TCP.Comm.Spec

variable {σ ν Y P S E H : Type} {A : Actor σ} {N : NodeT ν Y} {ops : Comm.Ops S E H} {V : Env P S E H} {codecs : Codecs}

theorem mem_clusterReports {out : List (OutMsg H)} {st : RaftState} : st ∈ clusterReports out ↔ .checkCluster st ∈ out := by
  unfold clusterReports
  rw [List.mem_filterMap]
  constructor
  · rintro ⟨m, hm, h⟩
    cases m <;> simp at h
    subst h; exact hm
  · intro h; exact ⟨_, h, rfl⟩

/-- A call that reports about the cluster leaves no channel with anybody who is not a voter, unless a snapshot is being sent to them. -/
theorem reported_closed {a : σ} {p0 : P} {outs} {d d' : Driver σ (Simple ν Y) (Channels P S E H) H}
    (h : Runs (sys A N ops V codecs) (fresh a p0) outs d) {instant : Nat} {m : Option (Option (InMsg H))} {out : List (OutMsg H)}
    (hr : receive (sys A N ops V codecs) instant m d = .ok (d', .ok (some out))) {st : RaftState} (hst : .checkCluster st ∈ out) :
    (st.leaderId = d'.id → st.cluster = (membersOf d'.trace).voters) ∧
    ∀ p, p ∉ (membersOf d'.trace).voters → ¬ SendsSnapshot d' p → ¬ HasChannel d' p := by
  have h0 := fresh_fresh (ν := ν) (Y := Y) (S := S) (E := E) (H := H) a p0
  have hconf : d'.conf = membersOf d'.trace := members_calls h0 (runs_calls (h.snoc hr))
  obtain ⟨nw, ht, ho, _⟩ := receive_sent hr
  rw [runs_messages h0 h, List.nil_append] at ho
  cases receive_outcome hr with
  | @done m' d2 c' os hm' hb hto =>
    obtain ⟨new, tn, hor⟩ := body_told hb
    have hnw : nw = new ++ os.map fun m => .out (.comm m) := by
      have h3 : d.trace ++ nw = d.trace ++ (new ++ os.map fun m => .out (.comm m)) := by
        rw [← ht]; simp only [tn, List.append_assoc]; rfl
      exact List.append_cancel_left h3
    have hrep : clusterReports (d2.messages ++ os.map .comm) = clusterReports (outMessages new) := by
      rw [ho, hnw]
      simp only [outMessages_append, clusterReports_append]
      rw [outMessages_comm, clusterReports_comm, List.append_nil]
    have hst' := mem_clusterReports.2 hst
    rw [hrep] at hst'
    rcases hor with ⟨_, g2⟩ | ⟨d8, d5, st0, hid, hrs, g1, g2, g3, g4, _⟩
    · rw [g2] at hst'; simp at hst'
    · rw [g2, List.mem_singleton] at hst'
      have hv : d2.conf = d5.conf ∧ d2.id = d5.id := by
        have hp : Pres (fun x : Driver σ (Simple ν Y) (Channels P S E H) H => x.conf = d5.conf ∧ x.id = d5.id)
            (processSnapshotSending (sys A N ops V codecs)) := by
          unfold processSnapshotSending
          refine pres_bind pres_get fun _ => ?_
          refine pres_bind (pres_modify fun _ h => h) fun _ => ?_
          refine pres_bind (pres_snap fun _ _ _ h _ => h) fun _ => ?_
          split
          · refine pres_bind ?_ fun _ => pres_bind (pres_snap fun _ _ _ h _ => h) fun qs => ?_
            · suffices hx : ∀ ms, Pres (fun x : Driver σ (Simple ν Y) (Channels P S E H) H => x.conf = d5.conf ∧ x.id = d5.id) (startAll ms) from hx _
              intro ms
              induction ms with
              | nil => exact pres_pure
              | cons b bs ih => exact pres_bind (pres_snap fun _ _ _ h _ => h) fun _ => ih
            · generalize qs.map _ = ms
              induction ms with
              | nil => exact pres_pure
              | cons b bs ih => exact pres_bind (pres_comm fun _ _ h => h) fun _ => ih
          · generalize List.map _ _ = rs
            induction rs with
            | nil => exact pres_pure
            | cons b bs ih => exact pres_bind (by pres) fun _ => ih
        exact hp.run _ _ _ ⟨rfl, rfl⟩ g4
      have hconf' : (membersOf (d2.trace ++ os.map fun m => .out (.comm m))).voters = d5.conf.voters := by
        rw [← hv.1]; exact (congrArg Storage.ConfState.voters hconf).symm
      refine ⟨fun hl => ?_, fun p hp hs hc => ?_⟩
      · rw [hconf', hst', hrs, reported]
        have hl' : st.leaderId = d5.id := hl.trans hv.2
        rw [hst', hrs, reported] at hl'
        split
        · rfl
        · rename_i hn
          rw [if_neg hn] at hl'
          exact absurd hl' hn
      · have hs' : d2.snap.sender.receivers.get p = none := by
          cases hx : d2.snap.sender.receivers.get p with
          | none => rfl
          | some t => exact absurd (show d2.snap.sender.receivers.get p ≠ none by rw [hx]; simp) hs
        have e1 := (sending_absent g4 hs').1
        have e2 : d5.comm.module.replicas.get p = none := by
          rw [g3]
          exact cluster_absent (by rw [← hconf']; exact hp)
        exact hc ((takeOut_absent hto).2 (e1.trans e2))

/-- C101, at whoever reports: when a replica tells its host that it leads and who belongs to the cluster, it has no channel left with anybody
else, unless it is sending them a snapshot.  Missing: replicas that do not lead, see `C101_follower_fails`; snapshots on their way, see
`C101_transfer_fails`; and what was removed may come back, see `C101_returns_fails`. -/
theorem C101_reported_partial {a : σ} {p0 : P} {outs} {d d' : Driver σ (Simple ν Y) (Channels P S E H) H}
    (h : Runs (sys A N ops V codecs) (fresh a p0) outs d) {instant : Nat} {m : Option (Option (InMsg H))} {out : List (OutMsg H)}
    (hr : receive (sys A N ops V codecs) instant m d = .ok (d', .ok (some out))) {st : RaftState} (hst : .checkCluster st ∈ out)
    (hl : st.leaderId = d'.id) {p : Nat} (hp : p ∉ st.cluster) (hs : ¬ SendsSnapshot d' p) : ¬ HasChannel d' p := by
  obtain ⟨h1, h2⟩ := reported_closed h hr hst
  exact h2 p (h1 hl ▸ hp) hs

/-- C101, at the leader: the call in which a leader learns that a member was removed closes its channel with the member, unless it is sending
it a snapshot. -/
theorem C101_leader_partial (hN : LeaderContract N) {a : σ} {p0 : P} {outs} {d d' : Driver σ (Simple ν Y) (Channels P S E H) H}
    (h : Runs (sys A N ops V codecs) (fresh a p0) outs d) (hs : d.state ≠ .created) (he : d.ephemeral = false) (hid : d.id ≠ 0)
    {instant : Nat} {m : Option (InMsg H)} {out : List (OutMsg H)}
    (hr : receive (sys A N ops V codecs) instant (m.map some) d = .ok (d', .ok (some out)))
    (hl : leads N d = true) (hl' : leads N d' = true) (hself : ∀ n, d.raft.node = some n → N.leaderId n = d.id) {p : Nat}
    (hp : p ∈ (membersOf d.trace).voters) (hp' : p ∉ (membersOf d'.trace).voters) (hsend : ¬ SendsSnapshot d' p) : ¬ HasChannel d' p := by
  obtain ⟨c1, c2, c3, _⟩ := C68_reports_partial hN h hs he hid hr
  have hrep : ∃ c, clusterOf N d' = some c ∧ clusterReports out = [c] := by
    by_cases hm : m = some .checkCluster
    · exact c1 hl' hm
    · refine c3 hl' hm fun _ heq => ?_
      have hn : ∃ n, d.raft.node = some n := by
        unfold leads at hl
        cases hx : d.raft.node with
        | none => rw [hx] at hl; simp at hl
        | some n => exact ⟨n, rfl⟩
      obtain ⟨n, hn⟩ := hn
      have h2 := heq
      unfold clusterOf at h2
      rw [hn] at h2
      cases hx : d'.raft.node with
      | none => rw [hx] at h2; simp at h2
      | some n' =>
        rw [hx] at h2
        simp only [Option.map_some, Option.some.injEq, RaftState.mk.injEq] at h2
        rw [if_pos (hself n hn)] at h2
        split at h2
        · exact hp' (h2.2.2.1 ▸ hp)
        · rw [← h2.2.2.1] at hp; simp at hp
  obtain ⟨c, _, hc⟩ := hrep
  exact (reported_closed h hr ((mem_clusterReports (st := c)).1 (by rw [hc]; simp))).2 p hp' hsend

/-- C101, what a closed channel is worth: while no handshake message of a peer arrives, a replica without a session with the peer takes nothing
that comes in its name for genuine, sends it nothing but handshake messages, and gets no session with it. -/
theorem C101_cut_off {a : σ} {p0 : P} {rs rs'} {d d' : Driver σ (Simple ν Y) (Channels P S E H) H}
    (h : Calls (sys A N ops V codecs) (fresh a p0) rs d) (hs : d.state ≠ .created) (h' : Calls (sys A N ops V codecs) d rs' d') {p : Nat}
    (hp : ¬ HasSession d p) :
    ∃ since, d'.comm.log = d.comm.log ++ since ∧
      (greetings p since = [] → heard p since = [] ∧ emitted p since = [] ∧ ¬ HasSession d' p) := by
  obtain ⟨me, R, T, hh⟩ := recorded_calls h
  obtain ⟨suf, h1, h2⟩ := later_steps hs h'
  exact ⟨suf, h1, fun hg => Comm.deaf_steps hh hp h2 hg⟩

/-- C101 fails at every replica that does not lead: whatever membership changes it applies, it closes no channel. -/
theorem C101_follower_fails (hN : LeaderContract N) {a : σ} {p0 : P} {outs} {d d' : Driver σ (Simple ν Y) (Channels P S E H) H}
    (h : Runs (sys A N ops V codecs) (fresh a p0) outs d) (hs : d.state ≠ .created) (he : d.ephemeral = false) (hid : d.id ≠ 0)
    {instant : Nat} {m : Option (InMsg H)} {out : List (OutMsg H)}
    (hr : receive (sys A N ops V codecs) instant (m.map some) d = .ok (d', .ok (some out)))
    (hl : leads N d = false) (hl' : leads N d' = false) {p : Nat} (hp : HasChannel d p) : HasChannel d' p := by
  obtain ⟨_, _, _, _, c5, _⟩ := C68_reports_partial hN h hs he hid hr
  have hrep := c5 hl' hl
  have h0 := fresh_fresh (ν := ν) (Y := Y) (S := S) (E := E) (H := H) a p0
  obtain ⟨nw, ht, ho, _⟩ := receive_sent hr
  rw [runs_messages h0 h, List.nil_append] at ho
  obtain ⟨new, hn1, hn2⟩ := (keptChannel_leaves (A := A) (N := N) (ops := ops) (V := V) (codecs := codecs) (t0 := d.trace) (p := p)).runs
    (Runs.nil.snoc hr) ⟨[], by simp, fun _ => hp⟩
  have : new = nw := List.append_cancel_left (hn1.symm.trans ht)
  subst this
  apply hn2
  cases receive_outcome hr with
  | @done m' d2 c' os hm' hb hto =>
    obtain ⟨new', tn, hor⟩ := body_told hb
    have hnw : new = new' ++ os.map fun m => .out (.comm m) := by
      have h3 : d.trace ++ new = d.trace ++ (new' ++ os.map fun m => .out (.comm m)) := by
        rw [← ht]; simp only [tn, List.append_assoc]; rfl
      exact List.append_cancel_left h3
    have hcomm : toldMembers (os.map fun m => (.out (.comm m) : Drv.Ev H)) = [] := by
      unfold toldMembers
      rw [List.filterMap_eq_nil_iff]
      intro e he
      obtain ⟨x, _, rfl⟩ := List.mem_map.1 he
      rfl
    rw [hnw, toldMembers_append, hcomm, List.append_nil]
    rw [ho, hnw] at hrep
    simp only [outMessages_append, clusterReports_append] at hrep
    rw [outMessages_comm, clusterReports_comm, List.append_nil] at hrep
    rcases hor with ⟨g1, _⟩ | ⟨_, _, _, _, _, _, g2, _⟩
    · exact g1
    · rw [g2] at hrep; simp at hrep

/-! ## Concrete cases -/

instance (d : Driver σ (Simple ν Y) (Channels P S E H) H) (p : Nat) : Decidable (HasSession d p) := inferInstanceAs (Decidable (_ = _))

/-- Checks `HasChannel`. -/
def hasChannel (d : Driver σ (Simple ν Y) (Channels P S E H) H) (p : Nat) : Bool := (d.comm.module.replicas.get p).isSome

/-- Checks `SendsSnapshot`. -/
def sendsSnapshot (d : Driver σ (Simple ν Y) (Channels P S E H) H) (p : Nat) : Bool := (d.snap.sender.receivers.get p).isSome

theorem hasChannel_iff {d : Driver σ (Simple ν Y) (Channels P S E H) H} {p : Nat} : hasChannel d p = true ↔ HasChannel d p := by
  unfold hasChannel HasChannel
  cases d.comm.module.replicas.get p <;> simp

theorem sendsSnapshot_iff {d : Driver σ (Simple ν Y) (Channels P S E H) H} {p : Nat} : sendsSnapshot d p = true ↔ SendsSnapshot d p := by
  unfold sendsSnapshot SendsSnapshot
  cases d.snap.sender.receivers.get p <;> simp

open TCP.RemovedExample in
/-- C101 is not vacuous: a leader that has a session with member 2 learns that 2 was removed, says so and has no channel with 2 any more; what
comes from 2 afterwards does not reach consensus. -/
example : LeaderContract node ∧ ∃ d outs d' out e rs, Runs rep RemovedExample.start outs d ∧ d.state = .started ∧ d.ephemeral = false ∧ d.id ≠ 0 ∧
    receive rep 1 (some (some (message 4))) d = .ok (d', .ok (some out)) ∧ leads node d = true ∧ leads node d' = true ∧
    (∀ n, d.raft.node = some n → node.leaderId n = d.id) ∧ 2 ∈ (membersOf d.trace).voters ∧ 2 ∉ (membersOf d'.trace).voters ∧
    ¬ SendsSnapshot d' 2 ∧ HasSession d 2 ∧ .checkCluster ⟨1, 1, [1], false⟩ ∈ out ∧ d'.id = 1 ∧ ¬ HasChannel d' 2 ∧ ¬ HasSession d' 2 ∧
    Calls rep d' rs e ∧ e.comm.log ≠ d'.comm.log ∧ greetings 2 (e.comm.log.drop d'.comm.log.length) = [] ∧ heard 2 (e.comm.log.drop d'.comm.log.length) = [] ∧
    .step ⟨1, 9, .other 0, none, []⟩ ∉ e.trace := by
  refine ⟨leader_contract, ?_⟩
  have h : check [startMsg true, greet, some (some (message 3))] (some (message 4)) [some (some (message 9))] (fun d d' out e =>
      decide (d.state = .started ∧ d.ephemeral = false ∧ d.id ≠ 0 ∧ leads node d = true ∧ leads node d' = true ∧
        d.raft.node.map node.leaderId = some d.id ∧ 2 ∈ (membersOf d.trace).voters ∧ 2 ∉ (membersOf d'.trace).voters ∧ sendsSnapshot d' 2 = false ∧
        HasSession d 2 ∧ .checkCluster ⟨1, 1, [1], false⟩ ∈ out ∧ d'.id = 1 ∧ hasChannel d' 2 = false ∧ ¬ HasSession d' 2 ∧
        e.comm.log.length ≠ d'.comm.log.length ∧ greetings 2 (e.comm.log.drop d'.comm.log.length) = [] ∧
        (heard 2 (e.comm.log.drop d'.comm.log.length)).length = 0 ∧ .step ⟨1, 9, .other 0, none, []⟩ ∉ e.trace)) = true := by decide +kernel
  obtain ⟨d, outs, d', out, e, rs, h1, h2, h3, hp⟩ := check_sound h
  obtain ⟨p1, p2, p3, p4, p5, p6, p7, p8, p9, p10, p11, p12, p13, p14, p15, p16, p17, p18⟩ := of_decide_eq_true hp
  refine ⟨d, outs, d', out, e, rs, h1, p1, p2, p3, h2, p4, p5, fun n hn => ?_, p7, p8, fun hx => ?_, p10, p11, p12, fun hx => ?_, p14, h3,
    fun hx => p15 (by rw [hx]), p16, List.eq_nil_of_length_eq_zero p17, p18⟩
  · rw [hn] at p6; simpa using p6
  · rw [← sendsSnapshot_iff, p9] at hx; cases hx
  · rw [← hasChannel_iff, p13] at hx; cases hx

open TCP.RemovedExample in
/-- C101 fails, a case: a replica that follows applied the removal of 2, still has its session with 2, and hands what 2 sends to consensus. -/
theorem C101_listens_fails : ∃ d outs d' out e rs, Runs rep RemovedExample.start outs d ∧
    receive rep 1 (some (some (message 4))) d = .ok (d', .ok (some out)) ∧ leads node d = false ∧ leads node d' = false ∧
    2 ∈ (membersOf d.trace).voters ∧ 2 ∉ (membersOf d'.trace).voters ∧ HasSession d' 2 ∧
    Calls rep d' rs e ∧ .step ⟨1, 9, .other 0, none, []⟩ ∉ d'.trace ∧ .step ⟨1, 9, .other 0, none, []⟩ ∈ e.trace := by
  have h : check [startMsg false, greet, some (some (message 3))] (some (message 4)) [some (some (message 9))] (fun d d' _ e =>
      decide (leads node d = false ∧ leads node d' = false ∧ 2 ∈ (membersOf d.trace).voters ∧ 2 ∉ (membersOf d'.trace).voters ∧ HasSession d' 2 ∧
        .step ⟨1, 9, .other 0, none, []⟩ ∉ d'.trace ∧ .step ⟨1, 9, .other 0, none, []⟩ ∈ e.trace)) = true := by decide +kernel
  obtain ⟨d, outs, d', out, e, rs, h1, h2, h3, hp⟩ := check_sound h
  obtain ⟨p1, p2, p3, p4, p5, p6, p7⟩ := of_decide_eq_true hp
  exact ⟨d, outs, d', out, e, rs, h1, h2, p1, p2, p3, p4, p5, h3, p6, p7⟩

open TCP.RemovedExample in
/-- C101 fails: a leader has removed 2 and closed its channel; a handshake message of 2 opens a new one, and then consensus gets what 2 sends. -/
theorem C101_returns_fails : ∃ d outs d' out e rs, Runs rep RemovedExample.start outs d ∧
    receive rep 1 (some (some (message 4))) d = .ok (d', .ok (some out)) ∧ leads node d' = true ∧
    2 ∈ (membersOf d.trace).voters ∧ 2 ∉ (membersOf d'.trace).voters ∧ ¬ HasChannel d' 2 ∧
    Calls rep d' rs e ∧ membersOf e.trace = membersOf d'.trace ∧ leads node e = true ∧ HasSession e 2 ∧
    .step ⟨1, 9, .other 0, none, []⟩ ∉ d'.trace ∧ .step ⟨1, 9, .other 0, none, []⟩ ∈ e.trace := by
  have h : check [startMsg true, greet, some (some (message 3))] (some (message 4)) [greet, some (some (message 9))] (fun d d' _ e =>
      decide (leads node d' = true ∧ 2 ∈ (membersOf d.trace).voters ∧ 2 ∉ (membersOf d'.trace).voters ∧ hasChannel d' 2 = false ∧
        membersOf e.trace = membersOf d'.trace ∧ leads node e = true ∧ HasSession e 2 ∧
        .step ⟨1, 9, .other 0, none, []⟩ ∉ d'.trace ∧ .step ⟨1, 9, .other 0, none, []⟩ ∈ e.trace)) = true := by decide +kernel
  obtain ⟨d, outs, d', out, e, rs, h1, h2, h3, hp⟩ := check_sound h
  obtain ⟨p1, p2, p3, p4, p5, p6, p7, p8, p9⟩ := of_decide_eq_true hp
  exact ⟨d, outs, d', out, e, rs, h1, h2, p1, p2, p3, (fun hx => by rw [← hasChannel_iff, p4] at hx; cases hx), h3, p5, p6, p7, p8, p9⟩

open TCP.RemovedExample in
/-- C101 fails: a leader removes 2 while it sends 2 a snapshot.  The transfer goes on: in the very call that closes the channel the leader opens
a new one and sends 2 a handshake message, with the next part of the snapshot waiting to follow. -/
theorem C101_transfer_fails : ∃ d outs d' out, Runs rep RemovedExample.start outs d ∧
    receive rep 1 (some (some ack)) d = .ok (d', .ok (some out)) ∧ leads node d = true ∧ leads node d' = true ∧
    2 ∈ (membersOf d.trace).voters ∧ 2 ∉ (membersOf d'.trace).voters ∧ .checkCluster ⟨1, 1, [1], false⟩ ∈ out ∧
    SendsSnapshot d' 2 ∧ HasChannel d' 2 ∧ .comm (.handshake 0) ∈ out := by
  have h : check [startMsg true, greet, some (some (message 5))] (some ack) [] (fun d d' out _ =>
      decide (leads node d = true ∧ leads node d' = true ∧ 2 ∈ (membersOf d.trace).voters ∧ 2 ∉ (membersOf d'.trace).voters ∧
        .checkCluster ⟨1, 1, [1], false⟩ ∈ out ∧ sendsSnapshot d' 2 = true ∧ hasChannel d' 2 = true ∧ .comm (.handshake 0) ∈ out)) = true := by decide +kernel
  obtain ⟨d, outs, d', out, e, rs, h1, h2, h3, hp⟩ := check_sound h
  obtain ⟨p1, p2, p3, p4, p5, p6, p7, p8⟩ := of_decide_eq_true hp
  exact ⟨d, outs, d', out, h1, h2, p1, p2, p3, p4, p5, sendsSnapshot_iff.1 p6, hasChannel_iff.1 p7, p8⟩

end TCP.Removed
