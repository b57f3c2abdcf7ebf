import Verif.Spec.Short
import Verif.Proofs.ReplicaStore
import Verif.Proofs.Storage

/-!
# Proofs for the length of the log (C100)
-/

namespace TCP.Short

open TCP TCP.Drv TCP.Replica

variable {σ ρ ν Y P S E H κ : Type} {N : NodeT ν Y}

/-! ## The store -/

/-- A snapshot that was taken serves every request it could serve. -/
theorem create_enough {s s' : Storage.Store} {i : Nat} {c : Storage.ConfState} {b : Bytes} (h : Storage.createSnapshot s i c b = .ok (s', .ok ())) :
    Storage.shouldSnapshot s' i c = false := by
  unfold Storage.createSnapshot at h
  split at h
  · cases h
  · split at h
    · simp at h
    · split at h
      · cases h
      · simp at h
      · rename_i t _
        have key : s'.snap.index = i ∧ s'.requests = (s.requests.filter fun r => !Storage.satisfies i c r.1 r.2) := by
          unfold Storage.compactEntries at h
          split at h
          · simp only [Run.ok.injEq, Prod.mk.injEq, and_true] at h
            rw [← h]; exact ⟨rfl, rfl⟩
          · split at h
            · cases h
            · split at h
              · simp only [Run.ok.injEq, Prod.mk.injEq, and_true] at h
                rw [← h]; exact ⟨rfl, rfl⟩
              · simp only at h
                split at h
                · cases h
                · simp only [Run.ok.injEq, Prod.mk.injEq, and_true] at h
                  rw [← h]; exact ⟨rfl, rfl⟩
        unfold Storage.shouldSnapshot
        rw [key.1, key.2, Bool.or_eq_false_iff]
        refine ⟨decide_eq_false (by omega), ?_⟩
        rw [List.any_eq_false]
        intro x hx
        have := (List.mem_filter.1 hx).2
        simpa using this

theorem count_create {s s' : Storage.Store} {i : Nat} {c : Storage.ConfState} {b : Bytes} {x} (h : Storage.createSnapshot s i c b = .ok (s', x)) :
    s'.maxSnapshotDiff = s.maxSnapshotDiff := by
  unfold Storage.createSnapshot Storage.compactEntries at h
  repeat' split at h
  all_goals try simp only at h
  all_goals repeat' split at h
  all_goals first
    | (simp only [Run.ok.injEq, Prod.mk.injEq] at h; rw [← h.1]; done)
    | (simp only [Run.ok.injEq, Prod.mk.injEq] at h; rw [← h.1]; rfl)
    | cases h

theorem count_append {s s' : Storage.Store} {es : List Storage.Entry} {x} (h : Storage.appendEntries s es = .ok (s', x)) :
    s'.maxSnapshotDiff = s.maxSnapshotDiff := by
  unfold Storage.appendEntries at h
  split at h
  · simp only [Run.ok.injEq, Prod.mk.injEq] at h; rw [← h.1]
  · simp only at h
    repeat' split at h
    all_goals first
      | (simp only [Run.ok.injEq, Prod.mk.injEq] at h; rw [← h.1]; done)
      | cases h

theorem count_apply (s : Storage.Store) (sn : Storage.Snapshot) : (Storage.applySnapshot s sn).1.maxSnapshotDiff = s.maxSnapshotDiff := by
  unfold Storage.applySnapshot
  split <;> rfl

theorem count_asked {s s' : Storage.Store} (h : Asked s s') : s'.maxSnapshotDiff = s.maxSnapshotDiff := by
  induction h with
  | refl => rfl
  | ask _ i p ih =>
    rw [← ih]
    unfold Storage.snapshot
    split <;> rfl

/-- In a store with consecutive entries, few entries are at or below an index that is not far from the snapshot. -/
theorem done_short {s : Storage.Store} (h : Storage.Spec.Reachable s) {applied k : Nat} (hk : applied ≤ s.snap.index + k) :
    (done s applied).length ≤ k + 1 := by
  have hi := Storage.inv_reachable h
  have hlo := hi.lo
  have key : ∀ (es : List Storage.Entry) (a : Nat), Storage.Spec.ConsecutiveFrom a es →
      (es.filter fun e => decide (e.index ≤ applied)).length ≤ applied + 1 - a := by
    intro es
    induction es with
    | nil => intro a _; simp
    | cons e es ih =>
      intro a hc
      have := ih (a + 1) hc.2
      rw [List.filter_cons]
      split
      · rename_i hle
        have hle := of_decide_eq_true hle
        have := hc.1
        simp only [List.length_cons]
        omega
      · omega
  have := key s.entries (Storage.firstIndex s) hi.cons
  unfold done
  omega

/-! ## The count of the start request -/

/-- The replica was started and its store takes snapshots after `c` entries. -/
def Counts (N : NodeT ν Y) (c : Nat) (d : Driver σ (Simple ν Y) κ H) : Prop :=
  d.state ≠ .created ∧ ∃ n, d.raft.node = some n ∧ (N.store n).maxSnapshotDiff = c

theorem counts_node {c : Nat} {r r' : Simple ν Y} {n n' : ν} (hn : r.node = some n) (hn' : r'.node = some n')
    (h : (N.store n').maxSnapshotDiff = (N.store n).maxSnapshotDiff) :
    (∃ n, r.node = some n ∧ (N.store n).maxSnapshotDiff = c) → ∃ n, r'.node = some n ∧ (N.store n).maxSnapshotDiff = c := by
  rintro ⟨m, hm, hc⟩
  rw [hn, Option.some.injEq] at hm
  subst hm
  exact ⟨n', hn', h.trans hc⟩

theorem counts_call (hN : NodeContract N) {c : Nat} {r r' : Simple ν Y} {e : Drv.Ev H} (hc : RaftCall (raftT N) r e r') :
    (∃ n, r.node = some n ∧ (N.store n).maxSnapshotDiff = c) → ∃ n, r'.node = some n ∧ (N.store n).maxSnapshotDiff = c := by
  cases hc with
  | propose hx => obtain ⟨n, n', hn, hf, rfl⟩ := call_ok hx; exact counts_node hn rfl (count_asked (hN.propose hf))
  | proposeChange hx => obtain ⟨n, n', hn, hf, rfl⟩ := call_ok hx; exact counts_node hn rfl (count_asked (hN.proposeConf hf))
  | tick hx => obtain ⟨n, n', hn, hf, rfl⟩ := callU_ok hx; exact counts_node hn rfl (count_asked (hN.tick hf))
  | applyChange hx => obtain ⟨n, n', hn, hf, rfl⟩ := call_ok hx; exact counts_node hn rfl (count_asked (hN.applyConf hf))
  | ready hx => obtain ⟨n, n', y, hn, hf, hn'⟩ := getReady_ok hx; exact counts_node hn hn' (count_asked (hN.ready hf))
  | light hx => obtain ⟨n, n', y, hn, hf, hn'⟩ := advanceReady_ok hx; exact counts_node hn hn' (count_asked (hN.advance hf))
  | advanceApply hx => obtain ⟨n, n', hn, hf, rfl⟩ := callU_ok hx; exact counts_node hn rfl (count_asked (hN.advanceApply hf))
  | report hx => obtain ⟨n, n', hn, hf, rfl⟩ := callU_ok hx; exact counts_node hn rfl (count_asked (hN.reportSnapshot hf))
  | hardState hx =>
    obtain ⟨n, n', hn, hf, rfl⟩ := callU_ok hx
    simp only [Run.ok.injEq] at hf
    subst hf
    exact counts_node hn rfl (by rw [hN.store_set]; rfl)
  | append hx =>
    simp only [raftT] at hx
    obtain ⟨n, s, y, hn, hf, hn'⟩ := onStore_ok hx
    exact counts_node hn hn' (by rw [hN.store_set]; exact count_append hf)
  | @apply sn _ _ hx =>
    simp only [raftT] at hx
    obtain ⟨n, s, y, hn, hf, hn'⟩ := onStore_ok hx
    simp only [Run.ok.injEq] at hf
    have := count_apply (N.store n) (toStoreSnapshot sn)
    rw [hf] at this
    exact counts_node hn hn' (by rw [hN.store_set]; exact this)
  | create hx =>
    simp only [raftT] at hx
    obtain ⟨n, s, y, hn, hf, hn'⟩ := onStore_ok hx
    exact counts_node hn hn' (by rw [hN.store_set]; exact count_create hf)

theorem counts_step (hN : NodeContract N) {c : Nat} {r r' : Simple ν Y} {m x} (hx : (raftT N).makeStep r m = .ok (r', x)) :
    (∃ n, r.node = some n ∧ (N.store n).maxSnapshotDiff = c) → ∃ n, r'.node = some n ∧ (N.store n).maxSnapshotDiff = c := by
  obtain ⟨n, n', hn, hf, rfl⟩ := call_ok hx
  exact counts_node hn rfl (count_asked (hN.step hf))

variable {A : Actor σ} {ops : Comm.Ops S E H} {V : Env P S E H} {codecs : Codecs}

theorem counts_leaves (hN : NodeContract N) (c : Nat) : Leaves (sys A N ops V codecs) (Counts N c) where
  quiet hc h := ⟨by rw [hc.state]; exact h.1, by rw [hc.raft]; exact h.2⟩
  actor _ h := h
  host _ h := h
  raft hc _ _ h := ⟨h.1, counts_call hN hc h.2⟩
  init hs _ h := absurd hs h.1
  started hs _ h := absurd hs h.1
  stopped h := ⟨by simp, h.2⟩
  snapInit _ _ h := h
  snapCluster _ h := h
  sender _ h := h
  stashed _ _ h := h
  sending hd h := Sending.run (I := Counts N c)
    { drop := fun h => h
      sender := fun h => h
      report := fun hr h => ⟨h.1, counts_call (H := H) hN (.report hr) h.2⟩
      commOut := fun _ h => h } hd h
  commOut _ _ h := h
  commIn _ _ h := h
  commTick h := h
  commCluster h := h
  take _ h := h
  system _ _ hr h := ⟨h.1, counts_step hN hr h.2⟩
  chunk _ _ _ _ h := h
  complete _ h := h
  install _ hr h := ⟨h.1, counts_step hN hr h.2⟩

theorem count_new {c : Nat} {l : Bool} {id : Nat} {b : Bytes} {s : Storage.Store}
    (h : Storage.run (Storage.new c) (if l then [.apply ⟨1, 1, ⟨[id], [], []⟩, b⟩] else []) = .ok s) : s.maxSnapshotDiff = c := by
  cases l with
  | false =>
    simp only [Bool.false_eq_true, if_false, Storage.run, Run.ok.injEq] at h
    rw [← h]; rfl
  | true =>
    simp only [if_true, Storage.run, Storage.step, Run.bind_ok, Run.ok.injEq] at h
    rw [← h, count_apply]; rfl

theorem configure_count (q : StartReq) (d : Driver σ ρ κ H) (hd : d.snapshotCount = 1000) : (configure q.raftConfig d).snapshotCount = snapshotCount q := by
  unfold configure snapshotCount
  rcases q.raftConfig with _ | ⟨_, _, _, _, _ | ⟨_, _⟩, _⟩ <;> first | exact hd | rfl

/-- Consensus is started with the count of the request. -/
theorem initialize_counts (hN : NodeContract N) {q : StartReq} {b : Bytes} {d d' : Driver σ (Simple ν Y) (Channels P S E H) H} (hd : d.snapshotCount = 1000)
    (h : initializeRaftNode (sys A N ops V codecs) q.raftConfig b q.isLeader d = .ok (d', .ok ())) :
    d'.ephemeral = d.ephemeral ∧ ∃ n, d'.raft.node = some n ∧ (N.store n).maxSnapshotDiff = snapshotCount q := by
  unfold initializeRaftNode at h
  obtain ⟨c4, _, k4, l4⟩ := M.bind_okOk h
  have q4 := modify_ok k4
  have l4 := neutral_get l4
  obtain ⟨c5, res5, k5, l5⟩ := M.bind_okOk l4
  obtain ⟨r, hr, q5⟩ := callRaft_ok k5
  obtain ⟨c6, _, k6, l6⟩ := M.bind_okOk l5
  obtain ⟨q6, s6⟩ := orFail_ok k6
  obtain ⟨c7, _, k7, l7⟩ := M.bind_okOk l6
  have q7 := modify_ok k7
  obtain ⟨c8, _, k8, l8⟩ := M.bind_okOk l7
  have q8 := modify_ok k8
  obtain ⟨c9, _, k9, l9⟩ := M.bind_okOk l8
  have q9 : c9 = c8 := by
    unfold getRaftState at k9
    obtain ⟨y, _, z1, z2⟩ := M.bind_okOk k9
    have z2 := neutral_get z2
    simp only [askRaft, Run.bind_eq_ok, Run.ok.injEq, Prod.mk.injEq] at z1
    obtain ⟨_, _, z1, _⟩ := z1
    simp only [M.pure_def, M.pure, Run.ok.injEq, Prod.mk.injEq] at z2
    rw [← z2.1, z1]
  have q10 := modify_ok l9
  have hraft : d'.raft = r := by
    rw [q10, q9, q8, q7, q6, q5]
    cases q.isLeader <;> rfl
  have hep : d'.ephemeral = d.ephemeral := by
    have h4 : c4.ephemeral = d.ephemeral := by
      rw [q4]; unfold configure; split <;> rfl
    rw [q10, q9, q8, q7, q6, q5]
    cases q.isLeader <;> exact h4
  have hcount : c4.snapshotCount = snapshotCount q := by rw [q4]; exact configure_count q d hd
  rcases init_ok hr with ⟨e, he, _⟩ | ⟨n, s, _, hnew, hn', hs⟩
  · rw [s6] at he; cases he
  · rw [hraft]
    refine ⟨hep, n, hn', ?_⟩
    rw [count_asked (hN.new hnew), count_new hs, hcount]

theorem start_counts (hN : NodeContract N) {q : StartReq} {d d' : Driver σ (Simple ν Y) (Channels P S E H) H} (hd : d.snapshotCount = 1000)
    (hq : q.isEphemeral = false) (h : processStart (sys A N ops V codecs) q d = .ok (d', .ok ())) : Counts N (snapshotCount q) d' ∧ d'.ephemeral = false := by
  have hst := processStart_started h
  unfold processStart at h
  obtain ⟨d1, _, h1, g1⟩ := M.bind_okOk h
  have e1 := (checkState_ok h1).1
  obtain ⟨d2, _, h2, g2⟩ := M.bind_okOk g1
  have e2 := modify_ok h2
  obtain ⟨d3, res, h3, g3⟩ := M.bind_okOk g2
  obtain ⟨a1, f3, e3⟩ := callActor_ok h3
  obtain ⟨d4, _, h4, g4⟩ := M.bind_okOk g3
  obtain ⟨e4, r4⟩ := orFail_ok h4
  obtain ⟨d5, _, h5, g5⟩ := M.bind_okOk g4
  have e5 := modify_ok h5
  obtain ⟨d6, _, h6, g6⟩ := M.bind_okOk g5
  obtain ⟨d7, _, h7, g7⟩ := M.bind_okOk g6
  have e7 : d7 = d6 := by
    unfold M.when at h7
    split at h7
    · simp [M.panic] at h7
    · simp only [M.pure, Run.ok.injEq, Prod.mk.injEq, and_true] at h7
      exact h7.symm
  obtain ⟨d8, _, h8, g8⟩ := M.bind_okOk g7
  have e8 := modify_ok h8
  obtain ⟨d9, _, h9, g9⟩ := M.bind_okOk g8
  have e9 := modify_ok h9
  have g9 := neutral_get g9
  have e10 := modify_ok g9
  have hc5 : d5.snapshotCount = 1000 := by rw [e5, e4, e3, e2, e1]; exact hd
  have hep5 : d5.ephemeral = false := by rw [e5]; exact hq
  rw [hq] at h6
  simp only [M.when, Bool.not_false, if_true] at h6
  unfold startConsensus at h6
  obtain ⟨c1, res1, k1, l1⟩ := M.bind_okOk h6
  obtain ⟨a2, f1, q1⟩ := callActor_ok k1
  obtain ⟨c2, b, k2, l2⟩ := M.bind_okOk l1
  obtain ⟨q2, s2⟩ := orFail_ok k2
  have l2 := neutral_get l2
  obtain ⟨c3, _, k3, l3⟩ := M.bind_okOk l2
  have q3 : ∃ p, c3 = { c2 with snap := p } := by
    simp only [callSnap, Run.bind_eq_ok, Run.ok.injEq, Prod.mk.injEq] at k3
    obtain ⟨x, _, k3, _⟩ := k3
    exact ⟨_, k3.symm⟩
  obtain ⟨pp, q3⟩ := q3
  obtain ⟨hep6, n, hn, hc⟩ := initialize_counts hN (by rw [q3, q2, q1]; exact hc5) l3
  refine ⟨⟨by rw [hst]; simp, n, ?_, hc⟩, ?_⟩
  · rw [e10, e9, e8, e7]; exact hn
  · rw [e10, e9, e8, e7]; rw [q3, q2, q1] at hep6; exact hep6.trans hep5

/-! ## A call ends with a snapshot that is recent enough -/

/-- No snapshot is due. -/
def Tight (N : NodeT ν Y) (d : Driver σ (Simple ν Y) κ H) : Prop :=
  ∀ n, d.raft.node = some n → Storage.shouldSnapshot (N.store n) d.applied d.conf = false

theorem tight_sending (hr : Quiet N) : Sending (sys A N ops V codecs) (Tight N) where
  drop h := h
  sender h := h
  report {d r' i st} hx h m hm := by
    obtain ⟨n, n', hn, hf, rfl⟩ := callU_ok hx
    simp only [Option.some.injEq] at hm
    subst hm
    change Storage.shouldSnapshot (N.store n') d.applied d.conf = false
    rw [hr _ _ _ _ hf]
    exact h n hn
  commOut _ h := h

theorem tight_stashLeaderState (hr : Quiet N) (d : Driver σ (Simple ν Y) (Channels P S E H) H) :
    Keep (Tight N) (stashLeaderState (sys A N ops V codecs)) d := by
  unfold stashLeaderState
  refine keep_bind (keep_getRaftState _) fun _ _ _ => ?_
  refine keep_modify_bind (fun h => h) ?_
  refine keep_get_bind ?_
  split
  · exact keep_pure
  · refine keep_modify_bind (fun h => h) ?_
    refine keep_bind ?_ fun _ _ _ => ?_
    · unfold updateSnapshotClusterChange
      refine keep_get_bind ?_
      split
      · exact keep_pure
      · exact keep_bind (keep_snap fun p b h hi => hi) fun _ _ _ => (tight_sending hr).reportAll _ _
    · refine keep_get_bind ?_
      exact keep_bind (keep_modify fun h => h) fun _ _ _ => keep_modify fun h => h

theorem tight_maybeCreateSnapshot (hN : NodeContract N) {d d' : Driver σ (Simple ν Y) (Channels P S E H) H}
    (h : maybeCreateSnapshot (sys A N ops V codecs) d = .ok (d', .ok ())) : Tight N d' := by
  unfold maybeCreateSnapshot at h
  rw [M.bind_run (d1 := d) (a := d) rfl] at h
  obtain ⟨d1, b, h1, g1⟩ := M.bind_okOk h
  have e1 : d1 = d ∧ (raftT N).shouldSnapshot d.raft d.applied d.conf = .ok b := by
    simp only [askRaft, Run.bind_eq_ok, Run.ok.injEq, Prod.mk.injEq, Except.ok.injEq] at h1
    obtain ⟨x, hx, h1, h2⟩ := h1
    exact ⟨h1.symm, by rw [← h2]; exact hx⟩
  obtain ⟨rfl, hb⟩ := e1
  cases b with
  | false =>
    simp only [Bool.false_eq_true, if_false, M.pure_def, M.pure, Run.ok.injEq, Prod.mk.injEq, and_true] at g1
    subst g1
    intro n hn
    simp only [raftT, Simple.get, hn, Run.unwrap, Run.bind_ok, Run.ok.injEq] at hb
    exact hb
  | true =>
    rw [if_pos rfl] at g1
    obtain ⟨d2, res, h2, g2⟩ := M.bind_okOk g1
    obtain ⟨a, f2, e2⟩ := callActor_ok h2
    obtain ⟨d3, data, h3, g3⟩ := M.bind_okOk g2
    obtain ⟨e3, r3⟩ := orFail_ok h3
    rw [M.bind_run (d1 := d3) (a := d3) rfl] at g3
    obtain ⟨d4, res4, h4, g4⟩ := M.bind_okOk g3
    obtain ⟨r, hr, e4⟩ := callRaft_ok h4
    obtain ⟨e5, r5⟩ := orFail_ok g4
    subst r5
    intro m hm
    rw [e5, e4] at hm ⊢
    obtain ⟨n, n', hn, hf, rfl⟩ := call_ok hr
    simp only [Run.bind_eq_ok, Run.ok.injEq, Prod.mk.injEq] at hf
    obtain ⟨⟨s, y⟩, hs, rfl, hy⟩ := hf
    simp only [Option.some.injEq] at hm
    subst hm
    rw [hN.store_set]
    cases y with
    | error e => simp [storeResult] at hy
    | ok u => exact create_enough hs

theorem tight_runRaft (hN : NodeContract N) (hr : Quiet N) {d d' : Driver σ (Simple ν Y) (Channels P S E H) H} (he : d.ephemeral = false)
    (h : runRaft (sys A N ops V codecs) d = .ok (d', .ok ())) : Tight N d' := by
  unfold runRaft at h
  rw [M.bind_run (d1 := d) (a := d) rfl, he] at h
  simp only [Bool.false_eq_true, if_false] at h
  obtain ⟨d1, _, _, h⟩ := M.bind_okOk h
  obtain ⟨d2, _, _, h⟩ := M.bind_okOk h
  obtain ⟨d3, _, h3, h⟩ := M.bind_okOk h
  refine (tight_sending hr).run h ?_
  unfold processStateMachine at h3
  rw [M.bind_run (d1 := d2) (a := d2) rfl] at h3
  split at h3
  · obtain ⟨d4, _, _, h3⟩ := M.bind_okOk h3
    obtain ⟨d5, _, h5, h3⟩ := M.bind_okOk h3
    exact (tight_stashLeaderState hr _).run (tight_maybeCreateSnapshot hN h5) _ _ h3
  · rename_i hi
    simp only [M.pure_def, M.pure, Run.ok.injEq, Prod.mk.injEq, and_true] at h3
    subst h3
    intro n hn
    exact absurd (by simp [sys, raftT, hn]) hi

theorem tight_receive (hN : NodeContract N) (hr : Quiet N) {i msg out} {d d' : Driver σ (Simple ν Y) (Channels P S E H) H} (ht : d.ephemeral = false → Tight N d)
    (h : receive (sys A N ops V codecs) i msg d = .ok (d', .ok out)) : d'.ephemeral = false → Tight N d' := by
  intro he
  cases receive_outcome h with
  | unknown => exact ht he
  | @done m' d2 c' outs hm hb ho =>
    unfold body at hb
    obtain ⟨d3, c, _, hb⟩ := M.bind_okOk hb
    obtain ⟨d4, _, _, hb⟩ := M.bind_okOk hb
    have k := (reaches_runRaft d4).run _ _ hb
    have he4 : d4.ephemeral = false := by
      have he : d2.ephemeral = false := he
      cases hd : d4.ephemeral with
      | false => rfl
      | true =>
        unfold runRaft at hb
        rw [M.bind_run (d1 := d4) (a := d4) rfl, hd] at hb
        simp only [if_true, M.pure_def, M.pure, Run.ok.injEq, Prod.mk.injEq, and_true] at hb
        rw [hb, he] at hd
        cases hd
    have ht : Tight N d2 := tight_runRaft hN hr he4 hb
    exact ht

theorem tight_runs (hN : NodeContract N) (hr : Quiet N) {outs} {d d' : Driver σ (Simple ν Y) (Channels P S E H) H} (ht : d.ephemeral = false → Tight N d)
    (h : Runs (sys A N ops V codecs) d outs d') : d'.ephemeral = false → Tight N d' := by
  induction h with
  | nil => exact ht
  | snoc _ hs ih => exact tight_receive hN hr ih hs

/-- The first call, a start request. -/
theorem started_counts (hN : NodeContract N) {a : σ} {p : P} {q : StartReq} {i out} {d : Driver σ (Simple ν Y) (Channels P S E H) H}
    (hq : q.isEphemeral = false) (h : receive (sys A N ops V codecs) i (some (some (.startReplica q))) (fresh a p) = .ok (d, .ok out)) :
    Counts N (snapshotCount q) d ∧ d.ephemeral = false := by
  cases receive_outcome h with
  | unknown hm => cases hm
  | @done m' d2 c' outs hm hb ho =>
    obtain rfl : some (.startReplica q) = m' := by
      cases m' with
      | none => cases hm
      | some m' => simp only [Option.map_some, Option.some.injEq] at hm; rw [hm]
    unfold body at hb
    obtain ⟨d3, c, h3, hb1⟩ := M.bind_okOk hb
    obtain ⟨d4, _, h4, hb2⟩ := M.bind_okOk hb1
    unfold dispatchOpt dispatch at h3
    obtain ⟨d5, _, h5, h6⟩ := M.bind_okOk h3
    simp only [M.pure_def, M.pure, Run.ok.injEq, Prod.mk.injEq, Except.ok.injEq] at h6
    obtain ⟨rfl, rfl⟩ := h6
    obtain ⟨k1, k2⟩ := start_counts hN (d := presetState (sys A N ops V codecs) i (fresh a p)) rfl hq h5
    have k3 := (keep_runActor (counts_leaves hN _) none d5).run k1 _ _ h4
    have k4 : Counts N (snapshotCount q) d2 := (keep_runRaft (counts_leaves hN _) d4).run k3 _ _ hb2
    refine ⟨k4, ?_⟩
    change d2.ephemeral = false
    rw [(((reaches_runRaft d4).run _ _ hb2).sameId k3.1).ephemeral, (((reaches_runActor _ d5).run _ _ h4).sameId k1.1).ephemeral]
    exact k2

end TCP.Short
