import Verif.Spec.Asked
import Verif.Proofs.Answered
import Verif.Props.Short

/-! # C112: the members of a cluster change only as hosts ask -/

namespace TCP.AskedProps

open TCP TCP.Drv TCP.DrvSpec

variable {σ ρ κ H : Type} {S : Sys σ ρ κ H}

theorem proposedChanges_append (a b : List (Ev H)) : proposedChanges (a ++ b) = proposedChanges a ++ proposedChanges b :=
  List.filterMap_append

/-- What a computation proposes is among `L`, in order. -/
def Within (L : List ConfChange) (m : M (Driver σ ρ κ H) α) : Prop :=
  ∀ d d' r, m d = .ok (d', r) → ∃ new, d'.trace = d.trace ++ new ∧ (proposedChanges new).Sublist L

theorem within_adds {L : List K} {m : M (Driver σ ρ κ H) α} (h : Adds L m) (hk : K.proposeChange ∉ L) : Within [] m := by
  intro d d' r hr
  obtain ⟨new, ht, hn⟩ := h.run _ _ _ hr
  refine ⟨new, ht, ?_⟩
  rw [show proposedChanges new = [] from ?_]
  · exact List.Sublist.refl _
  · unfold proposedChanges
    rw [List.filterMap_eq_nil_iff]
    intro e he
    have := hn e he
    cases e with
    | proposeChange c x => exact absurd this hk
    | _ => rfl

theorem within_bind {L L' : List ConfChange} {m : M (Driver σ ρ κ H) α} {f : α → M (Driver σ ρ κ H) β} (hm : Within L m)
    (hf : ∀ a, Within L' (f a)) : Within (L ++ L') (m >>= f) := by
  intro d d' r hr
  rcases M.bind_ok hr with ⟨e, h1, _⟩ | ⟨d1, a, h1, h2⟩
  · obtain ⟨new, ht, hs⟩ := hm _ _ _ h1
    exact ⟨new, ht, hs.trans (List.sublist_append_left _ _)⟩
  · obtain ⟨n1, t1, s1⟩ := hm _ _ _ h1
    obtain ⟨n2, t2, s2⟩ := hf a _ _ _ h2
    exact ⟨n1 ++ n2, by rw [t2, t1, List.append_assoc], by rw [proposedChanges_append]; exact s1.append s2⟩

theorem within_propose (replica : Nat) (add : Bool) : Within [⟨replica, add⟩] (makeConfChangeProposal S replica add) := by
  unfold makeConfChangeProposal
  refine within_bind (L := [⟨replica, add⟩]) (L' := []) (fun d d' r h => ?_) fun res => ?_
  · simp only [callRaft, Run.bind_eq_ok, Run.ok.injEq, Prod.mk.injEq] at h
    obtain ⟨x, _, rfl, _⟩ := h
    exact ⟨_, rfl, List.Sublist.refl _⟩
  · refine within_adds (L := []) ?_ (by decide)
    split
    · exact adds_pure
    · exact adds_pure
    · exact adds_fail

theorem within_status (i replica t : Nat) : Within (askedChange (H := H) (some (some (.changeCluster i replica t)))).toList (changeStatus S replica t) := by
  unfold changeStatus
  split
  · rename_i h; subst h; exact within_propose replica true
  · split
    · rename_i h; subst h; exact within_propose replica false
    · rename_i h1 h2
      rw [show askedChange (H := H) (some (some (.changeCluster i replica t))) = none from ?_]
      · exact within_adds (L := []) adds_pure (by decide)
      · unfold askedChange; split <;> simp_all

theorem within_dispatch (m : InMsg H) : Within (askedChange (some (some m))).toList (dispatch S m) := by
  have key : ∀ {L : List K} {x : M (Driver σ ρ κ H) Unit}, Adds L x → K.proposeChange ∉ L →
      Within [] (x >>= fun _ => Pure.pure (none : Option ActorCommand)) := fun hx hL =>
    within_adds (adds_bind hx fun _ => adds_pure) hL
  cases m with
  | startReplica q => exact key (adds_processStart q) (by decide)
  | stopReplica => exact key adds_processStop (by decide)
  | enterLameduck =>
    refine key (L := []) (adds_modify ?_) (by decide)
    intro _; rfl
  | changeCluster a b c =>
    have h : Within (askedChange (H := H) (some (some (.changeCluster a b c)))).toList (processChangeCluster S a b c) := by
      unfold processChangeCluster
      refine within_bind (L := []) (within_adds (adds_checkState _) (by decide)) fun _ => ?_
      refine within_bind (L := []) (within_adds adds_checkNonEphemeral (by decide)) fun _ => ?_
      show Within (askedChange (H := H) (some (some (.changeCluster a b c)))).toList _
      rw [← List.append_nil (Option.toList _)]
      exact within_bind (within_status a b c) fun st => within_adds (L := [.oChange]) (adds_stash (by simp only [kind]; decide)) (by decide)
    rw [← List.append_nil (Option.toList _)]
    exact within_bind h fun _ => within_adds (L := []) adds_pure (by decide)
  | checkCluster => exact key adds_processCheckCluster (by decide)
  | systemMessage a b c => exact key (adds_processSystemMessage a b c) (by decide)
  | snapshotRequest a b c p => exact key (adds_processSnapshotRequest a b c p) (by decide)
  | snapshotResponse a b c p => exact key (adds_processSnapshotResponse a b c p) (by decide)
  | snapshotFailure a b => exact key (adds_processSnapshotFailure a b) (by decide)
  | getReplicaState => exact key adds_processGetReplicaState (by decide)
  | handshake a x => exact key (adds_processHandshake a x) (by decide)
  | appMessage c => exact within_adds (adds_pure (L := [])) (by decide)

theorem within_rest (c : Option ActorCommand) : Within [] (do runActor S c; runRaft S : M (Driver σ ρ κ H) Unit) :=
  within_adds (L := [.command, .apply, .oApp, .commTick] ++ raftKinds)
    (adds_bind ((adds_runActor c).mono (by decide)) fun _ => adds_runRaft.mono (by decide)) (by decide)

theorem within_body (m : Option (InMsg H)) : Within (askedChange (m.map some)).toList (body S m) := by
  unfold body
  rw [← List.append_nil (Option.toList _)]
  refine within_bind ?_ fun c => within_rest c
  cases m with
  | none => exact within_adds (adds_pure (L := [])) (by decide)
  | some m => exact within_dispatch m

theorem proposedChanges_comm (os : List (Comm.OutMsg H)) : proposedChanges (os.map fun m => (.out (.comm m) : Ev H)) = [] := by
  unfold proposedChanges
  rw [List.filterMap_eq_nil_iff]
  intro e he
  obtain ⟨m, _, rfl⟩ := List.mem_map.1 he
  rfl

theorem receive_within {instant : Nat} {m : Option (Option (InMsg H))} {d d' : Driver σ ρ κ H} {r} (h : receive S instant m d = .ok (d', r)) :
    ∃ new, d'.trace = d.trace ++ new ∧ (proposedChanges new).Sublist (askedChange m).toList := by
  cases receive_outcome h with
  | unknown hm => exact ⟨[], by simp [presetState], List.nil_sublist _⟩
  | failed hm hb =>
    obtain ⟨new, ht, hs⟩ := within_body _ _ _ _ hb
    exact ⟨new, ht, by rw [hm]; exact hs⟩
  | @done _ _ _ os hm hb ho =>
    obtain ⟨new, ht, hs⟩ := within_body _ _ _ _ hb
    refine ⟨new ++ os.map fun m => .out (.comm m), by simp only [ht, List.append_assoc]; rfl, ?_⟩
    rw [proposedChanges_append, proposedChanges_comm, List.append_nil, hm]
    exact hs

/-- C112: what a replica proposes to consensus about the members is what its host asked for, in order, each request at most once and nothing
unasked, whatever else the host, the application and other replicas do. -/
theorem C112_asked {d0 d : Driver σ ρ κ H} {ms} (h0 : Fresh d0) (h : Asked S d0 ms d) :
    (proposedChanges d.trace).Sublist (ms.filterMap askedChange) := by
  induction h with
  | nil => obtain ⟨_, _, _, rfl⟩ := h0; exact List.nil_sublist _
  | snoc _ hs ih =>
    obtain ⟨new, ht, hn⟩ := receive_within hs
    rw [ht, proposedChanges_append, List.filterMap_append]
    refine ih.append ?_
    rename_i msg _ _ _
    cases hc : askedChange msg <;> simpa [hc] using hn

/-- C112: so in a cluster, if consensus commits only what was proposed, every change any replica carries out was asked for by a host. -/
theorem C112_cluster {ι : Type} {d0 ds : ι → Driver σ ρ κ H} {ms : ι → List (Option (Option (InMsg H)))} (h0 : ∀ p, Fresh (d0 p))
    (h : ∀ p, Asked S (d0 p) (ms p) (ds p)) (hc : ChangesProposed ds) {p : ι} {c : ConfChange} {res}
    (ha : .applyChange c res ∈ (ds p).trace) : ∃ q, c ∈ (ms q).filterMap askedChange := by
  obtain ⟨q, hq⟩ := hc p c res ha
  exact ⟨q, (C112_asked (h0 q) (h q)).subset hq⟩

open SurvStoreExample in
theorem asked_runAll {d d' : Rep} {cs out} (h : runAll d cs = .ok (d', out)) {d0 : Rep} {ms} (h0 : Asked counterSys d0 ms d) :
    Asked counterSys d0 (ms ++ cs) d' := by
  induction cs generalizing d out ms with
  | nil =>
    simp only [runAll, Run.ok.injEq, Prod.mk.injEq] at h
    rw [← h.1, List.append_nil]; exact h0
  | cons m cs ih =>
    simp only [runAll, Run.bind_eq_ok] at h
    obtain ⟨⟨d1, o1⟩, h1, ⟨d2, o2⟩, h2, h3⟩ := h
    simp only [Run.ok.injEq, Prod.mk.injEq] at h3
    obtain ⟨rfl, _⟩ := h3
    simp only [Replica.serve, Run.bind_eq_ok] at h1
    obtain ⟨⟨d3, r⟩, h1, h4⟩ := h1
    cases r with
    | error e => cases h4
    | ok r =>
      simp only [Run.ok.injEq, Prod.mk.injEq] at h4
      rw [show ms ++ m :: cs = (ms ++ [m]) ++ cs by simp]
      exact ih h2 (h4.1 ▸ h0.snoc h1)

open SurvStoreExample in
/-- A leader is asked to add replica 2, to do something unknown, and to remove replica 3.  The two changes are proposed; the first is carried out
at once. -/
example : ∃ (d : Rep) (ms : List (Option (Option (InMsg Nat)))), Fresh new ∧ Asked counterSys new ms d ∧
    ms.filterMap askedChange = [⟨2, true⟩, ⟨3, false⟩] ∧ proposedChanges d.trace = [⟨2, true⟩, ⟨3, false⟩] ∧
    ChangesProposed (fun _ : Unit => d) ∧ ∃ res, .applyChange ⟨2, true⟩ res ∈ d.trace := by
  have h : check [start true, some (some (.changeCluster 1 2 1)), some (some (.changeCluster 2 5 7)), none, some (some (.changeCluster 3 3 2))]
      (fun d _ => decide (proposedChanges d.trace = [⟨2, true⟩, ⟨3, false⟩]) &&
        (d.trace.any fun e => match e with | .applyChange c _ => decide (c = ⟨2, true⟩) | _ => false) &&
        d.trace.all fun e => match e with | .applyChange c _ => decide (c ∈ [⟨2, true⟩, ⟨3, false⟩]) | _ => true) = true := by decide +kernel
  obtain ⟨d, out, hr, hp⟩ := check_sound h
  simp only [Bool.and_eq_true, decide_eq_true_eq] at hp
  obtain ⟨⟨h1, h2⟩, h3⟩ := hp
  refine ⟨d, _, Replica.fresh_fresh _ _, asked_runAll hr .nil, rfl, h1, fun _ c res hm => ⟨(), ?_⟩, ?_⟩
  · have := List.all_eq_true.1 h3 _ hm
    rw [h1]; exact of_decide_eq_true this
  · obtain ⟨e, he, hc⟩ := List.any_eq_true.1 h2
    split at hc
    · rename_i c res
      rw [of_decide_eq_true hc] at he
      exact ⟨res, he⟩
    · cases hc

end TCP.AskedProps
