import Verif.Spec.Removed
import Verif.Proofs.DriverReports
import Verif.Proofs.Replica
import Verif.Props.Comm
import Verif.Proofs.Recover

/-!
# Channels with replicas that are not members
-/

namespace TCP.Comm

open TCP TCP.Comm.Spec TCP.Removed

variable {S E H : Type} {ops : Ops S E H}

/-! ## No session without a handshake message of the peer -/

theorem channel_not_completed {m m1 : Module S E H} {p : Nat} {fresh : Option S} {c : Peer S E H} (hn : statusOf m p ≠ .completed)
    (h : m.channel p fresh = (m1, some c)) : c.status ≠ .completed := by
  unfold Module.channel at h
  simp only at h
  have hc : ((m.replicas.get p).getD (Peer.new m.timeout)).status ≠ .completed := by
    unfold statusOf at hn
    cases hg : m.replicas.get p with
    | none => simp [Peer.new]
    | some x => simpa [hg] using hn
  split at h
  · split at h
    · simp at h
    · simp only [Prod.mk.injEq, Option.some.injEq] at h
      rw [← h.2]; simp [Peer.init]
  · simp only [Prod.mk.injEq, Option.some.injEq] at h
    rw [← h.2]; exact hc

theorem channel_kept_none {m m1 : Module S E H} {p : Nat} {fresh : Option S} (hn : statusOf m p ≠ .completed)
    (h : m.channel p fresh = (m1, none)) : statusOf m1 p ≠ .completed := by
  unfold Module.channel at h
  simp only at h
  split at h
  · rename_i hu
    split at h
    · simp only [Prod.mk.injEq, and_true] at h
      rw [← h]
      unfold statusOf
      simp only [AMap.get_set_self, Option.map_some, Option.getD_some]
      rw [hu]
      simp
    · simp at h
  · simp at h

theorem processOut_not_completed {c c' : Peer S E H} {u : Outgoing} (hn : c.status ≠ .completed) (h : c.processOut ops u = .ok c') :
    c'.status ≠ .completed := by
  unfold Peer.processOut at h
  repeat' split at h
  all_goals (try simp only [Run.ok.injEq, reduceCtorEq] at h) <;> (try subst h) <;> simp_all

theorem processIn_not_completed {c c' : Peer S E H} {u : InMsg H} {up} (hh : ∀ q h, u ≠ .handshake q h) (hn : c.status ≠ .completed)
    (h : c.processIn ops u = .ok (c', up)) : c'.status ≠ .completed := by
  unfold Peer.processIn at h
  simp only at h
  cases u with
  | handshake q x => exact absurd rfl (hh q x)
  | data d =>
    split at h <;> first
      | (simp only [Run.ok.injEq, Prod.mk.injEq] at h; rw [← h.1]; first | exact hn | simp)
      | (rename_i hc; exact absurd hc hn)
  | other =>
    split at h <;> first
      | (simp only [Run.ok.injEq, Prod.mk.injEq] at h; rw [← h.1]; first | exact hn | simp)
      | (rename_i hc; exact absurd hc hn)

theorem statusOf_set_self {m : Module S E H} {p : Nat} {c : Peer S E H} :
    statusOf { m with replicas := m.replicas.set p c } p = c.status := by
  simp [statusOf]

/-- A session with a peer opens only when a handshake message of the peer arrives. -/
theorem not_completed_step {me R T : Nat} {evs : List (Ev S H)} {m m' : Module S E H} {ev : Ev S H} {p : Nat} (hi : MInv ops me R T evs m)
    (hn : statusOf m p ≠ .completed) (hg : greetings p [ev] = []) (hs : Step ops m ev m') : statusOf m' p ≠ .completed := by
  cases hs with
  | @out _ fresh msg res h =>
    by_cases hp : p = msg.data.recipient
    · subst hp
      unfold Module.processOut at h
      split at h
      · simp only [Run.ok.injEq, Prod.mk.injEq] at h; rw [← h.1]; exact hn
      · split at h
        · rename_i m1 hc
          simp only [Run.ok.injEq, Prod.mk.injEq] at h; rw [← h.1]
          exact channel_kept_none hn hc
        · rename_i m1 c hc
          simp only [Run.bind_eq_ok] at h
          obtain ⟨c', hc', h⟩ := h
          simp only [Run.ok.injEq, Prod.mk.injEq] at h; rw [← h.1, statusOf_set_self]
          exact processOut_not_completed (channel_not_completed hn hc) hc'
    · rw [statusOf_congr (processOut_frame h hp)]; exact hn
  | @inn _ fresh msg res h =>
    by_cases hp : some p = msg.peer
    · unfold Module.processIn at h
      split at h
      · simp only [Run.ok.injEq, Prod.mk.injEq] at h; rw [← h.1]; exact hn
      · rw [← hp] at h
        simp only at h
        split at h
        · rename_i m1 hc
          simp only [Run.ok.injEq, Prod.mk.injEq] at h; rw [← h.1]
          exact channel_kept_none hn hc
        · rename_i m1 c hc
          simp only [Run.bind_eq_ok] at h
          obtain ⟨⟨c', up⟩, hc', h⟩ := h
          simp only [Run.ok.injEq, Prod.mk.injEq] at h; rw [← h.1, statusOf_set_self]
          refine processIn_not_completed (fun q x hu => ?_) (channel_not_completed hn hc) hc'
          subst hu
          simp only [InMsg.peer, Option.some.injEq] at hp
          simp [greetings, hp] at hg
    · rw [statusOf_congr (processIn_frame h hp)]; exact hn
  | @take _ out h =>
    rcases take_peer hi h p with ⟨_, h2, _⟩ | ⟨c, c', o, h1, h2, h3, _⟩
    · simp [statusOf, h2]
    · simp only [statusOf, h1, Option.map_some, Option.getD_some] at hn
      simp only [statusOf, h3, Option.map_some, Option.getD_some]
      rw [takeOut_status h2]; exact hn
  | tick =>
    unfold statusOf at hn ⊢
    rw [tick_get]
    cases hgp : m.replicas.get p with
    | none => simp
    | some c =>
      rw [hgp] at hn
      simp only [Option.map_some, Option.getD_some] at hn ⊢
      rw [moduleTick_status]
      split <;> (try split) <;> (try split) <;> simp_all
  | @cluster ids =>
    unfold statusOf at hn ⊢
    rw [cluster_get hi]
    split
    · exact hn
    · simp
  | @shuffle rs h =>
    have : AMap.get rs p = m.replicas.get p := by
      have hw : AMap.WF rs := (h.map _).nodup_iff.2 hi.wf
      cases hgp : m.replicas.get p with
      | none =>
        rw [AMap.get_eq_none_iff] at hgp ⊢
        exact fun hk => hgp ((h.map _).mem_iff.1 hk)
      | some c => exact AMap.get_of_mem hw (h.mem_iff.2 (AMap.mem_of_get hgp))
    rw [statusOf_congr (m := m) (m' := { m with replicas := rs }) this]; exact hn

/-- While no handshake message of a peer arrives, a replica without a session with it takes nothing it hears from the peer for genuine and sends
it nothing but handshake messages. -/
theorem deaf_steps {me R T : Nat} {evs suf : List (Ev S H)} {m m' : Module S E H} {p : Nat} (hh : History ops me R T evs m)
    (hn : statusOf m p ≠ .completed) (hs : Steps ops m suf m') (hg : greetings p suf = []) :
    heard p suf = [] ∧ emitted p suf = [] ∧ statusOf m' p ≠ .completed := by
  induction hs generalizing evs with
  | refl => exact ⟨rfl, rfl, hn⟩
  | @step m ev m1 suf m' h hs ih =>
    have hg1 : greetings p [ev] = [] ∧ greetings p suf = [] := by
      rw [show ev :: suf = [ev] ++ suf from rfl] at hg
      simp only [greetings, List.filterMap_append, List.append_eq_nil_iff] at hg ⊢
      exact hg
    have hn1 := not_completed_step (MInv.history hh) hn hg1.1 h
    obtain ⟨i1, i2, i3⟩ := ih (hh.step h) hn1 hg1.2
    have h1 : heard p [ev] = [] := by
      cases h with
      | @inn _ fresh msg res h =>
        cases res with
        | error e => rfl
        | ok up =>
          cases up with
          | none => rfl
          | some up =>
            obtain ⟨d, pl, e, b, rfl, hst, _⟩ := C19_only_decrypted hh h
            have : d.sender ≠ p := by rintro rfl; exact hn hst
            simp [heard, InMsg.peer, this]
      | _ => rfl
    have h2 : emitted p [ev] = [] := by
      cases h with
      | @take _ out h =>
        have := C15_only_handshake_while_not_completed hh h hn
        simpa [emitted] using this
      | _ => rfl
    refine ⟨?_, ?_, i3⟩
    · rw [show ev :: suf = [ev] ++ suf from rfl]
      simp only [heard, List.filterMap_append, List.append_eq_nil_iff] at h1 i1 ⊢
      exact ⟨h1, i1⟩
    · rw [show ev :: suf = [ev] ++ suf from rfl, emitted_append, h2, i2]; rfl

end TCP.Comm

namespace TCP.Replica

open TCP TCP.Drv TCP.Comm.Spec TCP.Replica.Spec TCP.Removed

variable {σ ν Y P S E H : Type} {A : Actor σ} {N : NodeT ν Y} {ops : Comm.Ops S E H} {V : Env P S E H} {codecs : Codecs}

/-! ## What the driver does to the channel layer -/

/-- One call of the channel layer after it was set up. -/
inductive Moved (ops : Comm.Ops S E H) (V : Env P S E H) : Channels P S E H → Channels P S E H → Prop
  | out {c u c' x} (h : Channels.processOut ops V c u = .ok (c', x)) : Moved ops V c c'
  | inn {c m c' x} (h : Channels.processIn ops V c m = .ok (c', x)) : Moved ops V c c'
  | take {c c' out} (h : Channels.takeOut ops V c = .ok (c', out)) : Moved ops V c c'
  | tick {c} : Moved ops V c ((commT ops V).tick c)
  | cluster {c ids} : Moved ops V c ((commT ops V).clusterChange c ids)

theorem Moved.steps {c c' : Channels P S E H} (h : Moved ops V c c') :
    ∃ suf, c'.log = c.log ++ suf ∧ Steps ops c.module suf c'.module := by
  cases h with
  | out h =>
    simp only [Channels.processOut, Run.bind_eq_ok, Run.ok.injEq, Prod.mk.injEq] at h
    obtain ⟨y, h1, rfl, _⟩ := h
    exact ⟨_, rfl, .step (.out h1) .refl⟩
  | inn h =>
    simp only [Channels.processIn, Run.bind_eq_ok, Run.ok.injEq, Prod.mk.injEq] at h
    obtain ⟨y, h1, rfl, _⟩ := h
    exact ⟨_, rfl, .step (.inn h1) .refl⟩
  | take h =>
    simp only [Channels.takeOut, Run.bind_eq_ok, Run.ok.injEq, Prod.mk.injEq] at h
    obtain ⟨⟨m', y⟩, h1, rfl, rfl⟩ := h
    refine ⟨[.shuffle, .take _], by simp, .step (.shuffle (V.order_perm c.env c.module.replicas)) (.step (.take h1) .refl)⟩
  | tick => exact ⟨_, rfl, .step .tick .refl⟩
  | cluster => exact ⟨_, rfl, .step .cluster .refl⟩

theorem Moved.blank {c c' : Channels P S E H} (h : Moved ops V c c') (hb : Blank c) : Blank c' := by
  cases h with
  | out h => exact blank_processOut hb h
  | inn h => exact (blank_processIn hb h).1
  | take h => exact (blank_takeOut hb h).1
  | tick =>
    show c.module.tick = _
    rw [hb]; rfl
  | cluster =>
    rename_i ids
    show c.module.clusterChange ids = _
    rw [hb]
    unfold Comm.Module.clusterChange
    split <;> rfl

/-- A predicate of the channel layer alone. -/
theorem comm_leaves {Q : Prop → Channels P S E H → Prop} (hm : ∀ {b c c'}, Moved ops V c c' → Q b c → Q b c')
    (hs : ∀ {b : Prop} {c i r t k f e}, b → Q b c → Q False ((commT ops V).init c i r t k f e)) (hw : ∀ {b c}, Q b c → Q False c) :
    Leaves (sys A N ops V codecs) (fun d : Driver σ (Simple ν Y) (Channels P S E H) H => Q (d.state = .created) d.comm) where
  quiet hc h := by rw [hc.comm, hc.state]; exact h
  actor _ h := h
  host _ h := h
  raft _ _ _ h := h
  init _ _ h := h
  started {d r t e} hst _ h := by
    show Q (Lifecycle.started = .created) _
    rw [show (Lifecycle.started = .created) = False from by simp]
    exact hs hst h
  stopped h := by
    show Q (Lifecycle.stopped = .created) _
    rw [show (Lifecycle.stopped = .created) = False from by simp]
    exact hw h
  snapInit _ _ h := h
  snapCluster _ h := h
  sender _ h := h
  stashed _ _ h := h
  sending hd h := Sending.run (I := fun d : Driver σ (Simple ν Y) (Channels P S E H) H => Q (d.state = .created) d.comm)
    { drop := fun h => h
      sender := fun h => h
      report := fun _ h => h
      commOut := fun hc h => hm (.out hc) h } hd h
  commOut _ hc h := hm (.out hc) h
  commIn _ hc h := hm (.inn hc) h
  commTick h := hm .tick h
  commCluster h := hm .cluster h
  take hc h := hm (.take hc) h
  system hc _ _ h := hm (.inn hc) h
  chunk _ _ hc _ h := hm (.inn hc) h
  complete _ h := h
  install _ _ h := h

/-- The channel layer of a replica has a history of calls. -/
theorem recorded_calls {a : σ} {p : P} {rs} {d : Driver σ (Simple ν Y) (Channels P S E H) H}
    (h : DrvSpec.Calls (sys A N ops V codecs) (fresh a p) rs d) : Recorded ops d.comm := by
  have L : Leaves (sys A N ops V codecs) (fun d : Driver σ (Simple ν Y) (Channels P S E H) H =>
      (d.state = .created → Blank d.comm) ∧ Recorded ops d.comm) :=
    comm_leaves (Q := fun b c => (b → Blank c) ∧ Recorded ops c)
      (fun hm h => ⟨fun hb => hm.blank (h.1 hb), by
        obtain ⟨me, R, T, hh⟩ := h.2
        obtain ⟨suf, h1, h2⟩ := hm.steps
        exact ⟨me, R, T, by rw [h1]; exact hh.steps h2⟩⟩)
      (fun {b c i r t k f e} hb h => ⟨False.elim, i, r, t, by
        show History ops i r t [] (c.module.init i r t)
        rw [h.1 hb]; exact .init⟩)
      (fun h => ⟨False.elim, h.2⟩)
  exact (L.calls h ⟨fun _ => rfl, 0, 1, 10, .init⟩).2

/-- From a replica that was started on, the channel layer is only moved by single calls. -/
theorem later_steps {d d' : Driver σ (Simple ν Y) (Channels P S E H) H} {rs} (hs : d.state ≠ .created)
    (h : DrvSpec.Calls (sys A N ops V codecs) d rs d') :
    ∃ suf, d'.comm.log = d.comm.log ++ suf ∧ Steps ops d.comm.module suf d'.comm.module := by
  have L : Leaves (sys A N ops V codecs) (fun x : Driver σ (Simple ν Y) (Channels P S E H) H =>
      ¬ (x.state = .created) ∧ ∃ suf, x.comm.log = d.comm.log ++ suf ∧ Steps ops d.comm.module suf x.comm.module) :=
    comm_leaves (Q := fun b c => ¬ b ∧ ∃ suf, c.log = d.comm.log ++ suf ∧ Steps ops d.comm.module suf c.module)
      (fun hm h => ⟨h.1, by
        obtain ⟨suf, h1, h2⟩ := h.2
        obtain ⟨suf', h3, h4⟩ := hm.steps
        exact ⟨suf ++ suf', by rw [h3, h1, List.append_assoc], Comm.Spec.Steps.trans h2 h4⟩⟩)
      (fun hb h => absurd hb h.1)
      (fun h => ⟨id, h.2⟩)
  exact (L.calls h ⟨hs, [], by simp, .refl⟩).2

end TCP.Replica

/-! ## Telling the channel layer who takes part -/

namespace TCP.Drv

open TCP TCP.DrvSpec TCP.Removed

variable {σ ρ κ H α : Type} {S : Sys σ ρ κ H}

theorem toldMembers_append (a b : List (Ev H)) : toldMembers (a ++ b) = toldMembers a ++ toldMembers b := List.filterMap_append

theorem Adds.silent {L : List K} {m : M (Driver σ ρ κ H) α} (h : Adds L m) (hk : K.oCheck ∉ L) (hc : K.commCluster ∉ L) {d d' : Driver σ ρ κ H} {r}
    (hr : m d = .ok (d', r)) : ∃ new, d'.trace = d.trace ++ new ∧ DrvSpec.clusterReports (outMessages new) = [] ∧ toldMembers new = [] := by
  obtain ⟨new, ht, hn⟩ := h.run _ _ _ hr
  obtain ⟨new', ht', hn'⟩ := h.clusterReports hk hr
  have : new' = new := List.append_cancel_left (ht'.symm.trans ht)
  subst this
  refine ⟨new', ht, hn', ?_⟩
  unfold toldMembers
  rw [List.filterMap_eq_nil_iff]
  intro e he
  have := hn e he
  cases e <;> first | rfl | exact absurd this hc

/-- The channel layer, the members and the name of a replica. -/
def Place (c : κ) (v : Storage.ConfState) (me : Nat) (d : Driver σ ρ κ H) : Prop := d.comm = c ∧ d.conf = v ∧ d.id = me

theorem place_reportAll {c : κ} {v me} (rs : List (Nat × Snap.Status)) : Pres (Place c v me) (reportAll S rs) := by
  induction rs with
  | nil => exact pres_pure
  | cons b bs ih => exact pres_bind (by pres) fun _ => ih

/-- Reports about the cluster and the members the channel layer is told go together. -/
theorem stashLeaderState_told {d d' : Driver σ ρ κ H} (h : stashLeaderState S d = .ok (d', .ok ())) :
    ∃ st0 new, S.R.state d.raft = .ok st0 ∧ d'.raftState = reported d' st0 ∧ d'.trace = d.trace ++ new ∧ d'.conf = d.conf ∧ d'.id = d.id ∧
      ((toldMembers new = [] ∧ clusterReports (outMessages new) = [] ∧ d'.comm = d.comm) ∨
       (toldMembers new = [d'.conf.voters] ∧ clusterReports (outMessages new) = [d'.raftState] ∧
        d'.comm = S.C.clusterChange d.comm d'.conf.voters)) := by
  unfold stashLeaderState at h
  obtain ⟨d1, st, h1, h⟩ := M.bind_okOk h
  obtain ⟨st0, hst, rfl, hr⟩ := getRaftState_ok h1
  simp only [Except.ok.injEq] at hr
  subst hr
  rw [M.bind_run (d1 := { d1 with raftState := reported d1 st0 }) (a := ()) rfl] at h
  rw [M.bind_run (d1 := { d1 with raftState := reported d1 st0 }) (a := { d1 with raftState := reported d1 st0 }) rfl] at h
  refine ⟨st0, ?_⟩
  simp only at h
  split at h
  · rename_i hp
    simp only [M.pure_def, M.pure, Run.ok.injEq, Prod.mk.injEq, and_true] at h
    subst h
    exact ⟨[], hst, rfl, by simp, rfl, rfl, Or.inl ⟨rfl, rfl, rfl⟩⟩
  · rename_i hp
    rw [M.bind_run (d1 := { d1 with raftState := reported d1 st0, prevRaftState := reported d1 st0 }) (a := ()) rfl] at h
    obtain ⟨d2, _, h2, h⟩ := M.bind_okOk h
    have hseen : Pres (Seen (reported d1 st0) (reported d1 st0)) (updateSnapshotClusterChange S) := by
      unfold updateSnapshotClusterChange
      refine pres_bind pres_get fun _ => ?_
      split
      · pres
      · exact pres_bind (pres_snap fun _ _ _ h _ => h) fun _ => seen_reportAll _
    have hplace : Pres (Place d1.comm d1.conf d1.id) (updateSnapshotClusterChange S) := by
      unfold updateSnapshotClusterChange
      refine pres_bind pres_get fun _ => ?_
      split
      · pres
      · exact pres_bind (pres_snap fun _ _ _ h _ => h) fun _ => place_reportAll _
    have hs2 := hseen.run _ _ _ ⟨rfl, rfl⟩ h2
    obtain ⟨q1, q2, q3⟩ := hplace.run { d1 with raftState := reported d1 st0, prevRaftState := reported d1 st0 } _ _ ⟨rfl, rfl, rfl⟩ h2
    obtain ⟨n1, t1, c1, c2⟩ := adds_updateSnapshotClusterChange.silent (by decide) (by decide) h2
    rw [M.bind_run (d1 := d2) (a := d2) rfl] at h
    obtain ⟨d3, _, h3, h⟩ := M.bind_okOk h
    simp only [changeComm, M.modify, Run.ok.injEq, Prod.mk.injEq, and_true] at h3
    simp only [stash, M.modify, Run.ok.injEq, Prod.mk.injEq, and_true] at h
    subst h3
    subst h
    refine ⟨n1 ++ [.commCluster d2.conf.voters, .out (.checkCluster d2.raftState)], hst, ?_, ?_, q2, q3, Or.inr ⟨?_, ?_, ?_⟩⟩
    · show d2.raftState = _
      rw [hs2.2, reported, reported]
      show (if st0.leaderId = d1.id then { st0 with cluster := d1.conf.voters } else st0) =
        (if st0.leaderId = d2.id then { st0 with cluster := d2.conf.voters } else st0)
      rw [q2, q3]
    · have : d2.trace = d1.trace ++ n1 := t1
      simp [this]
    · rw [toldMembers_append, c2]; rfl
    · rw [outMessages_append, clusterReports_append, c1]; rfl
    · show S.C.clusterChange d2.comm d2.conf.voters = _
      rw [q1]

/-- The part of a call before the reports and the part after. -/
theorem body_told {m : Option (InMsg H)} {d d' : Driver σ ρ κ H} (h : body S m d = .ok (d', .ok ())) :
    ∃ new, d'.trace = d.trace ++ new ∧
      ((toldMembers new = [] ∧ clusterReports (outMessages new) = []) ∨
       ∃ (d8 d5 : Driver σ ρ κ H) (st0 : RaftState), d8.id = d5.id ∧ d5.raftState = reported d5 st0 ∧ toldMembers new = [d5.conf.voters] ∧
        clusterReports (outMessages new) = [d5.raftState] ∧ d5.comm = S.C.clusterChange d8.comm d5.conf.voters ∧
        processSnapshotSending S d5 = .ok (d', .ok ()) ∧
        ∃ d1 c d2 d3 d4, dispatchOpt S m d = .ok (d1, .ok c) ∧ runActor S c d1 = .ok (d2, .ok ()) ∧ processProposals S d2 = .ok (d3, .ok ()) ∧
          processSnapshotProgress S d3 = .ok (d4, .ok ()) ∧ processStateMachine S d4 = .ok (d5, .ok ())) := by
  unfold body at h
  obtain ⟨d1, c, h1, h⟩ := M.bind_okOk h
  obtain ⟨d2, _, h2, h⟩ := M.bind_okOk h
  have hadd : ∃ n1, d1.trace = d.trace ++ n1 ∧ clusterReports (outMessages n1) = [] ∧ toldMembers n1 = [] := by
    cases m with
    | none => exact Adds.silent (adds_pure (L := [])) (by decide) (by decide) h1
    | some m => exact (adds_dispatch m).silent (by decide) (by decide) h1
  obtain ⟨n1, t1, c1, b1⟩ := hadd
  obtain ⟨n2, t2, c2, b2⟩ := (adds_runActor c).silent (by decide) (by decide) h2
  unfold runRaft at h
  rw [M.bind_run (d1 := d2) (a := d2) rfl] at h
  split at h
  · simp only [M.pure_def, M.pure, Run.ok.injEq, Prod.mk.injEq, and_true] at h
    subst h
    refine ⟨n1 ++ n2, by rw [t2, t1, List.append_assoc], Or.inl ?_⟩
    simp [toldMembers_append, outMessages_append, clusterReports_append, c1, b1, c2, b2]
  obtain ⟨d3, _, h3, h⟩ := M.bind_okOk h
  obtain ⟨d4, _, h4, h⟩ := M.bind_okOk h
  obtain ⟨d5, _, h5, h6⟩ := M.bind_okOk h
  obtain ⟨n3, t3, c3, b3⟩ := adds_processProposals.silent (by decide) (by decide) h3
  obtain ⟨n4, t4, c4, b4⟩ := adds_processSnapshotProgress.silent (by decide) (by decide) h4
  obtain ⟨n6, t6, c6, b6⟩ := adds_processSnapshotSending.silent (by decide) (by decide) h6
  have h5' := h5
  unfold processStateMachine at h5
  rw [M.bind_run (d1 := d4) (a := d4) rfl] at h5
  split at h5
  · obtain ⟨d7, _, h7, h5⟩ := M.bind_okOk h5
    obtain ⟨d8, _, h8, h5⟩ := M.bind_okOk h5
    obtain ⟨n7, t7, c7, b7⟩ := adds_advanceRaft.silent (by decide) (by decide) h7
    obtain ⟨n8, t8, c8, b8⟩ := adds_maybeCreateSnapshot.silent (by decide) (by decide) h8
    obtain ⟨st0, n9, hst, hr, t9, hcf, hid, hor⟩ := stashLeaderState_told h5
    refine ⟨n1 ++ n2 ++ n3 ++ n4 ++ n7 ++ n8 ++ n9 ++ n6, by rw [t6, t9, t8, t7, t4, t3, t2, t1]; simp [List.append_assoc], ?_⟩
    rcases hor with ⟨g1, g2, _⟩ | ⟨g1, g2, g3⟩
    · left
      simp [toldMembers_append, outMessages_append, clusterReports_append, c1, c2, c3, c4, c6, c7, c8, b1, b2, b3, b4, b6, b7, b8, g1, g2]
    · right
      refine ⟨d8, d5, st0, hid.symm, hr, ?_, ?_, g3, h6, d1, c, d2, d3, d4, h1, h2, h3, h4, h5'⟩
      · simp [toldMembers_append, b1, b2, b3, b4, b6, b7, b8, g1]
      · simp [outMessages_append, clusterReports_append, c1, c2, c3, c4, c6, c7, c8, g2]
  · simp only [M.pure_def, M.pure, Run.ok.injEq, Prod.mk.injEq, and_true] at h5
    subst h5
    refine ⟨n1 ++ n2 ++ n3 ++ n4 ++ n6, by rw [t6, t4, t3, t2, t1]; simp [List.append_assoc], Or.inl ?_⟩
    simp [toldMembers_append, outMessages_append, clusterReports_append, c1, c2, c3, c4, c6, b1, b2, b3, b4, b6]

/-! ## Whom the sender of snapshots writes to -/

theorem nextRequest_keys {enc : Snap.Meta → Bytes} {s s' : Snap.Sender} {q} (h : s.nextRequest enc = .ok (s', q)) :
    (∀ r, s'.receivers.get r = none → s.receivers.get r = none) ∧ ∀ x, q = some x → s'.receivers.get x.recipient ≠ none := by
  unfold Snap.Sender.nextRequest at h
  simp only at h
  split at h
  · simp only [Run.ok.injEq, Prod.mk.injEq] at h
    rw [← h.1, ← h.2]
    exact ⟨fun _ => id, by simp⟩
  · split at h
    · simp at h
    · rename_i t ht
      simp only [Run.bind_eq_ok] at h
      obtain ⟨⟨t', c⟩, hc, h⟩ := h
      simp only [Run.ok.injEq, Prod.mk.injEq] at h
      rw [← h.1, ← h.2]
      refine ⟨fun r hr => ?_, fun x hx => ?_⟩
      · simp only [AMap.get_set] at hr
        split at hr
        · simp at hr
        · exact hr
      · simp only [Option.map_eq_some_iff] at hx
        obtain ⟨y, _, rfl⟩ := hx
        simp

theorem drainSender_keys {enc : Snap.Meta → Bytes} {n : Nat} {s s' : Snap.Sender} {qs} (h : drainSender enc n s = .ok (s', qs)) :
    (∀ r, s'.receivers.get r = none → s.receivers.get r = none) ∧ ∀ x ∈ qs, s'.receivers.get x.recipient ≠ none := by
  induction n generalizing s s' qs with
  | zero =>
    simp only [drainSender, Run.ok.injEq, Prod.mk.injEq] at h
    rw [← h.1, ← h.2]
    exact ⟨fun _ => id, by simp⟩
  | succ n ih =>
    simp only [drainSender, Run.bind_eq_ok] at h
    obtain ⟨⟨s1, q⟩, h1, h⟩ := h
    obtain ⟨k1, k2⟩ := nextRequest_keys h1
    simp only at h
    split at h
    · simp only [Run.ok.injEq, Prod.mk.injEq] at h
      rw [← h.1, ← h.2]
      exact ⟨k1, by simp⟩
    · rename_i x
      simp only [Run.bind_eq_ok] at h
      obtain ⟨⟨s2, qs2⟩, h2, h⟩ := h
      simp only [Run.ok.injEq, Prod.mk.injEq] at h
      obtain ⟨i1, i2⟩ := ih h2
      rw [← h.1, ← h.2]
      refine ⟨fun r hr => k1 r (i1 r hr), fun y hy => ?_⟩
      rcases List.mem_cons.1 hy with rfl | hy
      · exact fun hn => k2 _ rfl (i1 _ hn)
      · exact i2 y hy

end TCP.Drv

namespace TCP.Replica

open TCP TCP.Drv TCP.Comm.Spec TCP.Replica.Spec TCP.Removed

variable {σ ν Y P S E H : Type} {A : Actor σ} {N : NodeT ν Y} {ops : Comm.Ops S E H} {V : Env P S E H} {codecs : Codecs}

theorem sendAll_absent {ms : List Comm.Outgoing} {p : Nat} {d d' : Driver σ (Simple ν Y) (Channels P S E H) H} (hp : ∀ u ∈ ms, u.data.recipient ≠ p)
    (h : sendAll (sys A N ops V codecs) ms d = .ok (d', .ok ())) :
    d'.comm.module.replicas.get p = d.comm.module.replicas.get p ∧ d'.snap = d.snap ∧ d'.conf = d.conf ∧ d'.id = d.id := by
  induction ms generalizing d with
  | nil =>
    simp only [sendAll, M.pure_def, M.pure, Run.ok.injEq, Prod.mk.injEq, and_true] at h
    subst h
    exact ⟨rfl, rfl, rfl, rfl⟩
  | cons u ms ih =>
    unfold sendAll at h
    obtain ⟨d1, _, h1, h⟩ := M.bind_okOk h
    obtain ⟨i1, i2, i3, i4⟩ := ih (fun x hx => hp x (List.mem_cons_of_mem _ hx)) h
    simp only [callComm, Run.bind_eq_ok, Run.ok.injEq, Prod.mk.injEq] at h1
    obtain ⟨x, hx, rfl, _⟩ := h1
    have hx' : Channels.processOut ops V d.comm u = .ok x := hx
    simp only [Channels.processOut, Run.bind_eq_ok, Run.ok.injEq] at hx'
    obtain ⟨y, hy, rfl⟩ := hx'
    refine ⟨?_, i2, i3, i4⟩
    rw [i1]
    exact Comm.processOut_frame hy (fun he => hp u List.mem_cons_self he.symm)

theorem startAll_place {ms : List RaftMsg} {c : Channels P S E H} {v me} :
    Pres (Place c v me) (startAll ms : M (Driver σ (Simple ν Y) (Channels P S E H) H) Unit) := by
  induction ms with
  | nil => exact pres_pure
  | cons m ms ih => exact pres_bind (pres_snap fun _ _ _ h _ => h) fun _ => ih

/-- Sending snapshots opens channels only with those a snapshot is being sent to. -/
theorem sending_absent {p : Nat} {d d' : Driver σ (Simple ν Y) (Channels P S E H) H}
    (h : processSnapshotSending (sys A N ops V codecs) d = .ok (d', .ok ())) (hp : d'.snap.sender.receivers.get p = none) :
    d'.comm.module.replicas.get p = d.comm.module.replicas.get p ∧ d'.conf = d.conf ∧ d'.id = d.id := by
  unfold processSnapshotSending at h
  rw [M.bind_run (d1 := d) (a := d) rfl] at h
  rw [M.bind_run (d1 := { d with snapshots := [] }) (a := ()) rfl] at h
  obtain ⟨d1, snd, h1, h⟩ := M.bind_okOk h
  have p1 : Place d.comm d.conf d.id d1 := (pres_snap (I := Place d.comm d.conf d.id) fun _ _ _ h _ => h).run { d with snapshots := [] } _ _ ⟨rfl, rfl, rfl⟩ h1
  split at h
  · obtain ⟨d2, _, h2, h⟩ := M.bind_okOk h
    have p2 := startAll_place.run _ _ _ p1 h2
    obtain ⟨d3, qs, h3, h⟩ := M.bind_okOk h
    have p3 : Place d.comm d.conf d.id d3 := (pres_snap (I := Place d.comm d.conf d.id) fun _ _ _ h _ => h).run _ _ _ p2 h3
    simp only [callSnap, Run.bind_eq_ok, Run.ok.injEq, Prod.mk.injEq, Except.ok.injEq] at h3
    obtain ⟨y, ⟨z, hz, rfl⟩, rfl, rfl⟩ := h3
    obtain ⟨_, k2⟩ := drainSender_keys hz
    have hsnap : d'.snap.sender.receivers = z.1.receivers := by
      have hpr : Pres (fun x : Driver σ (Simple ν Y) (Channels P S E H) H => x.snap.sender.receivers = z.1.receivers)
          (sendAll (sys A N ops V codecs) (z.2.map (ofRequest (sys A N ops V codecs)))) := by
        generalize z.2.map (ofRequest (sys A N ops V codecs)) = ms
        induction ms with
        | nil => exact pres_pure
        | cons m ms ih => exact pres_bind (pres_comm fun _ _ h => h) fun _ => ih
      exact hpr.run _ _ _ rfl h
    have := sendAll_absent (p := p) (fun u hu => by
      obtain ⟨q, hq, rfl⟩ := List.mem_map.1 hu
      intro he
      have he' : q.recipient = p := he
      exact k2 q hq (by rw [← hsnap, he']; exact hp)) h
    exact ⟨this.1.trans (by rw [p3.1]), this.2.2.1.trans p3.2.1, this.2.2.2.trans p3.2.2⟩
  · have := (place_reportAll _).run _ _ _ p1 h
    exact ⟨by rw [this.1], this.2⟩

theorem cluster_absent {m : Comm.Module S E H} {ids : List Nat} {p : Nat} (hp : p ∉ ids) : (m.clusterChange ids).replicas.get p = none := by
  unfold Comm.Module.clusterChange
  split
  · rw [AMap.get_eq_none_iff]
    intro hk
    simp only [AMap.keys, List.mem_map, List.mem_filter] at hk
    obtain ⟨e, ⟨_, he⟩, rfl⟩ := hk
    exact hp (of_decide_eq_true he)
  · rfl

theorem takeAll_keys {rs rs' : AMap Nat (Comm.Peer S E H)} {o} (h : Comm.takeAll ops rs = .ok (rs', o)) : rs'.keys = rs.keys := by
  induction rs generalizing rs' o with
  | nil =>
    simp only [Comm.takeAll, Run.ok.injEq, Prod.mk.injEq] at h
    rw [← h.1]
  | cons e rs ih =>
    obtain ⟨k, c⟩ := e
    simp only [Comm.takeAll, Run.bind_eq_ok] at h
    obtain ⟨⟨c', o1⟩, h1, ⟨rs1, o2⟩, h2, h3⟩ := h
    simp only [Run.ok.injEq, Prod.mk.injEq] at h3
    rw [← h3.1, AMap.keys_cons, AMap.keys_cons, ih h2]

theorem takeOut_absent {c c' : Channels P S E H} {out} {p : Nat} (h : Channels.takeOut ops V c = .ok (c', out)) :
    c'.module.replicas.get p = none ↔ c.module.replicas.get p = none := by
  simp only [Channels.takeOut, Comm.Module.takeOut, Run.bind_eq_ok, Run.ok.injEq, Prod.mk.injEq] at h
  obtain ⟨y, ⟨z, hz, rfl⟩, rfl, rfl⟩ := h
  show AMap.get z.1 p = none ↔ _
  rw [AMap.get_eq_none_iff, AMap.get_eq_none_iff, takeAll_keys hz]
  exact not_congr ((V.order_perm c.env c.module.replicas).map _).mem_iff

end TCP.Replica

/-! ## Channels are closed only when the channel layer is told who takes part -/

namespace TCP.Replica

open TCP TCP.Drv TCP.Comm.Spec TCP.Replica.Spec TCP.Removed

variable {σ ν Y P S E H : Type} {A : Actor σ} {N : NodeT ν Y} {ops : Comm.Ops S E H} {V : Env P S E H} {codecs : Codecs}

theorem channel_get {m : Comm.Module S E H} {q p : Nat} {fresh : Option S} (h : m.replicas.get p ≠ none) :
    (m.channel q fresh).1.replicas.get p ≠ none := by
  unfold Comm.Module.channel
  simp only
  have : (m.replicas.set q ((m.replicas.get q).getD (Comm.Peer.new m.timeout))).get p ≠ none := by
    rw [AMap.get_set]
    split
    · simp
    · exact h
  split
  · split <;> exact this
  · exact this

theorem set_get {κ ν : Type} [DecidableEq κ] {m : AMap κ ν} {k p : κ} {v : ν} (h : m.get p ≠ none) : (m.set k v).get p ≠ none := by
  rw [AMap.get_set]
  split
  · simp
  · exact h

theorem processOut_get {c c' : Channels P S E H} {u x} {p : Nat} (h : Channels.processOut ops V c u = .ok (c', x))
    (hp : c.module.replicas.get p ≠ none) : c'.module.replicas.get p ≠ none := by
  simp only [Channels.processOut, Run.bind_eq_ok, Run.ok.injEq, Prod.mk.injEq] at h
  obtain ⟨y, h1, rfl, _⟩ := h
  unfold Comm.Module.processOut at h1
  split at h1
  · simp only [Run.ok.injEq] at h1; rw [← h1]; exact hp
  · have hc := channel_get (q := u.data.recipient) (fresh := (c.fresh V u.data.recipient true).2) hp
    split at h1
    · rename_i m1 he
      rw [he] at hc
      simp only [Run.ok.injEq] at h1; rw [← h1]; exact hc
    · rename_i m1 q he
      rw [he] at hc
      simp only [Run.bind_eq_ok, Run.ok.injEq] at h1
      obtain ⟨q', _, rfl⟩ := h1
      exact set_get hc

theorem processIn_get {c c' : Channels P S E H} {m x} {p : Nat} (h : Channels.processIn ops V c m = .ok (c', x))
    (hp : c.module.replicas.get p ≠ none) : c'.module.replicas.get p ≠ none := by
  simp only [Channels.processIn, Run.bind_eq_ok, Run.ok.injEq, Prod.mk.injEq] at h
  obtain ⟨y, h1, rfl, _⟩ := h
  unfold Comm.Module.processIn at h1
  split at h1
  · simp only [Run.ok.injEq] at h1; rw [← h1]; exact hp
  · split at h1
    · simp only [Run.ok.injEq] at h1; rw [← h1]; exact hp
    · rename_i q hq
      simp only [hq] at h1
      have hc := channel_get (q := q) (fresh := (c.fresh V q false).2) hp
      split at h1
      · rename_i m1 he
        rw [he] at hc
        simp only [Run.ok.injEq] at h1; rw [← h1]; exact hc
      · rename_i m1 r he
        rw [he] at hc
        simp only [Run.bind_eq_ok, Run.ok.injEq] at h1
        obtain ⟨q', _, rfl⟩ := h1
        exact set_get hc

/-- Since `t0`, the channel with `p` was closed only if the channel layer was told about the members. -/
def KeptChannel (t0 : List (Drv.Ev H)) (p : Nat) (d : Driver σ (Simple ν Y) (Channels P S E H) H) : Prop :=
  ∃ new, d.trace = t0 ++ new ∧ (toldMembers new = [] → d.comm.module.replicas.get p ≠ none)

theorem KeptChannel.snoc {t0 : List (Drv.Ev H)} {p : Nat} {d d' : Driver σ (Simple ν Y) (Channels P S E H) H} (h : KeptChannel t0 p d) (es : List (Drv.Ev H))
    (ht : d'.trace = d.trace ++ es) (hc : toldMembers es = [] → d.comm.module.replicas.get p ≠ none → d'.comm.module.replicas.get p ≠ none) :
    KeptChannel t0 p d' := by
  obtain ⟨new, h1, h2⟩ := h
  refine ⟨new ++ es, by rw [ht, h1, List.append_assoc], fun hn => ?_⟩
  rw [toldMembers_append, List.append_eq_nil_iff] at hn
  exact hc hn.2 (h2 hn.1)

theorem keptChannel_leaves {t0 : List (Drv.Ev H)} {p : Nat} :
    Leaves (sys A N ops V codecs) (KeptChannel (σ := σ) (ν := ν) (Y := Y) (P := P) (S := S) (E := E) t0 p) where
  quiet hc h := h.snoc [] (by rw [hc.trace, List.append_nil]) (by rw [hc.comm]; exact fun _ => id)
  actor _ h := h.snoc [_] rfl fun _ => id
  host _ h := h.snoc [_] rfl fun _ => id
  raft _ _ _ h := h.snoc [_] rfl fun _ => id
  init _ _ h := h.snoc [_] rfl fun _ => id
  started {d r t e} _ _ h := h.snoc [] (by simp) fun _ hp => hp
  stopped h := h.snoc [] (by simp) fun _ hp => hp
  snapInit _ _ h := h.snoc [] (by simp) fun _ hp => hp
  snapCluster _ h := h.snoc [] (by simp) fun _ hp => hp
  sender _ h := h.snoc [] (by simp) fun _ hp => hp
  stashed _ _ h := h.snoc [] (by simp) fun _ hp => hp
  sending hd h := Sending.run (I := KeptChannel t0 p)
    { drop := fun h => h.snoc [] (by simp) fun _ hp => hp
      sender := fun h => h.snoc [] (by simp) fun _ hp => hp
      report := fun _ h => h.snoc [_] rfl fun _ hp => hp
      commOut := fun hc h => h.snoc [_] rfl fun _ hp => processOut_get hc hp } hd h
  commOut _ hc h := h.snoc [_] rfl fun _ hp => processOut_get hc hp
  commIn _ hc h := h.snoc [_] rfl fun _ hp => processIn_get hc hp
  commTick {d} h := h.snoc [_] rfl fun _ hp => by
    show d.comm.module.tick.replicas.get p ≠ none
    rw [Comm.tick_get]
    intro hn
    exact hp (by simpa using hn)
  commCluster h := h.snoc [_] rfl fun hn => by simp [toldMembers] at hn
  take hc h := h.snoc _ rfl fun _ hp hn => hp ((takeOut_absent hc).1 hn)
  system hc _ _ h := h.snoc ([_] ++ [_]) (List.append_assoc _ _ _) fun _ hp => processIn_get hc hp
  chunk _ _ hc _ h := h.snoc [_] rfl fun _ hp => processIn_get hc hp
  complete _ h := h.snoc [] (by simp) fun _ hp => hp
  install _ _ h := h.snoc [_] rfl fun _ hp => hp

end TCP.Replica
