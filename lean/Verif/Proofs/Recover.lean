import Verif.Spec.Recover
import Verif.Proofs.Handshake
import Verif.Proofs.Comm

/-!
# Proofs about channels that broke (C94)
-/

namespace TCP.Comm

open TCP Comm.Spec Handshake.Spec

variable {S E H : Type}

/-! ## A channel that is up on one side only -/

theorem completed_step {ops : Ops S E H} {me R T p : Nat} {evs : List (Ev S H)} {m m' : Module S E H} {ev : Ev S H}
    (hi : MInv ops me R T evs m) (hni : NInit m) (hs : Step ops m ev m') (hk : KeepsPeer me p [ev])
    (hsil : SilentFrom p [ev]) (hst : statusOf m p = .completed) : statusOf m' p = .completed := by
  cases hs with
  | @out _ fresh u res ho =>
    by_cases hp : p = u.data.recipient
    · subst hp
      obtain ⟨herr, hok1, _⟩ := processOut_queue hi ho
      cases hres : res with
      | error e => rw [(herr e hres).2, hst]
      | ok x => rw [(hok1 hres (by rw [hst]; simp) (fun s hs => hni _ s hs)).2, hst]
    · rw [statusOf_congr (processOut_frame ho hp), hst]
  | @inn _ fresh u res ho =>
    rw [statusOf_congr (processIn_frame ho (q := p) (fun he => hsil u fresh res (by simp) he.symm)), hst]
  | @cluster ids => rw [statusOf_congr (cluster_get_self hi (hk ids (by simp))), hst]
  | @shuffle rs hp =>
    have hf : AMap.get ({ m with replicas := rs } : Module S E H).replicas p = m.replicas.get p := AMap.get_perm hi.wf hp.symm _
    rw [statusOf_congr hf, hst]
  | @take _ out ho =>
    rcases take_peer hi ho p with ⟨h1, h2, _⟩ | ⟨c, c', o, h1, h2, h3, _⟩
    · rw [statusOf_congr (h2.trans h1.symm), hst]
    · rw [← hst]; simp [statusOf, h1, h3, takeOut_status h2]
  | tick =>
    cases hg : m.replicas.get p with
    | none => simp [statusOf, hg] at hst
    | some c =>
      have hc : c.status = .completed := by simpa [statusOf, hg] using hst
      simp [statusOf, tick_get, hg, moduleTick_status, hc]

theorem moduleTick_pending {c : Peer S E H} (R : Nat) (h : c.pending = none) : (c.moduleTick R).pending = none := by
  have ht : c.tick.pending = none := by
    unfold Peer.tick
    split <;> (try split) <;> exact h
  unfold Peer.moduleTick
  simp only
  split
  · split
    · rfl
    · exact ht
  · exact ht

theorem idle_congr {m m' : Module S E H} {p : Nat} (h : m'.replicas.get p = m.replicas.get p) (hi : Idle m p) : Idle m' p := by
  unfold Idle statusOf at *
  rw [h]
  exact hi

theorem idle_status {m : Module S E H} {p : Nat} (hi : Idle m p) : statusOf m p ≠ .completed := by
  rcases hi.1 with h | ⟨t, h⟩ <;> rw [h] <;> simp

theorem takeOut_silent {ops : Ops S E H} {c : Peer S E H} (hp : c.pending = none) (hs : c.status ≠ .completed) :
    c.takeOut ops = .ok (c, []) := by
  unfold Peer.takeOut
  rw [hp]
  simp [hs]

theorem idle_step {ops : Ops S E H} {me R T p : Nat} {evs : List (Ev S H)} {m m' : Module S E H} {ev : Ev S H}
    (hi : MInv ops me R T evs m) (hs : Step ops m ev m') (hsil : SilentFrom p [ev])
    (hq : ∀ u f r, ev = .out u f r → u.data.recipient ≠ p) (h : Idle m p) : Idle m' p := by
  cases hs with
  | @out _ fresh u res ho => exact idle_congr (processOut_frame ho (hq _ _ _ rfl).symm) h
  | @inn _ fresh u res ho => exact idle_congr (processIn_frame ho (q := p) (fun he => hsil u fresh res (by simp) he.symm)) h
  | @cluster ids =>
    have hg := cluster_get hi (ids := ids) p
    split at hg
    · exact idle_congr hg h
    · exact ⟨.inl (by simp [statusOf, hg]), fun c hc => by rw [hg] at hc; cases hc⟩
  | @shuffle rs hp => exact idle_congr (AMap.get_perm hi.wf hp.symm _) h
  | @take _ out ho =>
    rcases take_peer hi ho p with ⟨h1, h2, _⟩ | ⟨c, c', o, h1, h2, h3, _⟩
    · exact idle_congr (h2.trans h1.symm) h
    · have hc := idle_status h
      rw [takeOut_silent (h.2 c h1) (by simpa [statusOf, h1] using hc)] at h2
      simp only [Run.ok.injEq, Prod.mk.injEq] at h2
      exact idle_congr (by rw [h3, h1, h2.1]) h
  | tick =>
    cases hg : m.replicas.get p with
    | none => exact idle_congr (by rw [tick_get, hg]; rfl) h
    | some c =>
      have h1 := h.1
      simp only [statusOf, hg, Option.map_some, Option.getD_some] at h1
      refine ⟨?_, fun c' hc' => ?_⟩
      · simp only [statusOf, tick_get, hg, Option.map_some, Option.getD_some, moduleTick_status]
        rcases h1 with h1 | ⟨t, h1⟩
        · rw [h1]; exact .inl rfl
        · rw [h1]
          simp only
          split
          · exact .inl rfl
          · exact .inr ⟨_, rfl⟩
      · rw [tick_get, hg, Option.map_some, Option.some.injEq] at hc'
        subst hc'
        exact moduleTick_pending _ (h.2 c hg)

/-- Data arriving on a channel that is idle is dropped. -/
theorem idle_data {ops : Ops S E H} {m m' : Module S E H} {fresh : Option S} {d : Data} {r} (h : Idle m d.sender)
    (hb : m.processIn ops fresh (.data d) = .ok (m', r)) : Idle m' d.sender ∧ passed r = [] := by
  unfold Module.processIn at hb
  split at hb
  · simp only [Run.ok.injEq, Prod.mk.injEq] at hb
    obtain ⟨rfl, rfl⟩ := hb
    exact ⟨h, rfl⟩
  simp only [InMsg.peer] at hb
  unfold Module.channel at hb
  simp only at hb
  have hs : ((m.replicas.get d.sender).getD (Peer.new m.timeout)).status = statusOf m d.sender := by
    unfold statusOf; cases m.replicas.get d.sender <;> rfl
  have hp : ((m.replicas.get d.sender).getD (Peer.new m.timeout)).pending = none := by
    cases hg : m.replicas.get d.sender with
    | none => rfl
    | some c => exact h.2 c hg
  generalize (m.replicas.get d.sender).getD (Peer.new m.timeout) = c at hs hp hb
  rcases h.1 with hu | ⟨t, hf⟩
  · rw [if_pos (hs.trans hu)] at hb
    cases fresh with
    | none =>
      simp only [Run.ok.injEq, Prod.mk.injEq] at hb
      obtain ⟨rfl, rfl⟩ := hb
      exact ⟨⟨.inl (by simpa [statusOf] using hs.trans hu), fun c' hc' => by simp at hc'; subst hc'; exact hp⟩, rfl⟩
    | some s =>
      simp only [Peer.init, Peer.processIn, Run.bind_ok, Run.ok.injEq, Prod.mk.injEq] at hb
      obtain ⟨rfl, rfl⟩ := hb
      exact ⟨⟨.inr ⟨0, by simp [statusOf]⟩, fun c' hc' => by simp at hc'; subst hc'; exact hp⟩, rfl⟩
  · rw [if_neg (by rw [hs, hf]; simp)] at hb
    simp only [Peer.processIn, hs, hf, Run.bind_ok, Run.ok.injEq, Prod.mk.injEq] at hb
    obtain ⟨rfl, rfl⟩ := hb
    exact ⟨⟨.inr ⟨t, by simpa [statusOf] using hs.trans hf⟩, fun c' hc' => by simp at hc'; subst hc'; exact hp⟩, rfl⟩

theorem flow_cut {ops : Ops S E H} {ia ib Ra Ta Rb Tb : Nat} {w w' : Cut S E H} (h : Flow ops ia ib w w')
    (ha : ∃ evs, History ops ia Ra Ta evs w.a) (hb : ∃ evs, History ops ib Rb Tb evs w.b)
    (hc : statusOf w.a ib = .completed) (hi : Idle w.b ia) :
    (∃ evs, History ops ia Ra Ta evs w'.a) ∧ (∃ evs, History ops ib Rb Tb evs w'.b) ∧
    statusOf w'.a ib = .completed ∧ Idle w'.b ia ∧ w'.up = w.up := by
  induction h with
  | refl => exact ⟨ha, hb, hc, hi, rfl⟩
  | first h hs hsil hk ih =>
    obtain ⟨⟨ea, h1⟩, h2, h3, h4, h5⟩ := ih
    exact ⟨⟨_, h1.step hs⟩, h2, completed_step (MInv.history h1) (NInit.history h1) hs hk hsil h3, h4, h5⟩
  | second h hs hsil hq ih =>
    obtain ⟨h1, ⟨eb, h2⟩, h3, h4, h5⟩ := ih
    exact ⟨h1, ⟨_, h2.step hs⟩, h3, idle_step (MInv.history h2) hs hsil hq h4, h5⟩
  | deliver h hd hs hb ih =>
    obtain ⟨h1, ⟨eb, h2⟩, h3, h4, h5⟩ := ih
    subst hs
    obtain ⟨h6, h7⟩ := idle_data h4 hb
    exact ⟨h1, ⟨_, h2.step (.inn hb)⟩, h3, h6, by simp only [h7, List.append_nil, h5]⟩

/-! ## Waiting -/

/-- How many ticks it takes at most until a channel in this status can be opened again. -/
def waits (T R : Nat) : Status → Nat
  | .initiated t => max T (t + 1) - t + R
  | .failed t => max (R - t) 1
  | _ => 0

theorem waits_step {ops : Ops S E H} {me R T p : Nat} {evs : List (Ev S H)} {m m' : Module S E H} {ev : Ev S H}
    (hi : MInv ops me R T evs m) (hs : Step ops m ev m') (hq : Quiet me p [ev]) (hst : statusOf m p ≠ .completed) :
    statusOf m' p ≠ .completed ∧ waits T R (statusOf m' p) ≤ waits T R (statusOf m p) - tickCount [ev] ∧ queueOf m' p = queueOf m p := by
  obtain ⟨hk, hsil, hout⟩ := hq
  have same : ∀ {m' : Module S E H}, m'.replicas.get p = m.replicas.get p → tickCount [ev] = 0 →
      statusOf m' p ≠ .completed ∧ waits T R (statusOf m' p) ≤ waits T R (statusOf m p) - tickCount [ev] ∧ queueOf m' p = queueOf m p := by
    intro m' h ht
    rw [statusOf_congr h, queueOf_congr h, ht]
    exact ⟨hst, Nat.le_refl _, rfl⟩
  cases hs with
  | @out _ fresh u res ho => exact same (processOut_frame ho (hout u fresh res (by simp)).symm) (by simp [tickCount])
  | @inn _ fresh u res ho =>
    exact same (processIn_frame ho (q := p) (fun he => hsil u fresh res (by simp) he.symm)) (by simp [tickCount])
  | @cluster ids => exact same (cluster_get_self hi (hk ids (by simp))) (by simp [tickCount])
  | @shuffle rs hp => exact same (AMap.get_perm hi.wf hp.symm _) (by simp [tickCount])
  | @take _ out ho =>
    rcases take_peer hi ho p with ⟨h1, h2, _⟩ | ⟨c, c', o, h1, h2, h3, _⟩
    · exact same (h2.trans h1.symm) (by simp [tickCount])
    · have hcs : c.status ≠ .completed := by simpa [statusOf, h1] using hst
      have hs' : statusOf m' p = statusOf m p := by simp [statusOf, h1, h3, takeOut_status h2]
      rw [hs']
      refine ⟨hst, by simp [tickCount], by simp [queueOf, h1, h3, takeOut_idle h2 hcs]⟩
  | tick =>
    rw [tick_queue]
    have ht : tickCount [Ev.tick (S := S) (H := H)] = 1 := by simp [tickCount]
    rw [ht]
    cases hg : m.replicas.get p with
    | none => simp [statusOf, tick_get, hg, waits]
    | some c =>
      have hc : c.status ≠ .completed := by simpa [statusOf, hg] using hst
      have htm := (hi.peers p c hg).tm
      simp only [statusOf, tick_get, hg, Option.map_some, Option.getD_some, moduleTick_status, hi.retry, htm, and_true]
      cases hs : c.status with
      | unknown => simp [waits]
      | initialized => simp [waits]
      | completed => exact absurd hs hc
      | failed t =>
        simp only
        split
        · simp [waits]
        · simp only [waits, ne_eq, reduceCtorEq, not_false_eq_true, true_and]; omega
      | initiated t =>
        simp only
        split
        · split
          · simp [waits]
          · simp only [waits, ne_eq, reduceCtorEq, not_false_eq_true, true_and]; omega
        · simp only [waits, ne_eq, reduceCtorEq, not_false_eq_true, true_and]; omega

theorem waits_steps {ops : Ops S E H} {me R T p : Nat} {evs suf : List (Ev S H)} {m m' : Module S E H}
    (h : History ops me R T evs m) (hs : Steps ops m suf m') (hq : Quiet me p suf) (hst : statusOf m p ≠ .completed) :
    statusOf m' p ≠ .completed ∧ waits T R (statusOf m' p) ≤ waits T R (statusOf m p) - tickCount suf ∧ queueOf m' p = queueOf m p := by
  induction hs generalizing evs with
  | refl => exact ⟨hst, by simp [tickCount], rfl⟩
  | @step m ev m1 suf m' h1 _ ih =>
    have htc : tickCount (ev :: suf) = tickCount [ev] + tickCount suf := by
      unfold tickCount; rw [← List.length_append, ← List.filter_append]; rfl
    obtain ⟨a1, a2, a3⟩ := waits_step (MInv.history h) h1
      ⟨fun ids hi => hq.1 ids (by simp at hi; simp [hi]), fun u f r hu => hq.2.1 u f r (by simp at hu; simp [hu]),
        fun u f r hu => hq.2.2 u f r (by simp at hu; simp [hu])⟩ hst
    obtain ⟨b1, b2, b3⟩ := ih (h.step h1) ⟨fun ids hi => hq.1 ids (by simp [hi]), fun u f r hu => hq.2.1 u f r (by simp [hu]),
      fun u f r hu => hq.2.2 u f r (by simp [hu])⟩ a1
    exact ⟨b1, by omega, b3.trans a3⟩

theorem calm {ops : Ops S E H} {me R T p : Nat} {evs suf : List (Ev S H)} {m m' : Module S E H}
    (h : History ops me R T evs m) (hs : Steps ops m suf m') (hq : Quiet me p suf) (hst : statusOf m p ≠ .completed)
    (hn : max T 1 + R ≤ tickCount suf) : statusOf m' p = .unknown ∧ queueOf m' p = queueOf m p := by
  obtain ⟨h1, h2, h3⟩ := waits_steps h hs hq hst
  refine ⟨?_, h3⟩
  have hb : waits T R (statusOf m p) ≤ max T 1 + R := by
    unfold waits
    split <;> omega
  have h0 : waits T R (statusOf m' p) = 0 := by omega
  have hni := NInit.history (h.steps hs)
  cases hg : m'.replicas.get p with
  | none => simp [statusOf, hg]
  | some c =>
    have hi := hni p c hg
    simp only [statusOf, hg, Option.map_some, Option.getD_some] at h0 h1 ⊢
    cases hc : c.status with
    | unknown => rfl
    | initialized => exact absurd hc hi
    | completed => exact absurd hc h1
    | failed t => rw [hc] at h0; simp only [waits] at h0; omega
    | initiated t => rw [hc] at h0; simp only [waits] at h0; omega

/-! ## Opening again -/

theorem takeAll_mem {ops : Ops S E H} {rs rs' : AMap Nat (Peer S E H)} {outs : List (OutMsg H)} (h : takeAll ops rs = .ok (rs', outs))
    {p : Nat} {c c' : Peer S E H} {o : List (OutMsg H)} (hm : (p, c) ∈ rs) (hc : c.takeOut ops = .ok (c', o)) : ∀ x ∈ o, x ∈ outs := by
  induction rs generalizing rs' outs with
  | nil => cases hm
  | cons e rest ih =>
    simp only [takeAll, Run.bind_eq_ok] at h
    obtain ⟨⟨d, o1⟩, h1, ⟨rest', outs'⟩, h2, h⟩ := h
    simp only [Run.ok.injEq, Prod.mk.injEq] at h
    obtain ⟨rfl, rfl⟩ := h
    intro x hx
    rcases List.mem_cons.mp hm with he | he
    · subst he
      simp only at h1
      rw [hc] at h1
      simp only [Run.ok.injEq, Prod.mk.injEq] at h1
      rw [← h1.2]
      exact List.mem_append_left _ hx
    · exact List.mem_append_right _ (ih h2 he x hx)

theorem take_pending {ops : Ops S E H} {me R T : Nat} {evs : List (Ev S H)} {m m' : Module S E H} {out : List (OutMsg H)}
    (hi : MInv ops me R T evs m) (h : m.takeOut ops = .ok (m', out)) {p : Nat} {c : Peer S E H} (hc : m.replicas.get p = some c) {x : H}
    (hx : c.pending = some x) : .handshake x ∈ out ∧ m'.replicas.get p = some { c with pending := none } := by
  have ht : c.takeOut ops = .ok ({ c with pending := none }, [.handshake x]) := by unfold Peer.takeOut; rw [hx]
  refine ⟨?_, ?_⟩
  · unfold Module.takeOut at h
    simp only [Run.bind_eq_ok] at h
    obtain ⟨⟨rs, o⟩, h1, ho⟩ := h
    simp only [Run.ok.injEq, Prod.mk.injEq] at ho
    rw [← ho.2]
    exact takeAll_mem h1 (AMap.mem_of_get hc) ht _ (by simp)
  · rcases take_peer hi h p with ⟨h1, _⟩ | ⟨d, d', o, h1, h2, h3, _⟩
    · rw [h1] at hc; cases hc
    · rw [hc] at h1
      cases h1
      rw [ht] at h2
      simp only [Run.ok.injEq, Prod.mk.injEq] at h2
      rw [h3, ← h2.1]

theorem unknown_channel {ops : Ops S E H} {me R T : Nat} {evs : List (Ev S H)} {m : Module S E H} {p : Nat} (hi : MInv ops me R T evs m)
    (hst : statusOf m p = .unknown) (s : S) : ∃ c, m.channel p (some s) = ({ m with replicas := m.replicas.set p c }, some (c.init s)) ∧
      c.queue = queueOf m p := by
  refine ⟨(m.replicas.get p).getD (Peer.new m.timeout), ?_, ?_⟩
  · unfold Module.channel
    have : ((m.replicas.get p).getD (Peer.new m.timeout)).status = .unknown := by
      rw [← hst]; unfold statusOf; cases m.replicas.get p <;> rfl
    simp only [this, if_true]
  · unfold queueOf; cases m.replicas.get p <;> rfl

/-- Sending to a peer without channel opens one. -/
theorem open_out {ops : Ops S E H} {me R T : Nat} {evs : List (Ev S H)} {m : Module S E H} {u : Outgoing} (hi : MInv ops me R T evs m)
    (hme : me ≠ 0) (hst : statusOf m u.data.recipient = .unknown) {s s' : S} {x : H} (hx : ops.takeOut s = (s', .ok (some x))) :
    ∃ m' c, m.processOut ops (some s) u = .ok (m', .ok ()) ∧ m'.replicas.get u.data.recipient = some c ∧ c.status = .initiated 0 ∧
      c.pending = some x ∧ c.session = some s' ∧ c.queue = push (queueOf m u.data.recipient) u := by
  obtain ⟨c, hc, hcq⟩ := unknown_channel hi hst s
  unfold Module.processOut
  rw [if_neg (by rw [hi.id]; exact hme), hc]
  simp only [Peer.processOut, Peer.init, hx, Run.bind_ok, Run.ok.injEq, Prod.mk.injEq, and_true, exists_and_left, exists_eq_left', AMap.get_set_self,
    Option.some.injEq]
  exact ⟨trivial, trivial, trivial, by rw [hcq]⟩

/-- A handshake message that completes a handshake. -/
theorem close_in {ops : Ops S E H} {me R T : Nat} {evs : List (Ev S H)} {m : Module S E H} {p : Nat} {fresh : Option S} {y : H}
    (hi : MInv ops me R T evs m) (hme : me ≠ 0) {s s1 s2 : S} {o : Option H} {e : E}
    (hst : (statusOf m p = .unknown ∧ fresh = some s) ∨ ∃ c t, m.replicas.get p = some c ∧ c.status = .initiated t ∧ c.session = some s)
    (h1 : ops.process s y = (s1, .ok ())) (h2 : ops.takeOut s1 = (s2, .ok o)) (h3 : ops.completed s2 = true) (h4 : ops.encryptor s2 = some e) :
    ∃ m' c, m.processIn ops fresh (.handshake p y) = .ok (m', .ok none) ∧ m'.replicas.get p = some c ∧ c.status = .completed ∧
      c.pending = o ∧ c.encryptor = some e ∧ c.queue = queueOf m p := by
  rcases hst with ⟨hu, rfl⟩ | ⟨c, t, hc, ht, hse⟩
  · obtain ⟨c, hc, hcq⟩ := unknown_channel hi hu s
    unfold Module.processIn
    rw [if_neg (by rw [hi.id]; exact hme)]
    simp only [InMsg.peer, hc]
    simp only [Peer.processIn, Peer.init, h1, h2, h3, h4, if_true, Run.bind_ok, Run.ok.injEq, Prod.mk.injEq, and_true, exists_and_left,
      exists_eq_left', AMap.get_set_self, Option.some.injEq]
    exact ⟨trivial, trivial, trivial, hcq⟩
  · have hch : m.channel p fresh = ({ m with replicas := m.replicas.set p c }, some c) := by
      unfold Module.channel
      simp [hc, ht]
    unfold Module.processIn
    rw [if_neg (by rw [hi.id]; exact hme)]
    simp only [InMsg.peer, hch]
    simp only [Peer.processIn, ht, hse, h1, h2, h3, h4, if_true, Run.bind_ok, Run.ok.injEq, Prod.mk.injEq, and_true, exists_and_left,
      exists_eq_left', AMap.get_set_self, Option.some.injEq]
    exact ⟨trivial, trivial, trivial, by simp [queueOf, hc]⟩

/-! ## Crossing attempts -/

theorem failed_ticks {ops : Ops S E H} {i j R T : Nat} {s : Option S} {q : List Outgoing} : ∀ (k t : Nat), t + (k + 1) = max R 1 →
    Steps ops ⟨[(j, ⟨.failed t, none, s, q, none, T⟩)], i, R, T⟩ (List.replicate (k + 1) .tick)
      ⟨[(j, ⟨.unknown, none, none, q, none, T⟩)], i, R, T⟩
  | 0, t, h => by
    refine .step (m1 := ⟨[(j, ⟨.unknown, none, none, q, none, T⟩)], i, R, T⟩) ?_ .refl
    have : (Module.tick ⟨[(j, ⟨.failed t, none, s, q, none, T⟩)], i, R, T⟩ : Module S E H) =
        ⟨[(j, ⟨.unknown, none, none, q, none, T⟩)], i, R, T⟩ := by
      have hR : t + 1 ≥ R := by omega
      simp [Module.tick, AMap.mapVals, Peer.moduleTick, Peer.tick, hR, Peer.reset]
    rw [← this]
    exact .tick
  | k + 1, t, h => by
    rw [List.replicate_succ]
    refine .step (m1 := ⟨[(j, ⟨.failed (t + 1), none, s, q, none, T⟩)], i, R, T⟩) ?_ (failed_ticks k (t + 1) (by omega))
    have : (Module.tick ⟨[(j, ⟨.failed t, none, s, q, none, T⟩)], i, R, T⟩ : Module S E H) =
        ⟨[(j, ⟨.failed (t + 1), none, s, q, none, T⟩)], i, R, T⟩ := by
      have hR : ¬ t + 1 ≥ R := by omega
      simp [Module.tick, AMap.mapVals, Peer.moduleTick, Peer.tick, hR]
    rw [← this]
    exact .tick

theorem Spec.Steps.trans {ops : Ops S E H} {m m1 m2 : Module S E H} {e1 e2 : List (Ev S H)} (h : Steps ops m e1 m1) (h' : Steps ops m1 e2 m2) :
    Steps ops m (e1 ++ e2) m2 := by
  induction h with
  | refl => exact h'
  | step h _ ih => exact .step h (ih h')

end TCP.Comm
