import Verif.Spec.Survive
import Verif.Proofs.Replica
import Verif.Proofs.SnapshotSender
import Verif.Lib.ListExtra

/-!
# Proofs for C95: a running replica gets through every call
-/

namespace TCP.Survive

open TCP TCP.Drv TCP.Replica TCP.Comm.Spec

set_option linter.unusedSectionVars false

variable {σ ρ P S E H α β : Type}

/-! ## The channels -/

/-- The channels have an owner and a history, and what waits in them has a payload. -/
def CommOk (ops : Comm.Ops S E H) (c : Channels P S E H) : Prop :=
  ∃ me R T, me ≠ 0 ∧ History ops me R T c.log c.module ∧ ∀ p, ∀ u ∈ accepted p c.log, u.data.payload.isSome

section channels
variable {ops : Comm.Ops S E H} {V : Env P S E H}

theorem mem_accepted_append {p : Nat} {l : List (Comm.Spec.Ev S H)} {e : Comm.Spec.Ev S H} {u : Comm.Outgoing}
    (h : u ∈ accepted p (l ++ [e])) : u ∈ accepted p l ∨ ∃ f x, e = .out u f (.ok x) := by
  unfold accepted at *
  rw [List.filterMap_append, List.mem_append] at h
  rcases h with h | h
  · exact Or.inl h
  · right
    rw [List.mem_filterMap] at h
    obtain ⟨e', he, hx⟩ := h
    rw [List.mem_singleton] at he
    subst he
    split at hx
    · split at hx
      · simp only [Option.some.injEq] at hx; subst hx; exact ⟨_, _, rfl⟩
      · simp at hx
    · simp at hx

theorem channel_some (hV : ChannelsSafe ops V) (c : Channels P S E H) (hid : c.module.replicaId ≠ 0) (peer : Nat) (b : Bool) :
    ∃ m p, c.module.channel peer (c.fresh V peer b).2 = (m, some p) := by
  unfold Comm.Module.channel Channels.fresh
  have hs : ((c.module.replicas.get peer).getD (Comm.Peer.new c.module.timeout)).status =
      ((c.module.replicas.get peer).map (·.status)).getD .unknown := by
    cases c.module.replicas.get peer <;> rfl
  simp only [hs]
  split
  · rename_i hu
    rw [if_pos ⟨hid, hu⟩]
    obtain ⟨s, h⟩ := Option.isSome_iff_exists.1 (hV.provide c.env c.module.replicaId peer b)
    rw [h]
    exact ⟨_, _, rfl⟩
  · exact ⟨_, _, rfl⟩

theorem commOk_out (hV : ChannelsSafe ops V) {c : Channels P S E H} (h : CommOk ops c) {u : Comm.Outgoing} (hu : u.data.payload.isSome) :
    ∃ c', (commT ops V).processOut c u = .ok (c', .ok ()) ∧ CommOk ops c' := by
  obtain ⟨me, R, T, hme, hh, ha⟩ := h
  have hid : c.module.replicaId ≠ 0 := by rw [(Comm.MInv.history hh).id]; exact hme
  obtain ⟨⟨m', x⟩, hr⟩ := (Comm.C56_no_crash_partial hh hV.completed).1 (c.fresh V u.data.recipient true).2 u
  have hx : x = .ok () := by
    have h2 := hr
    obtain ⟨m1, p1, hc⟩ := channel_some hV c hid u.data.recipient true
    unfold Comm.Module.processOut at h2
    rw [if_neg hid, hc] at h2
    simp only [Run.bind_eq_ok, Run.ok.injEq, Prod.mk.injEq] at h2
    obtain ⟨_, _, _, h3⟩ := h2
    exact h3.symm
  subst hx
  refine ⟨⟨(c.fresh V u.data.recipient true).1, m', c.log ++ [.out u (c.fresh V u.data.recipient true).2 (.ok ())]⟩, ?_, me, R, T, hme, hh.step (.out hr), ?_⟩
  · simp only [commT, Channels.processOut, hr, Run.bind_ok, palResult]
  · intro p v hv
    rcases mem_accepted_append hv with h1 | ⟨f, y, h1⟩
    · exact ha p v h1
    · simp only [Comm.Spec.Ev.out.injEq] at h1
      rw [← h1.1]; exact hu

theorem commOk_in (hV : ChannelsSafe ops V) {c : Channels P S E H} (h : CommOk ops c) {m : Comm.InMsg H}
    (hm : ∀ d, m = .data d → d.payload.isSome) (hp : m ≠ .other) :
    ∃ c' up, (commT ops V).processIn c m = .ok (c', .ok up) ∧ CommOk ops c' ∧
      ∀ x, up = some x → ∃ d b, m = .data d ∧ x = .data { d with payload := some ⟨b, []⟩ } := by
  obtain ⟨me, R, T, hme, hh, ha⟩ := h
  have hid : c.module.replicaId ≠ 0 := by rw [(Comm.MInv.history hh).id]; exact hme
  obtain ⟨peer, hpeer⟩ : ∃ peer, m.peer = some peer := by
    cases m with
    | other => exact absurd rfl hp
    | handshake s h => exact ⟨_, rfl⟩
    | data d => exact ⟨_, rfl⟩
  obtain ⟨⟨m', x⟩, hr⟩ := (Comm.C56_no_crash_partial hh hV.completed).2.1 (c.fresh V peer false).2 m hm
  have hx : ∃ up, x = .ok up := by
    have h2 := hr
    obtain ⟨m1, p1, hc⟩ := channel_some hV c hid peer false
    unfold Comm.Module.processIn at h2
    rw [if_neg hid, hpeer] at h2
    simp only [hc] at h2
    simp only [Run.bind_eq_ok, Run.ok.injEq, Prod.mk.injEq] at h2
    obtain ⟨y, _, _, h3⟩ := h2
    exact ⟨_, h3.symm⟩
  obtain ⟨up, rfl⟩ := hx
  refine ⟨⟨(c.fresh V peer false).1, m', c.log ++ [.inn m (c.fresh V peer false).2 (.ok up)]⟩, up, ?_, ⟨me, R, T, hme, hh.step (.inn hr), ?_⟩, ?_⟩
  · simp only [commT, Channels.processIn, hpeer, hr, Run.bind_ok, palResult]
  · intro p v hv
    rcases mem_accepted_append hv with h1 | ⟨f, y, h1⟩
    · exact ha p v h1
    · simp at h1
  · rintro x rfl
    obtain ⟨d, pl, e, b, h1, _, _, _, _, h2⟩ := Comm.C19_only_decrypted hh hr
    exact ⟨d, b, h1, h2⟩

theorem commOk_take (hV : ChannelsSafe ops V) {c : Channels P S E H} (h : CommOk ops c) :
    ∃ c' out, (commT ops V).takeOut c = .ok (c', out) ∧ CommOk ops c' := by
  obtain ⟨me, R, T, hme, hh, ha⟩ := h
  have hh2 := hh.step (.shuffle (V.order_perm c.env c.module.replicas))
  have ha2 : ∀ p, ∀ u ∈ accepted p (c.log ++ [.shuffle]), u.data.payload.isSome := by
    intro p u hu
    rcases mem_accepted_append hu with h1 | ⟨f, y, h1⟩
    · exact ha p u h1
    · simp at h1
  obtain ⟨⟨m', out⟩, hr⟩ := (Comm.C56_no_crash_partial hh2 hV.completed).2.2 ha2 hV.encrypt
  refine ⟨⟨c.env, m', c.log ++ [.shuffle] ++ [.take out]⟩, out, ?_, me, R, T, hme, hh2.step (.take hr), ?_⟩
  · simp only [commT, Channels.takeOut, hr, Run.bind_ok]
  · intro p u hu
    rcases mem_accepted_append hu with h1 | ⟨f, y, h1⟩
    · exact ha2 p u h1
    · simp at h1

theorem commOk_tick {c : Channels P S E H} (h : CommOk ops c) : CommOk ops ((commT ops V).tick c) := by
  obtain ⟨me, R, T, hme, hh, ha⟩ := h
  refine ⟨me, R, T, hme, hh.step .tick, fun p u hu => ?_⟩
  rcases mem_accepted_append hu with h1 | ⟨f, y, h1⟩
  · exact ha p u h1
  · simp at h1

theorem commOk_cluster {c : Channels P S E H} (h : CommOk ops c) (ids : List Nat) : CommOk ops ((commT ops V).clusterChange c ids) := by
  obtain ⟨me, R, T, hme, hh, ha⟩ := h
  refine ⟨me, R, T, hme, hh.step .cluster, fun p u hu => ?_⟩
  rcases mem_accepted_append hu with h1 | ⟨f, y, h1⟩
  · exact ha p u h1
  · simp at h1

theorem commOk_init {c : Channels P S E H} (hb : c.module = Comm.Module.new) {id : Nat} (hid : id ≠ 0) (retry timeout : Nat)
    (clock : Attest.Clock) (refs : Attest.RefVals) (ends : Bytes) : CommOk ops ((commT ops V).init c id retry timeout clock refs ends) :=
  ⟨id, retry, timeout, hid, by simp only [commT, hb]; exact .init, by intro p u hu; simp [commT, accepted] at hu⟩

end channels

/-! ## Snapshot transfers -/

/-- The sender is in order. -/
def SenderOk (enc : Snap.Meta → Bytes) (s : Snap.Sender) : Prop := ∃ cs mp rep L, 0 < cs ∧ Snap.WInv enc cs mp rep (s, L)

/-- The pieces received are pieces of the snapshot. -/
def ReceiverOk (r : Snap.Receiver) : Prop := ∀ s, r.state = some s → AMap.WF s.chunks ∧ ∀ k ∈ s.chunks.keys, k < s.chunkCount

section snapshots
variable {enc : Snap.Meta → Bytes}

theorem senderOk_start {s : Snap.Sender} (h : SenderOk enc s) (r : Nat) (sn : Snap.RaftSnapshot) :
    ∃ s', s.start r sn = .ok s' ∧ SenderOk enc s' := by
  obtain ⟨cs, mp, rep, L, hc, hw⟩ := h
  obtain ⟨n, hn⟩ := Snap.chunkCount_ok (len := sn.data.length) hc
  have hcs : s.chunkSize = cs := hw.hcs
  have : ∃ s', s.start r sn = .ok s' := by
    simp only [Snap.Sender.start, Snap.Transfer.new, hcs, hn, Run.bind_ok]
    exact ⟨_, rfl⟩
  obtain ⟨s', hs⟩ := this
  exact ⟨s', hs, cs, mp, rep, _, hc, hw.step (.start hs)⟩

theorem senderOk_response {s : Snap.Sender} (h : SenderOk enc s) (r d : Nat) (rep : Snap.Reply) :
    ∃ s', s.processResponse r d (some rep) = .ok s' ∧ SenderOk enc s' := by
  obtain ⟨cs, mp, re, L, hc, hw⟩ := h
  have : ∃ s', s.processResponse r d (some rep) = .ok s' := by
    unfold Snap.Sender.processResponse
    split <;> exact ⟨_, rfl⟩
  obtain ⟨s', hs⟩ := this
  exact ⟨s', hs, cs, mp, re, _, hc, hw.step (.response hs)⟩

theorem senderOk_complete {s : Snap.Sender} (h : SenderOk enc s) : SenderOk enc s.tryComplete.1 := by
  obtain ⟨cs, mp, re, L, hc, hw⟩ := h
  cases hs : s.tryComplete with
  | mk s' o =>
    cases o with
    | none => exact ⟨cs, mp, re, _, hc, hw.step (.completeNone hs)⟩
    | some x => exact ⟨cs, mp, re, _, hc, hw.step (.completeSome (r := x.1) (st := x.2) hs)⟩

theorem senderOk_reset {s : Snap.Sender} (h : SenderOk enc s) : SenderOk enc s.reset.1 := by
  obtain ⟨cs, mp, re, L, hc, hw⟩ := h
  exact ⟨cs, mp, re, _, hc, hw.step (.reset (l := s.reset.2) rfl)⟩

theorem senderOk_drain {s : Snap.Sender} (h : SenderOk enc s) (n : Nat) :
    ∃ s' qs, drainSender enc n s = .ok (s', qs) ∧ SenderOk enc s' ∧ ∀ q ∈ qs, q.payload.isSome := by
  induction n generalizing s with
  | zero => exact ⟨s, [], rfl, h, by simp⟩
  | succ n ih =>
    obtain ⟨cs, mp, re, L, hc, hw⟩ := h
    rcases Snap.nextRequest_spec hw with ⟨h1, _⟩ | ⟨r, t, l, _, _, _, _, _, _, _, h1⟩
    · refine ⟨s, [], ?_, ⟨cs, mp, re, L, hc, hw⟩, by simp⟩
      simp only [drainSender]
      rw [h1]
      rfl
    · obtain ⟨s', qs, h2, h3, h4⟩ := ih ⟨cs, mp, re, _, hc, hw.step (.nextSome h1)⟩
      refine ⟨s', ⟨r, s.replicaId, s.nextDeliveryId, some (some (Snap.Spec.expected enc l.id l.snap cs t.nextIndex))⟩ :: qs, ?_, h3, ?_⟩
      · simp only [drainSender]
        rw [h1]
        simp only [Run.bind_ok]
        rw [h2]
        rfl
      · intro q hq
        rcases List.mem_cons.1 hq with rfl | hq
        · rfl
        · exact h4 q hq

theorem receiverOk_request {r : Snap.Receiver} (h : ReceiverOk r) {rcp snd did : Nat} {c : Option Snap.Content}
    (hc : ∀ x, c = some x → Proper x) :
    ∃ r' resp, r.processRequest ⟨rcp, snd, did, some c⟩ = .ok (r', resp) ∧ ReceiverOk r' ∧ resp.payload.isSome := by
  cases c with
  | none => exact ⟨r, ⟨snd, rcp, did, some (some _)⟩, rfl, h, rfl⟩
  | some x =>
    obtain ⟨sid, it⟩ := x
    cases it with
    | none => exact ⟨r, ⟨snd, rcp, did, some (some _)⟩, rfl, h, rfl⟩
    | some it =>
      cases it with
      | header size md chunk =>
        have : ∃ n, Snap.chunkCount size chunk.length = .ok n ∧ 0 < n := by
          cases chunk with
          | nil =>
            have := hc _ rfl size md rfl
            subst this
            exact ⟨1, rfl, by omega⟩
          | cons a as =>
            obtain ⟨n, hn⟩ := Snap.chunkCount_ok (len := size) (cs := (a :: as).length) (by simp)
            exact ⟨n, hn, (Snap.chunkCount_isPieceCount hn).1⟩
        obtain ⟨n, hn, hpos⟩ := this
        refine ⟨{ r with state := some ⟨snd, sid, size, md, chunk.length, n, [(0, chunk)]⟩ }, ⟨snd, rcp, did, some (some ⟨sid, 0, .accepted⟩)⟩, ?_, ?_, rfl⟩
        · simp only [Snap.Receiver.processRequest, Snap.Incoming.new, hn, Run.bind_ok]
        · intro s hs
          simp only [Option.some.injEq] at hs
          subst hs
          exact ⟨by simp [AMap.WF, AMap.keys], by simp [AMap.keys, hpos]⟩
      | chunk i b =>
        cases hst : r.state with
        | none =>
          refine ⟨r, ⟨snd, rcp, did, some (some ⟨sid, i, .rejected⟩)⟩, ?_, h, rfl⟩
          simp only [Snap.Receiver.processRequest, hst]
        | some st =>
          refine ⟨{ r with state := some (st.acceptChunk snd i b).1 }, ⟨snd, rcp, did, some (some ⟨sid, i, if (st.acceptChunk snd i b).2 then .accepted else .rejected⟩)⟩, ?_, ?_, rfl⟩
          · simp only [Snap.Receiver.processRequest, hst]
          · intro s hs
            simp only [Option.some.injEq] at hs
            subst hs
            have h0 := h st hst
            unfold Snap.Incoming.acceptChunk
            split
            · exact h0
            · split
              · exact h0
              · rename_i hb
                refine ⟨h0.1.set _ _, fun k hk => ?_⟩
                rcases (AMap.mem_keys_set _ _ _ _).1 hk with rfl | hk
                · simp only; omega
                · exact h0.2 k hk

theorem assemble_ok {chunks : AMap Nat Bytes} (n : Nat) (h : ∀ k, k < n → k ∈ chunks.keys) : ∃ b, Snap.assemble chunks n = .ok b := by
  induction n with
  | zero => exact ⟨[], rfl⟩
  | succ n ih =>
    obtain ⟨b, hb⟩ := ih fun k hk => h k (by omega)
    obtain ⟨c, hc⟩ := Option.isSome_iff_exists.1 ((AMap.get_isSome_iff _ _).2 (h n (by omega)))
    exact ⟨b ++ c, by simp only [Snap.assemble, hb, Run.bind_ok, hc]⟩

theorem receiverOk_complete (dec : Bytes → Option Snap.Meta) {r : Snap.Receiver} (h : ReceiverOk r) :
    ∃ r' o, r.tryComplete dec = .ok (r', o) ∧ ReceiverOk r' ∧ (r' = r ∨ r' = r.reset) := by
  unfold Snap.Receiver.tryComplete
  cases hs : r.state with
  | none => exact ⟨r, none, rfl, h, Or.inl rfl⟩
  | some st =>
    have h0 := h st hs
    have : ∃ o, st.tryComplete dec = .ok o := by
      unfold Snap.Incoming.tryComplete
      split
      · exact ⟨_, rfl⟩
      · rename_i hl
        simp only [ne_eq, Decidable.not_not] at hl
        cases dec st.metadata with
        | none => exact ⟨_, rfl⟩
        | some m =>
          have hlen : st.chunks.keys.length = st.chunkCount := by simpa [AMap.keys] using hl
          obtain ⟨b, hb⟩ := assemble_ok (chunks := st.chunks) st.chunkCount fun k hk =>
            mem_of_nodup_lt_length h0.1 (fun x hx => by rw [hlen]; exact h0.2 x hx) (by rw [hlen]; exact hk)
          simp only [hb, Run.bind_ok]
          exact ⟨_, rfl⟩
    obtain ⟨o, ho⟩ := this
    simp only [ho, Run.bind_ok]
    cases o with
    | none => exact ⟨r, none, rfl, h, Or.inl rfl⟩
    | some x => exact ⟨r.reset, some x, rfl, fun s hs => by simp [Snap.Receiver.reset] at hs, Or.inr rfl⟩

theorem held_reset {codecs : Codecs} {T : Terms σ ρ} (r : Snap.Receiver) : Held codecs T r.reset := by
  intro r' snd sn h
  simp [Snap.Receiver.tryComplete, Snap.Receiver.reset] at h

end snapshots

/-! ## Methods that return -/

/-- The method returns, and what it returns and leaves behind satisfies `Q`. -/
def Goes {D : Type} (m : M D α) (d : D) (Q : α → D → Prop) : Prop := ∃ d' a, m d = .ok (d', .ok a) ∧ Q a d'

section goes
variable {D : Type} {d : D}

theorem Goes.bind {m : M D α} {f : α → M D β} {Q : β → D → Prop} (h : Goes m d fun a d1 => Goes (f a) d1 Q) : Goes (m >>= f) d Q := by
  obtain ⟨d1, a, h1, d2, b, h2, h3⟩ := h
  exact ⟨d2, b, by rw [M.bind_run h1]; exact h2, h3⟩

theorem Goes.mono {m : M D α} {Q Q' : α → D → Prop} (h : Goes m d Q) (hq : ∀ a d', Q a d' → Q' a d') : Goes m d Q' := by
  obtain ⟨d1, a, h1, h2⟩ := h
  exact ⟨d1, a, h1, hq a d1 h2⟩

/-- First `m`, then `f`. -/
theorem Goes.seq {m : M D α} {f : α → M D β} {Q : α → D → Prop} {Q' : β → D → Prop} (h : Goes m d Q)
    (hf : ∀ a d1, Q a d1 → Goes (f a) d1 Q') : Goes (m >>= f) d Q' := Goes.bind (h.mono hf)

theorem Goes.pure {a : α} {Q : α → D → Prop} (h : Q a d) : Goes (Pure.pure a : M D α) d Q := ⟨d, a, rfl, h⟩

theorem Goes.get {Q : D → D → Prop} (h : Q d d) : Goes (M.get : M D D) d Q := ⟨d, d, rfl, h⟩

theorem Goes.modify {f : D → D} {Q : Unit → D → Prop} (h : Q () (f d)) : Goes (M.modify f) d Q := ⟨f d, (), rfl, h⟩

theorem Goes.orFail {ε : Type} {a : α} {e : PalErr} {Q : α → D → Prop} (h : Q a d) : Goes (M.orFail (ε := ε) (.ok a) e : M D α) d Q := ⟨d, a, rfl, h⟩

theorem Goes.when {b : Bool} {m : M D Unit} {Q : Unit → D → Prop} (h : b = true → Goes m d Q) (h' : b = false → Q () d) : Goes (M.when b m) d Q := by
  cases b with
  | true => exact h rfl
  | false => exact ⟨d, (), rfl, h' rfl⟩

end goes

section calls
variable {κ : Type} {d : Driver σ ρ κ H}

theorem Goes.actor {f : ActorCtx → σ → Run (σ × β)} {ev : ActorCtx → β → Drv.Ev H} {Q : β → Driver σ ρ κ H → Prop} {s : σ} {b : β}
    (h : f d.ctx d.actor = .ok (s, b)) (hq : Q b { d with actor := s, trace := d.trace ++ [ev d.ctx b] }) : Goes (callActor f ev) d Q :=
  ⟨_, b, by unfold callActor; rw [h]; rfl, hq⟩

theorem Goes.raft {f : ρ → Run (ρ × β)} {ev : β → Drv.Ev H} {Q : β → Driver σ ρ κ H → Prop} {r : ρ} {b : β}
    (h : f d.raft = .ok (r, b)) (hq : Q b { d with raft := r, trace := d.trace ++ [ev b] }) : Goes (callRaft f ev) d Q :=
  ⟨_, b, by unfold callRaft; rw [h]; rfl, hq⟩

theorem Goes.raftU {f : ρ → Run ρ} {ev : Drv.Ev H} {Q : Unit → Driver σ ρ κ H → Prop} {r : ρ}
    (h : f d.raft = .ok r) (hq : Q () { d with raft := r, trace := d.trace ++ [ev] }) : Goes (callRaftU f ev) d Q := by
  unfold callRaftU
  exact Goes.raft (by rw [h]; rfl) hq

theorem Goes.ask {f : ρ → Run β} {Q : β → Driver σ ρ κ H → Prop} {b : β} (h : f d.raft = .ok b) (hq : Q b d) : Goes (askRaft f) d Q :=
  ⟨d, b, by unfold askRaft; rw [h]; rfl, hq⟩

theorem Goes.comm {f : κ → Run (κ × Except PalErr β)} {ev : Drv.Ev H} {Q : β → Driver σ ρ κ H → Prop} {c : κ} {b : β}
    (h : f d.comm = .ok (c, .ok b)) (hq : Q b { d with comm := c, trace := d.trace ++ [ev] }) : Goes (callComm f ev) d Q :=
  ⟨_, b, by unfold callComm; rw [h]; rfl, hq⟩

theorem Goes.snap {f : Snap.Processor → Run (Snap.Processor × β)} {Q : β → Driver σ ρ κ H → Prop} {p : Snap.Processor} {b : β}
    (h : f d.snap = .ok (p, b)) (hq : Q b { d with snap := p }) : Goes (callSnap f) d Q :=
  ⟨_, b, by unfold callSnap; rw [h]; rfl, hq⟩

theorem Goes.stash {m : OutMsg H} {Q : Unit → Driver σ ρ κ H → Prop} (hq : Q () { d with messages := d.messages ++ [m], trace := d.trace ++ [.out m] }) :
    Goes (stash m) d Q := Goes.modify hq

end calls

/-! ## The invariant -/

/-- The parts the replica is made of are in order. -/
structure Fine (ops : Comm.Ops S E H) (codecs : Codecs) (T : Terms σ ρ) (st : Stage) (d : Driver σ ρ (Channels P S E H) H) : Prop where
  actor : T.actor d.actor
  raft : T.raft st d.applied d.conf d.raft
  comm : CommOk ops d.comm
  role : d.snap.role ≠ .unknown
  sender : SenderOk codecs.encMeta d.snap.sender
  receiver : ReceiverOk d.snap.receiver
  held : Held codecs T d.snap.receiver
  snapshots : ∀ m ∈ d.snapshots, m.snapshot.isSome
  proposals : d.proposals = []
  persistent : d.ephemeral = false

section driver
variable {A : Actor σ} {R : RaftT ρ} {ops : Comm.Ops S E H} {V : Env P S E H} {codecs : Codecs} {T : Terms σ ρ} {a0 : σ} {r0 : ρ}
variable (hA : ActorSafe A T a0) (hR : ConsensusSafe R codecs T r0) (hV : ChannelsSafe ops V)
variable {d : Driver σ ρ (Channels P S E H) H} {st : Stage}

local notation "Sy" => replica A R ops V codecs

include hA hR hV

theorem goes_stashCommands' (cs : List ActorCommand) (h : Fine ops codecs T st d) :
    Goes (stashCommands cs) d fun _ d' => Fine ops codecs T st d' ∧ d'.raft = d.raft := by
  induction cs generalizing d with
  | nil => exact Goes.pure ⟨h, rfl⟩
  | cons c cs ih => exact Goes.bind (Goes.stash (ih { h with }))

theorem goes_stashCommands (cs : List ActorCommand) (h : Fine ops codecs T st d) : Goes (stashCommands cs) d fun _ d' => Fine ops codecs T st d' :=
  (goes_stashCommands' hA hR hV cs h).mono fun _ _ h => h.1

theorem goes_getRaftState (h : Fine ops codecs T .idle d) : Goes (getRaftState Sy) d fun _ d' => d' = d := by
  obtain ⟨s, hs⟩ := hR.state h.raft
  exact Goes.bind (Goes.ask hs (Goes.bind (Goes.get (Goes.pure rfl))))

theorem goes_makeRaftStep (snd rcp : Nat) {b : Bytes} (h : Fine ops codecs T .idle d) (hb : ∀ m, codecs.decRaft b = some m → T.message d.raft m) :
    Goes (makeRaftStep Sy snd rcp b) d fun _ d' => Fine ops codecs T .idle d' := by
  unfold makeRaftStep
  change Goes (match codecs.decRaft b with | none => _ | some m => _) d _
  cases hm : codecs.decRaft b with
  | none => exact Goes.pure h
  | some m =>
    obtain ⟨r, hr, hi⟩ := hR.step h.raft (hb m hm)
    exact Goes.bind (Goes.raft hr (Goes.orFail { h with raft := hi }))

/-- At most one proposal is waiting, and only on a leader. -/
def Asks (R : RaftT ρ) (codecs : Codecs) (T : Terms σ ρ) (d : Driver σ ρ (Channels P S E H) H) : Prop :=
  d.proposals = [] ∨ ∃ id c x, d.proposals = [codecs.encEntry ⟨some (id, c), x⟩] ∧ T.event x ∧ R.leader d.raft = true

theorem goes_processProposals (h : Fine ops codecs T .idle { d with proposals := [] }) (hp : Asks R codecs T d) :
    Goes (processProposals Sy) d fun _ d' => Fine ops codecs T .idle d' := by
  refine Goes.bind (Goes.get (Goes.bind (Goes.modify ?_)))
  rcases hp with hp | ⟨id, c, x, hp, hx, hl⟩
  · rw [hp]
    exact Goes.pure h
  · rw [hp]
    obtain ⟨r, hr, hi⟩ := hR.propose (id := id) (k := c) h.raft hl hx
    exact Goes.bind (Goes.bind (Goes.raft hr (Goes.pure (Goes.pure { h with raft := hi }))))

theorem goes_makeConfChange (n : Nat) (add : Bool) (hcc : T.change ⟨n, add⟩) (h : Fine ops codecs T .idle d) :
    Goes (makeConfChangeProposal Sy n add) d fun _ d' => Fine ops codecs T .idle d' := by
  obtain ⟨r, x, hr, hx, hi⟩ := hR.change (k := ⟨n, add⟩) h.raft hcc
  refine Goes.bind (Goes.raft hr ?_)
  have h1 : Fine ops codecs T .idle { d with raft := r, trace := d.trace ++ [.proposeChange ⟨n, add⟩ x] } := { h with raft := hi }
  cases x with
  | ok u => exact Goes.pure h1
  | error e =>
    cases e with
    | proposalDropped => exact Goes.pure h1
    | other => exact absurd rfl hx

theorem goes_tick (h : Fine ops codecs T .idle d) : Goes (triggerRaftTick Sy) d fun _ d' => Fine ops codecs T .idle d' := by
  refine Goes.bind (Goes.get ?_)
  split
  · obtain ⟨r, hr, hi⟩ := hR.tick h.raft
    exact Goes.bind (Goes.modify (Goes.raftU hr { h with raft := hi }))
  · exact Goes.pure h

theorem goes_applyEntry {k : List Entry → Stage} (hk : (∃ y, k = .restored y) ∨ ∃ l, k = .light l) {e : Entry} {es : List Entry} (he : Readable codecs T e)
    (h : Fine ops codecs T (k (e :: es)) d) : Goes (applyEntry Sy e) d fun _ d' => Fine ops codecs T (k es) d' := by
  refine Goes.bind (Goes.modify ?_)
  split
  · rename_i hem
    exact Goes.pure { h with raft := hR.applied h.raft hk (.inl (by simpa using hem)) }
  · rename_i hne
    have hne' : e.data ≠ [] := by simpa using hne
    rcases he with he | ⟨ht, c, hc, hcc⟩ | ⟨ht, id, b, hb, hev⟩
    · exact absurd he hne'
    · rw [if_pos ht]
      change Goes (match codecs.decConf e.data with | none => _ | some m => _) _ _
      rw [hc]
      obtain ⟨r, cs, hr, hi⟩ := hR.applyChange h.raft hk ht hne' hc hcc
      exact Goes.bind (Goes.raft hr (Goes.bind (Goes.orFail (Goes.modify { h with raft := hi }))))
    · have h0 : Fine ops codecs T (k es) { d with applied := e.index } := { h with raft := hR.applied h.raft hk (.inr ht) }
      generalize hd0 : ({ d with applied := e.index } : Driver σ ρ (Channels P S E H) H) = d0 at h0 ⊢
      rw [if_neg ht]
      change Goes (match codecs.decEntry e.data with | none => _ | some m => _) d0 _
      rw [hb]
      refine Goes.bind (Goes.get ?_)
      obtain ⟨s, o, hs, hi⟩ := hA.apply (ctx := d0.ctx) (ec := ⟨e.index, decide (id.1 = d0.id)⟩) (ev := ⟨id.2, b⟩) h0.actor hev
      exact Goes.bind (Goes.actor hs (Goes.bind (Goes.orFail (goes_stashCommands hA hR hV _ { h0 with actor := hi }))))

theorem goes_applyEntries {k : List Entry → Stage} (hk : (∃ y, k = .restored y) ∨ ∃ l, k = .light l) (es : List Entry) (he : ∀ e ∈ es, Readable codecs T e)
    (h : Fine ops codecs T (k es) d) : Goes (applyEntries Sy es) d fun _ d' => Fine ops codecs T (k []) d' := by
  induction es generalizing d with
  | nil => exact Goes.pure h
  | cons e es ih =>
    exact Goes.seq (goes_applyEntry hA hR hV hk (he e (List.mem_cons_self ..)) h) fun _ _ h1 => ih (fun x hx => he x (List.mem_cons_of_mem _ hx)) h1

omit hA hR hV in
theorem insertByIndex_last {e : Entry} {es : List Entry} (h : ∀ x ∈ es, x.index < e.index) : insertByIndex e es = es ++ [e] := by
  induction es with
  | nil => rfl
  | cons y es ih =>
    have := h y (List.mem_cons_self ..)
    rw [insertByIndex, if_neg (by omega), ih fun x hx => h x (List.mem_cons_of_mem _ hx)]
    rfl

omit hA hR hV in
/-- Entries in order stay as they are. -/
theorem sortByIndex_ordered {es : List Entry} (h : Ordered es) : sortByIndex es = es := by
  have key : ∀ (es acc : List Entry), Ordered (acc ++ es) → es.foldl (fun acc e => insertByIndex e acc) acc = acc ++ es := by
    intro es
    induction es with
    | nil => intro acc _; simp
    | cons e es ih =>
      intro acc ha
      have h1 : ∀ x ∈ acc, x.index < e.index := fun x hx => (List.pairwise_append.1 ha).2.2 x hx e (List.mem_cons_self ..)
      rw [List.foldl_cons, insertByIndex_last h1, ih (acc ++ [e]) (by simpa [Ordered] using ha)]
      simp
  exact (key es [] h).trans (List.nil_append es)

theorem goes_applyCommitted {k : List Entry → Stage} (hk : (∃ y, k = .restored y) ∨ ∃ l, k = .light l) (es : List Entry) (he : ∀ e ∈ es, Readable codecs T e)
    (ho : Ordered es) (h : Fine ops codecs T (k es) d) : Goes (applyCommitted Sy es) d fun _ d' => Fine ops codecs T (k []) d' := by
  unfold applyCommitted
  rw [sortByIndex_ordered ho]
  exact goes_applyEntries hA hR hV hk es he h

theorem goes_sendRaftMessages (ms : List RaftMsg) (hl : Loaded ms) (h : Fine ops codecs T st d) :
    Goes (sendRaftMessages Sy ms) d fun _ d' => Fine ops codecs T st d' := by
  induction ms generalizing d with
  | nil => exact Goes.pure h
  | cons m ms ih =>
    have hl' : Loaded ms := fun x hx => hl x (List.mem_cons_of_mem _ hx)
    refine Goes.bind ?_
    unfold sendRaftMessage
    split
    · rename_i ht
      refine Goes.modify (ih hl' { h with snapshots := fun x hx => ?_ })
      rcases List.mem_append.1 hx with hx | hx
      · exact h.snapshots x hx
      · rw [List.mem_singleton] at hx; subst hx; exact hl _ (List.mem_cons_self ..) ht
    · refine Goes.bind (Goes.get ?_)
      obtain ⟨c, hc, hok⟩ := commOk_out hV h.comm (u := ofRaft Sy d.id m) rfl
      exact Goes.comm hc (ih hl' { h with comm := hok })

theorem goes_restore {y : Ready} (hy : y.snapshot.metadata.index ≠ 0 → T.image y.snapshot.data) (h : Fine ops codecs T (.stated y) d) :
    Goes (restoreRaftSnapshot Sy y.snapshot) d fun _ d' => Fine ops codecs T (.restored y y.committed) d' := by
  unfold restoreRaftSnapshot
  split
  · rename_i h0
    exact Goes.pure { h with raft := hR.noSnapshot h.raft h0 }
  · rename_i h0
    obtain ⟨r, hr, hi⟩ := hR.snapshot h.raft h0
    obtain ⟨s, hs, ha⟩ := hA.load (ctx := d.ctx) h.actor (hy h0)
    exact Goes.bind (Goes.modify (Goes.bind (Goes.raft hr (Goes.bind (Goes.orFail (Goes.bind (Goes.actor hs (Goes.bind (Goes.orFail
      (Goes.modify { h with raft := hi, actor := ha }))))))))))

theorem goes_createSnapshot (h : Fine ops codecs T .idle d) : Goes (maybeCreateSnapshot Sy) d fun _ d' => Fine ops codecs T .idle d' := by
  refine Goes.bind (Goes.get ?_)
  obtain ⟨b, hb⟩ := hR.should h.raft
  refine Goes.bind (Goes.ask hb ?_)
  cases b with
  | false => exact Goes.pure h
  | true =>
    obtain ⟨s, im, hs, ha, him⟩ := hA.save (ctx := d.ctx) h.actor
    obtain ⟨r, hr, hi⟩ := hR.create h.raft hb him
    exact Goes.bind (Goes.actor hs (Goes.bind (Goes.orFail (Goes.bind (Goes.get (Goes.bind (Goes.raft hr (Goes.orFail
      { h with raft := hi, actor := ha }))))))))

theorem goes_processReady (h : Fine ops codecs T .idle d) (hh : R.hasReady d.raft = .ok true) :
    Goes (processReady Sy) d fun _ d' => Fine ops codecs T .idle d' := by
  obtain ⟨r, y, hr, hi, hm, hp, hc, hord, him⟩ := hR.fetch h.raft hh
  refine Goes.bind (Goes.raft hr ?_)
  have h1 : Fine ops codecs T (.fetched y) { d with raft := r, trace := d.trace ++ [.ready y] } := { h with raft := hi }
  refine Goes.seq (goes_sendRaftMessages hA hR hV _ hm h1) fun _ d1 h2 => ?_
  refine Goes.seq (Q := fun _ d' => Fine ops codecs T (.stated y) d') ?_ fun _ d2 h3 => ?_
  · cases hs : y.hardState with
    | none => exact Goes.pure { h2 with raft := hR.noHardState h2.raft hs }
    | some x =>
      obtain ⟨r', hr', hi'⟩ := hR.hardState h2.raft hs
      exact Goes.raftU hr' { h2 with raft := hi' }
  refine Goes.seq (goes_restore hA hR hV him h3) fun _ d3 h4 => ?_
  refine Goes.seq (goes_applyCommitted hA hR hV (Or.inl ⟨y, rfl⟩) _ hc hord h4) fun _ d4 h5 => ?_
  refine Goes.seq (goes_sendRaftMessages hA hR hV _ hp h5) fun _ d5 h6 => ?_
  refine Goes.seq (Q := fun _ d' => Fine ops codecs T (.stored y) d') (Goes.when (fun hb => ?_) fun hb => ?_) fun _ d6 h7 => ?_
  · obtain ⟨r', hr', hi'⟩ := hR.append h6.raft (by intro he; rw [he] at hb; simp at hb)
    exact Goes.bind (Goes.raft hr' (Goes.orFail { h6 with raft := hi' }))
  · exact { h6 with raft := hR.noEntries h6.raft (by simpa using hb) }
  obtain ⟨r', l, hr', hi', hlm, hlc, hlo⟩ := hR.advance h7.raft
  refine Goes.bind (Goes.raft hr' ?_)
  have h8 : Fine ops codecs T (.light l l.committed) { d6 with raft := r', trace := d6.trace ++ [.light l] } := { h7 with raft := hi' }
  refine Goes.seq (goes_sendRaftMessages hA hR hV _ hlm h8) fun _ d7 h9 => ?_
  refine Goes.seq (goes_applyCommitted hA hR hV (Or.inr ⟨l, rfl⟩) _ hlc hlo h9) fun _ d8 h10 => ?_
  obtain ⟨r'', hr'', hi''⟩ := hR.done h10.raft
  exact Goes.raftU hr'' { h10 with raft := hi'' }

theorem goes_advanceRaft (h : Fine ops codecs T .idle d) : Goes (advanceRaft Sy) d fun _ d' => Fine ops codecs T .idle d' := by
  refine Goes.bind (Goes.get ?_)
  refine Goes.seq (Q := fun _ d' => Fine ops codecs T .idle d') (Goes.when (fun _ => goes_tick hA hR hV h) fun _ => h) fun _ d1 h1 => ?_
  obtain ⟨b, hb⟩ := hR.has h1.raft
  refine Goes.bind (Goes.ask hb (Goes.when (fun ht => ?_) fun _ => h1))
  subst ht
  exact goes_processReady hA hR hV h1 hb

theorem goes_reportAll (us : List (Nat × Snap.Status)) (h : Fine ops codecs T .idle d) : Goes (reportAll Sy us) d fun _ d' => Fine ops codecs T .idle d' := by
  induction us generalizing d with
  | nil => exact Goes.pure h
  | cons u us ih =>
    obtain ⟨r, hr, hi⟩ := hR.report (p := u.1) (s := u.2) h.raft
    exact Goes.bind (Goes.raftU hr (ih { h with raft := hi }))

omit hA hR hV in
theorem clusterChange_fine (leader term : Nat) (ids : List Nat) (h : Fine ops codecs T st d) :
    ∃ p us, d.snap.clusterChange leader term ids = .ok (p, us) ∧ Fine ops codecs T st { d with snap := p } := by
  unfold Snap.Processor.clusterChange
  simp only
  cases hr : d.snap.role with
  | unknown => exact absurd hr h.role
  | follower =>
    refine ⟨_, _, rfl, ?_⟩
    split <;> split <;> exact { h with
      role := by simp
      sender := h.sender
      receiver := by first | exact h.receiver | exact fun s hs => by simp [Snap.Receiver.reset] at hs
      held := by first | exact h.held | exact held_reset _ }
  | leader =>
    refine ⟨_, _, rfl, ?_⟩
    split <;> split <;> exact { h with
      role := by simp
      sender := by first | exact h.sender | exact senderOk_reset h.sender
      receiver := h.receiver
      held := h.held }

theorem goes_updateCluster (h : Fine ops codecs T .idle d) : Goes (updateSnapshotClusterChange Sy) d fun _ d' => Fine ops codecs T .idle d' := by
  refine Goes.bind (Goes.get ?_)
  split
  · exact Goes.pure h
  · obtain ⟨p, us, hp, hf⟩ := clusterChange_fine d.raftState.leaderId d.raftState.leaderTerm d.raftState.cluster h
    exact Goes.bind (Goes.snap hp (goes_reportAll hA hR hV _ hf))

theorem goes_stashLeader (h : Fine ops codecs T .idle d) : Goes (stashLeaderState Sy) d fun _ d' => Fine ops codecs T .idle d' := by
  refine Goes.seq (goes_getRaftState hA hR hV h) fun s d1 hd => ?_
  subst hd
  refine Goes.bind (Goes.modify (Goes.bind (Goes.get ?_)))
  split
  · exact Goes.pure { h with }
  · refine Goes.bind (Goes.modify ?_)
    refine Goes.seq (goes_updateCluster hA hR hV { h with }) fun _ d2 h2 => ?_
    refine Goes.bind (Goes.get (Goes.bind (Goes.modify (Goes.stash ?_))))
    exact { h2 with comm := commOk_cluster (V := V) h2.comm _ }

omit hA hR hV in
theorem isSender_ok (h : Fine ops codecs T st d) : ∃ b, isSender d.snap = .ok b := by
  unfold isSender
  cases hr : d.snap.role with
  | unknown => exact absurd hr h.role
  | follower => exact ⟨_, rfl⟩
  | leader => exact ⟨_, rfl⟩

theorem goes_progress (h : Fine ops codecs T .idle d) : Goes (processSnapshotProgress Sy) d fun _ d' => Fine ops codecs T .idle d' := by
  refine Goes.bind (Goes.get ?_)
  split
  · exact Goes.pure h
  · obtain ⟨b, hb⟩ := isSender_ok h
    refine Goes.bind (Goes.snap (p := d.snap) (b := b) (by rw [hb]; rfl) ?_)
    cases b with
    | true =>
      refine Goes.bind (Goes.snap rfl ?_)
      have h1 : Fine ops codecs T .idle { d with snap := { d.snap with sender := d.snap.sender.tryComplete.1 } } :=
        { h with sender := senderOk_complete h.sender }
      cases ho : d.snap.sender.tryComplete.2 with
      | none => exact Goes.pure h1
      | some x =>
        obtain ⟨r, hr, hi⟩ := hR.report (p := x.1) (s := x.2) h.raft
        exact Goes.raftU hr { h1 with raft := hi }
    | false =>
      obtain ⟨rc, o, hc, hok, hwhich⟩ := receiverOk_complete codecs.decMeta h.receiver
      have hheld : Held codecs T rc := by
        rcases hwhich with rfl | rfl
        · exact h.held
        · exact held_reset _
      have h1 : Fine ops codecs T .idle { d with snap := { d.snap with receiver := rc } } := { h with receiver := hok, held := hheld }
      refine Goes.bind (Goes.snap (p := { d.snap with receiver := rc }) (b := o) ?_ ?_)
      · change (d.snap.receiver.tryComplete codecs.decMeta).bind _ = _
        rw [hc]; rfl
      · rcases o with _ | (e | ⟨snd, sn⟩)
        · exact Goes.pure h1
        · exact Goes.pure h1
        · obtain ⟨r, x, hr, hi⟩ := hR.deliver (me := d.id) (snd := snd) h.raft (h.held rc snd sn hc)
          exact Goes.bind (Goes.raft hr (Goes.pure { h1 with raft := hi }))

theorem goes_startAll (ms : List RaftMsg) (hl : ∀ m ∈ ms, m.snapshot.isSome) (h : Fine ops codecs T st d) :
    Goes (startAll ms) d fun _ d' => Fine ops codecs T st d' := by
  induction ms generalizing d with
  | nil => exact Goes.pure h
  | cons m ms ih =>
    obtain ⟨sn, hsn⟩ := Option.isSome_iff_exists.1 (hl m (List.mem_cons_self ..))
    obtain ⟨s, hs, hok⟩ := senderOk_start h.sender m.to sn
    exact Goes.bind (Goes.snap (p := { d.snap with sender := s }) (b := ()) (by simp only [hsn, Run.unwrap_some, Run.bind_ok, hs])
      (ih (fun x hx => hl x (List.mem_cons_of_mem _ hx)) { h with sender := hok }))

theorem goes_sendAll (us : List Comm.Outgoing) (hl : ∀ u ∈ us, u.data.payload.isSome) (h : Fine ops codecs T st d) :
    Goes (sendAll Sy us) d fun _ d' => Fine ops codecs T st d' := by
  induction us generalizing d with
  | nil => exact Goes.pure h
  | cons u us ih =>
    obtain ⟨c, hc, hok⟩ := commOk_out hV h.comm (hl u (List.mem_cons_self ..))
    exact Goes.bind (Goes.comm hc (ih (fun x hx => hl x (List.mem_cons_of_mem _ hx)) { h with comm := hok }))

theorem goes_sending (h : Fine ops codecs T .idle d) : Goes (processSnapshotSending Sy) d fun _ d' => Fine ops codecs T .idle d' := by
  refine Goes.bind (Goes.get (Goes.bind (Goes.modify ?_)))
  have h0 : Fine ops codecs T .idle { d with snapshots := [] } := { h with snapshots := by simp }
  obtain ⟨b, hb⟩ := isSender_ok h
  refine Goes.bind (Goes.snap (p := d.snap) (b := b) (by simp only [hb]; rfl) ?_)
  cases b with
  | false => exact goes_reportAll hA hR hV _ h0
  | true =>
    refine Goes.seq (goes_startAll hA hR hV d.snapshots h.snapshots h0) fun _ d1 h1 => ?_
    obtain ⟨s, qs, hq, hok, hpl⟩ := senderOk_drain h1.sender (d1.snap.sender.maxPending + 1)
    refine Goes.bind (Goes.snap (p := { d1.snap with sender := s }) (b := qs) ?_ ?_)
    · change (drainSender codecs.encMeta _ _).bind _ = _
      rw [hq]; rfl
    · refine goes_sendAll hA hR hV _ (fun u hu => ?_) { h1 with sender := hok }
      obtain ⟨q, hq1, rfl⟩ := List.mem_map.1 hu
      have := hpl q hq1
      simp only [ofRequest, Option.isSome_map]
      exact this

theorem goes_stateMachine (h : Fine ops codecs T .idle d) : Goes (processStateMachine Sy) d fun _ d' => Fine ops codecs T .idle d' := by
  refine Goes.bind (Goes.get ?_)
  split
  · refine Goes.seq (goes_advanceRaft hA hR hV h) fun _ d1 h1 => ?_
    refine Goes.seq (goes_createSnapshot hA hR hV h1) fun _ d2 h2 => ?_
    exact goes_stashLeader hA hR hV h2
  · exact Goes.pure h

theorem goes_runRaft (h : Fine ops codecs T .idle { d with proposals := [] }) (hp : Asks R codecs T d) :
    Goes (runRaft Sy) d fun _ d' => Fine ops codecs T .idle d' := by
  refine Goes.bind (Goes.get ?_)
  rw [show d.ephemeral = false from h.persistent]
  refine Goes.seq (goes_processProposals hA hR hV h hp) fun _ d1 h1 => ?_
  refine Goes.seq (goes_progress hA hR hV h1) fun _ d2 h2 => ?_
  refine Goes.seq (goes_stateMachine hA hR hV h2) fun _ d3 h3 => ?_
  exact goes_sending hA hR hV h3

omit hA hR hV in
theorem goes_checkState (hs : d.state = .started) : Goes (checkState .started) d fun _ d' => d' = d := by
  refine Goes.bind (Goes.get ?_)
  rw [if_neg (by simp [hs])]
  exact Goes.pure rfl

omit hA hR hV in
theorem goes_checkNonEphemeral (h : Fine ops codecs T st d) : Goes checkNonEphemeral d fun _ d' => d' = d := by
  refine Goes.bind (Goes.get ?_)
  rw [h.persistent]
  exact Goes.pure rfl

theorem goes_appMessage {c : Option ActorCommand} (hc : T.command c) (hl : c ≠ none → d.ctx.leader = R.leader d.raft) (hs : d.state = .started)
    (h : Fine ops codecs T .idle d) :
    Goes (processAppMessage Sy c) d fun _ d' => Fine ops codecs T .idle { d' with proposals := [] } ∧ Asks R codecs T d' := by
  refine Goes.seq (goes_checkState hs) fun _ d1 hd => ?_
  subst hd
  obtain ⟨s, o, ho, hi, hev⟩ := hA.command (ctx := d1.ctx) h.actor hc
  refine Goes.bind (Goes.actor ho (Goes.bind (Goes.orFail ?_)))
  refine Goes.seq (goes_stashCommands' hA hR hV _ { h with actor := hi }) fun _ d2 h2 => ?_
  obtain ⟨h2, hr2⟩ := h2
  cases he : o.event with
  | none => exact Goes.pure ⟨{ h2 with proposals := rfl }, Or.inl h2.proposals⟩
  | some ev =>
    refine Goes.bind (Goes.get ?_)
    rw [h2.persistent]
    obtain ⟨h3, h4, h5⟩ := hev ev he
    refine Goes.modify ⟨{ h2 with proposals := rfl }, Or.inr ⟨d2.id, ev.correlationId, ev.contents, ?_, h3, ?_⟩⟩
    · simp only [h2.proposals, List.nil_append]
      rfl
    · change R.leader d2.raft = true
      rw [hr2, ← h4]
      exact (hl h5).symm

theorem goes_runActor {c : Option ActorCommand} (hc : T.command c) (hl : c ≠ none → d.ctx.leader = R.leader d.raft) (h : Fine ops codecs T .idle d) :
    Goes (runActor Sy c) d fun _ d' => Fine ops codecs T .idle { d' with proposals := [] } ∧ Asks R codecs T d' := by
  refine Goes.bind (Goes.get ?_)
  split
  · rename_i hs
    refine Goes.seq (goes_appMessage hA hR hV hc hl hs h) fun _ d1 h1 => ?_
    exact Goes.modify ⟨{ h1.1 with comm := commOk_tick (V := V) h1.1.comm }, h1.2⟩
  · exact Goes.pure ⟨{ h with proposals := rfl }, Or.inl h.proposals⟩

theorem goes_flush (h : Fine ops codecs T .idle d) : Goes (flush Sy) d fun _ d' => Fine ops codecs T .idle d' := by
  obtain ⟨c, out, hc, hok⟩ := commOk_take hV h.comm
  refine Goes.bind (α := Unit) ⟨{ d with comm := c, messages := d.messages ++ out.map .comm, trace := d.trace ++ out.map fun m => .out (.comm m) }, (), ?_, ?_⟩
  · change ((commT ops V).takeOut d.comm).bind _ = _
    rw [hc]; rfl
  · exact Goes.bind (Goes.get (Goes.bind (Goes.modify (Goes.pure { h with comm := hok }))))

/-- After the request was dealt with, the rest of the call. -/
theorem goes_rest {c : Option ActorCommand} (hc : T.command c) (hl : c ≠ none → d.ctx.leader = R.leader d.raft) (h : Fine ops codecs T .idle d) :
    Goes (do runActor Sy c; runRaft Sy; let out ← flush Sy; Pure.pure (some out)) d fun _ d' => Fine ops codecs T .idle d' := by
  refine Goes.seq (goes_runActor hA hR hV hc hl h) fun _ d1 h1 => ?_
  refine Goes.seq (goes_runRaft hA hR hV h1.1 h1.2) fun _ d2 h2 => ?_
  exact Goes.seq (goes_flush hA hR hV h2) fun _ d3 h3 => Goes.pure h3

omit hA hR hV in
theorem fine_preset (i : Nat) (h : Fine ops codecs T .idle d) : Fine ops codecs T .idle
    ({ d with prevRaftState := d.raftState, instant := max d.instant i, ctx := { d.ctx with instant := max d.instant i, leader := R.leader d.raft } }) := { h with }

theorem goes_dispatch {m : InMsg H} (hm : Fair Sy T d (some (some m))) (hl : d.ctx.leader = R.leader d.raft) (h : Fine ops codecs T .idle d) :
    Goes (dispatch Sy m) d fun c d' => T.command c ∧ (c ≠ none → d'.ctx.leader = R.leader d'.raft) ∧ Fine ops codecs T .idle d' := by
  cases m with
  | startReplica q => exact absurd hm (by simp [Fair])
  | stopReplica =>
    refine Goes.seq (Q := fun _ d' => Fine ops codecs T .idle d') (Goes.bind (Goes.get ?_)) fun _ d1 h1 => Goes.pure ⟨hA.empty, fun hn => absurd rfl hn, h1⟩
    split
    · exact Goes.pure h
    · obtain ⟨s, hs, ha⟩ := hA.shutdown (ctx := d.ctx) h.actor
      refine Goes.bind (Goes.actor (s := s) (b := ()) ?_ (Goes.bind (Goes.modify (Goes.stash { h with actor := ha }))))
      change (A.onShutdown d.ctx d.actor).bind _ = _
      rw [hs]; rfl
  | enterLameduck => exact Goes.bind (Goes.modify (Goes.pure ⟨hA.empty, fun hn => absurd rfl hn, { h with }⟩))
  | changeCluster c r t =>
    refine Goes.seq (Q := fun _ d' => Fine ops codecs T .idle d') ?_ fun _ d1 h1 => Goes.pure ⟨hA.empty, fun hn => absurd rfl hn, h1⟩
    obtain ⟨hm, hadd, hrem⟩ := hm
    refine Goes.seq (goes_checkState hm) fun _ d1 hd => ?_
    subst hd
    refine Goes.seq (goes_checkNonEphemeral h) fun _ d1 hd => ?_
    subst hd
    refine Goes.seq (Q := fun _ d' => Fine ops codecs T .idle d') ?_ fun x d2 h2 => Goes.stash { h2 with }
    unfold changeStatus
    split
    · rename_i ht
      exact goes_makeConfChange hA hR hV r true (hadd ht) h
    · split
      · rename_i ht
        exact goes_makeConfChange hA hR hV r false (hrem ht) h
      · exact Goes.pure h
  | checkCluster =>
    refine Goes.seq (Q := fun _ d' => Fine ops codecs T .idle d') ?_ fun _ d1 h1 => Goes.pure ⟨hA.empty, fun hn => absurd rfl hn, h1⟩
    refine Goes.seq (goes_checkState hm) fun _ d1 hd => ?_
    subst hd
    refine Goes.seq (goes_checkNonEphemeral h) fun _ d1 hd => ?_
    subst hd
    exact Goes.modify { h with }
  | systemMessage r s p =>
    refine Goes.seq (Q := fun _ d' => Fine ops codecs T .idle d') ?_ fun _ d1 h1 => Goes.pure ⟨hA.empty, fun hn => absurd rfl hn, h1⟩
    obtain ⟨hs, hp, hmsg⟩ := hm
    refine Goes.seq (goes_checkState hs) fun _ d1 hd => ?_
    subst hd
    refine Goes.seq (goes_checkNonEphemeral h) fun _ d1 hd => ?_
    subst hd
    obtain ⟨c', up, hc, hok, hup⟩ := commOk_in hV h.comm (m := .data ⟨.system, r, s, p⟩) (fun d hd => by cases hd; exact hp) (by simp)
    refine Goes.bind (Goes.comm hc ?_)
    cases up with
    | none => exact Goes.pure { h with comm := hok }
    | some x =>
      obtain ⟨dt, b, hdt, rfl⟩ := hup x rfl
      cases hdt
      exact goes_makeRaftStep hA hR hV _ _ { h with comm := hok } fun m hdec => hmsg c' _ _ m hc rfl hdec
  | snapshotRequest r s i p =>
    refine Goes.seq (Q := fun _ d' => Fine ops codecs T .idle d') ?_ fun _ d1 h1 => Goes.pure ⟨hA.empty, fun hn => absurd rfl hn, h1⟩
    obtain ⟨hp, hreq⟩ := hm
    refine Goes.seq (goes_checkNonEphemeral h) fun _ d1 hd => ?_
    subst hd
    obtain ⟨c', up, hc, hok, hup⟩ := commOk_in hV h.comm (m := .data ⟨.snapshotRequest i, r, s, p⟩) (fun d hd => by cases hd; exact hp) (by simp)
    refine Goes.bind (Goes.comm hc ?_)
    cases up with
    | none => exact Goes.pure { h with comm := hok }
    | some x =>
      obtain ⟨dt, b, hdt, rfl⟩ := hup x rfl
      cases hdt
      obtain ⟨hprop, hheld⟩ := hreq c' _ _ hc rfl
      obtain ⟨rc, resp, hrc, hrok, hpl⟩ := receiverOk_request h.receiver (rcp := r) (snd := s) (did := i) (c := codecs.decContent b) hprop
      obtain ⟨bb, hbb⟩ := isSender_ok h
      cases bb with
      | true =>
        have : ∃ rs, Snap.Sender.processUnexpected (toRequest Sy r s i (some ⟨b, []⟩)) = .ok rs ∧ rs.payload.isSome := ⟨_, rfl, rfl⟩
        obtain ⟨rs, hrs, hpl'⟩ := this
        refine Goes.bind (Goes.snap (p := d1.snap) (b := rs) ?_ ?_)
        · simp only [hbb, Run.bind_ok, if_true, hrs]
        · obtain ⟨c2, hc2, hok2⟩ := commOk_out hV hok (u := ofResponse Sy rs) (by simp only [ofResponse, Option.isSome_map]; exact hpl')
          exact Goes.comm hc2 { h with comm := hok2 }
      | false =>
        refine Goes.bind (Goes.snap (p := { d1.snap with receiver := rc }) (b := resp) ?_ ?_)
        · simp only [hbb, Run.bind_ok, if_false, toRequest, Option.map_some]
          change (d1.snap.receiver.processRequest ⟨r, s, i, some (codecs.decContent b)⟩).bind _ = _
          rw [hrc]; rfl
        · obtain ⟨c2, hc2, hok2⟩ := commOk_out hV hok (u := ofResponse Sy resp) (by simp only [ofResponse, Option.isSome_map]; exact hpl)
          exact Goes.comm hc2 { h with comm := hok2, receiver := hrok, held := hheld rc resp hrc }
  | snapshotResponse r s i p =>
    refine Goes.seq (Q := fun _ d' => Fine ops codecs T .idle d') ?_ fun _ d1 h1 => Goes.pure ⟨hA.empty, fun hn => absurd rfl hn, h1⟩
    refine Goes.seq (goes_checkNonEphemeral h) fun _ d1 hd => ?_
    subst hd
    obtain ⟨c', up, hc, hok, hup⟩ := commOk_in hV h.comm (m := .data ⟨.snapshotResponse i, r, s, p⟩) (fun d hd => by cases hd; exact hm) (by simp)
    refine Goes.bind (Goes.comm hc ?_)
    cases up with
    | none => exact Goes.pure { h with comm := hok }
    | some x =>
      obtain ⟨dt, b, hdt, rfl⟩ := hup x rfl
      cases hdt
      obtain ⟨bb, hbb⟩ := isSender_ok h
      cases bb with
      | false => exact Goes.snap (p := d1.snap) (b := ()) (by simp only [hbb, Run.bind_ok]; rfl) { h with comm := hok }
      | true =>
        obtain ⟨s', hs', hsok⟩ := senderOk_response h.sender s i (match codecs.decAck b with | some a => .ack a | none => .undecodable)
        refine Goes.snap (p := { d1.snap with sender := s' }) (b := ()) ?_ { h with comm := hok, sender := hsok }
        simp only [hbb, Run.bind_ok, if_true, Option.map_some]
        change (d1.snap.sender.processResponse s i (some (match codecs.decAck b with | some a => .ack a | none => .undecodable))).bind _ = _
        rw [hs']; rfl
  | snapshotFailure s i =>
    refine Goes.seq (Q := fun _ d' => Fine ops codecs T .idle d') ?_ fun _ d1 h1 => Goes.pure ⟨hA.empty, fun hn => absurd rfl hn, h1⟩
    refine Goes.seq (goes_checkNonEphemeral h) fun _ d1 hd => ?_
    subst hd
    obtain ⟨bb, hbb⟩ := isSender_ok h
    cases bb with
    | false => exact Goes.snap (p := d1.snap) (b := ()) (by simp only [hbb, Run.bind_ok]; rfl) h
    | true =>
      obtain ⟨s', hs', hsok⟩ := senderOk_response h.sender s i .failed
      exact Goes.snap (p := { d1.snap with sender := s' }) (b := ()) (by simp only [hbb, Run.bind_ok, if_true, hs']) { h with sender := hsok }
  | getReplicaState =>
    refine Goes.seq (Q := fun _ d' => Fine ops codecs T .idle d') ?_ fun _ d1 h1 => Goes.pure ⟨hA.empty, fun hn => absurd rfl hn, h1⟩
    refine Goes.seq (goes_checkState hm) fun _ d1 hd => ?_
    subst hd
    refine Goes.bind (Goes.get ?_)
    rw [h.persistent]
    obtain ⟨n, hn⟩ := hR.size h.raft
    exact Goes.bind (Goes.ask hn (Goes.stash { h with }))
  | handshake s x =>
    refine Goes.seq (Q := fun _ d' => Fine ops codecs T .idle d') ?_ fun _ d1 h1 => Goes.pure ⟨hA.empty, fun hn => absurd rfl hn, h1⟩
    refine Goes.seq (goes_checkState hm) fun _ d1 hd => ?_
    subst hd
    obtain ⟨c', up, hc, hok, hup⟩ := commOk_in hV h.comm (m := .handshake s x) (fun d hd => by cases hd) (by simp)
    exact Goes.bind (Goes.comm hc (Goes.pure { h with comm := hok }))
  | appMessage c => exact Goes.pure ⟨hm, fun _ => hl, h⟩

omit hA hR hV in
theorem fair_preset {i : Nat} {m : Option (Option (InMsg H))} (h : Fair Sy T d m) : Fair Sy T
    { d with prevRaftState := d.raftState, instant := max d.instant i, ctx := { d.ctx with instant := max d.instant i, leader := R.leader d.raft } } m := by
  rcases m with _ | (_ | m)
  · exact h
  · exact h
  · cases m <;> exact h

theorem goes_receive {i : Nat} {m : Option (Option (InMsg H))} (hm : Fair Sy T d m) (h : Fine ops codecs T .idle d) :
    Goes (receive Sy i m) d fun _ d' => Fine ops codecs T .idle d' := by
  refine Goes.bind (Goes.modify ?_)
  have hf := fine_preset (R := R) i h
  have hm' := fair_preset (i := i) hm
  change Fine ops codecs T .idle { d with prevRaftState := d.raftState, instant := max d.instant i, ctx := { d.ctx with instant := max d.instant i, leader := (Sy).R.leader d.raft } } at hf
  change Fair Sy T { d with prevRaftState := d.raftState, instant := max d.instant i, ctx := { d.ctx with instant := max d.instant i, leader := (Sy).R.leader d.raft } } m at hm'
  have hl : ({ d with prevRaftState := d.raftState, instant := max d.instant i, ctx := { d.ctx with instant := max d.instant i, leader := (Sy).R.leader d.raft } } : Driver σ ρ (Channels P S E H) H).ctx.leader = R.leader d.raft := rfl
  change _ = R.leader ({ d with prevRaftState := d.raftState, instant := max d.instant i, ctx := { d.ctx with instant := max d.instant i, leader := (Sy).R.leader d.raft } } : Driver σ ρ (Channels P S E H) H).raft at hl
  generalize ({ d with prevRaftState := d.raftState, instant := max d.instant i, ctx := { d.ctx with instant := max d.instant i, leader := (Sy).R.leader d.raft } } : Driver σ ρ (Channels P S E H) H) = d0 at hf hm' hl ⊢
  rcases m with _ | (_ | m)
  · exact goes_rest hA hR hV hA.empty (fun hn => absurd rfl hn) hf
  · exact Goes.pure hf
  · exact Goes.seq (goes_dispatch hA hR hV hm' hl hf) fun c d1 h1 => goes_rest hA hR hV h1.1 h1.2.1 h1.2.2

theorem serve_fine {i : Nat} {m : Option (Option (InMsg H))} (hm : Fair Sy T d m) (h : Fine ops codecs T .idle d) :
    ∃ d' out, serve Sy i m d = .ok (d', out) ∧ Fine ops codecs T .idle d' := by
  obtain ⟨d', a, h1, h2⟩ := goes_receive hA hR hV (i := i) hm h
  exact ⟨d', a.getD [], by simp only [serve, h1, Run.bind_ok], h2⟩

/-! ## The start -/

omit hA hR hV in
theorem senderOk_init (enc : Snap.Meta → Bytes) (id : Nat) (cfg : Option (Nat × Nat)) (h : ∀ c, cfg = some c → 0 < c.1) :
    SenderOk enc (Snap.Sender.new.init id cfg) := by
  cases cfg with
  | none => exact ⟨1024 * 1024, 2, id, [], by omega, Snap.WInv.init enc (1024 * 1024) 2 id⟩
  | some c => exact ⟨c.1, c.2, id, [], h c rfl, Snap.WInv.init enc c.1 c.2 id⟩

/-- A replica before its start. -/
structure New (a0 : σ) (r0 : ρ) (d : Driver σ ρ (Channels P S E H) H) : Prop where
  actor : d.actor = a0
  raft : d.raft = r0
  comm : d.comm.module = Comm.Module.new
  snap : d.snap = Snap.Processor.new Snap.Sender.new Snap.Receiver.new
  state : d.state = .created
  snapshots : d.snapshots = []
  proposals : d.proposals = []
  applied : d.applied = 0
  conf : d.conf = ⟨[], [], []⟩

/-- A replica whose actor and snapshot processor are set up. -/
structure Half (codecs : Codecs) (T : Terms σ ρ) (F : Nat → Storage.ConfState → ρ → Prop) (id : Nat) (d : Driver σ ρ (Channels P S E H) H) : Prop where
  actor : T.actor d.actor
  raft : F d.applied d.conf d.raft
  comm : d.comm.module = Comm.Module.new
  role : d.snap.role = .follower
  sender : SenderOk codecs.encMeta d.snap.sender
  receiver : d.snap.receiver.state = none
  snapshots : d.snapshots = []
  proposals : d.proposals = []
  persistent : d.ephemeral = false
  id : d.id = id

omit hA hR hV in
theorem Half.configure {F : Nat → Storage.ConfState → ρ → Prop} {id : Nat} (cfg : Option RaftConfig) (h : Half codecs T F id d) : Half codecs T F id (configure cfg d) := by
  cases cfg with
  | none => exact h
  | some c => exact { h with }

theorem goes_initializeRaftNode {cfg : Option RaftConfig} {im : Bytes} {leader : Bool} {id : Nat} (hc : T.raftConfig cfg) (hi : T.image im)
    (h : Half codecs T (fun n c r => r = r0 ∧ n = 0 ∧ c = ⟨[], [], []⟩) id d) : Goes (initializeRaftNode Sy cfg im leader) d fun _ d' => Half codecs T (T.raft .idle) id d' := by
  have h1 := h.configure cfg
  unfold initializeRaftNode
  refine Goes.bind (Goes.modify ?_)
  generalize configure cfg d = d1 at h1 ⊢
  refine Goes.bind (Goes.get ?_)
  obtain ⟨r, hr, hri⟩ := hR.init (id := d1.id) (leader := leader) (n := d1.snapshotCount) hc hi
  obtain ⟨x, hx⟩ := hR.state hri
  refine Goes.bind (Goes.raft (r := r) (b := .ok ()) (by rw [← h1.raft.1] at hr; exact hr) (Goes.bind (Goes.orFail ?_)))
  have h2 : Half codecs T (fun n c r' => r' = r ∧ n = 0 ∧ c = ⟨[], [], []⟩) id { d1 with raft := r, trace := d1.trace ++ [.raftInit d1.id im leader (.ok ())] } :=
    { h1 with raft := ⟨rfl, h1.raft.2⟩ }
  have hid : ({ d1 with raft := r, trace := d1.trace ++ [.raftInit d1.id im leader (.ok ())] } : Driver σ ρ (Channels P S E H) H).id = d1.id := rfl
  generalize ({ d1 with raft := r, trace := d1.trace ++ [.raftInit d1.id im leader (.ok ())] } : Driver σ ρ (Channels P S E H) H) = d2 at h2 hid ⊢
  rw [← hid] at hri
  refine Goes.bind (Goes.modify ?_)
  have h3 : Half codecs T (T.raft .idle) id (if leader then { d2 with applied := 1, conf := ⟨[d2.id], [], []⟩ } else d2) := by
    cases leader
    · have h0 : T.raft .idle d2.applied d2.conf d2.raft := by
        rw [h2.raft.1, h2.raft.2.1, h2.raft.2.2]
        exact hri
      exact { h2 with raft := h0 }
    · have h0 : T.raft .idle 1 ⟨[d2.id], [], []⟩ d2.raft := by rw [h2.raft.1]; exact hri
      exact { h2 with raft := h0 }
  have hx3 : R.state (if leader then { d2 with applied := 1, conf := ⟨[d2.id], [], []⟩ } else d2).raft = .ok x := by
    split <;> (rw [← h2.raft.1] at hx; exact hx)
  generalize (if leader then { d2 with applied := 1, conf := ⟨[d2.id], [], []⟩ } else d2) = d3 at h3 hx3 ⊢
  exact Goes.bind (Goes.modify (Goes.bind (Goes.bind (Goes.ask hx3 (Goes.bind (Goes.get (Goes.pure (Goes.modify { h3 with }))))))))

theorem goes_start {q : StartReq} (hq : GoodStart T q) (h : New a0 r0 d) : Goes (processStart Sy q) d fun _ d' => Fine ops codecs T .idle d' := by
  unfold processStart
  refine Goes.bind (Goes.bind (Goes.get ?_))
  rw [if_neg (by simp [h.state])]
  refine Goes.pure (Goes.bind (Goes.modify ?_))
  obtain ⟨s, hs, hsa⟩ := hA.init (ctx := { d.ctx with id := q.idHint, config := q.appConfig }) hq.config
  refine Goes.bind (Goes.actor (s := s) (b := .ok ()) (by rw [show d.actor = a0 from h.actor]; exact hs) (Goes.bind (Goes.orFail (Goes.bind (Goes.modify ?_)))))
  rw [hq.ephemeral]
  have hc : ∀ c, (q.raftConfig.bind fun c => c.snapshotConfig).map (fun s => s.2) = some c → 0 < c.1 := by
    intro c hc
    cases h1 : q.raftConfig with
    | none => simp [h1] at hc
    | some x =>
      cases h2 : x.snapshotConfig with
      | none => simp [h1, h2] at hc
      | some y =>
        simp [h1, h2] at hc
        subst hc
        exact hq.chunkSize x y h1 h2
  refine Goes.seq (Q := fun _ d' => Half codecs T (T.raft .idle) q.idHint d') ?_ fun _ d1 h1 => ?_
  · unfold startConsensus
    obtain ⟨s2, im, hs2, hsa2, him⟩ := hA.save (ctx := { d.ctx with id := q.idHint, config := q.appConfig }) hsa
    refine Goes.bind (Goes.actor hs2 (Goes.bind (Goes.orFail (Goes.bind (Goes.get (Goes.bind (Goes.snap (p := { d.snap with
      replicaId := q.idHint
      sender := Snap.Sender.new.init q.idHint ((q.raftConfig.bind fun c => c.snapshotConfig).map fun s => s.2)
      receiver := Snap.Receiver.new.init q.idHint
      role := .follower }) (b := ()) ?_ ?_)))))))
    · change (d.snap.init q.idHint _).bind _ = _
      rw [h.snap]
      simp only [Snap.Processor.init, Snap.Processor.new, ne_eq, not_true_eq_false, if_false, Run.bind_ok]
    · exact goes_initializeRaftNode hA hR hV hq.raftConfig him
        ⟨hsa2, ⟨h.raft, h.applied, h.conf⟩, h.comm, rfl, senderOk_init _ _ _ hc, rfl, h.snapshots, h.proposals, rfl, rfl⟩
  · obtain ⟨g1, g2, g3, g4, g5, g6, g7, g8, g9, g10⟩ := h1
    rw [show q.endorsements.isNone = false by rw [← Option.not_isSome, hq.endorsements]; rfl]
    refine Goes.bind (Goes.when (fun hf => by simp at hf) fun _ => ?_)
    refine Goes.bind (Goes.modify (Goes.bind (Goes.modify (Goes.bind (Goes.get (Goes.stash ?_))))))
    have hid : d1.id ≠ 0 := by rw [g10]; exact hq.id
    have hheld : Held codecs T d1.snap.receiver := by
      intro r' snd sn hx
      simp [Snap.Receiver.tryComplete, g6] at hx
    refine ⟨g1, g2, ?_, by simp [g4], g5, fun s hs => by simp [g6] at hs, hheld, by simp [g7], by simp [g8], g9⟩
    split
    · exact commOk_init (V := V) g3 hid _ _ _ _ _
    · exact commOk_init (V := V) g3 hid _ _ _ _ _

theorem serve_start {i : Nat} {q : StartReq} (hq : GoodStart T q) (h : New a0 r0 d) :
    ∃ d' out, serve Sy i (some (some (.startReplica q))) d = .ok (d', out) ∧ Fine ops codecs T .idle d' := by
  have : Goes (receive Sy i (some (some (.startReplica q)))) d fun _ d' => Fine ops codecs T .idle d' := by
    refine Goes.bind (Goes.modify ?_)
    refine Goes.bind ?_
    refine Goes.seq (goes_start hA hR hV hq ⟨h.actor, h.raft, h.comm, h.snap, h.state, h.snapshots, h.proposals, h.applied, h.conf⟩) fun _ d1 h1 => ?_
    exact Goes.pure (goes_rest hA hR hV hA.empty (fun hn => absurd rfl hn) h1)
  obtain ⟨d', a, h1, h2⟩ := this
  exact ⟨d', a.getD [], by simp only [serve, h1, Run.bind_ok], h2⟩

omit hA hR hV in
theorem new_fresh (a : σ) (r : ρ) (p : P) : New a r (Driver.new a r (Channels.new p) : Driver σ ρ (Channels P S E H) H) :=
  ⟨rfl, rfl, rfl, rfl, rfl, rfl, rfl, rfl, rfl⟩

theorem Kept.fine {d0 : Driver σ ρ (Channels P S E H) H} (h0 : New a0 r0 d0) (h : Kept Sy T d0 d) : Fine ops codecs T .idle d := by
  induction h with
  | start hq h =>
    obtain ⟨d', out, h1, h2⟩ := serve_start hA hR hV hq h0
    rw [h] at h1
    simp only [Run.ok.injEq, Prod.mk.injEq] at h1
    rw [h1.1]; exact h2
  | call _ hm hs ih =>
    obtain ⟨d', out, h1, h2⟩ := serve_fine hA hR hV hm ih
    rw [hs] at h1
    simp only [Run.ok.injEq, Prod.mk.injEq] at h1
    rw [h1.1]; exact h2

end driver

/-! ## Ephemeral replicas -/

/-- The parts of an ephemeral replica are in order. -/
structure FineE (ops : Comm.Ops S E H) (T : Terms σ ρ) (d : Driver σ ρ (Channels P S E H) H) : Prop where
  actor : T.actor d.actor
  comm : CommOk ops d.comm
  ephemeral : d.ephemeral = true

section ephemeral
variable {A : Actor σ} {R : RaftT ρ} {ops : Comm.Ops S E H} {V : Env P S E H} {codecs : Codecs} {T : Terms σ ρ} {a0 : σ} {r0 : ρ}
variable {d : Driver σ ρ (Channels P S E H) H}

local notation "Sy" => replica A R ops V codecs

theorem goesE_stashCommands (cs : List ActorCommand) (h : FineE ops T d) : Goes (stashCommands cs) d fun _ d' => FineE ops T d' := by
  induction cs generalizing d with
  | nil => exact Goes.pure h
  | cons c cs ih => exact Goes.bind (Goes.stash (ih { h with }))

theorem goesE_appMessage (hA : ActorSafe A T a0) {c : Option ActorCommand} (hc : T.command c) (hs : d.state = .started) (h : FineE ops T d) :
    Goes (processAppMessage Sy c) d fun _ d' => FineE ops T d' := by
  refine Goes.bind (Goes.bind (Goes.get ?_))
  rw [if_neg (by simp [hs])]
  refine Goes.pure ?_
  obtain ⟨s, o, ho, hi, hev⟩ := hA.command (ctx := d.ctx) h.actor hc
  refine Goes.bind (Goes.actor ho (Goes.bind (Goes.orFail ?_)))
  refine Goes.seq (goesE_stashCommands _ { h with actor := hi }) fun _ d2 h2 => ?_
  cases he : o.event with
  | none => exact Goes.pure h2
  | some ev =>
    refine Goes.bind (Goes.get ?_)
    rw [if_pos h2.ephemeral]
    obtain ⟨s', o', ho', hi'⟩ := hA.apply (ctx := d2.ctx) (ec := ⟨0, true⟩) h2.actor (hev ev he).1
    exact Goes.bind (Goes.actor ho' (Goes.bind (Goes.orFail (goesE_stashCommands _ { h2 with actor := hi' }))))

theorem goesE_rest (hA : ActorSafe A T a0) (hV : ChannelsSafe ops V) {c : Option ActorCommand} (hc : T.command c) (h : FineE ops T d) :
    Goes (do runActor Sy c; runRaft Sy; let out ← flush Sy; Pure.pure (some out)) d fun _ d' => FineE ops T d' := by
  refine Goes.seq (Q := fun _ d' => FineE ops T d') (Goes.bind (Goes.get ?_)) fun _ d1 h1 => ?_
  · split
    · rename_i hs
      exact Goes.seq (goesE_appMessage hA hc hs h) fun _ d1 h1 => Goes.modify { h1 with comm := commOk_tick (V := V) h1.comm }
    · exact Goes.pure h
  · refine Goes.seq (Q := fun _ d' => FineE ops T d') (Goes.bind (Goes.get ?_)) fun _ d2 h2 => ?_
    · rw [if_pos h1.ephemeral]
      exact Goes.pure h1
    · obtain ⟨c, out, hc, hok⟩ := commOk_take hV h2.comm
      refine Goes.bind (Goes.bind (α := Unit) ⟨{ d2 with comm := c, messages := d2.messages ++ out.map .comm, trace := d2.trace ++ out.map fun m => .out (.comm m) }, (), ?_, ?_⟩)
      · change ((commT ops V).takeOut d2.comm).bind _ = _
        rw [hc]; rfl
      · exact Goes.bind (Goes.get (Goes.bind (Goes.modify (Goes.pure (Goes.pure { h2 with comm := hok })))))

theorem serveE_fine (hA : ActorSafe A T a0) (hV : ChannelsSafe ops V) {i : Nat} {m : Option (Option (InMsg H))} (hm : FairEphemeral T d m) (h : FineE ops T d) :
    ∃ d' out, serve Sy i m d = .ok (d', out) ∧ FineE ops T d' := by
  have : Goes (receive Sy i m) d fun _ d' => FineE ops T d' := by
    refine Goes.bind (Goes.modify ?_)
    rcases m with _ | (_ | m)
    · exact goesE_rest hA hV hA.empty { h with }
    · exact Goes.pure { h with }
    · cases m with
      | startReplica q => exact absurd hm (by simp [FairEphemeral])
      | stopReplica =>
        refine Goes.bind ?_
        refine Goes.seq (Q := fun _ d' => FineE ops T d') (Goes.bind (Goes.get ?_)) fun _ d1 h1 => Goes.pure (goesE_rest hA hV hA.empty h1)
        split
        · exact Goes.pure { h with }
        · obtain ⟨s, hs, ha⟩ := hA.shutdown (ctx := { d.ctx with instant := max d.instant i, leader := (Sy).R.leader d.raft }) h.actor
          refine Goes.bind (Goes.actor (s := s) (b := ()) ?_ (Goes.bind (Goes.modify (Goes.stash { h with actor := ha }))))
          change (A.onShutdown _ d.actor).bind _ = _
          rw [hs]; rfl
      | enterLameduck => exact Goes.bind (Goes.bind (Goes.modify (Goes.pure (goesE_rest hA hV hA.empty { h with }))))
      | changeCluster c r t => exact absurd hm (by simp [FairEphemeral])
      | checkCluster => exact absurd hm (by simp [FairEphemeral])
      | systemMessage r s p => exact absurd hm (by simp [FairEphemeral])
      | snapshotRequest r s i p => exact absurd hm (by simp [FairEphemeral])
      | snapshotResponse r s i p => exact absurd hm (by simp [FairEphemeral])
      | snapshotFailure s i => exact absurd hm (by simp [FairEphemeral])
      | getReplicaState =>
        have hs : d.state = .started := hm
        refine Goes.bind (Goes.bind (Goes.bind (Goes.bind (Goes.get ?_))))
        rw [if_neg (by simp [hs])]
        refine Goes.pure (Goes.bind (Goes.get ?_))
        rw [if_pos h.ephemeral]
        exact Goes.stash (Goes.pure (goesE_rest hA hV hA.empty { h with }))
      | handshake s x =>
        have hs : d.state = .started := hm
        refine Goes.bind (Goes.bind (Goes.bind (Goes.bind (Goes.get ?_))))
        rw [if_neg (by simp [hs])]
        obtain ⟨c', up, hc, hok, hup⟩ := commOk_in hV h.comm (m := .handshake s x) (fun d hd => by cases hd) (by simp)
        exact Goes.pure (Goes.bind (Goes.comm hc (Goes.pure (Goes.pure (goesE_rest hA hV hA.empty { h with comm := hok })))))
      | appMessage c => exact Goes.bind (Goes.pure (goesE_rest hA hV hm { h with }))
  obtain ⟨d', a, h1, h2⟩ := this
  exact ⟨d', a.getD [], by simp only [serve, h1, Run.bind_ok], h2⟩

theorem serveE_start (hA : ActorSafe A T a0) (hV : ChannelsSafe ops V) {i : Nat} {q : StartReq} (hq : GoodEphemeralStart T q) (h : New a0 r0 d) :
    ∃ d' out, serve Sy i (some (some (.startReplica q))) d = .ok (d', out) ∧ FineE ops T d' := by
  have : Goes (receive Sy i (some (some (.startReplica q)))) d fun _ d' => FineE ops T d' := by
    refine Goes.bind (Goes.modify (Goes.bind (Goes.bind (Goes.bind (Goes.bind (Goes.get ?_))))))
    rw [if_neg (by simp [h.state])]
    refine Goes.pure (Goes.bind (Goes.modify ?_))
    obtain ⟨s, hs, hsa⟩ := hA.init (ctx := { d.ctx with instant := max d.instant i, leader := (Sy).R.leader d.raft, id := q.idHint, config := q.appConfig }) hq.config
    refine Goes.bind (Goes.actor (s := s) (b := .ok ()) (by rw [show d.actor = a0 from h.actor]; exact hs) (Goes.bind (Goes.orFail (Goes.bind (Goes.modify ?_)))))
    rw [hq.ephemeral, show q.endorsements.isNone = false by rw [← Option.not_isSome, hq.endorsements]; rfl]
    refine Goes.bind (Goes.when (fun hf => by simp at hf) fun _ => ?_)
    refine Goes.bind (Goes.when (fun hf => by simp at hf) fun _ => ?_)
    refine Goes.bind (Goes.modify (Goes.bind (Goes.modify (Goes.bind (Goes.get (Goes.stash (Goes.pure (goesE_rest hA hV hA.empty ?_))))))))
    refine ⟨hsa, ?_, rfl⟩
    split
    · exact commOk_init (V := V) h.comm hq.id _ _ _ _ _
    · exact commOk_init (V := V) h.comm hq.id _ _ _ _ _
  obtain ⟨d', a, h1, h2⟩ := this
  exact ⟨d', a.getD [], by simp only [serve, h1, Run.bind_ok], h2⟩

theorem KeptEphemeral.fine (hA : ActorSafe A T a0) (hV : ChannelsSafe ops V) {d0 : Driver σ ρ (Channels P S E H) H} (h0 : New a0 r0 d0)
    (h : KeptEphemeral Sy T d0 d) : FineE ops T d := by
  induction h with
  | start hq h =>
    obtain ⟨d', out, h1, h2⟩ := serveE_start (i := _) hA hV hq h0
    rw [h] at h1
    simp only [Run.ok.injEq, Prod.mk.injEq] at h1
    rw [h1.1]; exact h2
  | call _ hm hs ih =>
    obtain ⟨d', out, h1, h2⟩ := serveE_fine (i := _) hA hV hm ih
    rw [hs] at h1
    simp only [Run.ok.injEq, Prod.mk.injEq] at h1
    rw [h1.1]; exact h2

end ephemeral

/-! ## Calls that end the process -/

section failing
variable {κ : Type} {Sy : Sys σ ρ κ H} {d : Driver σ ρ κ H}

/-- A method that does not get through. -/
def Ends {D α : Type} (m : M D α) (d : D) : Prop := m d = .panic ∨ ∃ d' e, m d = .ok (d', .error e)

theorem Ends.bind {D α β : Type} {m : M D α} {f : α → M D β} {d : D} (h : Ends m d) : Ends (m >>= f) d := by
  rcases h with h | ⟨d', e, h⟩
  · left; change M.bind m f d = _; unfold M.bind; rw [h]
  · right; exact ⟨d', e, by change M.bind m f d = _; unfold M.bind; rw [h]⟩

theorem Goes.ends {D α β : Type} {m : M D α} {f : α → M D β} {d : D} (h : Goes m d fun a d' => Ends (f a) d') : Ends (m >>= f) d := by
  obtain ⟨d1, a, h1, h2⟩ := h
  have he : (m >>= f) d = f a d1 := by change M.bind m f d = _; unfold M.bind; rw [h1]
  rcases h2 with h2 | ⟨d', e, h2⟩
  · left; rw [he, h2]
  · right; exact ⟨d', e, by rw [he, h2]⟩

theorem Ends.fail {D α : Type} {e : PalErr} {d : D} : Ends (M.fail e : M D α) d := Or.inr ⟨d, e, rfl⟩

theorem Ends.panic {D α : Type} {d : D} : Ends (M.panic : M D α) d := Or.inl rfl

/-- The replica when it starts to deal with a message. -/
def preset' (R : RaftT ρ) (i : Nat) (d : Driver σ ρ κ H) : Driver σ ρ κ H :=
  { d with prevRaftState := d.raftState, instant := max d.instant i, ctx := { d.ctx with instant := max d.instant i, leader := R.leader d.raft } }

theorem serve_ends {i : Nat} {m : Option (Option (InMsg H))} (h : Ends (receive Sy i m) d) : serve Sy i m d = .panic := by
  rcases h with h | ⟨d', e, h⟩ <;> simp [serve, h]

theorem dispatch_ends {i : Nat} {m : InMsg H} (h : Ends (dispatch Sy m) (preset' Sy.R i d)) : serve Sy i (some (some m)) d = .panic :=
  serve_ends (Goes.ends (Goes.modify h.bind))

theorem checkState_ends {l : Lifecycle} (h : d.state ≠ l) : Ends (checkState l) d := by
  refine Goes.ends (Goes.get ?_)
  rw [if_pos h]
  exact Ends.fail

theorem checkNonEphemeral_ends (h : d.ephemeral = true) : Ends checkNonEphemeral d := by
  refine Goes.ends (Goes.get ?_)
  rw [if_pos h]
  exact Ends.fail

theorem goes_started (h : d.state = .started) : Goes (checkState .started) d fun _ d' => d' = d := by
  refine Goes.bind (Goes.get ?_)
  rw [if_neg (by simp [h])]
  exact Goes.pure rfl

theorem goes_persistent (h : d.ephemeral = false) : Goes checkNonEphemeral d fun _ d' => d' = d := by
  refine Goes.bind (Goes.get ?_)
  rw [if_neg (by simp [h])]
  exact Goes.pure rfl

theorem app_ends {i : Nat} {c : ActorCommand} (hs : d.state = .started) (h : Ends (processAppMessage Sy (some c)) (preset' Sy.R i d)) :
    serve Sy i (some (some (.appMessage c))) d = .panic := by
  refine serve_ends (Goes.ends (Goes.modify (Goes.ends (Goes.pure (Ends.bind (Goes.ends (Goes.get ?_)))))))
  rw [if_pos (show ({ d with prevRaftState := d.raftState, instant := max d.instant i, ctx := { d.ctx with instant := max d.instant i, leader := Sy.R.leader d.raft } } : Driver σ ρ κ H).state = .started from hs)]
  exact h.bind

end failing

end TCP.Survive
