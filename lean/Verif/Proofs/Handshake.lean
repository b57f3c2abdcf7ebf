import Verif.Spec.Handshake
import Verif.Proofs.Comm

/-! # Lemmas about handshake sessions and the round trip -/

namespace TCP.Handshake
open TCP Comm Comm.Spec Spec

variable {Q S E H : Type}

/-! ## One session -/

theorem HS.process_terminal {oak : Oak Q} {s : HS Q} (m : HMsg) (h : s.state = .completed ∨ s.state = .failed) :
    s.process oak m = (s, .ok ()) := by
  unfold HS.process
  rcases h with h | h <;> simp [h]

theorem HS.takeOut_terminal {oak : Oak Q} {s : HS Q} (h : s.state = .completed ∨ s.state = .failed) :
    s.takeOut oak = (s, .ok none) := by
  unfold HS.takeOut
  rcases h with h | h <;> simp [h]

/-- What `process_message` does in a state that is not terminal. -/
theorem HS.process_cases {oak : Oak Q} {s s' : HS Q} {m : HMsg} {r : Except Unit Unit}
    (h : s.process oak m = (s', r)) (h1 : s.state ≠ .completed) (h2 : s.state ≠ .failed) :
    s'.role = s.role ∧
    ((r = .error () ∧ s'.state = .failed) ∨
     (r = .ok () ∧ s'.state = .initiated ∧ (s.role = .initiator → s.state = .initiated) ∧
       ∃ x, s.accepts m = some x ∧ s' = { s with session := (oak.put s.session x).1, state := .initiated })) := by
  have hh : HS.process.handle oak m s = (s', r) → s'.role = s.role ∧
    ((r = .error () ∧ s'.state = .failed) ∨
     (r = .ok () ∧ s'.state = .initiated ∧
       ∃ x, s.accepts m = some x ∧ s' = { s with session := (oak.put s.session x).1, state := .initiated })) := by
    intro h
    unfold HS.process.handle at h
    cases ha : s.accepts m with
    | none =>
      rw [ha] at h; simp at h; obtain ⟨rfl, rfl⟩ := h
      exact ⟨rfl, Or.inl ⟨rfl, rfl⟩⟩
    | some x =>
      rw [ha] at h
      simp only at h
      cases hp : (oak.put s.session x).2 with
      | error e =>
        rw [hp] at h; simp at h; obtain ⟨rfl, rfl⟩ := h
        exact ⟨rfl, Or.inl ⟨rfl, rfl⟩⟩
      | ok u =>
        rw [hp] at h; simp at h; obtain ⟨rfl, rfl⟩ := h
        exact ⟨rfl, Or.inr ⟨rfl, rfl, x, rfl, rfl⟩⟩
  unfold HS.process at h
  cases hst : s.state with
  | completed => exact absurd hst h1
  | failed => exact absurd hst h2
  | unknown =>
    rw [hst] at h
    simp only at h
    cases hr : s.role with
    | initiator => rw [hr] at h; simp at h; obtain ⟨rfl, rfl⟩ := h; exact ⟨rfl, Or.inl ⟨rfl, rfl⟩⟩
    | recipient =>
      rw [hr] at h
      simp only at h
      obtain ⟨a, b⟩ := hh h
      refine ⟨a.trans hr, ?_⟩
      rcases b with b | ⟨b1, b2, b3⟩
      · exact Or.inl b
      · exact Or.inr ⟨b1, b2, by simp, hr ▸ b3⟩
  | initiated =>
    rw [hst] at h
    obtain ⟨a, b⟩ := hh h
    refine ⟨a, ?_⟩
    rcases b with b | ⟨b1, b2, b3⟩
    · exact Or.inl b
    · exact Or.inr ⟨b1, b2, fun _ => rfl, b3⟩

/-- What `take_out_message` does in a state that is not terminal. -/
theorem HS.takeOut_cases {oak : Oak Q} {s s' : HS Q} {r : Except Unit (Option HMsg)}
    (h : s.takeOut oak = (s', r)) (h1 : s.state ≠ .completed) (h2 : s.state ≠ .failed) :
    s'.role = s.role ∧
    ((r = .error () ∧ s'.state = .failed) ∨
     (s.role = .recipient ∧ s.state = .unknown ∧ s' = s ∧ r = .ok none) ∨
     (∃ o, r = .ok o ∧ s'.session = (oak.get s.session).1 ∧ (s.state = .unknown → s.role = .initiator) ∧
        (s'.state = .initiated ∨
          (s'.state = .completed ∧ oak.isOpen s'.session = true ∧ s.state = .initiated)))) := by
  unfold HS.takeOut at h
  cases hst : s.state with
  | completed => exact absurd hst h1
  | failed => exact absurd hst h2
  | unknown =>
    rw [hst] at h
    simp only at h
    cases hr : s.role with
    | recipient => rw [hr] at h; simp at h; obtain ⟨rfl, rfl⟩ := h; exact ⟨hr, Or.inr (Or.inl ⟨rfl, rfl, rfl, rfl⟩)⟩
    | initiator =>
      rw [hr] at h
      simp only at h
      cases hg : (oak.get s.session).2 with
      | error e => rw [hg] at h; simp at h; obtain ⟨rfl, rfl⟩ := h; exact ⟨rfl, Or.inl ⟨rfl, rfl⟩⟩
      | ok o =>
        rw [hg] at h; simp at h; obtain ⟨rfl, rfl⟩ := h
        exact ⟨rfl, Or.inr (Or.inr ⟨_, rfl, rfl, fun _ => rfl, Or.inl rfl⟩)⟩
  | initiated =>
    rw [hst] at h
    simp only at h
    cases hg : (oak.get s.session).2 with
    | error e => rw [hg] at h; simp at h; obtain ⟨rfl, rfl⟩ := h; exact ⟨rfl, Or.inl ⟨rfl, rfl⟩⟩
    | ok o =>
      rw [hg] at h; simp at h; obtain ⟨rfl, rfl⟩ := h
      refine ⟨rfl, Or.inr (Or.inr ⟨_, rfl, rfl, fun h => by (cases h), ?_⟩)⟩
      by_cases ho : oak.isOpen (oak.get s.session).1 = true
      · exact Or.inr ⟨by simp [ho], ho, rfl⟩
      · exact Or.inl (by simp [ho])

/-- A message was accepted from the peer. -/
def Heard (role : Role) (cs : List Call) : Prop := ∃ m, Call.process m (.ok ()) ∈ cs ∧ FromOtherRole role m

theorem accepts_from {s : HS Q} {m : HMsg} {x : SessMsg} (h : s.accepts m = some x) : FromOtherRole s.role m := by
  unfold HS.accepts at h
  cases hr : s.role <;> cases hb : m.body <;> simp [hr, hb] at h
  · rename_i o; cases o <;> simp at h; subst h; exact ⟨_, hb⟩
  · rename_i o; cases o <;> simp at h; subst h; exact ⟨_, hb⟩

structure TInv (oak : Oak Q) (s0 : HS Q) (cs : List Call) (s : HS Q) : Prop where
  role : s.role = s0.role
  opened : s.state = .completed → oak.isOpen s.session = true
  start : cs = [] → s = s0
  early : s0.role = .initiator → ∀ m r rest, cs = .process m r :: rest → r = .error () ∧ s.state = .failed
  server : s0.role = .recipient → Heard .recipient cs ∨ s.state = .unknown ∨ s.state = .failed
  heard : Heard s0.role cs ∨ s.state = .failed ∨ ∃ n, s.session = Nat.repeat (fun q => (oak.get q).1) n s0.session

theorem Heard.mono {role : Role} {cs : List Call} (h : Heard role cs) (c : Call) : Heard role (cs ++ [c]) := by
  obtain ⟨m, h1, h2⟩ := h
  exact ⟨m, by simp [h1], h2⟩

theorem TInv.trace {oak : Oak Q} {s0 s : HS Q} {cs : List Call} (h0 : s0.state = .unknown) (h : Trace oak s0 cs s) :
    TInv oak s0 cs s := by
  induction h with
  | nil => exact ⟨rfl, by simp [h0], fun _ => rfl, by simp, fun _ => Or.inr (Or.inl h0), Or.inr (Or.inr ⟨0, rfl⟩)⟩
  | @take cs s s' r h hc ih =>
    by_cases ht : s.state = .completed ∨ s.state = .failed
    · rw [HS.takeOut_terminal ht] at hc
      simp at hc; obtain ⟨rfl, rfl⟩ := hc
      refine ⟨ih.role, ih.opened, by simp, ?_, ?_, ?_⟩
      · intro hr m r rest he
        cases cs with
        | nil => simp at he
        | cons c cs => simp at he; exact ih.early hr m r cs (by simp [he.1])
      · intro hr; exact (ih.server hr).imp (·.mono _) id
      · exact ih.heard.imp (·.mono _) id
    · have ht1 : s.state ≠ .completed := fun h => ht (Or.inl h)
      have ht2 : s.state ≠ .failed := fun h => ht (Or.inr h)
      have hearly : s0.role = .initiator → ∀ m r' rest, cs ++ [Call.take r] = .process m r' :: rest →
          r' = .error () ∧ s'.state = .failed := by
        intro hr m r' rest he
        cases cs with
        | nil => simp at he
        | cons c cs =>
          simp at he
          exact absurd (ih.early hr m r' cs (by simp [he.1])).2 ht2
      obtain ⟨hrole, hcase⟩ := HS.takeOut_cases hc ht1 ht2
      rcases hcase with ⟨_, hf⟩ | ⟨_, _, rfl, _⟩ | ⟨o, _, hse, hun, hst⟩
      · exact ⟨hrole.trans ih.role, by simp [hf], by simp, hearly, fun _ => Or.inr (Or.inr hf), Or.inr (Or.inl hf)⟩
      · exact ⟨ih.role, ih.opened, by simp, hearly, fun hr => (ih.server hr).imp (·.mono _) id,
          ih.heard.imp (·.mono _) id⟩
      · refine ⟨hrole.trans ih.role, ?_, by simp, hearly, ?_, ?_⟩
        · intro hcp
          rcases hst with hi | ⟨_, ho, _⟩
          · rw [hi] at hcp; cases hcp
          · exact ho
        · intro hr
          refine Or.inl ?_
          rcases ih.server hr with h1 | h1 | h1
          · exact h1.mono _
          · have := hun h1
            rw [ih.role, hr] at this; cases this
          · exact absurd h1 ht2
        · rcases ih.heard with h1 | h1 | ⟨n, h1⟩
          · exact Or.inl (h1.mono _)
          · exact absurd h1 ht2
          · exact Or.inr (Or.inr ⟨n + 1, by rw [hse, h1]; rfl⟩)
  | @process cs s s' m r h hc ih =>
    by_cases ht : s.state = .completed ∨ s.state = .failed
    · rw [HS.process_terminal m ht] at hc
      simp at hc; obtain ⟨rfl, rfl⟩ := hc
      refine ⟨ih.role, ih.opened, by simp, ?_, ?_, ?_⟩
      · intro hr m' r rest he
        cases cs with
        | nil =>
          have := ih.start rfl
          subst this
          rw [h0] at ht; simp at ht
        | cons c cs => simp at he; exact ih.early hr m' r cs (by simp [he.1])
      · intro hr; exact (ih.server hr).imp (·.mono _) id
      · exact ih.heard.imp (·.mono _) id
    · have ht1 : s.state ≠ .completed := fun h => ht (Or.inl h)
      have ht2 : s.state ≠ .failed := fun h => ht (Or.inr h)
      obtain ⟨hrole, hcase⟩ := HS.process_cases hc ht1 ht2
      have hearly : s0.role = .initiator → ∀ m' r' rest, cs ++ [Call.process m r] = .process m' r' :: rest →
          r' = .error () ∧ s'.state = .failed := by
        intro hr m' r' rest he
        cases cs with
        | nil =>
          simp at he
          obtain ⟨⟨rfl, rfl⟩, _⟩ := he
          have hs := ih.start rfl
          rcases hcase with ⟨h1, h2⟩ | ⟨_, _, h3, _⟩
          · exact ⟨h1, h2⟩
          · rw [hs] at h3; have := h3 hr; rw [h0] at this; cases this
        | cons c cs =>
          simp at he
          exact absurd (ih.early hr m' r' cs (by simp [he.1])).2 ht2
      rcases hcase with ⟨_, hf⟩ | ⟨hr1, hst, _, x, hx, hs'⟩
      · exact ⟨hrole.trans ih.role, by simp [hf], by simp, hearly, fun _ => Or.inr (Or.inr hf), Or.inr (Or.inl hf)⟩
      · have hheard : Heard s0.role (cs ++ [.process m r]) :=
          ⟨m, by simp [hr1], by rw [← ih.role]; exact accepts_from hx⟩
        exact ⟨hrole.trans ih.role, by simp [hst], by simp, hearly, fun hr => Or.inl (hr ▸ hheard), Or.inl hheard⟩

/-! ## The round trip -/

theorem OakLinked.linked {oak : Oak Q} {L : Q → Q → List (Bytes × Payload) → List (Bytes × Payload) → Prop}
    (h : OakLinked oak L) : Linked (ops oak) L where
  symm := h.symm
  enc := by
    intro e f xs ys b hl
    obtain ⟨e1, e2, c, n, h1, h2, h3⟩ := h.send b hl
    exact ⟨e2, ⟨c, n⟩, by simp [ops, encrypt, h1, h2], h3⟩
  dec := by
    intro e f b pl xs ys hl
    obtain ⟨f1, f2, h1, h2, h3⟩ := h.recv hl
    exact ⟨f2, by simp [ops, decrypt, h1, h2], h3⟩

/-- Encrypting a queue under the contract. -/
theorem encryptAll_linked {ops : Ops S E H} {L : E → E → List (Bytes × Payload) → List (Bytes × Payload) → Prop}
    (hl : Linked ops L) {e f : E} {xs ys : List (Bytes × Payload)} (q : List Outgoing) (h : L e f xs ys)
    (hq : ∀ u ∈ q, u.data.payload.isSome) :
    ∃ (e' : E) (way : Way), encryptAll ops e q = .ok (e', (Way.net way).map OutMsg.data) ∧ way.map Prod.fst = q ∧
      L e' f (xs ++ way.crypto) ys := by
  induction q generalizing e xs with
  | nil => exact ⟨e, [], by simp [encryptAll, Way.net], rfl, by simpa [Way.crypto] using h⟩
  | cons u q ih =>
    obtain ⟨pl, hpl⟩ := Option.isSome_iff_exists.mp (hq u (by simp))
    obtain ⟨e1, c, h1, h2⟩ := hl.enc pl.contents h
    obtain ⟨e2, way, h3, h4, h5⟩ := ih h2 (fun v hv => hq v (by simp [hv]))
    refine ⟨e2, (u, c) :: way, ?_, by simp [h4], ?_⟩
    · simp only [encryptAll, hpl, h1, Run.bind_ok, h3]
      simp [Way.net]
    · have hp : plain u = pl.contents := by simp [plain, hpl]
      simpa [Way.crypto, hp] using h5

/-- How accepted messages are accounted for: those gone (delivered or in flight) and those queued. -/
structure Acct (acc fl q : List Outgoing) : Prop where
  oth : others acc = others (fl ++ q)
  hbs : (heartbeats (fl ++ q)).Sublist (heartbeats acc)
  hbLast : (heartbeats (fl ++ q)).getLast? = (heartbeats acc).getLast?

theorem Acct.accept {acc fl q : List Outgoing} (h : Acct acc fl q) (hq : (heartbeats q).length ≤ 1) (u : Outgoing) :
    Acct (acc ++ [u]) fl (push q u) := by
  refine ⟨?_, ?_, ?_⟩
  · rw [others_append, others_append, others_push, h.oth, others_append, List.append_assoc]
  · have hb := h.hbs
    rw [heartbeats_append, heartbeats_append, heartbeats_push]
    rw [heartbeats_append] at hb
    by_cases hu : u.isHeartbeat
    · rw [if_pos hu]
      have h1 : heartbeats [u] = [u] := by simp [heartbeats, hu]
      rw [h1]
      have hfl : (heartbeats fl).Sublist (heartbeats acc) := (List.sublist_append_left _ _).trans hb
      by_cases hn : heartbeats q = []
      · rw [if_pos hn]; exact hfl.append (List.Sublist.refl _)
      · rw [if_neg hn]
        have : (heartbeats q).drop 1 = [] := by
          apply List.drop_eq_nil_of_le; exact hq
        rw [this]
        exact hfl.append (List.Sublist.refl _)
    · rw [if_neg hu]
      have h1 : heartbeats [u] = [] := by simp [heartbeats, hu]
      rw [h1, List.append_nil]; exact hb
  · have hb := h.hbLast
    rw [heartbeats_append, heartbeats_append, heartbeats_push]
    rw [heartbeats_append] at hb
    by_cases hu : u.isHeartbeat
    · rw [if_pos hu]
      have h1 : heartbeats [u] = [u] := by simp [heartbeats, hu]
      rw [h1]
      by_cases hn : heartbeats q = []
      · rw [if_pos hn]; simp
      · rw [if_neg hn]
        have : (heartbeats q).drop 1 = [] := by
          apply List.drop_eq_nil_of_le; exact hq
        rw [this]; simp
    · rw [if_neg hu]
      have h1 : heartbeats [u] = [] := by simp [heartbeats, hu]
      rw [h1, List.append_nil]; exact hb

/-- One direction of the conversation. -/
structure Dir (src dst : Nat) (acc q : List Outgoing) (net : List Data) (up : List (InMsg H)) (done : List Outgoing)
    (way : Way) : Prop where
  hnet : net = way.net
  hup : up = done.map arrived
  hway : ∀ x ∈ way, x.1.data.recipient = dst ∧ x.1.data.sender = src
  acct : Acct acc (done ++ way.map Prod.fst) q

structure WInv (ops : Ops S E H) (L : E → E → List (Bytes × Payload) → List (Bytes × Payload) → Prop) (ia ib : Nat)
    (w : World S E H) (e f : E) (qa qb doneAB doneBA : List Outgoing) (wayAB wayBA : Way) : Prop where
  upA : Up w.a ia ib e qa
  upB : Up w.b ib ia f qb
  link : L e f wayAB.crypto wayBA.crypto
  ab : Dir ia ib w.accAB qa w.netAB w.upB doneAB wayAB
  ba : Dir ib ia w.accBA qb w.netBA w.upA doneBA wayBA
  nza : ia ≠ 0
  nzb : ib ≠ 0
  ha : ∃ R T evs, History ops ia R T evs w.a
  hb : ∃ R T evs, History ops ib R T evs w.b

theorem WInv.swap {ops : Ops S E H} {L : E → E → List (Bytes × Payload) → List (Bytes × Payload) → Prop} {ia ib : Nat}
    (hl : Linked ops L) {w : World S E H} {e f : E} {qa qb dab dba : List Outgoing} {wab wba : Way}
    (h : WInv ops L ia ib w e f qa qb dab dba wab wba) : WInv ops L ib ia w.swap f e qb qa dba dab wba wab :=
  ⟨h.upB, h.upA, hl.symm h.link, h.ba, h.ab, h.nzb, h.nza, h.hb, h.ha⟩

/-- An up channel under any event of its owner that is not a message from the peer. -/
theorem up_step {ops : Ops S E H} {L : E → E → List (Bytes × Payload) → List (Bytes × Payload) → Prop}
    (hl : Linked ops L) {ia ib R T : Nat} (nz : ia ≠ 0) {evs : List (Ev S H)} {m m' : Module S E H} {ev : Ev S H}
    {e f : E} {q : List Outgoing} {xs ys : List (Bytes × Payload)} (hh : History ops ia R T evs m)
    (hu : Up m ia ib e q) (h : Step ops m ev m') (hs : SilentFrom ib [ev]) (hk : KeepsPeer ia ib [ev])
    (hp : ∀ u ∈ accepted ib [ev], u.data.sender = ia ∧ u.data.payload.isSome) (hlink : L e f xs ys) :
    ∃ (e' : E) (q' : List Outgoing) (way : Way), Up m' ia ib e' q' ∧ L e' f (xs ++ way.crypto) ys ∧
      emitted ib [ev] = way.net ∧ (∀ x ∈ way, x.1.data.recipient = ib ∧ x.1.data.sender = ia) ∧
      ((way = [] ∧ (accepted ib [ev] = [] ∧ q' = q ∨ ∃ u, accepted ib [ev] = [u] ∧ q' = push q u)) ∨
       (way.map Prod.fst = q ∧ q' = [] ∧ accepted ib [ev] = [])) := by
  have hi := MInv.history hh
  obtain ⟨c, hg, hst, hpe, hen, rfl, hqq, hhb⟩ := hu
  have same : ∀ {m'' : Module S E H}, m''.replicas.get ib = m.replicas.get ib → Up m'' ia ib e c.queue :=
    fun hm => ⟨c, hm.trans hg, hst, hpe, hen, rfl, hqq, hhb⟩
  have hnil : L e f (xs ++ Way.crypto []) ys := by simpa [Way.crypto] using hlink
  cases h with
  | @out _ fresh u res ho =>
    by_cases hr : ib = u.data.recipient
    · have hco : m.processOut ops fresh u =
          .ok ({ m with replicas := (m.replicas.set ib c).set ib { c with queue := push c.queue u } }, .ok ()) := by
        simp [Module.processOut, hi.id, nz, Module.channel, ← hr, hg, hst, Peer.processOut]
      rw [hco] at ho
      simp at ho
      obtain ⟨rfl, rfl⟩ := ho
      have ha : accepted ib [Ev.out (H := H) u fresh (.ok ())] = [u] := by simp [accepted, hr]
      refine ⟨e, push c.queue u, [], ?_, hnil, by simp [emitted, Way.net], by simp,
        Or.inl ⟨rfl, Or.inr ⟨u, ha, rfl⟩⟩⟩
      refine ⟨{ c with queue := push c.queue u }, by simp, hst, hpe, hen, rfl, ?_, heartbeats_push_le u hhb⟩
      intro v hv
      rcases mem_push hv with rfl | hv
      · have := hp v (by rw [ha]; simp)
        exact ⟨hr.symm, this⟩
      · exact hqq v hv
    · refine ⟨e, _, [], same (processOut_frame ho hr), hnil, by simp [emitted, Way.net], by simp,
        Or.inl ⟨rfl, Or.inl ⟨?_, rfl⟩⟩⟩
      cases res <;> simp [accepted, Ne.symm hr]
  | @inn _ fresh u res ho =>
    exact ⟨e, _, [], same (processIn_frame ho (q := ib) (fun he => hs u fresh res (by simp) he.symm)), hnil,
      by simp [emitted, Way.net], by simp, Or.inl ⟨rfl, Or.inl ⟨by simp [accepted], rfl⟩⟩⟩
  | @cluster ids =>
    exact ⟨e, _, [], same (cluster_get_self hi (hk ids (by simp))), hnil,
      by simp [emitted, Way.net], by simp, Or.inl ⟨rfl, Or.inl ⟨by simp [accepted], rfl⟩⟩⟩
  | @shuffle rs hpm =>
    exact ⟨e, _, [], same (AMap.get_perm hi.wf hpm.symm _), hnil,
      by simp [emitted, Way.net], by simp, Or.inl ⟨rfl, Or.inl ⟨by simp [accepted], rfl⟩⟩⟩
  | tick =>
    refine ⟨e, _, [], same ?_, hnil,
      by simp [emitted, Way.net], by simp, Or.inl ⟨rfl, Or.inl ⟨by simp [accepted], rfl⟩⟩⟩
    rw [tick_get, hg]
    simp [Peer.moduleTick, Peer.tick, hst]
  | @take _ out ho =>
    rcases take_peer hi ho ib with ⟨h1, _, _⟩ | ⟨c0, c', o, h1, h2, h3, h4⟩
    · rw [hg] at h1; cases h1
    · rw [hg] at h1; simp at h1; subst h1
      obtain ⟨e', way, g1, g2, g3⟩ := encryptAll_linked hl c.queue hlink (fun u hu => (hqq u hu).2.2)
      have hway : ∀ x ∈ way, x.1.data.recipient = ib ∧ x.1.data.sender = ia := by
        intro x hx
        have : x.1 ∈ c.queue := by rw [← g2]; exact List.mem_map.mpr ⟨x, hx, rfl⟩
        exact ⟨(hqq _ this).1, (hqq _ this).2.1⟩
      have hto : c.takeOut ops = .ok ({ c with encryptor := some e', queue := [] }, (Way.net way).map OutMsg.data) := by
        simp [Peer.takeOut, hpe, hst, hen, g1]
      rw [hto] at h2
      simp at h2
      obtain ⟨rfl, rfl⟩ := h2
      refine ⟨e', [], way, ⟨_, h3, hst, hpe, rfl, rfl, by simp, by simp [heartbeats]⟩, g3, ?_, hway,
        Or.inr ⟨g2, rfl, by simp [accepted]⟩⟩
      have : emitted ib [Ev.take (S := S) out] = dataTo ib out := by simp [emitted]
      rw [this, h4]
      clear g1 g2 g3 hto h4 this
      induction way with
      | nil => simp [dataTo, Way.net]
      | cons x way ih =>
        have hx := hway x (by simp)
        have := ih (fun y hy => hway y (by simp [hy]))
        simp only [dataTo, Way.net, List.map_cons, List.filterMap_cons, hx.1, if_true] at this ⊢
        rw [this]

/-- Delivering the oldest message in flight. -/
theorem up_deliver {ops : Ops S E H} {L : E → E → List (Bytes × Payload) → List (Bytes × Payload) → Prop}
    (hl : Linked ops L) {ia ib R T : Nat} (nz : ib ≠ 0) {evs : List (Ev S H)} {m m' : Module S E H}
    {e f : E} {q : List Outgoing} {u : Outgoing} {pl : Payload} {xs ys : List (Bytes × Payload)}
    (hh : History ops ib R T evs m) (hu : Up m ib ia f q) (hs : u.data.sender = ia)
    (hlink : L e f ((plain u, pl) :: xs) ys) {fresh : Option S} {r : Except PalErr (Option (InMsg H))}
    (h : m.processIn ops fresh (.data { u.data with payload := some pl }) = .ok (m', r)) :
    ∃ f', Up m' ib ia f' q ∧ L e f' xs ys ∧ passed r = [arrived u] := by
  have hi := MInv.history hh
  obtain ⟨c, hg, hst, hpe, hen, rfl, hqq, hhb⟩ := hu
  obtain ⟨f', h1, h2⟩ := hl.dec hlink
  have hco : m.processIn ops fresh (.data { u.data with payload := some pl }) =
      .ok ({ m with replicas := (m.replicas.set ia c).set ia { c with encryptor := some f' } },
        .ok (some (arrived u))) := by
    simp [Module.processIn, hi.id, nz, Module.channel, InMsg.peer, hs, hg, hst, Peer.processIn, Peer.decrypt,
      hen, h1, arrived]
  rw [hco] at h
  simp at h
  obtain ⟨rfl, rfl⟩ := h
  exact ⟨f', ⟨{ c with encryptor := some f' }, by simp, hst, hpe, rfl, rfl, hqq, hhb⟩, h2, rfl⟩

theorem WInv.act {ops : Ops S E H} {L : E → E → List (Bytes × Payload) → List (Bytes × Payload) → Prop} {ia ib : Nat}
    (hl : Linked ops L) {w w' : World S E H} {e f : E} {qa qb dab dba : List Outgoing} {wab wba : Way}
    (h : WInv ops L ia ib w e f qa qb dab dba wab wba) (ha : Act ops ia ib w w') :
    ∃ e' f' qa' qb' dab' dba' wab' wba', WInv ops L ia ib w' e' f' qa' qb' dab' dba' wab' wba' := by
  cases ha with
  | @act a' ev hs hsil hk hp =>
    obtain ⟨R, T, evs, hh⟩ := h.ha
    obtain ⟨e', q', way, g1, g2, g3, g4, g5⟩ := up_step hl h.nza hh h.upA hs hsil hk hp h.link
    have hhb : (heartbeats qa).length ≤ 1 := by
      obtain ⟨c, _, _, _, _, _, _, hb⟩ := h.upA; exact hb
    refine ⟨e', f, q', qb, dab, dba, wab ++ way, wba, g1, h.upB, ?_, ?_, h.ba, h.nza, h.nzb, ⟨R, T, _, hh.step hs⟩, h.hb⟩
    · simpa [Way.crypto] using g2
    · refine ⟨?_, h.ab.hup, ?_, ?_⟩
      · simp only; rw [g3, h.ab.hnet]; simp [Way.net]
      · intro x hx
        rcases List.mem_append.mp hx with hx | hx
        · exact h.ab.hway x hx
        · exact g4 x hx
      · simp only
        rcases g5 with ⟨rfl, ⟨ha, rfl⟩ | ⟨u, ha, rfl⟩⟩ | ⟨hq, rfl, ha⟩
        · rw [ha]; simpa using h.ab.acct
        · rw [ha]; simpa using h.ab.acct.accept hhb u
        · rw [ha]
          have := h.ab.acct
          have he : dab ++ (wab ++ way).map Prod.fst = dab ++ wab.map Prod.fst ++ qa := by
            rw [List.map_append, hq, List.append_assoc]
          rw [List.append_nil, he]
          exact ⟨by rw [List.append_nil]; exact this.oth, by rw [List.append_nil]; exact this.hbs,
            by rw [List.append_nil]; exact this.hbLast⟩
  | @deliver d rest fresh b' r hn hin =>
    obtain ⟨R, T, evs, hh⟩ := h.hb
    cases wab with
    | nil => rw [h.ab.hnet] at hn; simp [Way.net] at hn
    | cons x wab =>
      obtain ⟨u, pl⟩ := x
      rw [h.ab.hnet] at hn
      simp [Way.net] at hn
      obtain ⟨rfl, hrest⟩ := hn
      have hx := h.ab.hway (u, pl) (by simp)
      obtain ⟨f', g1, g2, g3⟩ := up_deliver hl h.nzb hh h.upB hx.2 h.link hin
      refine ⟨e, f', qa, qb, dab ++ [u], dba, wab, wba, h.upA, g1, g2, ?_, h.ba, h.nza, h.nzb, h.ha,
        ⟨R, T, _, hh.step (.inn hin)⟩⟩
      refine ⟨?_, ?_, fun y hy => h.ab.hway y (by simp [hy]), ?_⟩
      · rw [← hrest]; rfl
      · simp only; rw [g3, h.ab.hup]; simp
      · simpa using h.ab.acct

theorem WInv.reach {ops : Ops S E H} {L : E → E → List (Bytes × Payload) → List (Bytes × Payload) → Prop} {ia ib : Nat}
    (hl : Linked ops L) {w w' : World S E H} (hr : Ready ops L ia ib w) (h : Reach ops ia ib w w') :
    ∃ e f qa qb dab dba wab wba, WInv ops L ia ib w' e f qa qb dab dba wab wba := by
  induction h with
  | refl =>
    obtain ⟨e, f, qa, qb, wab, wba, h1, h2, h3, h4, h5, h6, h7, h8, h9, h10, h11, h12, h13, h14, h15⟩ := hr
    refine ⟨e, f, qa, qb, [], [], wab, wba, h1, h2, h3, ⟨h4, by simp [h11], h6, ?_⟩, ⟨h5, by simp [h10], h7, ?_⟩,
      h12, h13, h14, h15⟩
    · rw [h8]; exact ⟨by simp, by simp, by simp⟩
    · rw [h9]; exact ⟨by simp, by simp, by simp⟩
  | fst _ ha ih =>
    obtain ⟨e, f, qa, qb, dab, dba, wab, wba, h⟩ := ih
    exact h.act hl ha
  | snd _ ha ih =>
    obtain ⟨e, f, qa, qb, dab, dba, wab, wba, h⟩ := ih
    obtain ⟨e', f', qa', qb', dab', dba', wab', wba', h'⟩ := (h.swap hl).act hl ha
    exact ⟨f', e', qb', qa', dba', dab', wba', wab', h'.swap hl⟩

end TCP.Handshake
