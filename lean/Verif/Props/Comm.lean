import Verif.Proofs.Comm

/-!
# C15–C19: the secure channel layer

`ops` is any handshake session / encryptor behaviour, `me` this replica, `R` the retry delay and `T`
the handshake timeout in ticks.
-/

namespace TCP.Comm
open Spec

variable {S E H : Type}

/-! ## A concrete run used to show that the hypotheses can be met -/

/-- A toy handshake: the opening side sends 0, the other side answers 1, one message received completes. -/
def exOps : Ops Nat Nat Nat where
  takeOut s := (s, .ok (some s))
  process s _ := (s + 1, .ok ())
  completed s := decide (1 ≤ s)
  encryptor s := some s
  encrypt e b := .ok (e + 1, some ⟨b.reverse, [0]⟩)
  decrypt e pl := (e, some pl.contents.reverse)

def exData (to : Nat) (b : Bytes) : Outgoing := ⟨⟨.system, to, 1, some ⟨b, []⟩⟩, false⟩

/-- Replica 1 is asked to send to 2, emits the handshake, gets the answer, emits the message. -/
def exEvs : List (Ev Nat Nat) :=
  [.out (exData 2 [1, 2]) (some 0) (.ok ()), .take [.handshake 0], .inn (.handshake 2 7) none (.ok none),
   .take [.handshake 1], .out (exData 2 [3]) none (.ok ()),
   .take [.data ⟨.system, 2, 1, some ⟨[2, 1], [0]⟩⟩, .data ⟨.system, 2, 1, some ⟨[3], [0]⟩⟩]]

def exM : Module Nat Nat Nat := ⟨[(2, ⟨.completed, none, none, [], some 3, 10⟩)], 1, 1, 10⟩

theorem exHist : History exOps 1 1 10 exEvs exM := by
  have h0 := History.init (ops := exOps) (self := 1) (retry := 1) (timeout := 10)
  have h1 := h0.step (.out (fresh := some 0) (msg := exData 2 [1, 2]) rfl)
  have h2 := h1.step (.take rfl)
  have h3 := h2.step (.inn (fresh := none) (msg := .handshake 2 7) rfl)
  have h4 := h3.step (.take rfl)
  have h5 := h4.step (.out (fresh := none) (msg := exData 2 [3]) rfl)
  have h6 := h5.step (.take rfl)
  exact h6

/-! ## C15 -/

/-- Every non-handshake message a replica emits is the encryption of a message it accepted for that
same recipient, under the encryptor of a handshake with that recipient that completed. -/
theorem C15_only_ciphertext {ops : Ops S E H} {me R T : Nat} {evs : List (Ev S H)} {m m' : Module S E H}
    (h : History ops me R T evs m) {out : List (OutMsg H)} (ht : m.takeOut ops = .ok (m', out))
    {d : Data} (hd : OutMsg.data d ∈ out) :
    ∃ u e, u ∈ accepted d.recipient evs ∧ u.data.recipient = d.recipient ∧
      Established ops evs d.recipient e ∧ CipherBy ops e d u := by
  have hi := MInv.history h
  unfold Module.takeOut at ht
  simp only [Run.bind_eq_ok] at ht
  obtain ⟨⟨rs, o⟩, h1, ho⟩ := ht
  simp only [Run.ok.injEq, Prod.mk.injEq] at ho
  obtain ⟨rfl, rfl⟩ := ho
  obtain ⟨_, _, _, hmem⟩ := takeAll_spec hi.wf hi.peers h1
  obtain ⟨p, c, c', o', hg, hto, hx⟩ := hmem _ hd
  obtain ⟨_, fl, sub, ds, hsub, hq, _, _, hin, hm⟩ := (hi.peers p c hg).takeOut hto
  obtain ⟨u, hu, hr, huq, e, he, hc⟩ := hm.mem_left (hin d hx)
  subst hr
  have := (hi.peers _ c hg).q u huq
  exact ⟨u, e, this.2, this.1, he, hc⟩

/-- Nothing but handshake messages is emitted for a peer with which no handshake ever completed. -/
theorem C15_only_handshake_before_completion {ops : Ops S E H} {me R T : Nat} {evs : List (Ev S H)}
    {m m' : Module S E H} (h : History ops me R T evs m) {out : List (OutMsg H)}
    (ht : m.takeOut ops = .ok (m', out)) {p : Nat} (hp : ∀ e, ¬ Established ops evs p e) :
    dataTo p out = [] := by
  apply List.eq_nil_iff_forall_not_mem.mpr
  intro d hd
  simp only [dataTo, List.mem_filterMap] at hd
  obtain ⟨x, hx, hx2⟩ := hd
  cases x with
  | handshake a => simp at hx2
  | data d' =>
    simp only at hx2
    split at hx2
    · simp at hx2; subst hx2
      obtain ⟨u, e, _, _, he, _⟩ := C15_only_ciphertext h ht hx
      have hr : d'.recipient = p := by assumption
      exact hp e (hr ▸ he)
    · cases hx2

/-- The channel state agrees: while the handshake with a peer is not completed, nothing but
handshake messages is emitted for it (the current session counts, not an earlier one). -/
theorem C15_only_handshake_while_not_completed {ops : Ops S E H} {me R T : Nat} {evs : List (Ev S H)}
    {m m' : Module S E H} (h : History ops me R T evs m) {out : List (OutMsg H)}
    (ht : m.takeOut ops = .ok (m', out)) {p : Nat} (hp : statusOf m p ≠ .completed) :
    dataTo p out = [] := by
  rcases take_peer (MInv.history h) ht p with ⟨_, _, h3⟩ | ⟨c, c', o, h1, h2, h3, h4⟩
  · exact h3
  · have hcs : c.status ≠ .completed := by simpa [statusOf, h1] using hp
    rw [h4]
    unfold Peer.takeOut at h2
    split at h2
    · simp at h2; obtain ⟨_, rfl⟩ := h2; simp [dataTo]
    · rw [if_neg hcs] at h2; simp at h2; obtain ⟨_, rfl⟩ := h2; simp [dataTo]

example : ∃ m m' out d, History exOps 1 1 10 (exEvs.take 5) m ∧ m.takeOut exOps = .ok (m', out) ∧
    OutMsg.data d ∈ out ∧ d.payload = some ⟨[2, 1], [0]⟩ := by
  have h0 := History.init (ops := exOps) (self := 1) (retry := 1) (timeout := 10)
  have h1 := h0.step (.out (fresh := some 0) (msg := exData 2 [1, 2]) rfl)
  have h2 := h1.step (.take rfl)
  have h3 := h2.step (.inn (fresh := none) (msg := .handshake 2 7) rfl)
  have h4 := h3.step (.take rfl)
  have h5 := h4.step (.out (fresh := none) (msg := exData 2 [3]) rfl)
  refine ⟨_, _, _, _, h5, rfl, List.Mem.head _, rfl⟩

/-! ## C16 -/

/-- Order, content, no duplication, no loss: the messages emitted for a peer correspond one to one,
in order, to a subsequence of a list `flushed`, where `flushed` followed by the current queue has
exactly the accepted non-heartbeat messages in acceptance order, and as heartbeats a subsequence of
the accepted heartbeats ending with the newest one.  If encryption never refuses, everything in
`flushed` was emitted.  Holds across any number of handshake attempts, as long as cluster changes keep
the peer and sessions provided to open the channel can produce their first message
(see `C16_lost_when_opening_fails`). -/
theorem C16_order_and_content_partial {ops : Ops S E H} {me R T p : Nat} {evs : List (Ev S H)}
    {m : Module S E H} (h : History ops me R T evs m) (hk : KeepsPeer me p evs) (hco : CanOpen ops p evs) :
    ∃ flushed sent : List Outgoing,
      sent.Sublist flushed ∧
      (EncryptionTotal ops → sent = flushed) ∧
      Matched (fun d u => ∃ e, Established ops evs p e ∧ CipherBy ops e d u) (emitted p evs) sent ∧
      others (accepted p evs) = others (flushed ++ queueOf m p) ∧
      (heartbeats (flushed ++ queueOf m p)).Sublist (heartbeats (accepted p evs)) ∧
      (heartbeats (flushed ++ queueOf m p)).getLast? = (heartbeats (accepted p evs)).getLast? := by
  obtain ⟨fl, sub, hq⟩ := QInv.history h hk hco
  exact ⟨fl, sub, hq.subl, hq.total, hq.emit, hq.oth, hq.hbs, hq.hbLast⟩

/-- At most one heartbeat is queued for a peer. -/
theorem C16_one_heartbeat {ops : Ops S E H} {me R T p : Nat} {evs : List (Ev S H)} {m : Module S E H}
    (h : History ops me R T evs m) : (heartbeats (queueOf m p)).length ≤ 1 :=
  queueOf_hb (MInv.history h) p

/-- Once the handshake completed and its last message was taken, the next `take` empties the queue. -/
theorem C16_flush_after_completion {ops : Ops S E H} {me R T p : Nat} {evs : List (Ev S H)}
    {m m' : Module S E H} (h : History ops me R T evs m) {out : List (OutMsg H)}
    (ht : m.takeOut ops = .ok (m', out)) (hc : statusOf m p = .completed)
    (hp : (m.replicas.get p).bind (·.pending) = none) :
    queueOf m' p = [] := by
  rcases take_peer (MInv.history h) ht p with ⟨h1, _, _⟩ | ⟨c, c', o, h1, h2, h3, h4⟩
  · simp [statusOf, h1] at hc
  · simp [statusOf, h1] at hc
    simp [h1] at hp
    unfold Peer.takeOut at h2
    rw [hp, hc] at h2
    simp only [if_true] at h2
    split at h2
    · simp at h2
    · simp only [Run.bind_eq_ok] at h2
      obtain ⟨⟨e', o2⟩, _, h2⟩ := h2
      simp at h2; obtain ⟨rfl, rfl⟩ := h2
      simp [queueOf, h3]

/-- And that `take` emits all of it, when encryption never refuses. -/
theorem C16_flush_emits_all {ops : Ops S E H} {me R T p : Nat} {evs : List (Ev S H)}
    {m m' : Module S E H} (h : History ops me R T evs m) {out : List (OutMsg H)}
    (ht : m.takeOut ops = .ok (m', out)) (hc : statusOf m p = .completed)
    (hp : (m.replicas.get p).bind (·.pending) = none) (htot : EncryptionTotal ops) :
    Matched (fun d u => ∃ e, Established ops evs p e ∧ CipherBy ops e d u) (dataTo p out) (queueOf m p) := by
  have hq' := C16_flush_after_completion h ht hc hp
  have hi := MInv.history h
  rcases take_peer hi ht p with ⟨h1, _, _⟩ | ⟨c, c', o, h1, h2, h3, h4⟩
  · simp [statusOf, h1] at hc
  · obtain ⟨_, fl, sub, ds, _, hq, htt, hds, _, hm⟩ := (hi.peers p c h1).takeOut h2
    have hc' : c'.queue = [] := by simpa [queueOf, h3] using hq'
    rw [h4, hds p, if_pos rfl]
    have : queueOf m p = sub := by
      rw [htt htot]; simp [queueOf, h1, hq, hc']
    rw [this]
    exact hm.imp fun d u ⟨_, _, e, he, hcc⟩ => ⟨e, he, hcc⟩

/-- Taking the messages of a peer sends its handshake message, if one is waiting, exactly once. -/
theorem peer_take_clears {ops : Ops S E H} {p p' : Peer S E H} {o : List (OutMsg H)} (h : p.takeOut ops = .ok (p', o)) :
    p'.pending = none ∧ p'.status = p.status := by
  unfold Peer.takeOut at h
  cases hp : p.pending with
  | some x => simp [hp] at h; obtain ⟨rfl, _⟩ := h; exact ⟨rfl, rfl⟩
  | none =>
    simp only [hp] at h
    by_cases hc : p.status = .completed
    · rw [if_pos hc] at h
      split at h
      · simp at h
      · simp only [Run.bind_eq_ok] at h
        obtain ⟨⟨e', o2⟩, _, h⟩ := h
        simp at h; obtain ⟨rfl, rfl⟩ := h; exact ⟨rfl, rfl⟩
    · rw [if_neg hc] at h; simp at h; obtain ⟨rfl, rfl⟩ := h; exact ⟨hp, rfl⟩

theorem encryptAll_no_handshake {ops : Ops S E H} {e e' : E} {q : List Outgoing} {o : List (OutMsg H)}
    (h : encryptAll ops e q = .ok (e', o)) (x : H) : OutMsg.handshake x ∉ o := by
  induction q generalizing e o with
  | nil => simp [encryptAll] at h; simp [h.2]
  | cons m q ih =>
    unfold encryptAll at h
    split at h
    · simp at h
    · simp only [Run.bind_eq_ok] at h
      obtain ⟨⟨e1, r⟩, h1, ⟨e2, rest⟩, h2, h3⟩ := h
      simp at h3; obtain ⟨rfl, rfl⟩ := h3
      have := ih h2
      cases r <;> simp [this]

theorem takeAll_quiet {ops : Ops S E H} {rs rs1 rs2 : AMap Nat (Peer S E H)} {o1 o2 : List (OutMsg H)}
    (h1 : takeAll ops rs = .ok (rs1, o1)) (h2 : takeAll ops rs1 = .ok (rs2, o2)) (x : H) : OutMsg.handshake x ∉ o2 := by
  induction rs generalizing rs1 o1 rs2 o2 with
  | nil => simp [takeAll] at h1; obtain ⟨rfl, rfl⟩ := h1; simp [takeAll] at h2; simp [h2.2]
  | cons kp rs ih =>
    obtain ⟨k, p⟩ := kp
    simp only [takeAll, Run.bind_eq_ok] at h1
    obtain ⟨⟨p1, a⟩, ha, ⟨rs', b⟩, hb, hh⟩ := h1
    simp at hh; obtain ⟨rfl, rfl⟩ := hh
    simp only [takeAll, Run.bind_eq_ok] at h2
    obtain ⟨⟨p2, a2⟩, ha2, ⟨rs'', b2⟩, hb2, hh⟩ := h2
    simp at hh; obtain ⟨rfl, rfl⟩ := hh
    have hb' := ih hb hb2
    obtain ⟨hp, _⟩ := peer_take_clears ha
    have ha' : OutMsg.handshake x ∉ a2 := by
      unfold Peer.takeOut at ha2
      simp only [hp] at ha2
      by_cases hc : p1.status = .completed
      · rw [if_pos hc] at ha2
        split at ha2
        · simp at ha2
        · simp only [Run.bind_eq_ok] at ha2
          obtain ⟨⟨e', o2⟩, h5, ha2⟩ := ha2
          simp at ha2; obtain ⟨_, rfl⟩ := ha2; exact encryptAll_no_handshake h5 x
      · rw [if_neg hc] at ha2; simp at ha2; simp [ha2.2]
    simp [ha', hb']

/-- However the handshake ended, the second `take` after its completion has sent everything that was queued at that time, and no
handshake message is sent twice: a `take` directly after a `take` sends none. -/
theorem C16_flush_in_two_takes {ops : Ops S E H} {me R T p : Nat} {evs : List (Ev S H)}
    {m m1 m2 : Module S E H} (h : History ops me R T evs m) {o1 o2 : List (OutMsg H)}
    (h1 : m.takeOut ops = .ok (m1, o1)) (h2 : m1.takeOut ops = .ok (m2, o2)) :
    (statusOf m p = .completed → queueOf m2 p = []) ∧ ∀ x, OutMsg.handshake x ∉ o2 := by
  constructor
  · intro hc
    have hh := h.step (.take h1)
    refine C16_flush_after_completion hh h2 ?_ ?_
    · rcases take_peer (MInv.history h) h1 p with ⟨g, _, _⟩ | ⟨c, c', o, g1, g2, g3, _⟩
      · simp [statusOf, g] at hc
      · simp [statusOf, g1] at hc
        simp [statusOf, g3, (peer_take_clears g2).2, hc]
    · rcases take_peer (MInv.history h) h1 p with ⟨g, _, _⟩ | ⟨c, c', o, g1, g2, g3, _⟩
      · simp [statusOf, g] at hc
      · simp [g3, (peer_take_clears g2).1]
  · intro x
    unfold Module.takeOut at h1 h2
    simp only [Run.bind_eq_ok] at h1 h2
    obtain ⟨⟨rs1, a⟩, g1, e1⟩ := h1
    obtain ⟨⟨rs2, b⟩, g2, e2⟩ := h2
    simp at e1 e2
    obtain ⟨rfl, rfl⟩ := e1
    obtain ⟨rfl, rfl⟩ := e2
    exact takeAll_quiet g1 g2 x

/-- Answering the other side's handshake completes this side's with a last message waiting: the first `take` sends that message, the
second the queued ones. -/
example : ∃ evs m m1 m2 o1 o2, History exOps 1 1 10 evs m ∧ m.takeOut exOps = .ok (m1, o1) ∧ m1.takeOut exOps = .ok (m2, o2) ∧
    statusOf m 2 = .completed ∧ queueOf m 2 = [exData 2 [1, 2]] ∧ (∃ x, o1 = [.handshake x]) ∧
    o2 = [.data ⟨.system, 2, 1, some ⟨[2, 1], [0]⟩⟩] := by
  have h0 := History.init (ops := exOps) (self := 1) (retry := 1) (timeout := 10)
  have h1 := h0.step (.inn (fresh := some 0) (msg := .handshake 2 7) rfl)
  have h2 := h1.step (.out (fresh := none) (msg := exData 2 [1, 2]) rfl)
  exact ⟨_, _, _, _, _, _, h2, rfl, rfl, rfl, rfl, ⟨_, rfl⟩, rfl⟩

/-- The full property fails: a message that has to open the channel is accepted (`Ok`) but lost when
the session cannot produce its first message — it is neither queued nor ever emitted. -/
theorem C16_lost_when_opening_fails :
    ∃ (ops : Ops Nat Nat Nat) (evs : List (Ev Nat Nat)) (m : Module Nat Nat Nat) (u : Outgoing),
      History ops 1 1 10 evs m ∧ EncryptionTotal ops ∧ KeepsPeer 1 2 evs ∧ u.isHeartbeat = false ∧
      accepted 2 evs = [u] ∧ emitted 2 evs = [] ∧ queueOf m 2 = [] := by
  refine ⟨{ exOps with takeOut := fun s => (s, .error ()) }, [.out (exData 2 [1, 2]) (some 0) (.ok ())],
    ⟨[(2, ⟨.failed 0, none, some 0, [], none, 10⟩)], 1, 1, 10⟩, exData 2 [1, 2], ?_, ?_, ?_, rfl, rfl, rfl, rfl⟩
  · exact (History.init (ops := { exOps with takeOut := fun s => (s, .error ()) }) (self := 1) (retry := 1)
      (timeout := 10)).step (.out (fresh := some 0) (msg := exData 2 [1, 2]) rfl)
  · intro e b e' r h
    simp [exOps] at h; simp [← h.2]
  · intro ids hi; simp at hi

example : KeepsPeer 1 2 exEvs ∧ CanOpen exOps 2 exEvs ∧ EncryptionTotal exOps ∧
    emitted 2 exEvs = [⟨.system, 2, 1, some ⟨[2, 1], [0]⟩⟩, ⟨.system, 2, 1, some ⟨[3], [0]⟩⟩] ∧
    accepted 2 exEvs = [exData 2 [1, 2], exData 2 [3]] := by
  refine ⟨?_, ?_, ?_, rfl, rfl⟩
  · intro ids hi; simp [exEvs] at hi
  · intro u s r _ _; exact ⟨s, rfl⟩
  · intro e b e' r h
    simp [exOps] at h; simp [← h.2]

/-! ## C17 -/

/-- While a started handshake gets no answer, its state is determined by the number `n` of ticks since
it was started: still running while `n` is below the timeout (a timeout of 0 acts as 1), then failed
for the retry delay.  Nothing is lost meanwhile: messages accepted in between are all queued. -/
theorem C17_timeout {ops : Ops S E H} {me R T p : Nat} {evs suf : List (Ev S H)} {m m' : Module S E H}
    (h : History ops me R T evs m) (hst : statusOf m p = .initiated 0)
    (hs : Steps ops m suf m') (hk : KeepsPeer me p suf) (hsil : SilentFrom p suf) :
    (tickCount suf < max T 1 → statusOf m' p = .initiated (tickCount suf)) ∧
    (max T 1 ≤ tickCount suf → tickCount suf < max T 1 + R →
      statusOf m' p = .failed (tickCount suf - max T 1)) ∧
    (tickCount suf < max T 1 + R →
      others (queueOf m' p) = others (queueOf m p) ++ others (accepted p suf)) := by
  have h0 : statusOf m p = phase T R 0 := by rw [hst]; unfold phase; rw [if_pos (by omega)]
  refine ⟨fun hn => ?_, fun h1 h2 => ?_, fun hn => ?_⟩
  · have := (phase_steps h hs hk hsil h0 (by omega)).1
    rw [this]; unfold phase; rw [if_pos (by omega)]; simp
  · have := (phase_steps h hs hk hsil h0 (by omega)).1
    rw [this]; unfold phase; rw [if_neg (by omega), if_pos (by omega)]; simp
  · exact (phase_steps h hs hk hsil h0 (by omega)).2

/-- The tick that ends the retry delay makes the peer usable again, with the queue intact. -/
theorem C17_retry {ops : Ops S E H} {me R T p : Nat} {evs suf : List (Ev S H)} {m m' : Module S E H}
    (h : History ops me R T evs m) (hst : statusOf m p = .initiated 0)
    (hs : Steps ops m suf m') (hk : KeepsPeer me p suf) (hsil : SilentFrom p suf)
    (hn : tickCount suf + 1 = max T 1 + R) :
    statusOf m'.tick p = .unknown ∧
    others (queueOf m'.tick p) = others (queueOf m p) ++ others (accepted p suf) := by
  have h0 : statusOf m p = phase T R 0 := by rw [hst]; unfold phase; rw [if_pos (by omega)]
  obtain ⟨a1, a2⟩ := phase_steps h hs hk hsil h0 (by omega)
  have hh := h.steps hs
  have b := (phase_step (MInv.history hh) (NInit.history hh) .tick (p := p) (by intro ids hi; simp at hi)
    (by intro u f r hu; simp at hu) a1 (by omega)).1
  refine ⟨?_, by rw [tick_queue]; exact a2⟩
  rw [b]
  have : tickCount [Ev.tick (S := S) (H := H)] = 1 := by simp [tickCount]
  unfold phase
  rw [this, if_neg (by omega), if_neg (by omega)]

/-- Usable: the next message for the peer starts a new handshake — its opening message is the next
thing handed out — and joins the messages still queued. -/
theorem C17_new_attempt {ops : Ops S E H} {me R T : Nat} {evs : List (Ev S H)} {m m' : Module S E H}
    (h : History ops me R T evs m) {u : Outgoing} (hst : statusOf m u.data.recipient = .unknown) {s : S} {hh : H}
    (hop : (ops.takeOut s).2 = .ok (some hh)) {res : Except PalErr Unit}
    (ho : m.processOut ops (some s) u = .ok (m', res)) (hme : me ≠ 0) :
    res = .ok () ∧ statusOf m' u.data.recipient = .initiated 0 ∧
    others (queueOf m' u.data.recipient) = others (queueOf m u.data.recipient) ++ others [u] ∧
    ∃ c c', m'.replicas.get u.data.recipient = some c ∧ c.takeOut ops = .ok (c', [.handshake hh]) := by
  have hi := MInv.history h
  have hres : res = .ok () := by
    unfold Module.processOut at ho
    rw [hi.id, if_neg hme] at ho
    split at ho
    · rename_i m1 heq
      unfold Module.channel at heq
      simp only at heq
      split at heq <;> simp at heq
    · simp only [Run.bind_eq_ok] at ho
      obtain ⟨c', _, ho⟩ := ho
      simp only [Run.ok.injEq, Prod.mk.injEq] at ho
      exact ho.2.symm
  obtain ⟨s', hs', h1, _⟩ := (processOut_queue hi ho).2.2 hres hst
  simp at hs'; subst hs'
  obtain ⟨a1, a2, a3⟩ := h1 hh hop
  refine ⟨hres, a2, by rw [a1, others_push], ?_⟩
  cases hg : m'.replicas.get u.data.recipient with
  | none => rw [hg] at a3; simp at a3
  | some c =>
    rw [hg] at a3
    simp at a3
    exact ⟨c, { c with pending := none }, rfl, by simp [Peer.takeOut, a3]⟩

example : ∃ m m', History exOps 1 2 3 [.out (exData 2 [1, 2]) (some 0) (.ok ())] m ∧
    statusOf m 2 = .initiated 0 ∧ Steps exOps m [.tick, .tick, .tick, .tick] m' ∧
    statusOf m' 2 = .failed 1 ∧ statusOf m'.tick 2 = .unknown ∧ queueOf m'.tick 2 = [exData 2 [1, 2]] := by
  have h0 := History.init (ops := exOps) (self := 1) (retry := 2) (timeout := 3)
  have h1 := h0.step (.out (fresh := some 0) (msg := exData 2 [1, 2]) rfl)
  exact ⟨_, _, h1, rfl, .step .tick (.step .tick (.step .tick (.step .tick .refl))), rfl, rfl, rfl⟩

/-! ## C18 -/

/-- Sending to one peer leaves every other peer's channel (state, queue and what it will emit) alone. -/
theorem C18_out_isolated {ops : Ops S E H} {m m' : Module S E H} {fresh : Option S} {u : Outgoing}
    {res : Except PalErr Unit} (h : m.processOut ops fresh u = .ok (m', res)) {q : Nat}
    (hq : q ≠ u.data.recipient) : m'.replicas.get q = m.replicas.get q := processOut_frame h hq

/-- Receiving from one peer leaves every other peer's channel alone. -/
theorem C18_in_isolated {ops : Ops S E H} {m m' : Module S E H} {fresh : Option S} {u : InMsg H}
    {res : Except PalErr (Option (InMsg H))} (h : m.processIn ops fresh u = .ok (m', res)) {q : Nat}
    (hq : u.peer ≠ some q) : m'.replicas.get q = m.replicas.get q := processIn_frame h (Ne.symm hq)

/-- What `take` emits for a peer is a function of that peer's channel alone. -/
theorem C18_output_isolated {ops : Ops S E H} {me R T me' R' T' : Nat} {evs evs' : List (Ev S H)}
    {m m1 n n1 : Module S E H} (h : History ops me R T evs m) (h' : History ops me' R' T' evs' n)
    {o o' : List (OutMsg H)} (ht : m.takeOut ops = .ok (m1, o)) (ht' : n.takeOut ops = .ok (n1, o'))
    {p : Nat} (hp : m.replicas.get p = n.replicas.get p) :
    dataTo p o = dataTo p o' ∧ m1.replicas.get p = n1.replicas.get p := by
  rcases take_peer (MInv.history h) ht p with ⟨a1, a2, a3⟩ | ⟨c, c', x, a1, a2, a3, a4⟩ <;>
    rcases take_peer (MInv.history h') ht' p with ⟨b1, b2, b3⟩ | ⟨d, d', y, b1, b2, b3, b4⟩
  · exact ⟨by rw [a3, b3], by rw [a2, b2]⟩
  · rw [a1, b1] at hp; cases hp
  · rw [a1, b1] at hp; cases hp
  · rw [a1, b1] at hp; simp at hp; subst hp
    rw [a2] at b2; simp at b2; obtain ⟨rfl, rfl⟩ := b2
    exact ⟨by rw [a4, b4], by rw [a3, b3]⟩

/-- A cluster change drops exactly the channels of peers no longer in the cluster, and all of them
when this replica is removed; the others are untouched. -/
theorem C18_cluster_change {ops : Ops S E H} {me R T : Nat} {evs : List (Ev S H)} {m : Module S E H}
    (h : History ops me R T evs m) (ids : List Nat) (p : Nat) :
    (m.clusterChange ids).replicas.get p = if me ∈ ids ∧ p ∈ ids then m.replicas.get p else none :=
  cluster_get (MInv.history h) p

/-- Before initialisation, messages in either direction are refused and change nothing. -/
theorem C18_refused_before_init (ops : Ops S E H) (fresh : Option S) (u : Outgoing) (i : InMsg H) :
    (Module.new : Module S E H).processOut ops fresh u = .ok (Module.new, .error .invalidOperation) ∧
    (Module.new : Module S E H).processIn ops fresh i = .ok (Module.new, .error .invalidOperation) := by
  constructor <;> rfl

/-- Incoming messages of an unsupported kind are refused and change nothing. -/
theorem C18_refused_unsupported (ops : Ops S E H) (m : Module S E H) (fresh : Option S) :
    m.processIn ops fresh .other = .ok (m, .error .invalidOperation) := by
  unfold Module.processIn
  split <;> rfl

/-- When the session provider fails, the call reports an error and no channel changes: the only
effect is that the peer may now be known, in its initial state. -/
theorem C18_provider_failure {ops : Ops S E H} {me R T : Nat} {evs : List (Ev S H)} {m m' : Module S E H}
    (h : History ops me R T evs m) {u : Outgoing} {e : PalErr}
    (ho : m.processOut ops none u = .ok (m', .error e)) (p : Nat) :
    queueOf m' p = queueOf m p ∧ statusOf m' p = statusOf m p := by
  by_cases hp : p = u.data.recipient
  · subst hp
    exact (processOut_queue (MInv.history h) ho).1 e rfl
  · exact ⟨queueOf_congr (processOut_frame ho hp), statusOf_congr (processOut_frame ho hp)⟩

/-- Three peers: sending to 2 does not touch 3; a cluster change to {1, 3} drops 2 and keeps 3. -/
example : ∃ m m', History exOps 1 1 10 [.out (exData 2 [1]) (some 0) (.ok ()), .out (exData 3 [5]) (some 0) (.ok ())] m ∧
    m.processOut exOps none (exData 2 [9]) = .ok (m', .ok ()) ∧ queueOf m' 2 = [exData 2 [1], exData 2 [9]] ∧
    queueOf m' 3 = [exData 3 [5]] ∧ (m'.clusterChange [1, 3]).replicas.keys = [3] := by
  have h0 := History.init (ops := exOps) (self := 1) (retry := 1) (timeout := 10)
  have h1 := h0.step (.out (fresh := some 0) (msg := exData 2 [1]) rfl)
  have h2 := h1.step (.out (fresh := some 0) (msg := exData 3 [5]) rfl)
  exact ⟨_, _, h2, rfl, rfl, rfl, rfl⟩

/-! ## C19 -/

/-- Only payloads that decrypt under the completed session with their sender are passed up, as the
message received with the plaintext in place of the ciphertext. -/
theorem C19_only_decrypted {ops : Ops S E H} {me R T : Nat} {evs : List (Ev S H)} {m m' : Module S E H}
    (h : History ops me R T evs m) {fresh : Option S} {msg up : InMsg H}
    (hin : m.processIn ops fresh msg = .ok (m', .ok (some up))) :
    ∃ d pl e b, msg = .data d ∧ statusOf m d.sender = .completed ∧ Established ops evs d.sender e ∧
      d.payload = some pl ∧ (ops.decrypt e pl).2 = some b ∧ up = .data { d with payload := some ⟨b, []⟩ } := by
  have hi := MInv.history h
  unfold Module.processIn at hin
  split at hin
  · simp at hin
  · cases hp : msg.peer with
    | none => rw [hp] at hin; simp at hin
    | some p =>
      rw [hp] at hin
      simp only at hin
      cases hch : m.channel p fresh with
      | mk m1 r =>
        rw [hch] at hin
        have hi' := hi.mono (.inn msg fresh (.ok none))
        obtain ⟨_, _, ⟨c, hc1, hc2, hc3, hcid, hcr⟩, hr⟩ := channel_spec hi'
          (fun s hs => Or.inr ⟨msg, .ok none, by simp [hs], hp⟩) hch
        cases r with
        | none => simp at hin
        | some c0 =>
          simp only [Run.bind_eq_ok] at hin
          obtain ⟨⟨c', up'⟩, hc', hin⟩ := hin
          simp only [Run.ok.injEq, Prod.mk.injEq, Except.ok.injEq] at hin
          obtain ⟨rfl, rfl⟩ := hin
          obtain ⟨d, pl, e, b, rfl, hpl, hst, hen, hdec, hup⟩ := ((hr c0 rfl).1.processIn hc').2.2 up rfl
          simp [InMsg.peer] at hp; subst hp
          rcases hcr with ⟨hf, _⟩ | ⟨s, _, _, he⟩ | ⟨hs, he⟩
          · cases hf
          · simp at he; subst he; simp [Peer.init] at hst
          · simp at he; subst he
            have hg : m.replicas.get d.sender = some c0 := by
              cases hg : m.replicas.get d.sender with
              | none => rw [hst] at hc3; simp [statusOf, hg] at hc3
              | some x => rw [hcid x hg]
            exact ⟨d, pl, e, b, rfl, by rw [← hc3]; exact hst, (hi.peers _ c0 hg).enc e hen, hpl, hdec, hup⟩

/-- A payload arriving before the handshake completed fails the channel and is not delivered. -/
theorem C19_early_payload {ops : Ops S E H} {me R T : Nat} {evs : List (Ev S H)} {m m' : Module S E H}
    (h : History ops me R T evs m) {fresh : Option S} {d : Data} {r : Option (InMsg H)}
    (hin : m.processIn ops fresh (.data d) = .ok (m', .ok r)) (hst : statusOf m d.sender ≠ .completed) :
    r = none ∧ ∃ t, statusOf m' d.sender = .failed t := by
  have hi := MInv.history h
  unfold Module.processIn at hin
  split at hin
  · simp at hin
  · simp only [InMsg.peer] at hin
    cases hch : m.channel d.sender fresh with
    | mk m1 x =>
      rw [hch] at hin
      have hi' := hi.mono (.inn (.data d) fresh (.ok none))
      obtain ⟨_, _, ⟨c, hc1, hc2, hc3, hcid, hcr⟩, hr⟩ := channel_spec hi'
        (fun s hs => Or.inr ⟨.data d, .ok none, by simp [hs], rfl⟩) hch
      cases x with
      | none => simp at hin
      | some c0 =>
        simp only [Run.bind_eq_ok] at hin
        obtain ⟨⟨c', up⟩, hc', hin⟩ := hin
        simp only [Run.ok.injEq, Prod.mk.injEq, Except.ok.injEq] at hin
        obtain ⟨rfl, rfl⟩ := hin
        have hs0 : c0.status ≠ .completed := by
          rcases hcr with ⟨hf, _⟩ | ⟨s, _, _, he⟩ | ⟨hs, he⟩
          · cases hf
          · simp at he; subst he; simp [Peer.init]
          · simp at he; subst he; rw [hc3]; exact hst
        simp only [statusOf, AMap.get_set_self, Option.map_some, Option.getD_some]
        unfold Peer.processIn at hc'
        simp only at hc'
        cases hs1 : c0.status with
        | unknown => rw [hs1] at hc'; simp at hc'; obtain ⟨rfl, rfl⟩ := hc'; exact ⟨rfl, 0, rfl⟩
        | initialized => rw [hs1] at hc'; simp at hc'; obtain ⟨rfl, rfl⟩ := hc'; exact ⟨rfl, 0, rfl⟩
        | initiated t => rw [hs1] at hc'; simp at hc'; obtain ⟨rfl, rfl⟩ := hc'; exact ⟨rfl, 0, rfl⟩
        | completed => exact absurd hs1 hs0
        | failed t => rw [hs1] at hc'; simp at hc'; obtain ⟨rfl, rfl⟩ := hc'; exact ⟨rfl, t, hs1⟩

/-- A handshake message after completion fails the channel and is not delivered. -/
theorem C19_late_handshake {ops : Ops S E H} {me R T : Nat} {evs : List (Ev S H)} {m m' : Module S E H}
    (h : History ops me R T evs m) {fresh : Option S} {p : Nat} {x : H} {r : Option (InMsg H)}
    (hin : m.processIn ops fresh (.handshake p x) = .ok (m', .ok r)) (hst : statusOf m p = .completed) :
    r = none ∧ statusOf m' p = .failed 0 := by
  have hi := MInv.history h
  unfold Module.processIn at hin
  split at hin
  · simp at hin
  · simp only [InMsg.peer] at hin
    cases hch : m.channel p fresh with
    | mk m1 y =>
      rw [hch] at hin
      have hi' := hi.mono (.inn (.handshake p x) fresh (.ok none))
      obtain ⟨_, _, ⟨c, hc1, hc2, hc3, hcid, hcr⟩, hr⟩ := channel_spec hi'
        (fun s hs => Or.inr ⟨.handshake p x, .ok none, by simp [hs], rfl⟩) hch
      cases y with
      | none => simp at hin
      | some c0 =>
        simp only [Run.bind_eq_ok] at hin
        obtain ⟨⟨c', up⟩, hc', hin⟩ := hin
        simp only [Run.ok.injEq, Prod.mk.injEq, Except.ok.injEq] at hin
        obtain ⟨rfl, rfl⟩ := hin
        have hs0 : c0.status = .completed := by
          rcases hcr with ⟨hf, _⟩ | ⟨s, hu, _⟩ | ⟨hs, he⟩
          · cases hf
          · rw [hc3, hst] at hu; cases hu
          · simp at he; subst he; rw [hc3]; exact hst
        simp only [statusOf, AMap.get_set_self, Option.map_some, Option.getD_some]
        simp only [Peer.processIn, hs0, Peer.decrypt] at hc'
        split at hc'
        · simp at hc'
        · simp at hc'; obtain ⟨rfl, rfl⟩ := hc'; simp

/-- Everything received from a peer while its channel is failed is dropped without any effect. -/
theorem C19_failed_drops {ops : Ops S E H} {me R T : Nat} {evs : List (Ev S H)} {m : Module S E H}
    (h : History ops me R T evs m) (hme : me ≠ 0) (fresh : Option S) {msg : InMsg H} {p t : Nat}
    (hp : msg.peer = some p) (hst : statusOf m p = .failed t) :
    ∃ m', m.processIn ops fresh msg = .ok (m', .ok none) ∧ ∀ q, m'.replicas.get q = m.replicas.get q := by
  have hi := MInv.history h
  cases hg : m.replicas.get p with
  | none => simp [statusOf, hg] at hst
  | some c =>
    simp [statusOf, hg] at hst
    refine ⟨{ m with replicas := (m.replicas.set p c).set p c }, ?_, ?_⟩
    · simp [Module.processIn, hi.id, hme, hp, Module.channel, hg, hst, Peer.processIn]
    · intro q
      by_cases hq : p = q
      · subst hq; simp [hg]
      · simp only; rw [AMap.get_set_ne _ _ hq, AMap.get_set_ne _ _ hq]

/-- In the run above: a message from 2 is delivered decrypted, a second handshake kills the channel,
a payload from the unknown replica 3 fails that channel. -/
example : ∃ m1 m2 m3, exM.processIn exOps none (.data ⟨.system, 1, 2, some ⟨[5, 4], []⟩⟩)
      = .ok (m1, .ok (some (.data ⟨.system, 1, 2, some ⟨[4, 5], []⟩⟩))) ∧
    exM.processIn exOps none (.handshake 2 0) = .ok (m2, .ok none) ∧ statusOf m2 2 = .failed 0 ∧
    exM.processIn exOps (some 0) (.data ⟨.system, 1, 3, some ⟨[5, 4], []⟩⟩) = .ok (m3, .ok none) ∧
    statusOf m3 3 = .failed 0 := ⟨_, _, _, rfl, rfl, rfl, rfl, rfl⟩

/-- A peer that failed, for `C19_failed_drops`, and one that may be tried again, for `C17_new_attempt`. -/
example : ∃ evs m m' m1 m2 s h, History exOps 1 1 10 evs m ∧ statusOf m 2 = .failed 0 ∧ m.processIn exOps none (.handshake 2 0) = .ok (m', .ok none) ∧
    History exOps 1 1 10 (evs ++ [.tick]) m1 ∧ statusOf m1 2 = .unknown ∧ (exOps.takeOut s).2 = .ok (some h) ∧
    m1.processOut exOps (some s) (exData 2 [4]) = .ok (m2, .ok ()) :=
  ⟨_, _, _, _, _, 0, 0, exHist.step (.inn (fresh := none) (msg := .handshake 2 0) rfl), rfl, rfl,
    (exHist.step (.inn (fresh := none) (msg := .handshake 2 0) rfl)).step .tick, rfl, rfl, rfl⟩

/-- A peer that is completed and has a message waiting that is not a handshake, for `C16_flush_after_completion` and `C16_flush_emits_all`;
another history in which the peer is in the same state, for `C18_output_isolated`. -/
example : ∃ m m1 n n1 o o', History exOps 1 1 10 (exEvs.take 5) m ∧ m.takeOut exOps = .ok (m1, o) ∧ statusOf m 2 = .completed ∧
    (m.replicas.get 2).bind (·.pending) = none ∧ (queueOf m 2).length = 2 ∧
    History exOps 1 1 10 (exEvs.take 5 ++ [.out (exData 3 [5]) (some 0) (.ok ())]) n ∧ n.takeOut exOps = .ok (n1, o') ∧
    m.replicas.get 2 = n.replicas.get 2 ∧ o ≠ o' := by
  have h0 := History.init (ops := exOps) (self := 1) (retry := 1) (timeout := 10)
  have h1 := h0.step (.out (fresh := some 0) (msg := exData 2 [1, 2]) rfl)
  have h2 := h1.step (.take rfl)
  have h3 := h2.step (.inn (fresh := none) (msg := .handshake 2 7) rfl)
  have h4 := h3.step (.take rfl)
  have h5 := h4.step (.out (fresh := none) (msg := exData 2 [3]) rfl)
  exact ⟨_, _, _, _, _, _, h5, rfl, rfl, rfl, rfl, h5.step (.out (fresh := some 0) (msg := exData 3 [5]) rfl), rfl, rfl, by decide⟩

/-- The provider has no session for a new peer, for `C18_provider_failure`. -/
example : ∃ m' e, exM.processOut exOps none (exData 5 [1]) = .ok (m', .error e) := ⟨_, _, rfl⟩

/-! ## C56 -/

/-- The full property fails: one incoming message without a payload, from a peer whose handshake
completed, crashes the replica. -/
theorem C56_missing_payload_crash_fails :
    ∃ (ops : Ops Nat Nat Nat) (evs : List (Ev Nat Nat)) (m : Module Nat Nat Nat) (d : Data),
      History ops 1 1 10 evs m ∧ d.payload = none ∧ m.processIn ops none (.data d) = .panic :=
  ⟨exOps, exEvs, exM, ⟨.system, 1, 2, none⟩, exHist, rfl, rfl⟩

/-- Otherwise the layer does not crash: provided a completed session has an encryptor, every outgoing
message, every incoming message that is a handshake or carries a payload, and every unsupported message
is handled; and so is `take`, if accepted messages carry payloads and encryption does not crash. -/
theorem C56_no_crash_partial {ops : Ops S E H} {me R T : Nat} {evs : List (Ev S H)} {m : Module S E H}
    (h : History ops me R T evs m) (hcon : ∀ s, ops.completed s = true → (ops.encryptor s).isSome) :
    (∀ fresh u, ∃ r, m.processOut ops fresh u = .ok r) ∧
    (∀ fresh msg, (∀ d, msg = .data d → d.payload.isSome) → ∃ r, m.processIn ops fresh msg = .ok r) ∧
    ((∀ p, ∀ u ∈ accepted p evs, u.data.payload.isSome) → (∀ e b, ∃ r, ops.encrypt e b = .ok r) →
      ∃ r, m.takeOut ops = .ok r) := by
  have hi := MInv.history h
  refine ⟨fun fresh u => ?_, fun fresh msg hmsg => ?_, fun hpl henc => ?_⟩
  · unfold Module.processOut
    split
    · exact ⟨_, rfl⟩
    · cases hch : m.channel u.data.recipient fresh with
      | mk m1 r =>
        have hi' := hi.mono (.out u fresh (.ok ()))
        obtain ⟨_, _, _, hr⟩ := channel_spec hi' (fun s hs => Or.inl ⟨u, .ok (), by simp [hs], rfl⟩) hch
        cases r with
        | none => exact ⟨_, rfl⟩
        | some c =>
          have : ∃ c', c.processOut ops u = .ok c' := by
            unfold Peer.processOut
            cases hst : c.status with
            | initialized =>
              obtain ⟨s, hs⟩ := Option.isSome_iff_exists.mp ((hr c rfl).1.liveS (Or.inl hst))
              simp only [hs]
              cases ho : (ops.takeOut s).2 with
              | error x => simp
              | ok o => cases o <;> simp
            | unknown => exact ⟨_, rfl⟩
            | initiated t => exact ⟨_, rfl⟩
            | completed => exact ⟨_, rfl⟩
            | failed t => exact ⟨_, rfl⟩
          obtain ⟨c', hc'⟩ := this
          simp [hc']
  · unfold Module.processIn
    split
    · exact ⟨_, rfl⟩
    · cases hp : msg.peer with
      | none => exact ⟨_, rfl⟩
      | some p =>
        cases hch : m.channel p fresh with
        | mk m1 r =>
          have hi' := hi.mono (.inn msg fresh (.ok none))
          obtain ⟨_, _, _, hr⟩ := channel_spec hi' (fun s hs => Or.inr ⟨msg, .ok none, by simp [hs], hp⟩) hch
          cases r with
          | none => exact ⟨(m1, .error .internal), by simp [hch]⟩
          | some c =>
            have : ∃ c' up, c.processIn ops msg = .ok (c', up) := by
              have hinv := (hr c rfl).1
              have hsess : (c.status = .initialized ∨ ∃ t, c.status = .initiated t) →
                  ∃ s, c.session = some s := fun hl => Option.isSome_iff_exists.mp (hinv.liveS hl)
              unfold Peer.processIn
              simp only
              cases hst : c.status with
              | unknown => exact ⟨_, _, rfl⟩
              | failed t => exact ⟨_, _, rfl⟩
              | completed =>
                obtain ⟨e, he⟩ := Option.isSome_iff_exists.mp (hinv.liveE hcon hst)
                simp only [Peer.decrypt, he]
                cases msg with
                | other => exact ⟨_, _, rfl⟩
                | handshake a b => exact ⟨_, _, rfl⟩
                | data d =>
                  obtain ⟨pl, hd⟩ := Option.isSome_iff_exists.mp (hmsg d rfl)
                  simp only [hd]
                  exact ⟨_, _, rfl⟩
              | initialized =>
                obtain ⟨s, hs⟩ := hsess (Or.inl hst)
                cases msg with
                | other => exact ⟨_, _, rfl⟩
                | data d => exact ⟨_, _, rfl⟩
                | handshake a b =>
                  simp only [hs]
                  cases h1 : (ops.process s b).2 with
                  | error x => exact ⟨_, _, rfl⟩
                  | ok x =>
                    simp only
                    cases h2 : (ops.takeOut (ops.process s b).1).2 with
                    | error x => exact ⟨_, _, rfl⟩
                    | ok o => simp only; split <;> exact ⟨_, _, rfl⟩
              | initiated t =>
                obtain ⟨s, hs⟩ := hsess (Or.inr ⟨t, hst⟩)
                cases msg with
                | other => exact ⟨_, _, rfl⟩
                | data d => exact ⟨_, _, rfl⟩
                | handshake a b =>
                  simp only [hs]
                  cases h1 : (ops.process s b).2 with
                  | error x => exact ⟨_, _, rfl⟩
                  | ok x =>
                    simp only
                    cases h2 : (ops.takeOut (ops.process s b).1).2 with
                    | error x => exact ⟨_, _, rfl⟩
                    | ok o => simp only; split <;> exact ⟨_, _, rfl⟩
            obtain ⟨c', up, hc'⟩ := this
            exact ⟨({ m1 with replicas := m1.replicas.set p c' }, .ok up), by simp [hch, hc']⟩
  · have hall : ∀ (q : List Outgoing) (e : E), (∀ u ∈ q, u.data.payload.isSome) →
        ∃ r, encryptAll ops e q = .ok r := by
      intro q
      induction q with
      | nil => intro e _; exact ⟨_, rfl⟩
      | cons u q ih =>
        intro e hu
        obtain ⟨pl, hd⟩ := Option.isSome_iff_exists.mp (hu u (by simp))
        obtain ⟨⟨e1, r1⟩, h1⟩ := henc e pl.contents
        obtain ⟨⟨e2, r2⟩, h2⟩ := ih e1 (fun v hv => hu v (by simp [hv]))
        simp only [encryptAll, hd, h1, Run.bind_ok, h2]
        exact ⟨_, rfl⟩
    have htk : ∀ rs : AMap Nat (Peer S E H), AMap.WF rs → (∀ p c, rs.get p = some c → PInv ops evs T p c) →
        ∃ r, takeAll ops rs = .ok r := by
      intro rs
      induction rs with
      | nil => intro _ _; exact ⟨_, rfl⟩
      | cons x rs ih =>
        obtain ⟨k, c⟩ := x
        intro wf hinv
        simp only [AMap.WF, AMap.keys_cons, List.nodup_cons] at wf
        have hk : AMap.get rs k = none := (AMap.get_eq_none_iff rs k).mpr wf.1
        obtain ⟨⟨rs', o⟩, hrs⟩ := ih wf.2 (fun p d hd => hinv p d (by
          have : k ≠ p := by rintro rfl; rw [hk] at hd; cases hd
          simp [this, hd]))
        have hc := hinv k c (by simp)
        have : ∃ r, c.takeOut ops = .ok r := by
          unfold Peer.takeOut
          split
          · exact ⟨_, rfl⟩
          · split
            · rename_i hst
              obtain ⟨e, he⟩ := Option.isSome_iff_exists.mp (hc.liveE hcon hst)
              obtain ⟨⟨e', o'⟩, ho⟩ := hall c.queue e (fun u hu => hpl k u (hc.q u hu).2)
              simp only [he, ho, Run.bind_ok]
              exact ⟨_, rfl⟩
            · exact ⟨_, rfl⟩
        obtain ⟨⟨c', o'⟩, hc'⟩ := this
        simp only [takeAll, hc', Run.bind_ok, hrs]
        exact ⟨_, rfl⟩
    obtain ⟨⟨rs, o⟩, hr⟩ := htk m.replicas hi.wf hi.peers
    simp only [Module.takeOut, hr, Run.bind_ok]
    exact ⟨_, rfl⟩

example : (∀ s, exOps.completed s = true → (exOps.encryptor s).isSome) ∧
    (∀ p, ∀ u ∈ accepted p exEvs, u.data.payload.isSome) ∧ (∀ e b, ∃ r, exOps.encrypt e b = .ok r) := by
  refine ⟨fun _ _ => rfl, ?_, fun _ _ => ⟨_, rfl⟩⟩
  intro p u hu
  simp only [accepted, List.mem_filterMap] at hu
  obtain ⟨ev, hev, hu⟩ := hu
  simp only [exEvs, List.mem_cons, List.not_mem_nil, or_false] at hev
  rcases hev with rfl | rfl | rfl | rfl | rfl | rfl <;> simp at hu <;> (rw [← hu.2]; rfl)

end TCP.Comm
