import Verif.Proofs.Attack
import Verif.Props.Handshake

/-!
# C79: what an attacker on the network can do

The host carries all traffic between replicas; it may drop, delay, repeat, reorder, alter and invent messages.
-/

namespace TCP.Handshake
open TCP Comm Comm.Spec Spec

variable {Q S E H : Type}

/-- C79, what holds: whatever the host does to the two ends of an established session, as long as its channels are up no contents are passed
up at one end more often than they were given to the other end to send; in particular nothing is invented, altered or repeated.  Missing:
that messages arrive as the kind of message they were sent as, and under the name of the replica that sent them (both false, below). -/
theorem C79_contents_partial {ops : Ops S E H} {L : E → E → List (Bytes × Payload) → List (Bytes × Payload) → Prop} (hl : Ideal ops L)
    {x y x' y' : End S E H} {e f : E} (hx : Opened ops x e) (hy : Opened ops y f) (hlink : L e f [] [])
    (h : Attacked ops (x, y) (x', y')) (b : Bytes) :
    y'.got.count b ≤ x'.handed.count b ∧ x'.got.count b ≤ y'.handed.count b := by
  obtain ⟨e', f', xs, ys, ux, uy, I⟩ := AInv.attacked hl hx hy hlink h
  exact ⟨I.fst.bound I.snd I.inY b, I.snd.bound I.fst I.inX b⟩

/-- C79 is false in the code for everything but the contents: the host may change the kind of a message, its delivery id and its recipient, and
the message is passed up as the host labelled it, in every state and for every message. -/
theorem C79_envelope_fails {ops : Ops S E H} {m m' : Module S E H} {fresh : Option S} {d up : Data}
    (h : m.processIn ops fresh (.data d) = .ok (m', .ok (some (.data up)))) (kind : Kind) (recipient : Nat) :
    m.processIn ops fresh (.data { d with kind := kind, recipient := recipient }) =
      .ok (m', .ok (some (.data { up with kind := kind, recipient := recipient }))) := by
  unfold Module.processIn at h ⊢
  split
  · rename_i h0; rw [if_pos h0] at h; cases h
  · rename_i h0
    rw [if_neg h0] at h
    simp only [InMsg.peer] at h ⊢
    cases hc : m.channel d.sender fresh with
    | mk m1 r =>
      cases r with
      | none => simp only [hc] at h; cases h
      | some p =>
        simp only [hc, Run.bind_eq_ok] at h ⊢
        obtain ⟨⟨p', u⟩, h1, h2⟩ := h
        simp only [Run.ok.injEq, Prod.mk.injEq, Except.ok.injEq] at h2
        obtain ⟨rfl, rfl⟩ := h2
        refine ⟨(p', some (.data { up with kind := kind, recipient := recipient })), ?_, rfl⟩
        unfold Peer.processIn at h1 ⊢
        cases hs : p.status with
        | unknown => rw [hs] at h1; simp at h1
        | initialized => rw [hs] at h1; simp at h1
        | initiated t => rw [hs] at h1; simp at h1
        | failed t => rw [hs] at h1; simp at h1
        | completed =>
          rw [hs] at h1
          unfold Peer.decrypt at h1 ⊢
          simp only at h1 ⊢
          cases he : p.encryptor with
          | none => rw [he] at h1; cases h1
          | some e =>
            rw [he] at h1
            cases hp : d.payload with
            | none => simp only [hp] at h1; cases h1
            | some pl =>
              simp only [hp, Run.ok.injEq, Prod.mk.injEq, Option.map_eq_some_iff, InMsg.data.injEq] at h1 ⊢
              obtain ⟨h3, b, h4, rfl⟩ := h1
              exact ⟨h3, b, h4, rfl⟩

/-- C79 is false in the code for the sender: sessions prove which program the peer runs, not which replica it is.  For every session library,
the host can let replica `c` answer for replica `a`: replica `b` then keeps a channel for `a`, although `a` was never called, and passes up
what `c` sent to `b` as a message of `a`. -/
theorem C79_identity_fails {oak : Oak Q} {b c : Nat} (a : Nat) (hb : b ≠ 0) (hc : c ≠ 0) {qc qb qc' qb' qc'' qb'' : Q}
    {x y : SessMsg} (hx : Exchange oak qc qb qc' qb' x y) {R T : Nat} {u : Outgoing} (hu : u.data.recipient = b)
    {text cipher : Payload} (hp : u.data.payload = some text) (henc : encrypt oak qc' text.contents = .ok (qc'', some cipher))
    (hdec : decrypt oak qb' cipher = (qb'', some text.contents)) (f g : Option (HS Q)) :
    ∃ (c1 c2 c3 c4 b1 b2 b3 : Module (HS Q) Q HMsg) (m1 m2 : HMsg),
      (Module.new.init c R T).processOut (ops oak) (some (HS.new .initiator c b qc)) u = .ok (c1, .ok ()) ∧
      c1.takeOut (ops oak) = .ok (c2, [.handshake m1]) ∧
      -- the host puts the name of `a` on the request
      (Module.new.init b R T).processIn (ops oak) (some (HS.new .recipient b a qb)) (.handshake a { m1 with sender := a }) = .ok (b1, .ok none) ∧
      b1.takeOut (ops oak) = .ok (b2, [.handshake m2]) ∧
      -- and hands the answer, which is for `a`, to `c`
      c2.processIn (ops oak) f (.handshake b { m2 with recipient := c }) = .ok (c3, .ok none) ∧
      c3.takeOut (ops oak) = .ok (c4, [.data { u.data with payload := some cipher }]) ∧
      b2.processIn (ops oak) g (.data { u.data with sender := a, payload := some cipher }) =
        .ok (b3, .ok (some (.data { u.data with sender := a, payload := some ⟨text.contents, []⟩ }))) := by
  obtain ⟨h1, h2, h3, h4, h5, h6, h7⟩ := hx
  have e1 : ((ops oak).takeOut (HS.new .initiator c b qc)) =
      (⟨.initiator, c, b, (oak.get qc).1, .initiated⟩, .ok (some ⟨b, c, .initiatorRequest (some x)⟩)) := by
    simp [ops, HS.takeOut, HS.new, h1, HS.wrap]
  have e2 : (ops oak).process (HS.new .recipient b a qb) ⟨b, a, .initiatorRequest (some x)⟩ =
      (⟨.recipient, b, a, (oak.put qb x).1, .initiated⟩, .ok ()) := by
    simp [ops, HS.process, HS.process.handle, HS.new, HS.accepts, h2]
  have e3 : (ops oak).takeOut ⟨.recipient, b, a, (oak.put qb x).1, .initiated⟩ =
      (⟨.recipient, b, a, qb', .completed⟩, .ok (some ⟨a, b, .recipientResponse (some y)⟩)) := by
    simp [ops, HS.takeOut, h3, h4, HS.wrap]
  have e4 : (ops oak).process ⟨.initiator, c, b, (oak.get qc).1, .initiated⟩ ⟨c, b, .recipientResponse (some y)⟩ =
      (⟨.initiator, c, b, (oak.put (oak.get qc).1 y).1, .initiated⟩, .ok ()) := by
    simp [ops, HS.process, HS.process.handle, HS.accepts, h5]
  have e5 : (ops oak).takeOut ⟨.initiator, c, b, (oak.put (oak.get qc).1 y).1, .initiated⟩ =
      (⟨.initiator, c, b, qc', .completed⟩, .ok none) := by
    simp [ops, HS.takeOut, h6, h7]
  have c1 : ∀ r i j (q : Q), (ops oak).completed ⟨r, i, j, q, .completed⟩ = true := fun _ _ _ _ => rfl
  have c2 : ∀ r i j (q : Q), (ops oak).encryptor ⟨r, i, j, q, .completed⟩ = some q := fun _ _ _ _ => rfl
  have henc' : (ops oak).encrypt qc' text.contents = .ok (qc'', some cipher) := henc
  have hdec' : (ops oak).decrypt qb' cipher = (qb'', some text.contents) := hdec
  refine ⟨⟨[(b, ⟨.initiated 0, some ⟨b, c, .initiatorRequest (some x)⟩,
        some ⟨.initiator, c, b, (oak.get qc).1, .initiated⟩, [u], none, T⟩)], c, R, T⟩,
      ⟨[(b, ⟨.initiated 0, none, some ⟨.initiator, c, b, (oak.get qc).1, .initiated⟩, [u], none, T⟩)], c, R, T⟩,
      ⟨[(b, ⟨.completed, none, none, [u], some qc', T⟩)], c, R, T⟩,
      ⟨[(b, ⟨.completed, none, none, [], some qc'', T⟩)], c, R, T⟩,
      ⟨[(a, ⟨.completed, some ⟨a, b, .recipientResponse (some y)⟩, none, [], some qb', T⟩)], b, R, T⟩,
      ⟨[(a, ⟨.completed, none, none, [], some qb', T⟩)], b, R, T⟩,
      ⟨[(a, ⟨.completed, none, none, [], some qb'', T⟩)], b, R, T⟩, ⟨b, c, .initiatorRequest (some x)⟩,
      ⟨a, b, .recipientResponse (some y)⟩, ?_, ?_, ?_, ?_, ?_, ?_, ?_⟩
  · simp [Module.processOut, Module.new, Module.init, hc, Module.channel, hu, Peer.new, Peer.init, Peer.processOut, e1,
      AMap.get, AMap.set, push, replaceHeartbeat]
  · simp [Module.takeOut, takeAll, Peer.takeOut]
  · simp [Module.processIn, hb, InMsg.peer, Module.channel, Module.new, Module.init, Peer.new, Peer.init,
      Peer.processIn, e2, e3, c1, c2, AMap.get, AMap.set]
  · simp [Module.takeOut, takeAll, Peer.takeOut]
  · simp [Module.processIn, hc, InMsg.peer, Module.channel, Peer.processIn, e4, e5, c1, c2, AMap.get, AMap.set]
  · simp [Module.takeOut, takeAll, Peer.takeOut, encryptAll, hp, henc']
  · simp [Module.processIn, hb, InMsg.peer, Module.channel, Peer.processIn, Peer.decrypt, hdec', AMap.get, AMap.set]

/-! ## The hypotheses can be met -/

/-- A toy encryptor: how many payloads it made and the nonces it has seen; "encryption" reverses. -/
structure Num where
  made : Nat
  seen : List Bytes
deriving Repr, DecidableEq

/-- Sessions open at once; payloads carry their number. -/
def num : Ops Bool Num Nat where
  takeOut s := (s, .ok (some 0))
  process s _ := (s, .ok ())
  completed s := s
  encryptor s := if s then some ⟨0, []⟩ else none
  encrypt e b := .ok ({ e with made := e.made + 1 }, some ⟨b.reverse, List.replicate e.made 0⟩)
  decrypt e pl := if pl.nonce ∈ e.seen then (e, none) else ({ e with seen := pl.nonce :: e.seen }, some pl.contents.reverse)

/-- What two ends of a toy session made. -/
def numLink (e f : Num) (xs ys : List (Bytes × Payload)) : Prop :=
  xs.map (·.2.nonce) = (List.range e.made).map (List.replicate · 0) ∧ ys.map (·.2.nonce) = (List.range f.made).map (List.replicate · 0) ∧
  (∀ x ∈ xs, x.2.contents = x.1.reverse) ∧ ∀ y ∈ ys, y.2.contents = y.1.reverse

theorem num_seen {e e' : Num} (h : EncryptorFrom num e e') {n : Bytes} (hn : n ∈ e.seen) : n ∈ e'.seen := by
  induction h with
  | refl => exact hn
  | encrypt _ he ih =>
    simp only [num, Run.ok.injEq, Prod.mk.injEq] at he
    obtain ⟨rfl, _⟩ := he
    exact ih
  | decrypt _ pl ih =>
    simp only [num]
    split
    · exact ih
    · exact List.mem_cons_of_mem _ ih

theorem num_ideal : Ideal num numLink where
  symm := fun ⟨a, b, c, d⟩ => ⟨b, a, d, c⟩
  enc := by
    rintro e f xs ys b e' pl ⟨h1, h2, h3, h4⟩ he
    simp only [num, Run.ok.injEq, Prod.mk.injEq, Option.some.injEq] at he
    obtain ⟨rfl, rfl⟩ := he
    refine ⟨by simp [h1, List.range_succ], h2, ?_, h4⟩
    intro x hx
    rcases List.mem_append.1 hx with hx | hx
    · exact h3 x hx
    · simp only [List.mem_singleton] at hx; subst hx; rfl
  refused := by
    rintro e f xs ys b e' _ he
    simp [num] at he
  dec := by
    rintro e f xs ys pl ⟨h1, h2, h3, h4⟩
    simp only [num]
    split
    · exact ⟨h1, h2, h3, h4⟩
    · exact ⟨h1, h2, h3, h4⟩
  correct := by
    rintro e f xs ys b b' pl ⟨_, _, _, h4⟩ hm hd
    simp only [num] at hd
    split at hd
    · cases hd
    · simp only [Option.some.injEq] at hd
      have := h4 _ hm
      simp only at this
      rw [← hd, this, List.reverse_reverse]
  replay := by
    rintro e f xs ys b pl e' _ hd hf
    have : pl.nonce ∈ (num.decrypt e pl).1.seen := by
      simp only [num]
      split
      · assumption
      · simp
    have := num_seen hf this
    simp only [num]
    rw [if_pos this]

def numMsg (src dst : Nat) (b : Bytes) : Outgoing := ⟨⟨.system, dst, src, some ⟨b, []⟩⟩, false⟩

/-- Replica 1 with a message for replica 2 queued, and replica 2; their handshake completed. -/
def numA : Module Bool Num Nat := ⟨[(2, ⟨.completed, some 0, none, [numMsg 1 2 [5, 6]], some ⟨0, []⟩, 10⟩)], 1, 1, 10⟩
def numB : Module Bool Num Nat := ⟨[(1, ⟨.completed, some 0, none, [], some ⟨0, []⟩, 10⟩)], 2, 1, 10⟩

/-- C79 is not vacuous: the host repeats a message, and relabels it; it is passed up once, as a part of a snapshot. -/
example : ∃ x y x' y' : End Bool Num Nat, Opened num x ⟨0, []⟩ ∧ Opened num y ⟨0, []⟩ ∧ numLink ⟨0, []⟩ ⟨0, []⟩ [] [] ∧
    Attacked num (x, y) (x', y') ∧ x'.handed = [[5, 6]] ∧ y'.got = [[5, 6]] ∧ y'.up = true := by
  have hA : History num 1 1 10 _ numA := (History.init.step (.out (fresh := some true) (msg := numMsg 1 2 [5, 6]) rfl)).step
    (.inn (fresh := none) (msg := .handshake 2 0) rfl)
  have hB : History num 2 1 10 _ numB := History.init.step (.inn (fresh := some true) (msg := .handshake 1 0) rfl)
  let x : End Bool Num Nat := ⟨numA, 2, true, [[5, 6]], [], []⟩
  let y : End Bool Num Nat := ⟨numB, 1, true, [], [], []⟩
  have s1 : Attacked num (x, y) _ := .step .refl (.fst (x := x) (y := y) (.take rfl) (by intro _ o ho; simp [openedIn] at ho))
  have s2 := Attacked.step s1 (.fst (.take rfl) (by intro _ o ho; simp [openedIn] at ho))
  have s3 := Attacked.step s2 (.snd (.inn (fresh := none) (msg := .data ⟨.snapshotRequest 9, 2, 1, some ⟨[6, 5], []⟩⟩) rfl) (by
    intro _ o ho
    change o ∈ [([5, 6], (⟨[6, 5], []⟩ : Payload))] at ho
    simp only [List.mem_singleton] at ho
    subst ho
    decide))
  have s4 := Attacked.step s3 (.snd (.inn (fresh := none) (msg := .data ⟨.system, 2, 1, some ⟨[6, 5], []⟩⟩) rfl) (by
    intro _ o ho
    change o ∈ [] at ho
    cases ho))
  refine ⟨x, y, _, _, ⟨rfl, ?_, rfl, rfl, rfl, rfl, ⟨_, _, _, _, hA⟩⟩, ⟨rfl, ?_, rfl, rfl, rfl, rfl, ⟨_, _, _, _, hB⟩⟩,
    ⟨rfl, rfl, by simp, by simp⟩, s4, rfl, by decide, by decide⟩
  · intro c hc
    change some _ = some c at hc
    simp only [Option.some.injEq] at hc
    subst hc; rfl
  · intro c hc
    change some _ = some c at hc
    simp only [Option.some.injEq] at hc
    subst hc; rfl

/-- The toy library of the round trip meets the hypotheses of `C79_identity_fails`, and the toy replica 2 passes up a message. -/
example : Exchange toy toyClient.session toyServer.session ⟨true, [], []⟩ ⟨true, [], []⟩ (.other [1]) (.other [2]) ∧
    encrypt toy ⟨true, [], []⟩ [5, 6] = .ok (⟨true, [], []⟩, some ⟨[6, 5], [0]⟩) ∧
    decrypt toy ⟨true, [], []⟩ ⟨[6, 5], [0]⟩ = (⟨true, [], []⟩, some [5, 6]) ∧
    ∃ m', toyB.processIn (ops toy) none (.data ⟨.system, 2, 1, some ⟨[6, 5], [0]⟩⟩) =
      .ok (m', .ok (some (.data ⟨.system, 2, 1, some ⟨[5, 6], []⟩⟩))) :=
  ⟨⟨rfl, rfl, rfl, rfl, rfl, rfl, rfl⟩, rfl, rfl, _, rfl⟩

end TCP.Handshake
