import Verif.Proofs.Handshake
import Verif.Props.Comm

/-!
# C20, C21, C57, C58: handshake sessions and the encrypted round trip

`oak` is any behaviour of the attested session library.
-/

namespace TCP.Handshake
open TCP Comm Comm.Spec Spec

variable {Q S E H : Type}

/-! ## A concrete session library used to show that the hypotheses can be met -/

/-- A toy session: whether it is open, what it has to send, what it has to read. -/
structure Toy where
  opened : Bool
  out : List SessMsg
  inbox : List Bytes
deriving Repr, DecidableEq

/-- The opening side sends 1, the other answers 2 and is open; the opening side is open on 2.  Then
"encryption" reverses. -/
def toy : Oak Toy where
  put q
    | .other b => (if b = [1] then { q with opened := true, out := [.other [2]] } else { q with opened := true }, .ok ())
    | .encrypted c _ => ({ q with inbox := q.inbox ++ [c.reverse] }, .ok ())
  get q := ({ q with out := q.out.tail }, .ok q.out.head?)
  isOpen q := q.opened
  write q b := ({ q with out := q.out ++ [.encrypted b.reverse (some [0])] }, .ok ())
  read q := ({ q with inbox := q.inbox.tail }, .ok q.inbox.head?)

def toyClient : HS Toy := HS.new .initiator 1 2 ⟨false, [.other [1]], []⟩
def toyServer : HS Toy := HS.new .recipient 2 1 ⟨false, [], []⟩

/-! ## C20 -/

/-- A session that reports completed sits on an open attested session and yields exactly that session
as its encryptor; a session that is not completed yields none. -/
theorem C20_completed_means_open {oak : Oak Q} {role : Role} {self peer : Nat} {q : Q} {cs : List Call} {s : HS Q}
    (h : Trace oak (HS.new role self peer q) cs s) :
    (s.completed = true → oak.isOpen s.session = true ∧ s.encryptor = some s.session) ∧
    (s.completed = false → s.encryptor = none) := by
  have hi := TInv.trace rfl h
  constructor
  · intro hc
    have hc : s.state = .completed := by simpa [HS.completed] using hc
    exact ⟨hi.opened hc, by simp [HS.encryptor, hc]⟩
  · intro hc
    have hc : s.state ≠ .completed := by simpa [HS.completed] using hc
    simp [HS.encryptor, hc]

/-- Completed and failed are permanent: no later call changes the session, every later take yields
nothing and every later message is ignored. -/
theorem C20_permanent {oak : Oak Q} {s s' : HS Q} {cs : List Call}
    (hs : s.completed = true ∨ s.state = .failed) (h : Trace oak s cs s') :
    s' = s ∧ ∀ c ∈ cs, c = .take (.ok none) ∨ ∃ m, c = .process m (.ok ()) := by
  have ht : s.state = .completed ∨ s.state = .failed := by simpa [HS.completed] using hs
  induction h with
  | nil => exact ⟨rfl, by simp⟩
  | take h hc ih =>
    obtain ⟨rfl, ih⟩ := ih
    rw [HS.takeOut_terminal ht] at hc
    simp at hc; obtain ⟨rfl, rfl⟩ := hc
    refine ⟨rfl, fun c hc => ?_⟩
    rcases List.mem_append.mp hc with hc | hc
    · exact ih c hc
    · simp at hc; exact Or.inl hc
  | @process _ _ _ m _ h hc ih =>
    obtain ⟨rfl, ih⟩ := ih
    rw [HS.process_terminal m ht] at hc
    simp at hc; obtain ⟨rfl, rfl⟩ := hc
    refine ⟨rfl, fun c hc => ?_⟩
    rcases List.mem_append.mp hc with hc | hc
    · exact ih c hc
    · simp at hc; exact Or.inr ⟨m, hc⟩

/-- A client that gets a message before it produced its first one refuses it and has failed for good. -/
theorem C20_client_refuses_early {oak : Oak Q} {self peer : Nat} {q : Q} {m : HMsg} {r : Except Unit Unit}
    {cs : List Call} {s : HS Q} (h : Trace oak (HS.new .initiator self peer q) (.process m r :: cs) s) :
    r = .error () ∧ s.state = .failed ∧ s.completed = false ∧ s.encryptor = none := by
  obtain ⟨h1, h2⟩ := (TInv.trace rfl h).early rfl m r cs rfl
  exact ⟨h1, h2, by simp [HS.completed, h2], by simp [HS.encryptor, h2]⟩

/-- A message of the wrong kind (or an empty one) never advances a session: the underlying session does
not see it, and unless the session was already done the call fails and so has the handshake. -/
theorem C20_wrong_kind {oak : Oak Q} {s s' : HS Q} {m : HMsg} {r : Except Unit Unit}
    (hm : ¬ FromOtherRole s.role m) (h : s.process oak m = (s', r)) :
    s'.session = s.session ∧ ((s' = s ∧ (s.completed = true ∨ s.state = .failed)) ∨ (r = .error () ∧ s'.state = .failed)) := by
  by_cases ht : s.state = .completed ∨ s.state = .failed
  · rw [HS.process_terminal m ht] at h
    simp at h; obtain ⟨rfl, _⟩ := h
    exact ⟨rfl, Or.inl ⟨rfl, by simpa [HS.completed] using ht⟩⟩
  · have hn : s.accepts m = none := by
      cases ha : s.accepts m with
      | none => rfl
      | some x => exact absurd (accepts_from ha) hm
    have hh : ∀ {s' : HS Q} {r}, HS.process.handle oak m s = (s', r) →
        s'.session = s.session ∧ (r = .error () ∧ s'.state = .failed) := by
      intro s' r hh
      unfold HS.process.handle at hh
      rw [hn] at hh; simp at hh
      obtain ⟨rfl, rfl⟩ := hh
      exact ⟨rfl, rfl, rfl⟩
    suffices hs : s'.session = s.session ∧ (r = .error () ∧ s'.state = .failed) from ⟨hs.1, Or.inr hs.2⟩
    unfold HS.process at h
    cases hst : s.state with
    | completed => exact absurd (Or.inl hst) ht
    | failed => exact absurd (Or.inr hst) ht
    | initiated => rw [hst] at h; exact hh h
    | unknown =>
      rw [hst] at h
      cases hr : s.role with
      | recipient => rw [hr] at h; exact hh h
      | initiator => rw [hr] at h; simp at h; obtain ⟨rfl, rfl⟩ := h; exact ⟨rfl, rfl, rfl⟩

/-- A handshake completes only through an exchange: a server that completed accepted a request, and if
the session library does not open a session on its own, a client that completed accepted a response. -/
theorem C20_exchange {oak : Oak Q} {role : Role} {self peer : Nat} {q : Q} {cs : List Call} {s : HS Q}
    (h : Trace oak (HS.new role self peer q) cs s) (hc : s.completed = true)
    (hq : role = .initiator → NotOpenAlone oak q) :
    ∃ m, Call.process m (.ok ()) ∈ cs ∧ FromOtherRole role m := by
  have hi := TInv.trace rfl h
  have hst : s.state = .completed := by simpa [HS.completed] using hc
  cases role with
  | recipient =>
    rcases hi.server rfl with h1 | h1 | h1
    · exact h1
    · rw [hst] at h1; cases h1
    · rw [hst] at h1; cases h1
  | initiator =>
    rcases hi.heard with h1 | h1 | ⟨n, h1⟩
    · exact h1
    · rw [hst] at h1; cases h1
    · have := hi.opened hst
      rw [h1] at this
      have hn : oak.isOpen (Nat.repeat (fun q => (oak.get q).1) n q) = false := hq rfl n
      exact absurd (hn.symm.trans this) (by decide)

/-- Every session a channel is given, and drives, is one whose trace the theorems above cover. -/
theorem sessionFrom_trace {oak : Oak Q} {s0 s : HS Q} (h : SessionFrom (ops oak) s0 s) : ∃ cs, Trace oak s0 cs s := by
  induction h with
  | refl => exact ⟨[], .nil⟩
  | takeOut _ ih => obtain ⟨cs, ih⟩ := ih; exact ⟨_, ih.take rfl⟩
  | process _ m ih => obtain ⟨cs, ih⟩ := ih; exact ⟨_, ih.process rfl⟩

/-- On the channel layer: whatever encryptor a replica uses for a peer descends from an attested session
that was open, of a handshake session provided for that peer. -/
theorem C20_channel {oak : Oak Q} {evs : List (Ev (HS Q) HMsg)} {p : Nat} {e : Q}
    (hp : ∀ s, Provided evs p s → ∃ role self peer q, s = HS.new role self peer q)
    (h : Established (ops oak) evs p e) :
    ∃ s0 cs s, Provided evs p s0 ∧ Trace oak s0 cs s ∧ oak.isOpen s.session = true ∧
      EncryptorFrom (ops oak) s.session e := by
  obtain ⟨s0, s, e0, h1, h2, h3, h4, h5⟩ := h
  obtain ⟨cs, ht⟩ := sessionFrom_trace h2
  obtain ⟨role, self, peer, q, rfl⟩ := hp s0 h1
  obtain ⟨ho, he⟩ := (C20_completed_means_open ht).1 h3
  have : e0 = s.session := by
    have h4 : s.encryptor = some e0 := h4
    rw [he] at h4; simpa using h4.symm
  subst this
  exact ⟨_, cs, s, h1, ht, ho, h5⟩

/-- The toy client completes after one exchange, the toy library does not open a session on its own, a
request is the wrong kind for the client. -/
example : ∃ cs s, Trace toy toyClient cs s ∧ s.completed = true ∧ NotOpenAlone toy toyClient.session ∧
    Call.process ⟨1, 2, .recipientResponse (some (.other [2]))⟩ (.ok ()) ∈ cs ∧
    ¬ FromOtherRole toyClient.role ⟨1, 2, .initiatorRequest (some (.other [1]))⟩ := by
  have h0 : Trace toy toyClient [] toyClient := .nil
  have h1 := h0.take rfl
  have h2 := h1.process (m := ⟨1, 2, .recipientResponse (some (.other [2]))⟩) rfl
  have h3 := h2.take rfl
  refine ⟨_, _, h3, rfl, ?_, by simp, by simp [FromOtherRole, toyClient, HS.new]⟩
  intro n
  have : ∀ n (q : Toy), q.opened = false → (Nat.repeat (fun q => (toy.get q).1) n q).opened = false := by
    intro n q hq
    induction n with
    | zero => exact hq
    | succ n ih => exact ih
  exact this n _ rfl

/-- A toy server completes as well, and a client that is spoken to first fails. -/
example : (∃ cs s, Trace toy toyServer cs s ∧ s.completed = true) ∧
    (∃ m r s, Trace toy toyClient [.process m r] s ∧ s.state = .failed) := by
  have h0 : Trace toy toyServer [] toyServer := .nil
  have h1 := h0.process (m := ⟨2, 1, .initiatorRequest (some (.other [1]))⟩) rfl
  have h2 := h1.take rfl
  have g0 : Trace toy toyClient [] toyClient := .nil
  have g1 := g0.process (m := ⟨1, 2, .recipientResponse (some (.other [2]))⟩) rfl
  exact ⟨⟨_, _, h2, rfl⟩, ⟨_, _, _, g1, rfl⟩⟩

/-- With the code's own encryptors: a payload that is passed up was accepted by the attested session library, in the session of a
handshake with its sender that completed, and what is passed up is what that session then gave to read. -/
theorem C19_only_what_the_session_read {oak : Oak Q} {me R T : Nat} {evs : List (Ev (HS Q) HMsg)} {m m' : Module (HS Q) Q HMsg}
    (h : History (ops oak) me R T evs m) {fresh : Option (HS Q)} {msg up : InMsg HMsg}
    (hin : m.processIn (ops oak) fresh msg = .ok (m', .ok (some up))) :
    ∃ d c q q1 q2 b, msg = .data d ∧ d.payload = some c ∧ Established (ops oak) evs d.sender q ∧
      oak.put q (.encrypted c.contents (some c.nonce)) = (q1, .ok ()) ∧ oak.read q1 = (q2, .ok (some b)) ∧
      up = .data { d with payload := some ⟨b, []⟩ } := by
  obtain ⟨d, c, q, b, h1, _, h3, h4, h5, h6⟩ := C19_only_decrypted h hin
  refine ⟨d, c, q, (oak.put q (.encrypted c.contents (some c.nonce))).1,
    (oak.read (oak.put q (.encrypted c.contents (some c.nonce))).1).1, b, h1, h4, h3, ?_, ?_, h6⟩ <;>
  · have h5 : (decrypt oak q c).2 = some b := h5
    unfold decrypt at h5
    cases hp : oak.put q (.encrypted c.contents (some c.nonce)) with
    | mk q1 r1 =>
      cases hr : oak.read q1 with
      | mk q2 r2 =>
        simp only [hp, hr] at h5
        cases r1 with
        | error e => simp at h5
        | ok u =>
          cases r2 with
          | error e => simp at h5
          | ok x =>
            cases x with
            | none => simp at h5
            | some b' =>
              simp only [Option.some.injEq] at h5
              subst h5
              first | rfl | simp [hr]

/-- And a payload that is sent is what the session library produced for the bytes written into the session, in the session of a
completed handshake with the recipient. -/
theorem C15_only_what_the_session_produced {oak : Oak Q} {me R T : Nat} {evs : List (Ev (HS Q) HMsg)} {m m' : Module (HS Q) Q HMsg}
    (h : History (ops oak) me R T evs m) {out : List (OutMsg HMsg)} (ht : m.takeOut (ops oak) = .ok (m', out))
    {d : Data} (hd : OutMsg.data d ∈ out) :
    ∃ u pl q q1 q2 c n, u ∈ accepted d.recipient evs ∧ u.data.payload = some pl ∧ Established (ops oak) evs d.recipient q ∧
      oak.write q pl.contents = (q1, .ok ()) ∧ oak.get q1 = (q2, .ok (some (.encrypted c (some n)))) ∧
      d = { u.data with payload := some ⟨c, n⟩ } := by
  obtain ⟨u, q, hu, _, he, pl, c, q', hp, hc, hdd⟩ := C15_only_ciphertext h ht hd
  have hc : encrypt oak q pl.contents = .ok (q', some c) := hc
  unfold encrypt at hc
  cases hw : oak.write q pl.contents with
  | mk q1 r1 =>
    cases hg : oak.get q1 with
    | mk q2 r2 =>
      simp only [hw, hg] at hc
      cases r1 with
      | error e => simp at hc
      | ok x =>
        simp only at hc
        split at hc
        · rename_i a b
          simp only [Run.ok.injEq, Prod.mk.injEq, Option.some.injEq] at hc
          obtain ⟨rfl, rfl⟩ := hc
          exact ⟨u, pl, q, q1, q2, a, b, hu, hp, he, hw, hg, hdd⟩
        · simp at hc
        · simp at hc

/-! ## C21 -/

theorem Acct.recovered {acc d fl q : List Outgoing} (h : Acct acc (d ++ fl) q) : Recovered acc d fl q := by
  obtain ⟨h1, h2, h3⟩ := h
  simp only [others_append, heartbeats_append] at h1 h2 h3
  exact ⟨h1, h2, h3⟩

/-- Once both replicas have completed a handshake with each other, in every execution in which the
network delivers in order, both receiving sides pass up exactly the first messages the other accepted,
unchanged (`arrived`), and the rest is still in flight or queued. -/
theorem C21_round_trip {ops : Ops S E H} {L : E → E → List (Bytes × Payload) → List (Bytes × Payload) → Prop}
    (hl : Linked ops L) {ia ib : Nat} {w w' : World S E H} (hr : Ready ops L ia ib w) (h : Reach ops ia ib w w') :
    (∃ recovered inFlight, w'.upB = recovered.map arrived ∧ w'.netAB.map header = inFlight.map (header ·.data) ∧
      Recovered w'.accAB recovered inFlight (queueOf w'.a ib)) ∧
    (∃ recovered inFlight, w'.upA = recovered.map arrived ∧ w'.netBA.map header = inFlight.map (header ·.data) ∧
      Recovered w'.accBA recovered inFlight (queueOf w'.b ia)) := by
  obtain ⟨e, f, qa, qb, dab, dba, wab, wba, hw⟩ := WInv.reach hl hr h
  have hqa : queueOf w'.a ib = qa := by
    obtain ⟨c, hg, _, _, _, hq, _⟩ := hw.upA
    simp [queueOf, hg, hq]
  have hqb : queueOf w'.b ia = qb := by
    obtain ⟨c, hg, _, _, _, hq, _⟩ := hw.upB
    simp [queueOf, hg, hq]
  refine ⟨⟨dab, wab.map Prod.fst, hw.ab.hup, by simp [hw.ab.hnet, Way.net, header], ?_⟩,
    ⟨dba, wba.map Prod.fst, hw.ba.hup, by simp [hw.ba.hnet, Way.net, header], ?_⟩⟩
  · rw [hqa]; exact hw.ab.acct.recovered
  · rw [hqb]; exact hw.ba.acct.recovered

/-- The same for the code's own sessions and encryptors over a session library that recovers in order
what was written. -/
theorem C21_round_trip_sessions {oak : Oak Q} {L : Q → Q → List (Bytes × Payload) → List (Bytes × Payload) → Prop}
    (hl : OakLinked oak L) {ia ib : Nat} {w w' : World (HS Q) Q HMsg} (hr : Ready (ops oak) L ia ib w)
    (h : Reach (ops oak) ia ib w w') :
    (∃ recovered inFlight, w'.upB = recovered.map arrived ∧ w'.netAB.map header = inFlight.map (header ·.data) ∧
      Recovered w'.accAB recovered inFlight (queueOf w'.a ib)) ∧
    (∃ recovered inFlight, w'.upA = recovered.map arrived ∧ w'.netBA.map header = inFlight.map (header ·.data) ∧
      Recovered w'.accBA recovered inFlight (queueOf w'.b ia)) :=
  C21_round_trip (OakLinked.linked hl) hr h

/-- When nothing is queued or in flight and no heartbeats were sent, the messages passed up are exactly
the accepted ones. -/
theorem C21_quiet {ops : Ops S E H} {L : E → E → List (Bytes × Payload) → List (Bytes × Payload) → Prop}
    (hl : Linked ops L) {ia ib : Nat} {w w' : World S E H} (hr : Ready ops L ia ib w) (h : Reach ops ia ib w w')
    (hn : w'.netAB = []) (hq : queueOf w'.a ib = []) (hb : heartbeats w'.accAB = []) :
    w'.upB = w'.accAB.map arrived := by
  obtain ⟨⟨rc, fl, h1, h2, h3, h4, _⟩, _⟩ := C21_round_trip hl hr h
  have hfl : fl = [] := by rw [hn] at h2; simpa using h2.symm
  subst hfl
  rw [hq] at h3 h4
  rw [hb] at h4
  have hrc : heartbeats rc = [] := by
    have := List.sublist_nil.mp h4
    simp at this
    exact this.1
  have key : ∀ l : List Outgoing, heartbeats l = [] → others l = l := by
    intro l hl
    unfold heartbeats at hl
    unfold others
    rw [List.filter_eq_self]
    intro a ha
    have := List.filter_eq_nil_iff.mp hl a ha
    simpa using this
  rw [key _ hb, key _ hrc] at h3
  rw [h1, h3]
  simp [others]

/-- The toy sessions that belong together. -/
def toyLink (e f : Toy) (xs ys : List (Bytes × Payload)) : Prop :=
  e.out = [] ∧ f.out = [] ∧ e.inbox = [] ∧ f.inbox = [] ∧
  (∀ x ∈ xs, x.2.contents = x.1.reverse) ∧ (∀ x ∈ ys, x.2.contents = x.1.reverse)

theorem toyLinked : OakLinked toy toyLink where
  symm := fun ⟨a, b, c, d, e, f⟩ => ⟨b, a, d, c, f, e⟩
  send := by
    rintro ⟨eo, _, _⟩ f xs ys b ⟨rfl, h2, rfl, h4, h5, h6⟩
    refine ⟨_, _, b.reverse, [0], rfl, rfl, rfl, h2, rfl, h4, ?_, h6⟩
    intro x hx
    rcases List.mem_append.mp hx with hx | hx
    · exact h5 x hx
    · simp at hx; subst hx; rfl
  recv := by
    rintro e ⟨fo, _, _⟩ b pl xs ys ⟨h1, rfl, h3, rfl, h5, h6⟩
    have : pl.contents = b.reverse := h5 (b, pl) (by simp)
    refine ⟨_, ⟨fo, [], []⟩, rfl, ?_, h1, rfl, h3, rfl, fun x hx => h5 x (by simp [hx]), h6⟩
    simp [toy, this]

def toyMsg (src dst : Nat) (b : Bytes) : Outgoing := ⟨⟨.system, dst, src, some ⟨b, []⟩⟩, false⟩

/-- Both sides after the handshake, the first with a message queued. -/
def toyA : Module (HS Toy) Toy HMsg := ⟨[(2, ⟨.completed, none, none, [toyMsg 1 2 [5, 6]], some ⟨true, [], []⟩, 10⟩)], 1, 1, 10⟩
def toyB : Module (HS Toy) Toy HMsg := ⟨[(1, ⟨.completed, none, none, [], some ⟨true, [], []⟩, 10⟩)], 2, 1, 10⟩

theorem toyA_history : ∃ evs, History (ops toy) 1 1 10 evs toyA := by
  have h0 := History.init (ops := ops toy) (self := 1) (retry := 1) (timeout := 10)
  have h1 := h0.step (.out (fresh := some toyClient) (msg := toyMsg 1 2 [5, 6]) rfl)
  have h2 := h1.step (.take rfl)
  have h3 := h2.step (.inn (fresh := none) (msg := .handshake 2 ⟨1, 2, .recipientResponse (some (.other [2]))⟩) rfl)
  exact ⟨_, h3⟩

theorem toyB_history : ∃ evs, History (ops toy) 2 1 10 evs toyB := by
  have h0 := History.init (ops := ops toy) (self := 2) (retry := 1) (timeout := 10)
  have h1 := h0.step (.inn (fresh := some toyServer) (msg := .handshake 1 ⟨2, 1, .initiatorRequest (some (.other [1]))⟩) rfl)
  have h2 := h1.step (.take rfl)
  exact ⟨_, h2⟩

/-- The toy replicas: one has a message to send, the other passes up what it decrypts. -/
example : (∃ evs m', History (ops toy) 1 1 10 evs toyA ∧ toyA.takeOut (ops toy) = .ok (m', [.data ⟨.system, 2, 1, some ⟨[6, 5], [0]⟩⟩])) ∧
    ∃ evs m', History (ops toy) 2 1 10 evs toyB ∧ toyB.processIn (ops toy) none (.data ⟨.system, 2, 1, some ⟨[6, 5], [0]⟩⟩) =
      .ok (m', .ok (some (.data ⟨.system, 2, 1, some ⟨[5, 6], []⟩⟩))) := by
  obtain ⟨evA, hA⟩ := toyA_history
  obtain ⟨evB, hB⟩ := toyB_history
  exact ⟨⟨evA, _, hA, rfl⟩, ⟨evB, _, hB, rfl⟩⟩

/-- Two replicas that completed a handshake, a queued message that is emitted, delivered and recovered. -/
example : ∃ w w', Ready (ops toy) toyLink 1 2 w ∧ Reach (ops toy) 1 2 w w' ∧
    w.accAB = [toyMsg 1 2 [5, 6]] ∧ w'.upB = [.data ⟨.system, 2, 1, some ⟨[5, 6], []⟩⟩] ∧ w'.netAB = [] := by
  obtain ⟨evA, hA⟩ := toyA_history
  obtain ⟨evB, hB⟩ := toyB_history
  let w : World (HS Toy) Toy HMsg := ⟨toyA, toyB, [], [], [toyMsg 1 2 [5, 6]], [], [], []⟩
  have r1 : Reach (ops toy) 1 2 w _ := Reach.refl.fst (.act (w := w) (ev := .take [.data ⟨.system, 2, 1, some ⟨[6, 5], [0]⟩⟩])
    (.take rfl) (by simp [SilentFrom]) (by simp [KeepsPeer]) (by simp [accepted]))
  have r2 := r1.fst (.deliver (d := ⟨.system, 2, 1, some ⟨[6, 5], [0]⟩⟩) (rest := []) (fresh := none) rfl rfl)
  refine ⟨w, _, ?_, r2, rfl, rfl, rfl⟩
  refine ⟨⟨true, [], []⟩, ⟨true, [], []⟩, [toyMsg 1 2 [5, 6]], [], [], [], ?_, ?_, ?_, rfl, rfl, by simp, by simp,
    rfl, rfl, rfl, rfl, by decide, by decide, ⟨1, 10, evA, hA⟩, ⟨1, 10, evB, hB⟩⟩
  · exact ⟨_, rfl, rfl, rfl, rfl, rfl, by simp [toyMsg], by decide⟩
  · exact ⟨_, rfl, rfl, rfl, rfl, rfl, by simp, by decide⟩
  · exact ⟨rfl, rfl, rfl, rfl, by simp [Way.crypto], by simp [Way.crypto]⟩

/-! ## C57 -/

/-- C57 fails: two replicas that send each other their first message before hearing from the other both
open a handshake as initiator, and when the two opening messages arrive both sides fail, whatever the
session library does.  Nothing breaks the tie: each refuses the other's request. -/
theorem C57_simultaneous_open_fails {oak : Oak Q} {ia ib : Nat} (hne : ia ≠ 0) (hnb : ib ≠ 0) {qa qb : Q}
    {xa xb : SessMsg} (hxa : (oak.get qa).2 = .ok (some xa)) (hxb : (oak.get qb).2 = .ok (some xb))
    {R T : Nat} {ua ub : Outgoing} (hua : ua.data.recipient = ib) (hub : ub.data.recipient = ia)
    (fa fb : Option (HS Q)) :
    ∃ (a1 a2 a3 b1 b2 b3 : Module (HS Q) Q HMsg) (ma mb : HMsg),
      (Module.new.init ia R T).processOut (ops oak) (some (HS.new .initiator ia ib qa)) ua = .ok (a1, .ok ()) ∧
      a1.takeOut (ops oak) = .ok (a2, [.handshake ma]) ∧
      (Module.new.init ib R T).processOut (ops oak) (some (HS.new .initiator ib ia qb)) ub = .ok (b1, .ok ()) ∧
      b1.takeOut (ops oak) = .ok (b2, [.handshake mb]) ∧
      a2.processIn (ops oak) fa (.handshake ib mb) = .ok (a3, .ok none) ∧
      b2.processIn (ops oak) fb (.handshake ia ma) = .ok (b3, .ok none) ∧
      statusOf a3 ib = .failed 0 ∧ statusOf b3 ia = .failed 0 := by
  have side : ∀ {i j : Nat} (_ : i ≠ 0) {q : Q} {x : SessMsg} (_ : (oak.get q).2 = .ok (some x)) {u : Outgoing}
      (_ : u.data.recipient = j) (f : Option (HS Q)) (y : HMsg) (_ : ∃ z, y.body = .initiatorRequest z),
      ∃ (m1 m2 m3 : Module (HS Q) Q HMsg),
      (Module.new.init i R T).processOut (ops oak) (some (HS.new .initiator i j q)) u = .ok (m1, .ok ()) ∧
      m1.takeOut (ops oak) = .ok (m2, [.handshake ((HS.new .initiator i j q).wrap x)]) ∧
      m2.processIn (ops oak) f (.handshake j y) = .ok (m3, .ok none) ∧
      statusOf m3 j = .failed 0 := by
    intro i j hi q x hx u hu f y hy
    obtain ⟨z, hz⟩ := hy
    have e1 : ((ops oak).takeOut (HS.new .initiator i j q)) =
        ({ HS.new .initiator i j q with session := (oak.get q).1, state := .initiated },
          .ok (some ((HS.new .initiator i j q).wrap x))) := by
      simp [ops, HS.takeOut, HS.new, hx]
    have e2 : (ops oak).process { HS.new .initiator i j q with session := (oak.get q).1, state := .initiated } y =
        ({ HS.new .initiator i j q with session := (oak.get q).1, state := .failed }, .error ()) := by
      simp [ops, HS.process, HS.process.handle, HS.new, HS.accepts, hz]
    refine ⟨⟨[(j, ⟨.initiated 0, some ((HS.new .initiator i j q).wrap x),
        some { HS.new .initiator i j q with session := (oak.get q).1, state := .initiated }, [u], none, T⟩)], i, R, T⟩,
      ⟨[(j, ⟨.initiated 0, none,
        some { HS.new .initiator i j q with session := (oak.get q).1, state := .initiated }, [u], none, T⟩)], i, R, T⟩,
      ⟨[(j, ⟨.failed 0, none,
        some { HS.new .initiator i j q with session := (oak.get q).1, state := .failed }, [u], none, T⟩)], i, R, T⟩, ?_, ?_, ?_, ?_⟩
    · simp [Module.processOut, Module.new, Module.init, hi, Module.channel, hu, Peer.new, Peer.init, Peer.processOut, e1,
        AMap.get, AMap.set, push, replaceHeartbeat]
    · simp [Module.takeOut, takeAll, Peer.takeOut]
    · simp [Module.processIn, hi, InMsg.peer, Module.channel, Peer.processIn, e2, AMap.get, AMap.set]
    · simp [statusOf, AMap.get]
  obtain ⟨a1, a2, a3, h1, h2, h3, h4⟩ := side hne hxa hua fa ((HS.new .initiator ib ia qb).wrap xb) ⟨_, rfl⟩
  obtain ⟨b1, b2, b3, g1, g2, g3, g4⟩ := side hnb hxb hub fb ((HS.new .initiator ia ib qa).wrap xa) ⟨_, rfl⟩
  exact ⟨a1, a2, a3, b1, b2, b3, _, _, h1, h2, g1, g2, h3, g3, h4, g4⟩

/-- The toy library meets the hypotheses. -/
example : (toy.get toyClient.session).2 = .ok (some (.other [1])) := rfl

/-- What does hold: when only one side opens, the exchange leaves both with a completed channel and the
message that triggered it is still queued.  `Exchange` says the session library needs one message each
way.  Missing: the case of crossing requests, which fails as shown above. -/
structure Exchange (oak : Oak Q) (qa qb qa' qb' : Q) (x y : SessMsg) : Prop where
  opening : (oak.get qa).2 = .ok (some x)
  heard : (oak.put qb x).2 = .ok ()
  answer : oak.get (oak.put qb x).1 = (qb', .ok (some y))
  serverOpen : oak.isOpen qb' = true
  back : (oak.put (oak.get qa).1 y).2 = .ok ()
  quiet : oak.get (oak.put (oak.get qa).1 y).1 = (qa', .ok none)
  clientOpen : oak.isOpen qa' = true

theorem C57_one_sided_open_partial {oak : Oak Q} {ia ib : Nat} (hne : ia ≠ 0) (hnb : ib ≠ 0) {qa qb qa' qb' : Q}
    {x y : SessMsg} (hx : Exchange oak qa qb qa' qb' x y) {R T : Nat} {u : Outgoing} (hu : u.data.recipient = ib)
    (f : Option (HS Q)) :
    ∃ (a1 a2 a3 b1 b2 : Module (HS Q) Q HMsg) (m1 m2 : HMsg),
      (Module.new.init ia R T).processOut (ops oak) (some (HS.new .initiator ia ib qa)) u = .ok (a1, .ok ()) ∧
      a1.takeOut (ops oak) = .ok (a2, [.handshake m1]) ∧
      (Module.new.init ib R T).processIn (ops oak) (some (HS.new .recipient ib ia qb)) (.handshake ia m1)
        = .ok (b1, .ok none) ∧
      b1.takeOut (ops oak) = .ok (b2, [.handshake m2]) ∧
      a2.processIn (ops oak) f (.handshake ib m2) = .ok (a3, .ok none) ∧
      statusOf a3 ib = .completed ∧ statusOf b2 ia = .completed ∧ queueOf a3 ib = [u] ∧
      (a3.replicas.get ib).bind (·.encryptor) = some qa' ∧ (b2.replicas.get ia).bind (·.encryptor) = some qb' := by
  obtain ⟨h1, h2, h3, h4, h5, h6, h7⟩ := hx
  have e1 : ((ops oak).takeOut (HS.new .initiator ia ib qa)) =
      (⟨.initiator, ia, ib, (oak.get qa).1, .initiated⟩, .ok (some ⟨ib, ia, .initiatorRequest (some x)⟩)) := by
    simp [ops, HS.takeOut, HS.new, h1, HS.wrap]
  have e2 : (ops oak).process (HS.new .recipient ib ia qb) ⟨ib, ia, .initiatorRequest (some x)⟩ =
      (⟨.recipient, ib, ia, (oak.put qb x).1, .initiated⟩, .ok ()) := by
    simp [ops, HS.process, HS.process.handle, HS.new, HS.accepts, h2]
  have e3 : (ops oak).takeOut ⟨.recipient, ib, ia, (oak.put qb x).1, .initiated⟩ =
      (⟨.recipient, ib, ia, qb', .completed⟩, .ok (some ⟨ia, ib, .recipientResponse (some y)⟩)) := by
    simp [ops, HS.takeOut, h3, h4, HS.wrap]
  have e4 : (ops oak).process ⟨.initiator, ia, ib, (oak.get qa).1, .initiated⟩ ⟨ia, ib, .recipientResponse (some y)⟩ =
      (⟨.initiator, ia, ib, (oak.put (oak.get qa).1 y).1, .initiated⟩, .ok ()) := by
    simp [ops, HS.process, HS.process.handle, HS.accepts, h5]
  have e5 : (ops oak).takeOut ⟨.initiator, ia, ib, (oak.put (oak.get qa).1 y).1, .initiated⟩ =
      (⟨.initiator, ia, ib, qa', .completed⟩, .ok none) := by
    simp [ops, HS.takeOut, h6, h7]
  have c1 : ∀ r i j (q : Q), (ops oak).completed ⟨r, i, j, q, .completed⟩ = true := fun _ _ _ _ => rfl
  have c2 : ∀ r i j (q : Q), (ops oak).encryptor ⟨r, i, j, q, .completed⟩ = some q := fun _ _ _ _ => rfl
  refine ⟨⟨[(ib, ⟨.initiated 0, some ⟨ib, ia, .initiatorRequest (some x)⟩,
        some ⟨.initiator, ia, ib, (oak.get qa).1, .initiated⟩, [u], none, T⟩)], ia, R, T⟩,
      ⟨[(ib, ⟨.initiated 0, none, some ⟨.initiator, ia, ib, (oak.get qa).1, .initiated⟩, [u], none, T⟩)], ia, R, T⟩,
      ⟨[(ib, ⟨.completed, none, none, [u], some qa', T⟩)], ia, R, T⟩,
      ⟨[(ia, ⟨.completed, some ⟨ia, ib, .recipientResponse (some y)⟩, none, [], some qb', T⟩)], ib, R, T⟩,
      ⟨[(ia, ⟨.completed, none, none, [], some qb', T⟩)], ib, R, T⟩, ⟨ib, ia, .initiatorRequest (some x)⟩,
      ⟨ia, ib, .recipientResponse (some y)⟩, ?_, ?_, ?_, ?_, ?_, ?_, ?_, ?_, ?_, ?_⟩
  · simp [Module.processOut, Module.new, Module.init, hne, Module.channel, hu, Peer.new, Peer.init, Peer.processOut, e1,
      AMap.get, AMap.set, push, replaceHeartbeat]
  · simp [Module.takeOut, takeAll, Peer.takeOut]
  · simp [Module.processIn, hnb, InMsg.peer, Module.channel, Module.new, Module.init, Peer.new, Peer.init,
      Peer.processIn, e2, e3, c1, c2, AMap.get, AMap.set]
  · simp [Module.takeOut, takeAll, Peer.takeOut]
  · simp [Module.processIn, hne, InMsg.peer, Module.channel, Peer.processIn, e4, e5, c1, c2, AMap.get, AMap.set]
  all_goals simp [statusOf, queueOf, AMap.get]

/-- The toy library is such a library. -/
example : Exchange toy toyClient.session toyServer.session ⟨true, [], []⟩ ⟨true, [], []⟩ (.other [1]) (.other [2]) :=
  ⟨rfl, rfl, rfl, rfl, rfl, rfl, rfl⟩

/-! ## C58 -/

/-- All layers above the root have reference values. -/
def UpperLayers : RefValues → Prop
  | .oakContainers _ k s c => k = true ∧ s = true ∧ c = true
  | .other => False

/-- The root layer explicitly asks for the insecure verifier. -/
def AsksInsecure : RefValues → Prop
  | .oakContainers (some (i, _)) _ _ _ => i = true
  | _ => False

/-- The root layer gives SEV-SNP values with a firmware (stage 0) part. -/
def HasSev : RefValues → Prop
  | .oakContainers (some (_, amd)) _ _ _ => amd = some true
  | _ => False

/-- Peers are checked by the insecure verifier exactly when the operator's reference values ask for it in
their root layer (and cover every layer above); by the SEV-SNP verifier exactly when they do not and
give SEV-SNP values; in every other case by the full DICE verifier. -/
theorem C58_verifier_selection (v : RefValues) :
    (selectVerifier v = .insecure ↔ AsksInsecure v ∧ UpperLayers v) ∧
    (selectVerifier v = .sevSnp ↔ ¬ AsksInsecure v ∧ HasSev v ∧ UpperLayers v) ∧
    (selectVerifier v = .dice ↔ ¬ UpperLayers v ∨ (¬ AsksInsecure v ∧ ¬ HasSev v)) := by
  cases v with
  | other => simp [selectVerifier, AsksInsecure, UpperLayers, HasSev]
  | oakContainers root k s c =>
    rcases root with _ | ⟨i, _ | b⟩ <;> cases k <;> cases s <;> cases c <;>
      simp [selectVerifier, AsksInsecure, UpperLayers, HasSev] <;> (try cases i) <;> (try cases b) <;>
      simp

example : selectVerifier (.oakContainers (some (true, some true)) true true true) = .insecure ∧
    selectVerifier (.oakContainers (some (false, some true)) true true true) = .sevSnp ∧
    selectVerifier (.oakContainers (some (true, some true)) true true false) = .dice := ⟨rfl, rfl, rfl⟩

end TCP.Handshake
