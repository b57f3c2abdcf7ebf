import Verif.Proofs.Recover
import Verif.Props.Handshake

/-!
# C94: a channel that broke is opened again
-/

namespace TCP.Handshake
open TCP Comm Comm.Spec Spec

variable {Q S E H : Type}

/-- C94 fails: once the channel between two replicas is up at the first only, it stays like that, for every session library and whatever the
first sends, however much time passes at both and whatever is delivered of it, as long as the second has nothing to say on its own
and the first keeps it in the cluster.  The first is told that every message is accepted, the second gets none of them, and it has
nothing to send that could tell the first. -/
theorem C94_cut_fails {ops : Ops S E H} {ia ib Ra Ta Rb Tb : Nat} (hia : ia ≠ 0) {w w' : Cut S E H} {ea eb : List (Ev S H)}
    (ha : History ops ia Ra Ta ea w.a) (hb : History ops ib Rb Tb eb w.b) (hc : statusOf w.a ib = .completed) (hi : Idle w.b ia)
    (h : Flow ops ia ib w w') :
    w'.up = w.up ∧ statusOf w'.a ib = .completed ∧ statusOf w'.b ia ≠ .completed ∧
    (∀ fresh u, u.data.recipient = ib → ∃ a'', w'.a.processOut ops fresh u = .ok (a'', .ok ())) ∧
    (∀ c, w'.b.replicas.get ia = some c → c.takeOut ops = .ok (c, [])) := by
  obtain ⟨⟨ea', h1⟩, _, h3, h4, h5⟩ := flow_cut h ⟨ea, ha⟩ ⟨eb, hb⟩ hc hi
  refine ⟨h5, h3, idle_status h4, fun fresh u hu => ?_, fun c hc => takeOut_silent (h4.2 c hc) ?_⟩
  · subst hu
    have hid := (MInv.history h1).id
    cases hg : w'.a.replicas.get u.data.recipient with
    | none => simp [statusOf, hg] at h3
    | some c =>
      have hcs : c.status = .completed := by simpa [statusOf, hg] using h3
      unfold Module.processOut
      rw [if_neg (by rw [hid]; exact hia)]
      simp [Module.channel, hg, hcs, Peer.processOut]
  · have := idle_status h4
    simpa [statusOf, hc] using this

/-- How it comes to that, 1: the second replica restarts under its id. -/
theorem idle_new (me R T p : Nat) : Idle (Module.new.init me R T : Module S E H) p :=
  ⟨.inl rfl, fun c hc => by simp [Module.new, Module.init] at hc⟩

/-- How it comes to that, 2: while the channel is up and nothing is left of its handshake, the host hands the second replica any
handshake message in the name of the first. -/
theorem idle_injected {ops : Ops S E H} {me R T p : Nat} {evs : List (Ev S H)} {m m' : Module S E H} (h : History ops me R T evs m)
    (hst : statusOf m p = .completed) (hp : ∀ c, m.replicas.get p = some c → c.pending = none) {fresh : Option S} {x : H} {r : Option (InMsg H)}
    (hin : m.processIn ops fresh (.handshake p x) = .ok (m', .ok r)) : Idle m' p := by
  refine ⟨.inr ⟨0, (C19_late_handshake h hin hst).2⟩, fun c' hc' => ?_⟩
  cases hg : m.replicas.get p with
  | none => simp [statusOf, hg] at hst
  | some c =>
    have hcs : c.status = .completed := by simpa [statusOf, hg] using hst
    unfold Module.processIn at hin
    split at hin
    · simp at hin
    · simp only [InMsg.peer, Module.channel, hg, Option.getD_some, hcs, reduceCtorEq, if_false, Peer.processIn, Peer.decrypt] at hin
      split at hin
      · simp at hin
      · simp only [Run.bind_ok, Run.ok.injEq, Prod.mk.injEq] at hin
        rw [← hin.1] at hc'
        simp only [AMap.get_set_self, Option.some.injEq] at hc'
        rw [← hc']
        exact hp c hg

/-- Both happen: the channel of the toy replicas is up; the second restarts, or a handshake message is handed to it.  The first sends its message,
which is delivered, and time passes. -/
example : (∃ w w', (∃ ea, History (ops toy) 1 1 10 ea w.a) ∧ (∃ eb, History (ops toy) 2 1 10 eb w.b) ∧ statusOf w.a 2 = .completed ∧ Idle w.b 1 ∧
      w.b = Module.new.init 2 1 10 ∧ Flow (ops toy) 1 2 w w' ∧ w'.sent.length = 1 ∧ statusOf w'.b 1 = .unknown) ∧
    ∃ b, toyB.processIn (ops toy) none (.handshake 1 ⟨2, 1, .empty⟩) = .ok (b, .ok none) ∧ Idle b 1 := by
  obtain ⟨evA, hA⟩ := toyA_history
  obtain ⟨evB, hB⟩ := toyB_history
  refine ⟨?_, _, rfl, idle_injected (fresh := none) (x := ⟨2, 1, .empty⟩) hB rfl (fun c hc => by simp [toyB] at hc; simp [← hc]) rfl⟩
  let w : Cut (HS Toy) Toy HMsg := ⟨toyA, Module.new.init 2 1 10, [], []⟩
  have r1 : Flow (ops toy) 1 2 w _ := Flow.refl.first (ev := .take [.data ⟨.system, 2, 1, some ⟨[6, 5], [0]⟩⟩])
    (.take rfl) (by simp [SilentFrom]) (by simp [KeepsPeer])
  have r2 := r1.deliver (d := ⟨.system, 2, 1, some ⟨[6, 5], [0]⟩⟩) (fresh := some toyServer) (by simp [emitted, dataTo]) rfl rfl
  have r3 := r2.second (ev := .tick) .tick (by simp [SilentFrom]) (by simp)
  exact ⟨w, _, ⟨evA, hA⟩, ⟨[], .init⟩, rfl, idle_new 2 1 10 1, rfl, r3, rfl, rfl⟩

/-- C94 fails: two replicas that always turn to each other at the same time never get a channel, for every session library and any number of
attempts, although each opening message arrives at once. -/
theorem C94_crossing_fails {oak : Oak Q} {ia ib : Nat} (hia : ia ≠ 0) (hib : ib ≠ 0) {qa qb : Q} {xa xb : SessMsg}
    (hxa : (oak.get qa).2 = .ok (some xa)) (hxb : (oak.get qb).2 = .ok (some xb)) (R T : Nat) {ua ub : Outgoing}
    (hua : ua.data.recipient = ib) (hub : ub.data.recipient = ia) (n : Nat) :
    ∃ (ma mb : HMsg) (a b : Module (HS Q) Q HMsg),
      History (ops oak) ia R T (List.replicate n (attempt R ib ua (HS.new .initiator ia ib qa) ma mb)).flatten a ∧
      History (ops oak) ib R T (List.replicate n (attempt R ia ub (HS.new .initiator ib ia qb) mb ma)).flatten b ∧
      statusOf a ib = .unknown ∧ statusOf b ia = .unknown := by
  have key : ∀ {i j : Nat} (_ : i ≠ 0) {q : Q} {x : SessMsg} (_ : (oak.get q).2 = .ok (some x)) {u : Outgoing} (_ : u.data.recipient = j)
      (y : HMsg) (_ : ∃ z, y.body = .initiatorRequest z), ∃ m : Module (HS Q) Q HMsg,
      History (ops oak) i R T (List.replicate n (attempt R j u (HS.new .initiator i j q) ((HS.new .initiator i j q).wrap x) y)).flatten m ∧
      statusOf m j = .unknown := by
    intro i j hi q x hx u hu y hy
    obtain ⟨z, hz⟩ := hy
    have e1 : ((ops oak).takeOut (HS.new .initiator i j q)) =
        ({ HS.new .initiator i j q with session := (oak.get q).1, state := .initiated },
          .ok (some ((HS.new .initiator i j q).wrap x))) := by
      simp [ops, HS.takeOut, HS.new, hx]
    have e2 : (ops oak).process { HS.new .initiator i j q with session := (oak.get q).1, state := .initiated } y =
        ({ HS.new .initiator i j q with session := (oak.get q).1, state := .failed }, .error ()) := by
      simp [ops, HS.process, HS.process.handle, HS.new, HS.accepts, hz]
    have round : ∀ (rs : AMap Nat (Peer (HS Q) Q HMsg)) (qu : List Outgoing),
        (rs = [] ∧ qu = [] ∨ rs = [(j, ⟨.unknown, none, none, qu, none, T⟩)]) →
        Steps (ops oak) ⟨rs, i, R, T⟩ (attempt R j u (HS.new .initiator i j q) ((HS.new .initiator i j q).wrap x) y)
          ⟨[(j, ⟨.unknown, none, none, push qu u, none, T⟩)], i, R, T⟩ := by
      intro rs qu hrs
      unfold attempt
      refine Steps.trans (m1 := ⟨[(j, ⟨.failed 0, none, some { HS.new .initiator i j q with session := (oak.get q).1, state := .failed },
        push qu u, none, T⟩)], i, R, T⟩) ?_ ?_
      · refine .step (m1 := ⟨[(j, ⟨.initiated 0, some ((HS.new .initiator i j q).wrap x),
          some { HS.new .initiator i j q with session := (oak.get q).1, state := .initiated }, push qu u, none, T⟩)], i, R, T⟩) (.out ?_)
          (.step (m1 := ⟨[(j, ⟨.initiated 0, none,
            some { HS.new .initiator i j q with session := (oak.get q).1, state := .initiated }, push qu u, none, T⟩)], i, R, T⟩)
            (.take ?_) (.step (.inn ?_) .refl))
        · rcases hrs with ⟨rfl, rfl⟩ | rfl <;>
            simp [Module.processOut, hi, Module.channel, hu, Peer.new, Peer.init, Peer.processOut, e1, AMap.get, AMap.set]
        · simp [Module.takeOut, takeAll, Peer.takeOut]
        · simp [Module.processIn, hi, InMsg.peer, Module.channel, Peer.processIn, e2, AMap.get, AMap.set]
      · have hk : max R 1 = (max R 1 - 1) + 1 := by omega
        rw [hk]
        exact failed_ticks (max R 1 - 1) 0 (by omega)
    have main : ∃ (rs : AMap Nat (Peer (HS Q) Q HMsg)) (qu : List Outgoing),
        (rs = [] ∧ qu = [] ∨ rs = [(j, ⟨.unknown, none, none, qu, none, T⟩)]) ∧ History (ops oak) i R T
        (List.replicate n (attempt R j u (HS.new .initiator i j q) ((HS.new .initiator i j q).wrap x) y)).flatten ⟨rs, i, R, T⟩ := by
      induction n with
      | zero => exact ⟨[], [], .inl ⟨rfl, rfl⟩, .init⟩
      | succ n ih =>
        obtain ⟨rs, qu, h1, h2⟩ := ih
        refine ⟨_, push qu u, .inr rfl, ?_⟩
        rw [List.replicate_succ', List.flatten_append, List.flatten_singleton]
        exact h2.steps (round rs qu h1)
    obtain ⟨rs, qu, h1, h2⟩ := main
    refine ⟨_, h2, ?_⟩
    rcases h1 with ⟨rfl, _⟩ | rfl <;> simp [statusOf, AMap.get]
  obtain ⟨a, h1, h2⟩ := key hia hxa hua ((HS.new .initiator ib ia qb).wrap xb) ⟨_, rfl⟩
  obtain ⟨b, g1, g2⟩ := key hib hxb hub ((HS.new .initiator ia ib qa).wrap xa) ⟨_, rfl⟩
  exact ⟨_, _, a, b, h1, g1, h2, g2⟩

/-- The toy session library can open. -/
example : (toy.get ⟨false, [.other [1]], []⟩).2 = .ok (some (.other [1])) := rfl

/-- C94, the part that holds: from any two histories after which neither side takes the channel for open, if both leave each other alone for as
long as a timeout and a retry take, the next message either of them sends opens a new one.  The world then is one of C21: everything
that was waiting on either side arrives.  Missing: one side may take the channel for open for good (`C94_cut_fails`), and if both
send first the attempt fails (`C94_crossing_fails`). -/
theorem C94_reopens_partial {oak : Oak Q} {L : Q → Q → List (Bytes × Payload) → List (Bytes × Payload) → Prop}
    {ia ib Ra Ta Rb Tb : Nat} (hia : ia ≠ 0) (hib : ib ≠ 0) {ea eb sa sb : List (Ev (HS Q) HMsg)} {a b a0 b0 : Module (HS Q) Q HMsg}
    (ha : History (ops oak) ia Ra Ta ea a) (hb : History (ops oak) ib Rb Tb eb b)
    (hna : statusOf a ib ≠ .completed) (hnb : statusOf b ia ≠ .completed) (hpa : Proper ia ib ea) (hpb : Proper ib ia eb)
    (hsa : Steps (ops oak) a sa a0) (hqa : Quiet ia ib sa) (hta : max Ta 1 + Ra ≤ tickCount sa)
    (hsb : Steps (ops oak) b sb b0) (hqb : Quiet ib ia sb) (htb : max Tb 1 + Rb ≤ tickCount sb)
    {qa qb qa' qb' : Q} {x y : SessMsg} (hx : Exchange oak qa qb qa' qb' x y) (hl : L qa' qb' [] [])
    {u : Outgoing} (hu : u.data.recipient = ib) (hus : u.data.sender = ia) (hup : u.data.payload.isSome) :
    ∃ a1 m1 b1 m2, a0.processOut (ops oak) (some (HS.new .initiator ia ib qa)) u = .ok (a1, .ok ()) ∧
      b0.processIn (ops oak) (some (HS.new .recipient ib ia qb)) (.handshake ia m1) = .ok (b1, .ok none) ∧
      ∀ a2 outA b2 outB f, a1.takeOut (ops oak) = .ok (a2, outA) → b1.takeOut (ops oak) = .ok (b2, outB) →
        .handshake m1 ∈ outA ∧ .handshake m2 ∈ outB ∧
        ∃ a3, a2.processIn (ops oak) f (.handshake ib m2) = .ok (a3, .ok none) ∧
          Ready (ops oak) L ia ib ⟨a3, b2, [], [], push (queueOf a ib) u, queueOf b ia, [], []⟩ := by
  obtain ⟨h1, h2, h3, h4, h5, h6, h7⟩ := hx
  subst hu
  have e1 : ((ops oak).takeOut (HS.new .initiator ia u.data.recipient qa)) =
      (⟨.initiator, ia, u.data.recipient, (oak.get qa).1, .initiated⟩, .ok (some ⟨u.data.recipient, ia, .initiatorRequest (some x)⟩)) := by
    simp [ops, HS.takeOut, HS.new, h1, HS.wrap]
  have e2 : (ops oak).process (HS.new .recipient u.data.recipient ia qb) ⟨u.data.recipient, ia, .initiatorRequest (some x)⟩ =
      (⟨.recipient, u.data.recipient, ia, (oak.put qb x).1, .initiated⟩, .ok ()) := by
    simp [ops, HS.process, HS.process.handle, HS.new, HS.accepts, h2]
  have e3 : (ops oak).takeOut ⟨.recipient, u.data.recipient, ia, (oak.put qb x).1, .initiated⟩ =
      (⟨.recipient, u.data.recipient, ia, qb', .completed⟩, .ok (some ⟨ia, u.data.recipient, .recipientResponse (some y)⟩)) := by
    simp [ops, HS.takeOut, h3, h4, HS.wrap]
  have e4 : (ops oak).process ⟨.initiator, ia, u.data.recipient, (oak.get qa).1, .initiated⟩ ⟨ia, u.data.recipient, .recipientResponse (some y)⟩ =
      (⟨.initiator, ia, u.data.recipient, (oak.put (oak.get qa).1 y).1, .initiated⟩, .ok ()) := by
    simp [ops, HS.process, HS.process.handle, HS.accepts, h5]
  have e5 : (ops oak).takeOut ⟨.initiator, ia, u.data.recipient, (oak.put (oak.get qa).1 y).1, .initiated⟩ =
      (⟨.initiator, ia, u.data.recipient, qa', .completed⟩, .ok none) := by
    simp [ops, HS.takeOut, h6, h7]
  have ha0 := ha.steps hsa
  have hb0 := hb.steps hsb
  obtain ⟨ua, qua⟩ := calm ha hsa hqa hna hta
  obtain ⟨ub, qub⟩ := calm hb hsb hqb hnb htb
  obtain ⟨a1, ca, o1, o2, o3, o4, o5, o6⟩ := open_out (MInv.history ha0) hia ua e1
  obtain ⟨b1, cb, i1, i2, i3, i4, i5, i6⟩ := close_in (p := ia) (y := ⟨u.data.recipient, ia, .initiatorRequest (some x)⟩) (MInv.history hb0) hib
    (.inl ⟨ub, rfl⟩) e2 e3 rfl rfl
  refine ⟨a1, _, b1, ⟨ia, u.data.recipient, .recipientResponse (some y)⟩, o1, i1, fun a2 outA b2 outB f ta tb => ?_⟩
  have ha1 := ha0.step (.out o1)
  have hb1 := hb0.step (.inn i1)
  obtain ⟨ta1, ta2⟩ := take_pending (MInv.history ha1) ta o2 o4
  obtain ⟨tb1, tb2⟩ := take_pending (MInv.history hb1) tb i2 i4
  have ha2 := ha1.step (.take ta)
  have hb2 := hb1.step (.take tb)
  obtain ⟨a3, ca', c1, c2, c3, c4, c5, c6⟩ := close_in (p := u.data.recipient) (fresh := f)
    (y := ⟨ia, u.data.recipient, .recipientResponse (some y)⟩) (MInv.history ha2) hia (.inr ⟨_, 0, ta2, o3, o5⟩) e4 e5 rfl rfl
  have ha3 := ha2.step (.inn c1)
  have hqA : ca'.queue = push (queueOf a u.data.recipient) u := by
    rw [c6, ← qua, ← o6]; simp [queueOf, ta2]
  have hqB : cb.queue = queueOf b ia := by rw [i6, qub]
  have mine : ∀ v ∈ queueOf a u.data.recipient, v.data.recipient = u.data.recipient ∧ v.data.sender = ia ∧ v.data.payload.isSome := by
    intro v hv
    unfold queueOf at hv
    cases hg : a.replicas.get u.data.recipient with
    | none => rw [hg] at hv; simp at hv
    | some c =>
      rw [hg] at hv
      obtain ⟨p1, p2⟩ := ((MInv.history ha).peers _ c hg).q v (by simpa using hv)
      exact ⟨p1, hpa v p2⟩
  have theirs : ∀ v ∈ queueOf b ia, v.data.recipient = ia ∧ v.data.sender = u.data.recipient ∧ v.data.payload.isSome := by
    intro v hv
    unfold queueOf at hv
    cases hg : b.replicas.get ia with
    | none => rw [hg] at hv; simp at hv
    | some c =>
      rw [hg] at hv
      obtain ⟨p1, p2⟩ := ((MInv.history hb).peers _ c hg).q v (by simpa using hv)
      exact ⟨p1, hpb v p2⟩
  refine ⟨ta1, tb1, a3, c1, qa', qb', push (queueOf a u.data.recipient) u, queueOf b ia, [], [], ?_, ?_, hl, rfl, rfl, by simp, by simp, rfl, rfl,
    rfl, rfl, hia, hib, ⟨_, _, _, ha3⟩, ⟨_, _, _, hb2⟩⟩
  · refine ⟨ca', c2, c3, c4, c5, hqA, fun v hv => ?_, heartbeats_push_le u (queueOf_hb (MInv.history ha) _)⟩
    rcases mem_push hv with rfl | hv
    · exact ⟨rfl, hus, hup⟩
    · exact mine v hv
  · exact ⟨_, tb2, i3, rfl, i5, hqB, theirs, queueOf_hb (MInv.history hb) _⟩

/-- The first of the toy replicas opened and got no answer; after eleven ticks its next message opens the channel, and both arrive. -/
example : ∃ (ea sa : List (Ev (HS Toy) HMsg)) (a a0 a1 a2 a3 b1 b2 : Module (HS Toy) Toy HMsg) (m1 m2 : HMsg),
    History (ops toy) 1 1 10 ea a ∧ statusOf a 2 = .initiated 0 ∧ Proper 1 2 ea ∧ Steps (ops toy) a sa a0 ∧ Quiet 1 2 sa ∧ tickCount sa = 11 ∧
    a0.processOut (ops toy) (some toyClient) (toyMsg 1 2 [7]) = .ok (a1, .ok ()) ∧ a1.takeOut (ops toy) = .ok (a2, [.handshake m1]) ∧
    (Module.new.init 2 1 10).processIn (ops toy) (some toyServer) (.handshake 1 m1) = .ok (b1, .ok none) ∧
    b1.takeOut (ops toy) = .ok (b2, [.handshake m2]) ∧ a2.processIn (ops toy) none (.handshake 2 m2) = .ok (a3, .ok none) ∧
    queueOf a3 2 = [toyMsg 1 2 [5, 6], toyMsg 1 2 [7]] ∧ statusOf a3 2 = .completed ∧
    Exchange toy ⟨false, [.other [1]], []⟩ ⟨false, [], []⟩ ⟨true, [], []⟩ ⟨true, [], []⟩ (.other [1]) (.other [2]) ∧
    toyLink ⟨true, [], []⟩ ⟨true, [], []⟩ [] [] := by
  have h0 := History.init (ops := ops toy) (self := 1) (retry := 1) (timeout := 10)
  have h1 := h0.step (.out (fresh := some toyClient) (msg := toyMsg 1 2 [5, 6]) rfl)
  have h2 := h1.step (.take rfl)
  have steps : ∀ (n : Nat) (m : Module (HS Toy) Toy HMsg), Steps (ops toy) m (List.replicate n .tick) (Nat.repeat Module.tick n m) := by
    intro n
    induction n with
    | zero => intro m; exact .refl
    | succ n ih =>
      intro m
      rw [List.replicate_succ']
      exact (ih m).trans (.step .tick .refl)
  refine ⟨_, List.replicate 11 .tick, _, _, _, _, _, _, _, _, _, h2, rfl, ?_, steps 11 _, ⟨?_, ?_, ?_⟩, rfl, rfl, rfl, rfl, rfl, rfl, rfl, rfl, ?_, ?_⟩
  · intro u hu
    simp [accepted, toyMsg] at hu
    subst hu
    exact ⟨rfl, rfl⟩
  · intro ids h; simp at h
  · intro u f r h; simp at h
  · intro u f r h; simp at h
  · exact ⟨rfl, rfl, rfl, rfl, rfl, rfl, rfl⟩
  · exact ⟨rfl, rfl, rfl, rfl, by simp, by simp⟩

end TCP.Handshake
