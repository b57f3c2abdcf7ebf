import Verif.Spec.Sessions
import Verif.Proofs.Replica
import Verif.Proofs.DriverLog

/-!
# Attested sessions of a replica (C98)
-/

namespace TCP.Sessions

open TCP TCP.Attest TCP.Handshake TCP.Sessions.Spec TCP.Comm.Spec TCP.Replica TCP.Drv TCP.Replica.Spec

variable {L Att Bnd Q σ ν Y : Type} {lib : Lib L Att Bnd Q} {clock : Clock} {refs : RefVals}

/-! ## The factory -/

theorem select_demanded (clock : Clock) (refs : RefVals) : Demanded clock refs (select clock refs).1 (select clock refs).2 := by
  unfold select
  split
  · exact .insecure rfl
  · exact .sevSnp rfl rfl rfl
  · rename_i h1 h2
    refine .dice fun root k s c hc => ?_
    obtain ⟨i, a, r⟩ := root
    cases i with
    | true => exact (h1 a r k s c hc).elim
    | false =>
      refine ⟨rfl, fun amd ha => ?_⟩
      obtain ⟨st, rest⟩ := amd
      cases st with
      | none => rfl
      | some fw =>
        simp only at ha
        subst ha
        exact (h2 fw rest r k s c hc).elim

theorem session_runs {f : Factory} {v k} (hv : f.verifier = some v) (hk : f.extractor = some k) (role : Role) (l : L) :
    ∃ x, f.session lib role l = .ok x := by
  unfold Factory.session
  simp only [hv, hk, Run.unwrap, Run.bind_ok]
  split
  · exact ⟨_, rfl⟩
  · split <;> exact ⟨_, rfl⟩

theorem session_made {f : Factory} {v k} (hv : f.verifier = some v) (hk : f.extractor = some k) {role : Role} {l l' : L} {q : Q}
    (h : f.session lib role l = .ok (l', some q)) : Made lib role f.endorsements v k q := by
  unfold Factory.session at h
  simp only [hv, hk, Run.unwrap, Run.bind_ok] at h
  split at h
  · simp at h
  · rename_i att ha
    split at h
    · simp at h
    · rename_i bnd hb
      simp only [Run.ok.injEq] at h
      exact ⟨l, _, _, l', att, bnd, _, Prod.ext rfl ha, Prod.ext rfl hb, h, rfl, assertionId, rfl, rfl⟩

/-! ## The channels -/

section channels
variable {order : L → AMap Nat (Comm.Peer (HS Q) (Enc Q) HMsg) → AMap Nat (Comm.Peer (HS Q) (Enc Q) HMsg)}
  {hp : ∀ l rs, (order l rs).Perm rs}

/-- The channels of a replica whose application has these reference values. -/
structure Vetted (lib : Lib L Att Bnd Q) (clock : Clock) (refs : RefVals) (c : Channels (Provider L) (HS Q) (Enc Q) HMsg) : Prop where
  ready : c.module.replicaId ≠ 0 → ∃ v k, Demanded clock refs v k ∧ c.env.factory.verifier = some v ∧ c.env.factory.extractor = some k
  opened : ∀ role peer s, Opened c.log role peer s →
    ∃ v k q, Demanded clock refs v k ∧ s = HS.new role c.module.replicaId peer q ∧ Made lib role c.env.factory.endorsements v k q

theorem provide_factory (p : Provider L) (me peer : Nat) (i : Bool) : ((env lib order hp).provide p me peer i).1.factory = p.factory := by
  unfold env
  simp only
  split
  · rename_i x hx
    simp only [Provider.get, Run.bind_eq_ok, Run.ok.injEq] at hx
    obtain ⟨_, _, rfl⟩ := hx
    rfl
  · rfl

theorem fresh_factory (c : Channels (Provider L) (HS Q) (Enc Q) HMsg) (peer : Nat) (i : Bool) :
    (c.fresh (env lib order hp) peer i).1.factory = c.env.factory := by
  unfold Channels.fresh
  split
  · exact provide_factory _ _ _ _
  · rfl

theorem fresh_made {c : Channels (Provider L) (HS Q) (Enc Q) HMsg} (hv : Vetted lib clock refs c) {peer : Nat} {i : Bool} {s : HS Q}
    (h : (c.fresh (env lib order hp) peer i).2 = some s) :
    ∃ v k q, Demanded clock refs v k ∧ s = HS.new (roleOf i) c.module.replicaId peer q ∧ Made lib (roleOf i) c.env.factory.endorsements v k q := by
  unfold Channels.fresh at h
  split at h
  · rename_i hc
    obtain ⟨v, k, hd, h1, h2⟩ := hv.ready hc.1
    unfold env at h
    simp only at h
    split at h
    · rename_i x hx
      simp only [Provider.get, Run.bind_eq_ok, Run.ok.injEq] at hx
      obtain ⟨y, hy, rfl⟩ := hx
      obtain ⟨l', qo⟩ := y
      cases qo with
      | none => simp at h
      | some q =>
        simp only [Option.map_some, Option.some.injEq] at h
        exact ⟨v, k, q, hd, h.symm, session_made h1 h2 hy⟩
    · simp at h
  · simp at h

/-- One more record that opens nothing. -/
theorem Vetted.same {c c' : Channels (Provider L) (HS Q) (Enc Q) HMsg} (hv : Vetted lib clock refs c) (he : c'.env.factory = c.env.factory)
    (hi : c'.module.replicaId = c.module.replicaId) (hl : ∀ role peer s, Opened c'.log role peer s → Opened c.log role peer s) :
    Vetted lib clock refs c' := by
  refine ⟨fun h => ?_, fun role peer s h => ?_⟩
  · rw [he]; exact hv.ready (hi ▸ h)
  · rw [he, hi]; exact hv.opened role peer s (hl role peer s h)

theorem opened_append {S H : Type} {log log' : List (Comm.Spec.Ev S H)} {role : Role} {peer : Nat} {s : S} (h : Opened (log ++ log') role peer s) :
    Opened log role peer s ∨ Opened log' role peer s := by
  cases role with
  | initiator =>
    obtain ⟨m, res, h1, h2⟩ := h
    rcases List.mem_append.1 h1 with h1 | h1
    · exact Or.inl ⟨m, res, h1, h2⟩
    · exact Or.inr ⟨m, res, h1, h2⟩
  | recipient =>
    obtain ⟨m, res, h1, h2⟩ := h
    rcases List.mem_append.1 h1 with h1 | h1
    · exact Or.inl ⟨m, res, h1, h2⟩
    · exact Or.inr ⟨m, res, h1, h2⟩

theorem channel_id {S E H : Type} (m : Comm.Module S E H) (peer : Nat) (f : Option S) : (m.channel peer f).1.replicaId = m.replicaId := by
  unfold Comm.Module.channel
  simp only
  split
  · split <;> rfl
  · rfl

theorem processOut_id {S E H : Type} {ops : Comm.Ops S E H} {m m' : Comm.Module S E H} {f u x} (h : m.processOut ops f u = .ok (m', x)) :
    m'.replicaId = m.replicaId := by
  unfold Comm.Module.processOut at h
  split at h
  · simp only [Run.ok.injEq, Prod.mk.injEq] at h; rw [← h.1]
  · have hc := channel_id m u.data.recipient f
    split at h
    · rename_i m1 he
      rw [he] at hc
      simp only [Run.ok.injEq, Prod.mk.injEq] at h; rw [← h.1]; exact hc
    · rename_i m1 p he
      rw [he] at hc
      simp only [Run.bind_eq_ok, Run.ok.injEq, Prod.mk.injEq] at h
      obtain ⟨_, _, h, _⟩ := h
      rw [← h]; exact hc

theorem processIn_id {S E H : Type} {ops : Comm.Ops S E H} {m m' : Comm.Module S E H} {f u x} (h : m.processIn ops f u = .ok (m', x)) :
    m'.replicaId = m.replicaId := by
  unfold Comm.Module.processIn at h
  split at h
  · simp only [Run.ok.injEq, Prod.mk.injEq] at h; rw [← h.1]
  · split at h
    · simp only [Run.ok.injEq, Prod.mk.injEq] at h; rw [← h.1]
    · rename_i peer _
      have hc := channel_id m peer f
      split at h
      · rename_i m1 he
        rw [he] at hc
        simp only [Run.ok.injEq, Prod.mk.injEq] at h; rw [← h.1]; exact hc
      · rename_i m1 p he
        rw [he] at hc
        simp only [Run.bind_eq_ok, Run.ok.injEq, Prod.mk.injEq] at h
        obtain ⟨_, _, h, _⟩ := h
        rw [← h]; exact hc

theorem takeOut_id {S E H : Type} {ops : Comm.Ops S E H} {m m' : Comm.Module S E H} {x} (h : m.takeOut ops = .ok (m', x)) :
    m'.replicaId = m.replicaId := by
  simp only [Comm.Module.takeOut, Run.bind_eq_ok, Run.ok.injEq, Prod.mk.injEq] at h
  obtain ⟨_, _, h, _⟩ := h
  rw [← h]

theorem vetted_processOut {c c' : Channels (Provider L) (HS Q) (Enc Q) HMsg} {ops} {u x} (hv : Vetted lib clock refs c)
    (h : Channels.processOut ops (env lib order hp) c u = .ok (c', x)) : Vetted lib clock refs c' := by
  simp only [Channels.processOut, Run.bind_eq_ok, Run.ok.injEq, Prod.mk.injEq] at h
  obtain ⟨⟨m', y⟩, h1, rfl, _⟩ := h
  have hid := processOut_id h1
  refine ⟨fun hz => ?_, fun role peer s ho => ?_⟩
  · rw [fresh_factory]; exact hv.ready (hid ▸ hz)
  · rw [fresh_factory]
    show ∃ v k q, _ ∧ s = HS.new role m'.replicaId peer q ∧ _
    rw [hid]
    rcases opened_append ho with ho | ho
    · exact hv.opened role peer s ho
    · cases role with
      | recipient => obtain ⟨m, res, hm, _⟩ := ho; simp at hm
      | initiator =>
        obtain ⟨m, res, hm, hr⟩ := ho
        simp only [List.mem_singleton, Comm.Spec.Ev.out.injEq] at hm
        obtain ⟨rfl, hf, _⟩ := hm
        rw [← hr]
        exact fresh_made (i := true) hv hf.symm

theorem vetted_processIn {c c' : Channels (Provider L) (HS Q) (Enc Q) HMsg} {ops} {u x} (hv : Vetted lib clock refs c)
    (h : Channels.processIn ops (env lib order hp) c u = .ok (c', x)) : Vetted lib clock refs c' := by
  simp only [Channels.processIn, Run.bind_eq_ok, Run.ok.injEq, Prod.mk.injEq] at h
  obtain ⟨⟨m', y⟩, h1, rfl, _⟩ := h
  have hid := processIn_id h1
  have hfac : (match u.peer with | some peer => c.fresh (env lib order hp) peer false | none => (c.env, none)).1.factory = c.env.factory := by
    split
    · exact fresh_factory _ _ _
    · rfl
  refine ⟨fun hz => ?_, fun role peer s ho => ?_⟩
  · show ∃ v k, _ ∧ (match u.peer with | some peer => c.fresh (env lib order hp) peer false | none => (c.env, none)).1.factory.verifier = _ ∧
      (match u.peer with | some peer => c.fresh (env lib order hp) peer false | none => (c.env, none)).1.factory.extractor = _
    rw [hfac]; exact hv.ready (hid ▸ hz)
  · show ∃ v k q, _ ∧ s = HS.new role m'.replicaId peer q ∧
      Made lib role (match u.peer with | some peer => c.fresh (env lib order hp) peer false | none => (c.env, none)).1.factory.endorsements v k q
    rw [hid, hfac]
    rcases opened_append ho with ho | ho
    · exact hv.opened role peer s ho
    · cases role with
      | initiator => obtain ⟨m, res, hm, _⟩ := ho; simp at hm
      | recipient =>
        obtain ⟨m, res, hm, hr⟩ := ho
        simp only [List.mem_singleton, Comm.Spec.Ev.inn.injEq] at hm
        obtain ⟨rfl, hf, _⟩ := hm
        rw [hr] at hf
        exact fresh_made (i := false) hv hf.symm

theorem vetted_takeOut {c c' : Channels (Provider L) (HS Q) (Enc Q) HMsg} {ops} {x} (hv : Vetted lib clock refs c)
    (h : Channels.takeOut ops (env lib order hp) c = .ok (c', x)) : Vetted lib clock refs c' := by
  simp only [Channels.takeOut, Run.bind_eq_ok, Run.ok.injEq, Prod.mk.injEq] at h
  obtain ⟨⟨m', y⟩, h1, rfl, _⟩ := h
  refine hv.same rfl (show m'.replicaId = c.module.replicaId from Eq.trans (takeOut_id h1) rfl) fun role peer s ho => ?_
  rcases opened_append ho with ho | ho
  · rcases opened_append ho with ho | ho
    · exact ho
    · cases role <;> (obtain ⟨m, res, hm, _⟩ := ho; simp at hm)
  · cases role <;> (obtain ⟨m, res, hm, _⟩ := ho; simp at hm)

/-! ## The replica -/

variable {A : Actor σ} {N : NodeT ν Y} {codecs : Codecs} {ops : Comm.Ops (HS Q) (Enc Q) HMsg}

/-- The clock of an application that brings clock `n`, or none. -/
def givenClock : Option Nat → Clock
  | some n => .own n
  | none => .host

/-- The invariant. -/
structure Wary (lib : Lib L Att Bnd Q) (clock : Clock) (refs : RefVals)
    (d : Driver σ (Simple ν Y) (Channels (Provider L) (HS Q) (Enc Q) HMsg) HMsg) : Prop where
  created : d.state = .created → Blank d.comm
  vetted : Vetted lib clock refs d.comm

theorem Wary.same {d d' : Driver σ (Simple ν Y) (Channels (Provider L) (HS Q) (Enc Q) HMsg) HMsg} (h : Wary lib clock refs d)
    (hc : d'.comm = d.comm) (hs : d'.state = .created → d.state = .created) : Wary lib clock refs d' :=
  ⟨fun hx => by rw [Blank, hc]; exact h.created (hs hx), by rw [hc]; exact h.vetted⟩

theorem wary_out {d : Driver σ (Simple ν Y) (Channels (Provider L) (HS Q) (Enc Q) HMsg) HMsg} {u c' x}
    (hc : (sys A N ops (env lib order hp) codecs).C.processOut d.comm u = .ok (c', x)) (h : Wary lib clock refs d) {t} :
    Wary lib clock refs { d with comm := c', trace := t } :=
  ⟨fun hx => blank_processOut (h.created hx) hc, vetted_processOut h.vetted hc⟩

theorem wary_in {d : Driver σ (Simple ν Y) (Channels (Provider L) (HS Q) (Enc Q) HMsg) HMsg} {m c' x}
    (hc : (sys A N ops (env lib order hp) codecs).C.processIn d.comm m = .ok (c', x)) (h : Wary lib clock refs d) {r : Simple ν Y} {s t} :
    Wary lib clock refs { d with comm := c', raft := r, snap := s, trace := t } :=
  ⟨fun hx => (blank_processIn (h.created hx) hc).1, vetted_processIn h.vetted hc⟩

theorem wary_leaves (hr : ∀ a, A.references a = refs) (hk : ∀ a, givenClock (A.clock a) = clock) :
    Leaves (sys A N ops (env lib order hp) codecs) (Wary (σ := σ) (ν := ν) (Y := Y) lib clock refs) where
  quiet hc h := h.same hc.comm (by rw [hc.state]; exact id)
  actor _ h := h.same rfl id
  host _ h := h.same rfl id
  raft _ _ _ h := h.same rfl id
  init _ _ h := h.same rfl id
  started {d retry timeout e} _ _ h := by
    refine ⟨fun hx => by simp at hx, fun _ => ?_, fun role peer s ho => ?_⟩
    · have hd := select_demanded clock refs
      refine ⟨_, _, hd, ?_, ?_⟩
      · show some (select (clockOf (sys A N ops (env lib order hp) codecs) d) (A.references d.actor)).1 = _
        rw [hr, show clockOf (sys A N ops (env lib order hp) codecs) d = clock from hk d.actor ▸ rfl]
      · show some (select (clockOf (sys A N ops (env lib order hp) codecs) d) (A.references d.actor)).2 = _
        rw [hr, show clockOf (sys A N ops (env lib order hp) codecs) d = clock from hk d.actor ▸ rfl]
    · have ho : Opened ([] : List (Comm.Spec.Ev (HS Q) HMsg)) role peer s := ho
      cases role <;> (obtain ⟨m, res, hm, _⟩ := ho; simp at hm)
  stopped h := h.same rfl (by simp)
  snapInit _ _ h := h.same rfl id
  snapCluster _ h := h.same rfl id
  sender _ h := h.same rfl id
  stashed _ _ h := h.same rfl id
  sending hd h := Sending.run
    { drop := fun h => h.same rfl id
      sender := fun h => h.same rfl id
      report := fun _ h => h.same rfl id
      commOut := fun hc h => wary_out hc h } hd h
  commOut _ hc h := wary_out hc h
  commIn _ hc h := wary_in hc h
  commTick {d} h := by
    refine ⟨fun hx => ?_, h.vetted.same rfl rfl fun role peer s ho => ?_⟩
    · show d.comm.module.tick = _
      rw [h.created hx]; rfl
    · rcases opened_append ho with ho | ho
      · exact ho
      · cases role <;> (obtain ⟨m, res, hm, _⟩ := ho; simp at hm)
  commCluster {d} h := by
    refine ⟨fun hx => ?_, h.vetted.same rfl ?_ fun role peer s ho => ?_⟩
    · show d.comm.module.clusterChange _ = _
      rw [h.created hx]; unfold Comm.Module.clusterChange; split <;> rfl
    · show (d.comm.module.clusterChange _).replicaId = _
      unfold Comm.Module.clusterChange; split <;> rfl
    · rcases opened_append ho with ho | ho
      · exact ho
      · cases role <;> (obtain ⟨m, res, hm, _⟩ := ho; simp at hm)
  take hc h := ⟨fun hx => (blank_takeOut (h.created hx) hc).1, vetted_takeOut h.vetted hc⟩
  system hc _ _ h := wary_in hc h
  chunk _ _ hc _ h := wary_in hc h
  complete _ h := h.same rfl id
  install _ _ h := h.same rfl id

theorem wary_fresh (a : σ) (l : L) :
    Wary lib clock refs (fresh a ⟨.new, l⟩ : Driver σ (Simple ν Y) (Channels (Provider L) (HS Q) (Enc Q) HMsg) HMsg) := by
  refine ⟨fun _ => rfl, fun h => ?_, fun role peer s ho => ?_⟩
  · exact absurd rfl h
  · have ho : Opened ([] : List (Comm.Spec.Ev (HS Q) HMsg)) role peer s := ho
    cases role <;> (obtain ⟨m, res, hm, _⟩ := ho; simp at hm)

/-! ## What a replica is set up with stays -/

/-- A started replica whose factory is `f`. -/
structure Held (f : Factory) (d : Driver σ (Simple ν Y) (Channels (Provider L) (HS Q) (Enc Q) HMsg) HMsg) : Prop where
  started : d.state ≠ .created
  factory : d.comm.env.factory = f

theorem factory_processOut {c c' : Channels (Provider L) (HS Q) (Enc Q) HMsg} {u x}
    (h : Channels.processOut ops (env lib order hp) c u = .ok (c', x)) : c'.env.factory = c.env.factory := by
  simp only [Channels.processOut, Run.bind_eq_ok, Run.ok.injEq, Prod.mk.injEq] at h
  obtain ⟨⟨m', y⟩, h1, rfl, _⟩ := h
  exact fresh_factory _ _ _

theorem factory_processIn {c c' : Channels (Provider L) (HS Q) (Enc Q) HMsg} {u x}
    (h : Channels.processIn ops (env lib order hp) c u = .ok (c', x)) : c'.env.factory = c.env.factory := by
  simp only [Channels.processIn, Run.bind_eq_ok, Run.ok.injEq, Prod.mk.injEq] at h
  obtain ⟨⟨m', y⟩, h1, rfl, _⟩ := h
  show (match u.peer with | some peer => c.fresh (env lib order hp) peer false | none => (c.env, none)).1.factory = c.env.factory
  split
  · exact fresh_factory _ _ _
  · rfl

theorem factory_takeOut {c c' : Channels (Provider L) (HS Q) (Enc Q) HMsg} {x}
    (h : Channels.takeOut ops (env lib order hp) c = .ok (c', x)) : c'.env.factory = c.env.factory := by
  simp only [Channels.takeOut, Run.bind_eq_ok, Run.ok.injEq, Prod.mk.injEq] at h
  obtain ⟨⟨m', y⟩, h1, rfl, _⟩ := h
  rfl

theorem held_leaves {f : Factory} : Leaves (sys A N ops (env lib order hp) codecs) (Held (σ := σ) (ν := ν) (Y := Y) (L := L) (Q := Q) f) where
  quiet hc h := ⟨by rw [hc.state]; exact h.started, by rw [hc.comm]; exact h.factory⟩
  actor _ h := ⟨h.started, h.factory⟩
  host _ h := ⟨h.started, h.factory⟩
  raft _ _ _ h := ⟨h.started, h.factory⟩
  init hs _ h := (h.started hs).elim
  started hs _ h := (h.started hs).elim
  stopped h := ⟨by simp, h.factory⟩
  snapInit _ _ h := ⟨h.started, h.factory⟩
  snapCluster _ h := ⟨h.started, h.factory⟩
  sender _ h := ⟨h.started, h.factory⟩
  stashed _ _ h := ⟨h.started, h.factory⟩
  sending hd h := Sending.run
    { drop := fun h => ⟨h.started, h.factory⟩
      sender := fun h => ⟨h.started, h.factory⟩
      report := fun _ h => ⟨h.started, h.factory⟩
      commOut := fun hc h => ⟨h.started, (factory_processOut hc).trans h.factory⟩ } hd h
  commOut _ hc h := ⟨h.started, (factory_processOut hc).trans h.factory⟩
  commIn _ hc h := ⟨h.started, (factory_processIn hc).trans h.factory⟩
  commTick h := ⟨h.started, h.factory⟩
  commCluster h := ⟨h.started, h.factory⟩
  take hc h := ⟨h.started, (factory_takeOut hc).trans h.factory⟩
  system hc _ _ h := ⟨h.started, (factory_processIn hc).trans h.factory⟩
  chunk _ _ hc _ h := ⟨h.started, (factory_processIn hc).trans h.factory⟩
  complete _ h := ⟨h.started, h.factory⟩
  install _ _ h := ⟨h.started, h.factory⟩

/-- What a successful start sets the sessions up with. -/
theorem processStart_factory {q : StartReq} {d d' : Driver σ (Simple ν Y) (Channels (Provider L) (HS Q) (Enc Q) HMsg) HMsg} {u : Unit}
    (h : processStart (sys A N ops (env lib order hp) codecs) q d = .ok (d', .ok u)) :
    ∃ a e, q.endorsements = some e ∧ d'.comm.env.factory = Factory.init .new (givenClock (A.clock a)) (A.references a) e ∧ d'.state = .started := by
  have hst := processStart_started h
  unfold processStart at h
  obtain ⟨d1, _, h1, h⟩ := M.bind_okOk h
  obtain ⟨d2, _, h2, h⟩ := M.bind_okOk h
  obtain ⟨d3, _, h3, h⟩ := M.bind_okOk h
  obtain ⟨d4, _, h4, h⟩ := M.bind_okOk h
  obtain ⟨d5, _, h5, h⟩ := M.bind_okOk h
  obtain ⟨d6, _, h6, h⟩ := M.bind_okOk h
  obtain ⟨d7, _, h7, h⟩ := M.bind_okOk h
  obtain ⟨d8, _, h8, h⟩ := M.bind_okOk h
  obtain ⟨d9, _, h9, h⟩ := M.bind_okOk h
  have e8 := modify_ok h8
  have e9 := modify_ok h9
  have e10 := modify_ok (neutral_get h)
  have he : ∃ e, q.endorsements = some e := by
    cases hq : q.endorsements with
    | some e => exact ⟨e, rfl⟩
    | none => rw [hq] at h7; simp [M.when, M.panic] at h7
  obtain ⟨e, he⟩ := he
  refine ⟨d7.actor, e, he, ?_, hst⟩
  rw [e10, e9, e8, he]
  simp only
  split <;> rfl

theorem start_factory {instant : Nat} {q : StartReq} {d d' : Driver σ (Simple ν Y) (Channels (Provider L) (HS Q) (Enc Q) HMsg) HMsg} {out}
    (h : receive (sys A N ops (env lib order hp) codecs) instant (some (some (.startReplica q))) d = .ok (d', .ok out)) :
    ∃ a e, q.endorsements = some e ∧ d'.state ≠ .created ∧
      d'.comm.env.factory = Factory.init .new (givenClock (A.clock a)) (A.references a) e := by
  unfold receive at h
  obtain ⟨d1, _, h1, h⟩ := M.bind_okOk h
  obtain ⟨d2, c, h2, h⟩ := M.bind_okOk h
  unfold dispatch at h2
  obtain ⟨d3, _, h3, h2⟩ := M.bind_okOk h2
  simp only [M.pure_def, M.pure, Run.ok.injEq, Prod.mk.injEq] at h2
  obtain ⟨rfl, _⟩ := h2
  obtain ⟨a, e, he, hf, hs⟩ := processStart_factory h3
  have hk : Held (d3.comm.env.factory) d3 := ⟨by rw [hs]; simp, rfl⟩
  obtain ⟨d4, _, h4, h⟩ := M.bind_okOk h
  have hk := (keep_runActor (held_leaves (A := A) (N := N) (codecs := codecs) (ops := ops) (lib := lib) (hp := hp)) _ _).run hk _ _ h4
  obtain ⟨d5, _, h5, h⟩ := M.bind_okOk h
  have hk := (keep_runRaft (held_leaves (A := A) (N := N) (codecs := codecs) (ops := ops) (lib := lib) (hp := hp)) _).run hk _ _ h5
  obtain ⟨d6, _, h6, h⟩ := M.bind_okOk h
  have hk := (keep_flush (held_leaves (A := A) (N := N) (codecs := codecs) (ops := ops) (lib := lib) (hp := hp)) _).run hk _ _ h6
  simp only [M.pure_def, M.pure, Run.ok.injEq, Prod.mk.injEq] at h
  rw [← h.1]
  exact ⟨a, e, he, hk.started, hk.factory.trans hf⟩

end channels

/-! ## Sessions in use -/

/-- A handshake session leaves its Oak session in a state it can get into, and completes only when that is open. -/
theorem sessionFrom_from {oak : Oak Q} {s0 s : HS Q} (h0 : s0.state = .unknown) (h : SessionFrom (ops oak) s0 s) :
    From oak s0.session s.session ∧ (s.state = .completed → oak.isOpen s.session = true) := by
  induction h with
  | refl => exact ⟨.refl, fun h => by rw [h0] at h; cases h⟩
  | @takeOut s h ih =>
    show From oak s0.session (HS.takeOut oak s).1.session ∧ ((HS.takeOut oak s).1.state = .completed → oak.isOpen (HS.takeOut oak s).1.session = true)
    unfold HS.takeOut
    split
    · exact ih
    · exact ih
    · split
      · simp only
        split
        · exact ⟨ih.1.get, by simp⟩
        · exact ⟨ih.1.get, by simp⟩
      · exact ih
    · simp only
      split
      · exact ⟨ih.1.get, by simp⟩
      · refine ⟨ih.1.get, ?_⟩
        simp only
        split
        · rename_i ho; exact fun _ => ho
        · simp
  | @process s h m ih =>
    show From oak s0.session (HS.process oak s m).1.session ∧ ((HS.process oak s m).1.state = .completed → oak.isOpen (HS.process oak s m).1.session = true)
    have hh : From oak s0.session (HS.process.handle oak m s).1.session ∧
        ((HS.process.handle oak m s).1.state = .completed → oak.isOpen (HS.process.handle oak m s).1.session = true) := by
      unfold HS.process.handle
      split
      · simp only
        split
        · exact ⟨ih.1.put _, by simp⟩
        · exact ⟨ih.1.put _, by simp⟩
      · exact ⟨ih.1, by simp⟩
    unfold HS.process
    split
    · exact ih
    · exact ih
    · split
      · exact ⟨ih.1, by simp⟩
      · exact hh
    · exact hh

theorem encryptorFrom_from {oak : Oak Q} {e0 e : Enc Q} (h : EncryptorFrom (S := HS Q) (H := HMsg) (ops oak) e0 e) : From oak e0 e := by
  induction h with
  | refl => exact .refl
  | @encrypt e b e' r h he ih =>
    have he : encrypt oak e b = .ok (e', r) := he
    unfold encrypt at he
    simp only at he
    split at he
    · simp only [Run.ok.injEq, Prod.mk.injEq] at he; rw [← he.1]; exact ih.write b
    · split at he
      · simp only [Run.ok.injEq, Prod.mk.injEq] at he; rw [← he.1]; exact (ih.write b).get
      · simp at he
      · simp only [Run.ok.injEq, Prod.mk.injEq] at he; rw [← he.1]; exact (ih.write b).get
  | @decrypt e h pl ih =>
    show From oak e0 (decrypt oak e pl).1
    unfold decrypt
    simp only
    split
    · exact ih.put _
    · split
      · exact (ih.put _).read
      · exact (ih.put _).read

/-- Whoever is at the other end of an established channel passed the check. -/
theorem established_passed {Passed : Q → PeerVerifier → KeyExtractor → Prop} (hl : Attests lib Passed)
    {c : Channels (Provider L) (HS Q) (Enc Q) HMsg} (hv : Vetted lib clock refs c) {p : Nat} {e : Enc Q}
    (h : Established (ops lib.oak) c.log p e) : ∃ v k, Demanded clock refs v k ∧ Passed e v k := by
  obtain ⟨s0, s, e0, hpr, hs, hc, he, hf⟩ := h
  have ho : ∃ role, Opened c.log role p s0 := by
    rcases hpr with h | h
    · exact ⟨.initiator, h⟩
    · exact ⟨.recipient, h⟩
  obtain ⟨role, ho⟩ := ho
  obtain ⟨v, k, q, hd, rfl, l, l1, l2, l3, att, bnd, cfg, _, _, hcr, hb, id, _, hver⟩ := hv.opened role p s0 ho
  obtain ⟨h1, h2⟩ := sessionFrom_from (oak := lib.oak) rfl hs
  have hst : s.state = .completed := of_decide_eq_true hc
  have he0 : e0 = s.session := by
    have he : s.encryptor = some e0 := he
    rw [HS.encryptor, if_pos hst] at he
    exact (Option.some.inj he).symm
  subst he0
  exact ⟨v, k, hd, hl.keeps (encryptorFrom_from hf) (hl.opens hcr (Or.inl hb) hver h1 (h2 hst))⟩

end TCP.Sessions
