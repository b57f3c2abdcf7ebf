import Verif.Proofs.Sessions
import Verif.Props.Replica
import Verif.Model.Counter
import Verif.Model.Willow
import Verif.Model.CacheStore

/-!
# C98: the sessions of a replica are attested the way its application asks
-/

namespace TCP.Sessions

open TCP TCP.Attest TCP.Handshake TCP.Sessions.Spec TCP.Comm.Spec TCP.Replica TCP.Drv TCP.Replica.Spec TCP.DrvSpec

variable {L Att Bnd Q σ ν Y : Type} {lib : Lib L Att Bnd Q} {clock : Clock} {refs : RefVals} {A : Actor σ} {N : NodeT ν Y} {codecs : Codecs}
  {order : L → AMap Nat (Comm.Peer (HS Q) (Enc Q) HMsg) → AMap Nat (Comm.Peer (HS Q) (Enc Q) HMsg)} {hp : ∀ l rs, (order l rs).Perm rs}

/-! ## A library for the examples -/

/-- A session of the example library: how it was set up, whether it is open, and what it holds. -/
structure ToyQ where
  cfg : Config Nat Nat
  opened : Bool
  outs : List SessMsg
  ins : List Bytes
deriving Repr, DecidableEq

/-- The evidence everybody shows is `[7]`, and any check accepts that and nothing else.  Encryption reverses the bytes. -/
def toyLib : Lib Nat Nat Nat ToyQ where
  attester l := (l + 1, some l)
  binder l := (l + 1, some l)
  create l role cfg := (l + 1, some ⟨cfg, false, match role with | .initiator => [.other [7]] | .recipient => [], []⟩)
  oak :=
    { put := fun q m => match m with
        | .encrypted c _ => if q.opened then ({ q with ins := q.ins ++ [c.reverse] }, .ok ()) else (q, .error ())
        | .other b => if b = [7] then ({ q with opened := true }, .ok ()) else (q, .error ())
      get := fun q => ({ q with outs := q.outs.drop 1 }, .ok q.outs.head?)
      isOpen := fun q => q.opened
      write := fun q b => ({ q with outs := q.outs ++ [.encrypted b.reverse (some [0])] }, .ok ())
      read := fun q => ({ q with ins := q.ins.drop 1 }, .ok q.ins.head?) }

/-- The peer of an open session has passed the checks the session was set up with. -/
def ToyPassed (q : ToyQ) (v : PeerVerifier) (k : KeyExtractor) : Prop := q.opened = true ∧ ∀ x ∈ q.cfg.verifiers, x.2 = ⟨v, k⟩

theorem toy_from {q q' : ToyQ} (h : From toyLib.oak q q') : q'.cfg = q.cfg ∧ (q.opened = true → q'.opened = true) := by
  induction h with
  | refl => exact ⟨rfl, id⟩
  | @put q1 h m ih =>
    simp only [toyLib]
    cases m <;> simp only <;> split <;> (try exact ih)
    exact ⟨ih.1, fun _ => rfl⟩
  | get h ih => exact ih
  | write h b ih => exact ih
  | read h ih => exact ih

/-- The example library keeps what is asked of Oak's. -/
theorem toy_attests : Attests toyLib ToyPassed where
  opens {l role cfg l' q0 q id v} hc _ hv hf ho := by
    simp only [toyLib, Prod.mk.injEq, Option.some.injEq] at hc
    obtain ⟨_, rfl⟩ := hc
    refine ⟨ho, fun x hx => ?_⟩
    rw [(toy_from hf).1, hv, List.mem_singleton] at hx
    rw [hx]
  keeps {q q' v k} hf h := ⟨(toy_from hf).2 h.1, by rw [(toy_from hf).1]; exact h.2⟩

/-- Reference values for AMD SEV-SNP with a firmware and a kernel. -/
def toyRefs : RefVals := .containers (some ⟨false, some ⟨some [1], [2]⟩, []⟩) (some { skipKernelLayer with kernel := some (.require [3]) })
  (some (some .skip)) (some skipAppLayer)

/-- The check these ask for. -/
def toyVerifier : PeerVerifier := .sevSnp ⟨some [1], [2]⟩ [1] { skipKernelLayer with kernel := some (.require [3]) } (some .skip) skipAppLayer .host

def toyEnv := env toyLib (fun _ rs => rs) (fun _ rs => .refl rs)

abbrev ToyRep := Driver Bytes (Simple RepExample.Nd Nat) (Channels (Provider Nat) (HS ToyQ) (Enc ToyQ) HMsg) HMsg

def toySys : Sys Bytes (Simple RepExample.Nd Nat) (Channels (Provider Nat) (HS ToyQ) (Enc ToyQ) HMsg) HMsg :=
  sys { DrvExample.actor with references := fun _ => toyRefs } RepExample.node (ops toyLib.oak) toyEnv DrvExample.codecs

def toyStart : ToyRep := Replica.fresh [] ⟨.new, 0⟩

def toyReq : StartReq := ⟨false, 1, some DrvExample.config, [], false, some [5, 5]⟩

/-- Start replica 1; replica 2 shows its evidence; replica 2 sends an encrypted message; nothing. -/
def toyCalls : List (Option (Option (InMsg HMsg))) :=
  [some (some (.startReplica toyReq)), some (some (.handshake 2 ⟨1, 2, .initiatorRequest (some (.other [7]))⟩)),
   some (some (.systemMessage 1 2 (some ⟨[2, 1], []⟩))), none]

def toyRun : ToyRep → List (Option (Option (InMsg HMsg))) → Run (ToyRep × List (Except PalErr (Option (List (OutMsg HMsg)))))
  | d, [] => .ok (d, [])
  | d, m :: rest => (receive toySys 1 m d).bind fun r => (toyRun r.1 rest).bind fun x => .ok (x.1, r.2 :: x.2)

theorem toyRun_sound {cs} {d e : ToyRep} {rs rs'} (h : toyRun d cs = .ok (e, rs')) {b : ToyRep} (hb : Calls toySys b rs d) :
    Calls toySys b (rs ++ rs') e := by
  induction cs generalizing d rs rs' with
  | nil =>
    simp only [toyRun, Run.ok.injEq, Prod.mk.injEq] at h
    obtain ⟨rfl, rfl⟩ := h
    simpa using hb
  | cons c cs ih =>
    simp only [toyRun, Run.bind_eq_ok, Run.ok.injEq, Prod.mk.injEq] at h
    obtain ⟨r, hr, x, hx, rfl, rfl⟩ := h
    have := ih hx (hb.snoc hr)
    simpa [List.append_assoc] using this

/-- The sessions that were opened, with the peer of each. -/
def openedOf {S H : Type} (log : List (Comm.Spec.Ev S H)) : List (Role × Nat × S) :=
  log.filterMap fun e => match e with
    | .out m (some s) _ => some (.initiator, m.data.recipient, s)
    | .inn m (some s) _ => m.peer.map fun p => (.recipient, p, s)
    | _ => none

def toyCheck (p : ToyRep → List (Except PalErr (Option (List (OutMsg HMsg)))) → Bool) : Bool :=
  match toyRun toyStart toyCalls with
  | .ok x => p x.1 x.2
  | .panic => false

theorem toyCheck_sound {p} (h : toyCheck p = true) : ∃ d rs, Calls toySys toyStart rs d ∧ p d rs = true := by
  unfold toyCheck at h
  split at h
  · rename_i x hx
    exact ⟨x.1, x.2, by simpa using toyRun_sound (rs := []) (rs' := x.2) (e := x.1) hx (.nil (d := toyStart)), h⟩
  · cases h

theorem opened_of {S H : Type} {log : List (Comm.Spec.Ev S H)} {role : Role} {peer : Nat} {s : S} (h : (role, peer, s) ∈ openedOf log) :
    Opened log role peer s := by
  simp only [openedOf, List.mem_filterMap] at h
  obtain ⟨e, he, h⟩ := h
  split at h
  · simp only [Option.some.injEq, Prod.mk.injEq] at h
    obtain ⟨rfl, rfl, rfl⟩ := h
    exact ⟨_, _, he, rfl⟩
  · simp only [Option.map_eq_some_iff, Prod.mk.injEq] at h
    obtain ⟨p, hp, rfl, rfl, rfl⟩ := h
    exact ⟨_, _, he, hp⟩
  · cases h

/-! ## C98 -/

/-- C98: every session a replica ever opens, in either role, is its own end of a channel with that peer, was created by Oak's library with
attestation demanded of both sides, shows the replica's own evidence, and has the peer checked exactly as the reference values and the clock
of the application demand, and in no other way. -/
theorem C98_attested (hr : ∀ a, A.references a = refs) (hk : ∀ a, givenClock (A.clock a) = clock) {a : σ} {l : L} {rs}
    {d : Driver σ (Simple ν Y) (Channels (Provider L) (HS Q) (Enc Q) HMsg) HMsg}
    (h : Calls (sys A N (ops lib.oak) (env lib order hp) codecs) (fresh a ⟨.new, l⟩) rs d) {role : Role} {peer : Nat} {s : HS Q}
    (ho : Opened d.comm.log role peer s) :
    ∃ v k q, Demanded clock refs v k ∧ s = HS.new role d.comm.module.replicaId peer q ∧ Made lib role d.comm.env.factory.endorsements v k q :=
  ((wary_leaves hr hk).calls h (wary_fresh a l)).vetted.opened role peer s ho

/-- The example replica opens a session for replica 2, as recipient, with the check its reference values ask for. -/
example : ∃ d rs s, Calls toySys toyStart rs d ∧ Opened d.comm.log .recipient 2 s ∧ Demanded .host toyRefs toyVerifier .binding ∧
    s = HS.new .recipient 1 2 ⟨config ⟨0, [5, 5], 1⟩ ⟨toyVerifier, .binding⟩, false, [], []⟩ := by
  have h : toyCheck (fun d _ => decide (openedOf d.comm.log =
      [(.recipient, 2, HS.new .recipient 1 2 ⟨config ⟨0, [5, 5], 1⟩ ⟨toyVerifier, .binding⟩, false, [], []⟩)])) = true := by decide +kernel
  obtain ⟨d, rs, hc, hp⟩ := toyCheck_sound h
  exact ⟨d, rs, _, hc, opened_of (by rw [of_decide_eq_true hp]; exact List.mem_singleton_self _), .sevSnp rfl rfl rfl, rfl⟩

/-- C98: sessions of a replica show the endorsements of the request that started it, and no other; the request must have some. -/
theorem C98_endorsed (hr : ∀ a, A.references a = refs) (hk : ∀ a, givenClock (A.clock a) = clock) {a : σ} {l : L} {rs rs' instant q out}
    {d d1 d2 : Driver σ (Simple ν Y) (Channels (Provider L) (HS Q) (Enc Q) HMsg) HMsg}
    (h : Calls (sys A N (ops lib.oak) (env lib order hp) codecs) (fresh a ⟨.new, l⟩) rs d)
    (h1 : receive (sys A N (ops lib.oak) (env lib order hp) codecs) instant (some (some (.startReplica q))) d = .ok (d1, .ok out))
    (h2 : Calls (sys A N (ops lib.oak) (env lib order hp) codecs) d1 rs' d2) :
    ∃ e, q.endorsements = some e ∧ ∀ role peer s, Opened d2.comm.log role peer s →
      ∃ v k q', Demanded clock refs v k ∧ s = HS.new role d2.comm.module.replicaId peer q' ∧ Made lib role e v k q' := by
  obtain ⟨a', e, he, hs, hf⟩ := start_factory h1
  have hd := held_leaves.calls h2 ⟨hs, hf⟩
  refine ⟨e, he, fun role peer s ho => ?_⟩
  have hw := ((wary_leaves hr hk).calls h2 ((wary_leaves hr hk).calls (h.snoc h1) (wary_fresh a l))).vetted.opened role peer s ho
  rw [hd.factory] at hw
  exact hw

/-- C98: what a replica has peers checked with, and what it shows, is fixed by the call that starts it. -/
theorem C98_fixed {rs' instant q out} {d d1 d2 : Driver σ (Simple ν Y) (Channels (Provider L) (HS Q) (Enc Q) HMsg) HMsg}
    (h1 : receive (sys A N (ops lib.oak) (env lib order hp) codecs) instant (some (some (.startReplica q))) d = .ok (d1, .ok out))
    (h2 : Calls (sys A N (ops lib.oak) (env lib order hp) codecs) d1 rs' d2) :
    ∃ a e v k, q.endorsements = some e ∧ Demanded (givenClock (A.clock a)) (A.references a) v k ∧
      d2.comm.env.factory = ⟨some v, some k, e⟩ := by
  obtain ⟨a, e, he, hs, hf⟩ := start_factory h1
  have hd := held_leaves.calls h2 ⟨hs, hf⟩
  exact ⟨a, e, _, _, he, select_demanded _ _, hd.factory⟩

/-- C98: a replica that has a number never comes to ask for a session before it knows how to have peers checked, which would end the
process. -/
theorem C98_ready (hr : ∀ a, A.references a = refs) (hk : ∀ a, givenClock (A.clock a) = clock) {a : σ} {l : L} {rs}
    {d : Driver σ (Simple ν Y) (Channels (Provider L) (HS Q) (Enc Q) HMsg) HMsg}
    (h : Calls (sys A N (ops lib.oak) (env lib order hp) codecs) (fresh a ⟨.new, l⟩) rs d) (hn : d.comm.module.replicaId ≠ 0)
    (me peer : Nat) (role : Role) : ∃ x, d.comm.env.get lib me peer role = .ok x := by
  obtain ⟨v, k, _, h1, h2⟩ := ((wary_leaves hr hk).calls h (wary_fresh a l)).vetted.ready hn
  obtain ⟨x, hx⟩ := session_runs (lib := lib) h1 h2 role d.comm.env.lib
  exact ⟨_, by rw [Provider.get, hx]; rfl⟩

/-- One that was never started would. -/
example : (⟨.new, 0⟩ : Provider Nat).get toyLib 1 2 .initiator = .panic := rfl

/-- The example replica has a number, and its start succeeded. -/
example : (∃ d rs, Calls toySys toyStart rs d ∧ d.comm.module.replicaId ≠ 0) ∧
    ∃ d1 out, receive toySys 1 (some (some (.startReplica toyReq))) toyStart = .ok (d1, .ok out) := by
  have h : toyCheck (fun d rs => decide (d.comm.module.replicaId ≠ 0)) = true := by decide +kernel
  obtain ⟨d, rs, hc, hp⟩ := toyCheck_sound h
  refine ⟨⟨d, rs, hc, of_decide_eq_true hp⟩, ?_⟩
  have h : (match receive toySys 1 (some (some (.startReplica toyReq))) toyStart with | .ok (_, .ok _) => true | _ => false) = true := by
    decide +kernel
  split at h
  · rename_i d1 out hx; exact ⟨d1, out, hx⟩
  · cases h

/-- C98: if Oak's library keeps its promise, every message other than a handshake the host is given for another replica is encrypted for
somebody who passed the check the application asks for. -/
theorem C98_sealed {Passed : Q → PeerVerifier → KeyExtractor → Prop} (hl : Attests lib Passed) (hr : ∀ a, A.references a = refs)
    (hk : ∀ a, givenClock (A.clock a) = clock) {a : σ} {l : L} {rs}
    {d : Driver σ (Simple ν Y) (Channels (Provider L) (HS Q) (Enc Q) HMsg) HMsg}
    (h : Calls (sys A N (ops lib.oak) (env lib order hp) codecs) (fresh a ⟨.new, l⟩) rs d) :
    ∀ x ∈ dataMessages (sent rs), ∃ u e v k, u ∈ accepted x.recipient d.comm.log ∧ CipherBy (ops lib.oak) e x u ∧
      Demanded clock refs v k ∧ Passed e v k := by
  intro x hx
  obtain ⟨u, e, hu, he, hc⟩ := C66_confidential h x hx
  obtain ⟨v, k, hd, hpass⟩ := established_passed hl ((wary_leaves hr hk).calls h (wary_fresh a l)).vetted he
  exact ⟨u, e, v, k, hu, hc, hd, hpass⟩

/-- C98: if Oak's library keeps its promise, everything a replica takes for the words of another replica, and so everything consensus is
given (C67), was decrypted with the session of somebody who passed the check the application asks for. -/
theorem C98_heard {Passed : Q → PeerVerifier → KeyExtractor → Prop} (hl : Attests lib Passed) (hr : ∀ a, A.references a = refs)
    (hk : ∀ a, givenClock (A.clock a) = clock) {a : σ} {l : L} {rs}
    {d : Driver σ (Simple ν Y) (Channels (Provider L) (HS Q) (Enc Q) HMsg) HMsg}
    (h : Calls (sys A N (ops lib.oak) (env lib order hp) codecs) (fresh a ⟨.new, l⟩) rs d) :
    (∀ m ∈ stepped d.trace, Genuine (ops lib.oak) codecs d.comm.log m) ∧
    ∀ kind sender b, Authentic (ops lib.oak) d.comm.log kind sender b →
      ∃ x cipher e v k, (∃ fresh up, .inn (.data x) fresh (.ok (some up)) ∈ d.comm.log) ∧ x.kind = kind ∧ x.sender = sender ∧
        x.payload = some cipher ∧ (decrypt lib.oak e cipher).2 = some b ∧ Demanded clock refs v k ∧ Passed e v k := by
  refine ⟨C67_authentic_partial h, fun kind sender b hb => ?_⟩
  obtain ⟨x, cipher, fr, up, e, hin, h1, h2, h3, he, hd⟩ := hb
  obtain ⟨v, k, hdem, hpass⟩ := established_passed hl ((wary_leaves hr hk).calls h (wary_fresh a l)).vetted he
  exact ⟨x, cipher, e, v, k, ⟨fr, up, hin⟩, h1, h2, h3, hd, hdem, hpass⟩

/-- The example replica sends a message to replica 2 and hears one from it; its library keeps the promise. -/
example : Attests toyLib ToyPassed ∧ ∃ d rs, Calls toySys toyStart rs d ∧
    dataMessages (sent rs) = [⟨.system, 2, 1, some ⟨[1, 2], [0]⟩⟩] ∧ stepped d.trace = [⟨1, 2, .other 0, none, []⟩] := by
  refine ⟨toy_attests, ?_⟩
  have h : toyCheck (fun d rs => decide (dataMessages (sent rs) = [⟨.system, 2, 1, some ⟨[1, 2], [0]⟩⟩] ∧
      stepped d.trace = [⟨1, 2, .other 0, none, []⟩])) = true := by decide +kernel
  obtain ⟨d, rs, hc, hp⟩ := toyCheck_sound h
  have hp := of_decide_eq_true hp
  exact ⟨d, rs, hc, hp.1, hp.2⟩

/-! ## The applications -/

theorem demanded_skip {clock : Clock} {v : PeerVerifier} {k : KeyExtractor}
    (h : Demanded clock skipRestrictedKernel v k ∨ Demanded clock skipContainers v k) : ChecksNothing v := by
  rcases h with h | h
  · cases h with
    | dice _ => exact .dice rfl ⟨rfl, rfl⟩
  · cases h with
    | insecure _ => exact .insecure ⟨rfl, rfl⟩
    | sevSnp hi => cases hi
    | dice hn => exact absurd (hn _ _ _ _ rfl).1 (by simp [insecureRoot])

/-- C98 means nothing for the applications as they are: the counter, the decryptor, the tablet store and the tablet cache, and the container
builds of the first two, which replace the reference values, all ask for a check that accepts evidence rooted in no hardware and of any
software, and have no clock but the one the host sets.  So does every session of their replicas. -/
theorem C98_shipped_fails :
    (∀ ms s, (Counter.actor ms).references s = skipRestrictedKernel ∧ (Counter.actor ms).clock s = none) ∧
    (∀ e s, (Willow.actor e).references s = skipRestrictedKernel ∧ (Willow.actor e).clock s = none) ∧
    (∀ e s, (TabletStore.actor e).references s = skipRestrictedKernel ∧ (TabletStore.actor e).clock s = none) ∧
    (∀ e s, (Cache.cacheActor e).references s = skipRestrictedKernel ∧ (Cache.cacheActor e).clock s = none) ∧
    ∀ {L Att Bnd Q σ ν Y : Type} {lib : Lib L Att Bnd Q} {A : Actor σ} {N : NodeT ν Y} {codecs : Codecs} {order hp} {a : σ} {l : L} {rs}
      {d : Driver σ (Simple ν Y) (Channels (Provider L) (HS Q) (Enc Q) HMsg) HMsg},
      (∀ a, A.references a = skipRestrictedKernel) ∨ (∀ a, A.references a = skipContainers) → (∀ a, A.clock a = none) →
      Calls (sys A N (ops lib.oak) (env lib order hp) codecs) (fresh a ⟨.new, l⟩) rs d → ∀ role peer s, Opened d.comm.log role peer s →
      ∃ v k q, s = HS.new role d.comm.module.replicaId peer q ∧ Made lib role d.comm.env.factory.endorsements v k q ∧ ChecksNothing v := by
  refine ⟨fun _ _ => ⟨rfl, rfl⟩, fun _ _ => ⟨rfl, rfl⟩, fun _ _ => ⟨rfl, rfl⟩, fun _ _ => ⟨rfl, rfl⟩, ?_⟩
  intro L Att Bnd Q σ ν Y lib A N codecs order hp a l rs d hr hc h role peer s ho
  have hk : ∀ a, givenClock (A.clock a) = .host := fun a => by rw [hc]; rfl
  rcases hr with hr | hr
  · obtain ⟨v, k, q, hd, hs, hm⟩ := C98_attested hr hk h ho
    exact ⟨v, k, q, hs, hm, demanded_skip (Or.inl hd)⟩
  · obtain ⟨v, k, q, hd, hs, hm⟩ := C98_attested hr hk h ho
    exact ⟨v, k, q, hs, hm, demanded_skip (Or.inr hd)⟩

end TCP.Sessions
