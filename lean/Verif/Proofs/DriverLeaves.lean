import Verif.Proofs.DriverInv
import Verif.Proofs.DriverSteps
import Verif.Spec.Driver

/-!
# Invariants of a driver with given components

`Leaves S I` lists what has to be shown for a predicate `I` to be kept by every call: one condition for each kind of interaction with
a component.  `Leaves.receive` concludes that `receive` keeps it.
-/

namespace TCP.Drv

open TCP TCP.ActorSpec

variable {σ ρ κ H α β : Type}

/-- The calls of the consensus layer other than `init` and `make_step`. -/
inductive RaftCall (R : RaftT ρ) : ρ → Ev H → ρ → Prop
  | propose {r b r' x} (h : R.makeProposal r b = .ok (r', x)) : RaftCall R r (.propose b) r'
  | proposeChange {r c r' x} (h : R.makeConfChange r c = .ok (r', x)) : RaftCall R r (.proposeChange c x) r'
  | tick {r r' i} (h : R.makeTick r = .ok r') : RaftCall R r (.tick i) r'
  | applyChange {r c r' x} (h : R.applyConfChange r c = .ok (r', x)) : RaftCall R r (.applyChange c x) r'
  | ready {r r' x} (h : R.getReady r = .ok (r', x)) : RaftCall R r (.ready x) r'
  | light {r n r' x} (h : R.advanceReady r n = .ok (r', x)) : RaftCall R r (.light x) r'
  | advanceApply {r r'} (h : R.advanceApply r = .ok r') : RaftCall R r .advanceApply r'
  | report {r i st r'} (h : R.reportSnapshot r i st = .ok r') : RaftCall R r (.report i st) r'
  | hardState {r hs r'} (h : R.setHardState r hs = .ok r') : RaftCall R r (.storeHardState hs) r'
  | append {r es r' x} (h : R.appendEntries r es = .ok (r', x)) : RaftCall R r (.storeAppend es x) r'
  | apply {r s r' x} (h : R.applySnapshot r s = .ok (r', x)) : RaftCall R r (.storeApply s x) r'
  | create {r i c b r' x} (h : R.createSnapshot r i c b = .ok (r', x)) : RaftCall R r (.storeCreate i c b) r'

/-- Interactions with the actor. -/
def ActorEv : Ev H → Prop
  | .actor _ | .actorInit .. | .actorShutdown _ => True
  | _ => False

/-- Nothing but bookkeeping changed. -/
structure Core (d d' : Driver σ ρ κ H) : Prop where
  raft : d'.raft = d.raft
  comm : d'.comm = d.comm
  snap : d'.snap = d.snap
  trace : d'.trace = d.trace
  state : d'.state = d.state
  id : d'.id = d.id ∨ d.state = .created
  conf : d'.conf = d.conf
  snapshots : d'.snapshots = d.snapshots
  ephemeral : d'.ephemeral = d.ephemeral ∨ d.state = .created

/-- Messages the replica gives the channel layer, other than requests of a snapshot transfer. -/
inductive Plain (S : Sys σ ρ κ H) (id : Nat) : Comm.Outgoing → Prop
  | raft {m : RaftMsg} (h : m.type ≠ .snapshot) : Plain S id (ofRaft S id m)
  | response (r : Snap.Response) : Plain S id (ofResponse S r)

/-- What happens to the sender of snapshots when it does not send. -/
inductive Heard : Snap.Sender → Snap.Sender → Prop
  | complete {s} : Heard s s.tryComplete.1
  | response {s s' r d rep} (h : s.processResponse r d rep = .ok s') : Heard s s'

/-- A message that is not a request of a snapshot transfer. -/
def NoRequest : Comm.InMsg H → Prop
  | .data ⟨.snapshotRequest _, _, _, _⟩ => False
  | _ => True

/-- The answer of the channel layer does not pass up a request of a snapshot transfer. -/
def Dry (x : Except PalErr (Option (Comm.InMsg H))) : Prop := ∀ m, x = .ok (some m) → NoRequest m

theorem _root_.TCP.DrvSpec.Posted.mono {t : List (Ev H)} {m : RaftMsg} (h : DrvSpec.Posted t m) (u : List (Ev H)) : DrvSpec.Posted (t ++ u) m := by
  rcases h with ⟨r, h1, h2⟩ | ⟨l, h1, h2⟩
  · exact Or.inl ⟨r, List.mem_append_left _ h1, h2⟩
  · exact Or.inr ⟨l, List.mem_append_left _ h1, h2⟩

/-- A snapshot that is put into the store came with a batch of consensus. -/
def FromReady (t : List (Ev H)) (e : Ev H) : Prop :=
  ∀ s x, e = .storeApply s x → s.metadata.index ≠ 0 ∧ ∃ r, .ready r ∈ t ∧ r.snapshot = s

/-- What has to be shown for a predicate to be an invariant. -/
structure Leaves (S : Sys σ ρ κ H) (I : Driver σ ρ κ H → Prop) : Prop where
  quiet : ∀ {d d'}, Core d d' → I d → I d'
  actor : ∀ {d a' e}, ActorEv e → I d → I { d with actor := a', trace := d.trace ++ [e] }
  host : ∀ {d m}, (∀ c, m ≠ OutMsg.comm c) → I d → I { d with messages := d.messages ++ [m], trace := d.trace ++ [.out m] }
  raft : ∀ {d r' e}, RaftCall S.R d.raft e r' → (∀ i c b, e = .storeCreate i c b → c = d.conf) → FromReady d.trace e → I d →
    I { d with raft := r', conf := DrvSpec.membersAfter d.conf e, trace := d.trace ++ [e] }
  init : ∀ {d cfg b l n r' x}, d.state = .created → S.R.init d.raft d.id cfg b l n = .ok (r', x) → I d →
    I { d with raft := r', conf := DrvSpec.membersAfter d.conf (.raftInit d.id b l x : Ev H), trace := d.trace ++ [.raftInit d.id b l x] }
  started : ∀ {d retry timeout e}, d.state = .created → (d.ephemeral = false → d.snap.replicaId = d.id) → I d →
    I { d with comm := S.C.init d.comm d.id retry timeout (clockOf S d) (S.A.references d.actor) e, state := .started }
  stopped : ∀ {d}, I d → I { d with state := .stopped }
  snapInit : ∀ {d cfg p}, d.state = .created → d.snap.init d.id cfg = .ok p → I d → I { d with snap := p }
  snapCluster : ∀ {d l t rs p u}, d.snap.clusterChange l t rs = .ok (p, u) → I d → I { d with snap := p }
  sender : ∀ {d s}, Heard d.snap.sender s → I d → I { d with snap := { d.snap with sender := s } }
  stashed : ∀ {d m}, m.type = .snapshot → DrvSpec.Posted d.trace m → I d → I { d with snapshots := d.snapshots ++ [m] }
  sending : ∀ {d d' r}, processSnapshotSending S d = .ok (d', r) → I d → I d'
  commOut : ∀ {d u c' x}, Plain S d.id u → S.C.processOut d.comm u = .ok (c', x) → I d → I { d with comm := c', trace := d.trace ++ [.commOut u] }
  commIn : ∀ {d m c' x}, NoRequest m ∨ Dry x ∨ d.snap.role = .leader → S.C.processIn d.comm m = .ok (c', x) → I d → I { d with comm := c', trace := d.trace ++ [.commIn m] }
  commTick : ∀ {d}, I d → I { d with comm := S.C.tick d.comm, trace := d.trace ++ [.commTick] }
  commCluster : ∀ {d}, I d →
    I { d with comm := S.C.clusterChange d.comm d.conf.voters, trace := d.trace ++ [.commCluster d.conf.voters] }
  take : ∀ {d c' out}, S.C.takeOut d.comm = .ok (c', out) → I d →
    I { d with comm := c', messages := d.messages ++ out.map .comm, trace := d.trace ++ out.map fun m => .out (.comm m) }
  system : ∀ {d m c' rcp snd p rm r' y}, S.C.processIn d.comm m = .ok (c', .ok (some (.data ⟨.system, rcp, snd, some p⟩))) →
    S.E.decRaft p.contents = some rm → S.R.makeStep d.raft rm = .ok (r', y) → I d →
    I { d with comm := c', raft := r', trace := d.trace ++ [.commIn m] ++ [.step rm] }
  chunk : ∀ {d m c' did rcp snd pl r resp}, d.ephemeral = false → d.snap.role = .follower → S.C.processIn d.comm m = .ok (c', .ok (some (.data ⟨.snapshotRequest did, rcp, snd, pl⟩))) →
    d.snap.receiver.processRequest (toRequest S rcp snd did pl) = .ok (r, resp) → I d →
    I { d with comm := c', snap := { d.snap with receiver := r }, trace := d.trace ++ [.commIn m] }
  complete : ∀ {d r x}, d.snap.receiver.tryComplete S.E.decMeta = .ok (r, x) → I d → I { d with snap := { d.snap with receiver := r } }
  install : ∀ {d r snd sn r' y}, d.snap.receiver.tryComplete S.E.decMeta = .ok (r, some (.ok (snd, sn))) →
    S.R.makeStep d.raft ⟨d.id, snd, .snapshot, some sn, []⟩ = .ok (r', y) → I d →
    I { d with snap := { d.snap with receiver := r }, raft := r',
               trace := d.trace ++ [.step ⟨d.id, snd, .snapshot, some sn, []⟩] }

/-- The method keeps a predicate when called in state `d`. -/
structure Keep (I : Driver σ ρ κ H → Prop) (m : M (Driver σ ρ κ H) α) (d : Driver σ ρ κ H) : Prop where
  run : I d → ∀ d' r, m d = .ok (d', r) → I d'

section rules
variable {I : Driver σ ρ κ H → Prop} {S : Sys σ ρ κ H} {d : Driver σ ρ κ H}

theorem keep_pure {a : α} : Keep I (Pure.pure a) d := ⟨by
  intro hi d' r h
  simp only [M.pure_def, M.pure, Run.ok.injEq, Prod.mk.injEq] at h
  rw [← h.1]; exact hi⟩

theorem keep_mpure {a : α} : Keep I (M.pure a) d := keep_pure

theorem keep_fail {e : PalErr} : Keep I (M.fail e : M _ α) d := ⟨by
  intro hi d' r h
  simp only [M.fail, Run.ok.injEq, Prod.mk.injEq] at h
  rw [← h.1]; exact hi⟩

theorem keep_panic : Keep I (M.panic : M _ α) d := ⟨by intro _ d' r h; simp [M.panic] at h⟩

theorem keep_orFail {ε : Type} {r : Except ε α} {e : PalErr} : Keep I (M.orFail r e) d := by
  unfold M.orFail; split
  · exact keep_mpure
  · exact keep_fail

theorem keep_get : Keep I M.get d := ⟨by
  intro hi d' r h
  simp only [M.get, Run.ok.injEq, Prod.mk.injEq] at h
  rw [← h.1]; exact hi⟩

theorem keep_modify {f : Driver σ ρ κ H → Driver σ ρ κ H} (h : I d → I (f d)) : Keep I (M.modify f) d := ⟨by
  intro hi d' r hd
  simp only [M.modify, Run.ok.injEq, Prod.mk.injEq] at hd
  rw [← hd.1]; exact h hi⟩

theorem keep_bind {m : M (Driver σ ρ κ H) α} {f : α → M (Driver σ ρ κ H) β} (h1 : Keep I m d)
    (h2 : ∀ d1 a, m d = .ok (d1, .ok a) → Keep I (f a) d1) : Keep I (m >>= f) d := ⟨by
  intro hi d' r h
  rcases M.bind_ok h with ⟨e, hm, _⟩ | ⟨d1, a, hm, hf⟩
  · exact h1.run hi _ _ hm
  · exact (h2 d1 a hm).run (h1.run hi _ _ hm) _ _ hf⟩

theorem keep_get_bind {f : Driver σ ρ κ H → M (Driver σ ρ κ H) β} (h : Keep I (f d) d) : Keep I (M.get >>= f) d :=
  keep_bind keep_get fun d1 a hm => by
    simp only [M.get, Run.ok.injEq, Prod.mk.injEq, Except.ok.injEq] at hm
    rw [← hm.1, ← hm.2]; exact h

theorem keep_modify_bind {f : Driver σ ρ κ H → Driver σ ρ κ H} {g : Unit → M (Driver σ ρ κ H) β}
    (h : I d → I (f d)) (h2 : Keep I (g ()) (f d)) : Keep I (M.modify f >>= g) d :=
  keep_bind (keep_modify h) fun d1 a hm => by
    simp only [M.modify, Run.ok.injEq, Prod.mk.injEq] at hm
    rw [← hm.1]; exact h2

/-- The first part need not keep the predicate by itself. -/
theorem keep_modify_then {f : Driver σ ρ κ H → Driver σ ρ κ H} {g : Unit → M (Driver σ ρ κ H) β}
    (h : I d → ∀ d' r, g () (f d) = .ok (d', r) → I d') : Keep I (M.modify f >>= g) d := ⟨by
  intro hi d' r hd
  rw [M.bind_run (d1 := f d) (a := ()) rfl] at hd
  exact h hi d' r hd⟩

theorem keep_when {b : Bool} {m : M (Driver σ ρ κ H) Unit} (h : b = true → Keep I m d) : Keep I (M.when b m) d := by
  unfold M.when; split
  · rename_i hb; exact h hb
  · exact keep_mpure

theorem keep_opt {o : Option α} {f : α → M (Driver σ ρ κ H) Unit} (h : ∀ a, Keep I (f a) d) : Keep I (M.opt o f) d := by
  unfold M.opt; split
  · exact h _
  · exact keep_mpure

theorem keep_ask {f : ρ → Run β} : Keep I (askRaft f) d := ⟨by
  intro hi d' r h
  simp only [askRaft, Run.bind_eq_ok, Run.ok.injEq, Prod.mk.injEq] at h
  obtain ⟨_, _, h, _⟩ := h
  rw [← h]; exact hi⟩

theorem keep_raft {f : ρ → Run (ρ × β)} {ev : β → Ev H} (L : Leaves S I) (h : ∀ r' b, f d.raft = .ok (r', b) → RaftCall S.R d.raft (ev b) r')
    (hc : ∀ c b, DrvSpec.membersAfter c (ev b) = c := by intro _ _; rfl)
    (hl : ∀ b' i c b, ev b' = .storeCreate i c b → c = d.conf := by intro _ _ _ _ h; cases h)
    (hr : ∀ b, FromReady d.trace (ev b) := by intro _ _ _ h; cases h) : Keep I (callRaft f ev) d := ⟨by
  intro hi d' r hd
  simp only [callRaft, Run.bind_eq_ok, Run.ok.injEq, Prod.mk.injEq] at hd
  obtain ⟨x, hx, hd, _⟩ := hd
  have := L.raft (h _ _ hx) (hl _) (hr _) hi
  rw [hc] at this
  rw [← hd]; exact this⟩

/-- What follows on a call of consensus may complete it. -/
theorem keep_raft_then {f : ρ → Run (ρ × β)} {ev : β → Ev H} {g : β → M (Driver σ ρ κ H) α}
    (h : ∀ r' b, f d.raft = .ok (r', b) → I d → ∀ d' r, g b { d with raft := r', trace := d.trace ++ [ev b] } = .ok (d', r) → I d') :
    Keep I (callRaft f ev >>= g) d := ⟨by
  intro hi d' r hd
  rcases M.bind_ok hd with ⟨e, hm, _⟩ | ⟨d1, a, hm, hf⟩
  · simp [callRaft, Run.bind_eq_ok] at hm
  · simp only [callRaft, Run.bind_eq_ok, Run.ok.injEq, Prod.mk.injEq, Except.ok.injEq] at hm
    obtain ⟨x, hx, rfl, rfl⟩ := hm
    exact h _ _ hx hi _ _ hf⟩

theorem keep_raftU {f : ρ → Run ρ} {ev : Ev H} (L : Leaves S I) (h : ∀ r', f d.raft = .ok r' → RaftCall S.R d.raft ev r')
    (hc : ∀ c, DrvSpec.membersAfter c ev = c := by intro _; rfl)
    (hl : ∀ i c b, ev = .storeCreate i c b → c = d.conf := by intro _ _ _ h; cases h)
    (hr : FromReady d.trace ev := by intro _ _ h; cases h) : Keep I (callRaftU f ev) d :=
  keep_raft L (fun r' b hb => by
    simp only [Run.bind_eq_ok, Run.ok.injEq, Prod.mk.injEq] at hb
    obtain ⟨r1, h1, rfl, _⟩ := hb
    exact h _ h1) (fun c _ => hc c) (fun _ => hl) fun _ => hr

theorem keep_actor {f : ActorCtx → σ → Run (σ × β)} {ev : ActorCtx → β → Ev H} (L : Leaves S I) (h : ∀ c b, ActorEv (ev c b)) :
    Keep I (callActor f ev) d := ⟨by
  intro hi d' r hd
  simp only [callActor, Run.bind_eq_ok, Run.ok.injEq, Prod.mk.injEq] at hd
  obtain ⟨_, _, hd, _⟩ := hd
  rw [← hd]; exact L.actor (h _ _) hi⟩

theorem keep_commOut (L : Leaves S I) (u : Comm.Outgoing) (hu : Plain S d.id u) : Keep I (callComm (fun c => S.C.processOut c u) (.commOut u)) d := ⟨by
  intro hi d' r hd
  simp only [callComm, Run.bind_eq_ok, Run.ok.injEq, Prod.mk.injEq] at hd
  obtain ⟨x, hx, hd, _⟩ := hd
  rw [← hd]; exact L.commOut hu hx hi⟩

theorem keep_commIn (L : Leaves S I) (m : Comm.InMsg H) (hm : NoRequest m) : Keep I (callComm (fun c => S.C.processIn c m) (.commIn m)) d := ⟨by
  intro hi d' r hd
  simp only [callComm, Run.bind_eq_ok, Run.ok.injEq, Prod.mk.injEq] at hd
  obtain ⟨x, hx, hd, _⟩ := hd
  rw [← hd]; exact L.commIn (Or.inl hm) hx hi⟩

theorem keep_stash (L : Leaves S I) {m : OutMsg H} (h : ∀ c, m ≠ .comm c) : Keep I (stash m) d := keep_modify (L.host h)

theorem keep_stashCommands (L : Leaves S I) (cs : List ActorCommand) (d : Driver σ ρ κ H) : Keep I (stashCommands cs) d := by
  induction cs generalizing d with
  | nil => exact keep_pure
  | cons c cs ih => exact keep_bind (keep_stash L (by simp)) fun _ _ _ => ih _

theorem keep_snap {f : Snap.Processor → Run (Snap.Processor × β)} (h : ∀ p b, f d.snap = .ok (p, b) → I d → I { d with snap := p }) :
    Keep I (callSnap f) d := ⟨by
  intro hi d' r hd
  simp only [callSnap, Run.bind_eq_ok, Run.ok.injEq, Prod.mk.injEq] at hd
  obtain ⟨x, hx, hd, _⟩ := hd
  rw [← hd]; exact h _ _ hx hi⟩

theorem core_book {d' : Driver σ ρ κ H} (L : Leaves S I) (h : Core d d') : I d → I d' := L.quiet h

end rules

/-- One rule. -/
macro "keep1 " L:term : tactic => `(tactic| with_reducible first
  | intro _
  | exact keep_pure | exact keep_mpure | exact keep_fail | exact keep_panic | exact keep_orFail | exact keep_get | exact keep_ask
  | exact keep_stashCommands $L _ _ | exact keep_stash $L (by simp)
  | refine keep_get_bind ?_ | refine keep_modify_bind (Leaves.quiet $L (by constructor <;> first | rfl | exact Or.inl rfl)) ?_
  | refine keep_modify (Leaves.quiet $L (by constructor <;> first | rfl | exact Or.inl rfl))
  | refine keep_bind ?_ ?_ | refine keep_when ?_ | refine keep_opt ?_ | split)

/-- Go through a method. -/
macro "keep " L:term : tactic => `(tactic| repeat (first | keep1 $L | exact keep_actor $L (fun _ _ => trivial)))

variable {S : Sys σ ρ κ H} {I : Driver σ ρ κ H → Prop}

theorem callSnap_eq {f : Snap.Processor → Run (Snap.Processor × β)} {d d' : Driver σ ρ κ H} {r} (h : callSnap f d = .ok (d', r)) :
    ∃ p b, f d.snap = .ok (p, b) ∧ d' = { d with snap := p } ∧ r = .ok b := by
  simp only [callSnap, Run.bind_eq_ok, Run.ok.injEq, Prod.mk.injEq] at h
  obtain ⟨x, hx, hd, hr⟩ := h
  exact ⟨x.1, x.2, hx, hd.symm, hr.symm⟩

theorem callComm_eq {f : κ → Run (κ × Except PalErr β)} {ev : Ev H} {d d' : Driver σ ρ κ H} {r} (h : callComm f ev d = .ok (d', r)) :
    ∃ c, f d.comm = .ok (c, r) ∧ d' = { d with comm := c, trace := d.trace ++ [ev] } := by
  simp only [callComm, Run.bind_eq_ok, Run.ok.injEq, Prod.mk.injEq] at h
  obtain ⟨x, hx, hd, hr⟩ := h
  exact ⟨x.1, by rw [hx, ← hr], hd.symm⟩

theorem callRaft_eq {f : ρ → Run (ρ × β)} {ev : β → Ev H} {d d' : Driver σ ρ κ H} {r} (h : callRaft f ev d = .ok (d', r)) :
    ∃ r' b, f d.raft = .ok (r', b) ∧ d' = { d with raft := r', trace := d.trace ++ [ev b] } ∧ r = .ok b := by
  simp only [callRaft, Run.bind_eq_ok, Run.ok.injEq, Prod.mk.injEq] at h
  obtain ⟨x, hx, hd, hr⟩ := h
  exact ⟨x.1, x.2, hx, hd.symm, hr.symm⟩

theorem keep_getRaftState (d : Driver σ ρ κ H) : Keep I (getRaftState S) d := by
  unfold getRaftState
  refine keep_bind keep_ask fun _ _ _ => ?_
  exact keep_bind keep_get fun _ _ _ => keep_pure

theorem core_of {d d' : Driver σ ρ κ H} (h1 : d'.raft = d.raft) (h2 : d'.comm = d.comm) (h3 : d'.snap = d.snap) (h4 : d'.trace = d.trace)
    (h5 : d'.state = d.state) (h6 : d'.id = d.id) (h7 : d'.conf = d.conf := by rfl)
    (h8 : d'.snapshots = d.snapshots := by rfl) (h9 : d'.ephemeral = d.ephemeral := by rfl) : Core d d' :=
  ⟨h1, h2, h3, h4, h5, Or.inl h6, h7, h8, Or.inl h9⟩

theorem askRaft_state {f : ρ → Run β} {d d' : Driver σ ρ κ H} {r} (h : askRaft f d = .ok (d', r)) : d' = d := by
  simp only [askRaft, Run.bind_eq_ok, Run.ok.injEq, Prod.mk.injEq] at h
  obtain ⟨_, _, h, _⟩ := h
  exact h.symm

theorem keep_initializeRaftNode (L : Leaves S I) (cfg : Option RaftConfig) (b : Bytes) (l : Bool) (d : Driver σ ρ κ H)
    (hs : d.state = .created) : Keep I (initializeRaftNode S cfg b l) d := by
  unfold initializeRaftNode
  have hc : (configure cfg d).state = d.state := by cases cfg <;> rfl
  refine keep_modify_bind (L.quiet (by cases cfg <;> exact core_of rfl rfl rfl rfl rfl rfl)) ?_
  refine keep_get_bind ?_
  refine keep_raft_then fun r' x hx hi d' r h => ?_
  have hi := L.init (hc.trans hs) hx hi
  cases x with
  | error e =>
    simp only [M.orFail] at h
    rcases M.bind_ok h with ⟨e, hm, _⟩ | ⟨_, _, hm, _⟩
    · simp only [M.fail, Run.ok.injEq, Prod.mk.injEq] at hm
      rw [← hm.1]; cases l <;> exact hi
    · simp [M.fail] at hm
  | ok u =>
    rw [M.bind_run (d1 := _) (a := u) rfl, M.bind_run (d1 := _) (a := ()) rfl] at h
    refine Keep.run (keep_modify_bind (L.quiet (core_of rfl rfl rfl rfl rfl rfl)) ?_) ?_ d' r h
    · exact keep_bind (keep_getRaftState _) fun _ _ _ => keep_modify (L.quiet (core_of rfl rfl rfl rfl rfl rfl))
    · cases l
      · exact hi
      · refine L.quiet ?_ hi
        exact core_of rfl rfl rfl rfl rfl rfl

theorem keep_makeRaftProposal (L : Leaves S I) (b : Bytes) (d : Driver σ ρ κ H) : Keep I (makeRaftProposal S b) d := by
  unfold makeRaftProposal
  refine keep_bind (keep_raft L fun _ _ h => .propose h) fun _ _ _ => ?_
  keep L

theorem keep_makeConfChangeProposal (L : Leaves S I) (n : Nat) (a : Bool) (d : Driver σ ρ κ H) :
    Keep I (makeConfChangeProposal S n a) d := by
  unfold makeConfChangeProposal
  refine keep_bind (keep_raft L fun _ _ h => .proposeChange h) fun _ _ _ => ?_
  keep L

theorem keep_triggerRaftTick (L : Leaves S I) (d : Driver σ ρ κ H) : Keep I (triggerRaftTick S) d := by
  unfold triggerRaftTick
  refine keep_get_bind ?_
  split
  · refine keep_modify_bind (L.quiet (core_of rfl rfl rfl rfl rfl rfl)) ?_
    exact keep_raftU L fun _ h => .tick h
  · keep L

theorem keep_applyEntry (L : Leaves S I) (e : Entry) (d : Driver σ ρ κ H) : Keep I (applyEntry S e) d := by
  unfold applyEntry
  refine keep_modify_bind (L.quiet (core_of rfl rfl rfl rfl rfl rfl)) ?_
  split
  · keep L
  · split
    · split
      · keep L
      · refine keep_raft_then fun r' x hx hi d' r h => ?_
        have hi := L.raft (.applyChange hx) (by intro _ _ _ h; cases h) (by intro _ _ h; cases h) hi
        cases x with
        | error e =>
          simp only [M.orFail] at h
          rcases M.bind_ok h with ⟨e, hm, _⟩ | ⟨_, _, hm, _⟩
          · simp only [M.fail, Run.ok.injEq, Prod.mk.injEq] at hm
            rw [← hm.1]; exact hi
          · simp [M.fail] at hm
        | ok c =>
          rw [M.bind_run (d1 := _) (a := c) rfl] at h
          simp only [M.modify, Run.ok.injEq, Prod.mk.injEq] at h
          rw [← h.1]; exact hi
    · keep L

theorem keep_applyEntries (L : Leaves S I) (es : List Entry) (d : Driver σ ρ κ H) : Keep I (applyEntries S es) d := by
  induction es generalizing d with
  | nil => exact keep_pure
  | cons e es ih => exact keep_bind (keep_applyEntry L e d) fun _ _ _ => ih _

theorem keep_sendRaftMessage (L : Leaves S I) (m : RaftMsg) (d : Driver σ ρ κ H) (h : DrvSpec.Posted d.trace m) :
    Keep I (sendRaftMessage S m) d := by
  unfold sendRaftMessage
  split
  · rename_i hm
    exact keep_modify (L.stashed hm h)
  · rename_i hm
    exact keep_get_bind (keep_commOut L _ (.raft hm))

theorem Adds.asked {L : List K} {m : M (Driver σ ρ κ H) α} (hm : Adds L m) {d d' : Driver σ ρ κ H} {r} (h : m d = .ok (d', r))
    {ms : List RaftMsg} (ha : ∀ m ∈ ms, DrvSpec.Posted d.trace m) : ∀ m ∈ ms, DrvSpec.Posted d'.trace m := by
  obtain ⟨new, e, _⟩ := hm.run _ _ _ h
  intro m hm
  rw [e]; exact (ha m hm).mono _

theorem Adds.stays {L : List K} {m : M (Driver σ ρ κ H) α} (hm : Adds L m) {d d' : Driver σ ρ κ H} {r} (h : m d = .ok (d', r))
    {e : Ev H} (he : e ∈ d.trace) : e ∈ d'.trace := by
  obtain ⟨new, e1, _⟩ := hm.run _ _ _ h
  rw [e1]; exact List.mem_append_left _ he

theorem keep_sendRaftMessages (L : Leaves S I) (ms : List RaftMsg) (d : Driver σ ρ κ H) (h : ∀ m ∈ ms, DrvSpec.Posted d.trace m) :
    Keep I (sendRaftMessages S ms) d := by
  induction ms generalizing d with
  | nil => exact keep_pure
  | cons e es ih =>
    refine keep_bind (keep_sendRaftMessage L e d (h e (by simp))) fun _ _ h1 => ih _ ?_
    exact (adds_sendRaftMessage e).asked h1 fun m hm => h m (by simp [hm])

theorem keep_restoreRaftSnapshot (L : Leaves S I) (s : Snap.RaftSnapshot) (d : Driver σ ρ κ H)
    (hr : ∃ r, .ready r ∈ d.trace ∧ r.snapshot = s) : Keep I (restoreRaftSnapshot S s) d := by
  unfold restoreRaftSnapshot
  split
  · keep L
  · rename_i h0
    refine keep_modify_then fun hi d' r h => ?_
    rcases M.bind_ok h with ⟨e, hm, _⟩ | ⟨d1, a, hm, hf⟩
    · simp [callRaft, Run.bind_eq_ok] at hm
    · simp only [callRaft, Run.bind_eq_ok, Run.ok.injEq, Prod.mk.injEq, Except.ok.injEq] at hm
      obtain ⟨x, hx, rfl, rfl⟩ := hm
      have hi := L.raft (.apply hx) (by intro _ _ _ h; cases h) (by intro _ _ h; cases h; exact ⟨h0, hr⟩) hi
      refine Keep.run (I := I) ?_ hi d' r hf
      keep L

theorem keep_maybeCreateSnapshot (L : Leaves S I) (d : Driver σ ρ κ H) : Keep I (maybeCreateSnapshot S) d := by
  unfold maybeCreateSnapshot
  refine keep_get_bind ?_
  refine keep_bind keep_ask fun _ _ _ => ?_
  split
  · refine keep_bind (keep_actor L fun _ _ => trivial) fun _ _ _ => ?_
    refine keep_bind keep_orFail fun _ _ _ => ?_
    refine keep_get_bind ?_
    refine keep_bind (keep_raft L (fun _ _ h => .create h) (by intro _ _; rfl) (by intro _ _ _ _ h; cases h; rfl)) fun _ _ _ => ?_
    keep L
  · keep L

theorem keep_processReady (L : Leaves S I) (d : Driver σ ρ κ H) : Keep I (processReady S) d := by
  unfold processReady
  refine keep_bind (keep_raft L fun _ _ h => .ready h) fun d1 ready h1 => ?_
  have ha1 : ∀ m ∈ ready.messages, DrvSpec.Posted d1.trace m := by
    intro m hm
    obtain ⟨r', b, _, rfl, hb⟩ := callRaft_eq h1
    cases hb
    exact Or.inl ⟨ready, by simp, Or.inl hm⟩
  have hp1 : ∀ m ∈ ready.persisted, DrvSpec.Posted d1.trace m := by
    intro m hm
    obtain ⟨r', b, _, rfl, hb⟩ := callRaft_eq h1
    cases hb
    exact Or.inl ⟨ready, by simp, Or.inr hm⟩
  have hr1 : .ready ready ∈ d1.trace := by
    obtain ⟨r', b, _, rfl, hb⟩ := callRaft_eq h1
    cases hb
    simp
  refine keep_bind (keep_sendRaftMessages L _ _ ha1) fun d2 _ h2 => ?_
  have hp2 := (adds_sendRaftMessages _).asked h2 hp1
  refine keep_bind (keep_opt fun _ => keep_raftU L fun _ h => .hardState h) fun d3 _ h3 => ?_
  have hp3 := (adds_opt (L := [.hardState]) fun a => adds_raftU (by simp [kind])).asked h3 hp2
  have hr2 := (adds_sendRaftMessages _).stays h2 hr1
  have hr3 := (adds_opt (L := [.hardState]) fun a => adds_raftU (by simp [kind])).stays h3 hr2
  refine keep_bind (keep_restoreRaftSnapshot L _ _ ⟨ready, hr3, rfl⟩) fun d4 _ h4 => ?_
  have hp4 := (adds_restoreRaftSnapshot _).asked h4 hp3
  refine keep_bind (keep_applyEntries L _ _) fun d5 _ h5 => ?_
  have hp5 := (adds_applyEntries _).asked h5 hp4
  refine keep_bind (keep_sendRaftMessages L _ _ hp5) fun _ _ _ => ?_
  refine keep_bind (keep_when fun _ => keep_bind (keep_raft L fun _ _ h => .append h) fun _ _ _ => keep_orFail) fun _ _ _ => ?_
  refine keep_bind (keep_raft L fun _ _ h => .light h) fun d7 light h7 => ?_
  have ha7 : ∀ m ∈ light.messages, DrvSpec.Posted d7.trace m := by
    intro m hm
    obtain ⟨r', b, _, rfl, hb⟩ := callRaft_eq h7
    cases hb
    exact Or.inr ⟨light, by simp, hm⟩
  refine keep_bind (keep_sendRaftMessages L _ _ ha7) fun _ _ _ => ?_
  refine keep_bind (keep_applyEntries L _ _) fun _ _ _ => ?_
  exact keep_raftU L fun _ h => .advanceApply h

theorem keep_advanceRaft (L : Leaves S I) (d : Driver σ ρ κ H) : Keep I (advanceRaft S) d := by
  unfold advanceRaft
  refine keep_get_bind ?_
  refine keep_bind (keep_when fun _ => keep_triggerRaftTick L _) fun _ _ _ => ?_
  exact keep_bind keep_ask fun _ _ _ => keep_when fun _ => keep_processReady L _

theorem keep_reportAll (L : Leaves S I) (rs : List (Nat × Snap.Status)) (d : Driver σ ρ κ H) : Keep I (reportAll S rs) d := by
  induction rs generalizing d with
  | nil => exact keep_pure
  | cons e es ih => exact keep_bind (keep_raftU L fun _ h => .report h) fun _ _ _ => ih _

theorem keep_updateSnapshotClusterChange (L : Leaves S I) (d : Driver σ ρ κ H) : Keep I (updateSnapshotClusterChange S) d := by
  unfold updateSnapshotClusterChange
  refine keep_get_bind ?_
  split
  · keep L
  · refine keep_bind (keep_snap fun p b h => L.snapCluster h) fun _ _ _ => keep_reportAll L _ _

theorem keep_stashLeaderState (L : Leaves S I) (d : Driver σ ρ κ H) : Keep I (stashLeaderState S) d := by
  unfold stashLeaderState
  refine keep_bind (keep_getRaftState _) fun _ _ _ => ?_
  refine keep_modify_bind (L.quiet (core_of rfl rfl rfl rfl rfl rfl)) ?_
  refine keep_get_bind ?_
  split
  · keep L
  · refine keep_modify_bind (L.quiet (core_of rfl rfl rfl rfl rfl rfl)) ?_
    refine keep_bind (keep_updateSnapshotClusterChange L _) fun _ _ _ => ?_
    refine keep_get_bind ?_
    refine keep_bind (keep_modify L.commCluster) fun _ _ _ => ?_
    keep L

theorem isSender_eq {p p' : Snap.Processor} {b : Bool} (h : ((isSender p).bind fun b => Run.ok (p, b)) = .ok (p', b)) : p' = p := by
  simp only [Run.bind_eq_ok, Run.ok.injEq, Prod.mk.injEq] at h
  obtain ⟨_, _, h, _⟩ := h
  exact h.symm

theorem keep_isSender (L : Leaves S I) (d : Driver σ ρ κ H) : Keep I (callSnap fun p => (isSender p).bind fun b => .ok (p, b)) d :=
  keep_snap fun p b h hi => by rw [isSender_eq h]; exact L.quiet (core_of rfl rfl rfl rfl rfl rfl) hi

theorem keep_processSnapshotProgress (L : Leaves S I) (d : Driver σ ρ κ H) : Keep I (processSnapshotProgress S) d := by
  unfold processSnapshotProgress
  refine keep_get_bind ?_
  split
  · keep L
  · refine keep_bind (keep_isSender L _) fun d1 b h1 => ?_
    have hd1 : d1 = d := by
      obtain ⟨p, b', hp, hd, _⟩ := callSnap_eq h1
      rw [hd, isSender_eq hp]
    subst hd1
    split
    · refine keep_bind (keep_snap fun p b h hi => ?_) fun _ x _ => ?_
      · simp only [Run.ok.injEq, Prod.mk.injEq] at h
        rw [← h.1]; exact L.sender .complete hi
      · cases x with
        | none => exact keep_pure
        | some x => exact keep_raftU L fun _ h => .report h
    · refine ⟨fun hi d' r h => ?_⟩
      rcases M.bind_ok h with ⟨e, h2, _⟩ | ⟨d2, x, h2, h⟩
      · obtain ⟨_, _, _, _, hb⟩ := callSnap_eq h2
        simp at hb
      obtain ⟨p, b', hp, rfl, hb⟩ := callSnap_eq h2
      simp only [Run.bind_eq_ok, Run.ok.injEq, Prod.mk.injEq] at hp
      obtain ⟨⟨y1, y2⟩, hy, rfl, rfl⟩ := hp
      simp only [Except.ok.injEq] at hb
      subst hb
      split at h
      · rename_i x
        rcases M.bind_ok h with ⟨e, h3, _⟩ | ⟨d3, x3, h3, h⟩
        · obtain ⟨_, _, _, _, hb⟩ := callRaft_eq h3
          simp at hb
        · obtain ⟨r', z, hr, rfl, _⟩ := callRaft_eq h3
          simp only [M.pure_def, M.pure, Run.ok.injEq, Prod.mk.injEq] at h
          rw [← h.1]
          exact L.install hy hr hi
      · simp only [M.pure_def, M.pure, Run.ok.injEq, Prod.mk.injEq] at h
        rw [← h.1]
        exact L.complete hy hi

/-- What `process_snapshot_sending` does, one step at a time. -/
structure Sending (S : Sys σ ρ κ H) (I : Driver σ ρ κ H → Prop) : Prop where
  drop : ∀ {d}, I d → I { d with snapshots := [] }
  sender : ∀ {d s}, I d → I { d with snap := { d.snap with sender := s } }
  report : ∀ {d r' i st}, S.R.reportSnapshot d.raft i st = .ok r' → I d → I { d with raft := r', trace := d.trace ++ [.report i st] }
  commOut : ∀ {d u c' x}, S.C.processOut d.comm u = .ok (c', x) → I d → I { d with comm := c', trace := d.trace ++ [.commOut u] }

theorem Sending.startAll (L : Sending S I) (ms : List RaftMsg) (d : Driver σ ρ κ H) : Keep I (startAll ms) d := by
  induction ms generalizing d with
  | nil => exact keep_pure
  | cons m ms ih =>
    refine keep_bind (keep_snap fun p b h hi => ?_) fun _ _ _ => ih _
    simp only [Run.bind_eq_ok, Run.ok.injEq, Prod.mk.injEq] at h
    obtain ⟨_, _, _, _, h, _⟩ := h
    rw [← h]; exact L.sender hi

theorem Sending.sendAll (L : Sending S I) (ms : List Comm.Outgoing) (d : Driver σ ρ κ H) : Keep I (sendAll S ms) d := by
  induction ms generalizing d with
  | nil => exact keep_pure
  | cons m ms ih =>
    refine keep_bind ⟨?_⟩ fun _ _ _ => ih _
    intro hi d' r hd
    simp only [callComm, Run.bind_eq_ok, Run.ok.injEq, Prod.mk.injEq] at hd
    obtain ⟨x, hx, hd, _⟩ := hd
    rw [← hd]; exact L.commOut hx hi

theorem Sending.reportAll (L : Sending S I) (rs : List (Nat × Snap.Status)) (d : Driver σ ρ κ H) : Keep I (reportAll S rs) d := by
  induction rs generalizing d with
  | nil => exact keep_pure
  | cons e es ih =>
    refine keep_bind ⟨?_⟩ fun _ _ _ => ih _
    intro hi d' r hd
    simp only [callRaftU, callRaft, Run.bind_eq_ok, Run.ok.injEq, Prod.mk.injEq] at hd
    obtain ⟨x, ⟨r1, hx, rfl⟩, hd, _⟩ := hd
    rw [← hd]; exact L.report hx hi

theorem Sending.run (L : Sending S I) {d d' : Driver σ ρ κ H} {r} (h : processSnapshotSending S d = .ok (d', r)) (hi : I d) : I d' := by
  refine Keep.run (I := I) ?_ hi d' r h
  unfold processSnapshotSending
  refine keep_get_bind ?_
  refine keep_modify_bind L.drop ?_
  refine keep_bind (keep_snap fun p b h hi => by rw [isSender_eq h]; exact hi) fun _ _ _ => ?_
  split
  · refine keep_bind (L.startAll _ _) fun _ _ _ => ?_
    refine keep_bind (keep_snap fun p b h hi => ?_) fun _ _ _ => L.sendAll _ _
    simp only [Run.bind_eq_ok, Run.ok.injEq, Prod.mk.injEq] at h
    obtain ⟨_, _, h, _⟩ := h
    rw [← h]; exact L.sender hi
  · exact L.reportAll _ _

theorem keep_processSnapshotSending (L : Leaves S I) (d : Driver σ ρ κ H) : Keep I (processSnapshotSending S) d :=
  ⟨fun hi _ _ h => L.sending h hi⟩

/-! ## Requests of the host -/

theorem keep_checkState (l : Lifecycle) (d : Driver σ ρ κ H) : Keep I (checkState l) d := by
  unfold checkState
  refine keep_get_bind ?_
  split
  · exact keep_fail
  · exact keep_pure

theorem checkState_eq {l : Lifecycle} {d d' : Driver σ ρ κ H} {a : Unit} (h : checkState l d = .ok (d', .ok a)) :
    d' = d ∧ d.state = l := by
  unfold checkState at h
  rw [M.bind_run (d1 := d) (a := d) rfl] at h
  split at h
  · simp [M.fail] at h
  · rename_i hs
    simp only [M.pure_def, M.pure, Run.ok.injEq, Prod.mk.injEq] at h
    exact ⟨h.1.symm, by simpa using hs⟩

theorem keep_checkNonEphemeral (d : Driver σ ρ κ H) : Keep I checkNonEphemeral d := by
  unfold checkNonEphemeral
  refine keep_get_bind ?_
  split
  · exact keep_fail
  · exact keep_pure

theorem callActor_eq {f : ActorCtx → σ → Run (σ × β)} {ev : ActorCtx → β → Ev H} {d d' : Driver σ ρ κ H} {r}
    (h : callActor f ev d = .ok (d', r)) :
    ∃ a' b, f d.ctx d.actor = .ok (a', b) ∧ d' = { d with actor := a', trace := d.trace ++ [ev d.ctx b] } ∧ r = .ok b := by
  simp only [callActor, Run.bind_eq_ok, Run.ok.injEq, Prod.mk.injEq] at h
  obtain ⟨x, hx, hd, hr⟩ := h
  exact ⟨x.1, x.2, hx, hd.symm, hr.symm⟩

theorem orFail_eq {ε : Type} {r : Except ε α} {e : PalErr} {d d' : Driver σ ρ κ H} {a : α} (h : M.orFail r e d = .ok (d', .ok a)) :
    d' = d ∧ r = .ok a := by
  cases r with
  | error e => simp [M.orFail, M.fail] at h
  | ok a => simp only [M.orFail, M.pure, Run.ok.injEq, Prod.mk.injEq, Except.ok.injEq] at h; exact ⟨h.1.symm, by rw [h.2]⟩

theorem keep_startConsensus (L : Leaves S I) (r : StartReq) (d : Driver σ ρ κ H) (hs : d.state = .created) :
    Keep I (startConsensus S r) d := by
  unfold startConsensus
  refine keep_bind (keep_actor L fun _ _ => trivial) fun d1 _ h1 => ?_
  obtain ⟨_, _, _, rfl, _⟩ := callActor_eq h1
  refine keep_bind keep_orFail fun d2 _ h2 => ?_
  obtain ⟨rfl, _⟩ := orFail_eq h2
  refine keep_get_bind ?_
  refine keep_bind (keep_snap fun p b h hi => ?_) fun d3 _ h3 => ?_
  · simp only [Run.bind_eq_ok, Run.ok.injEq, Prod.mk.injEq] at h
    obtain ⟨_, h, rfl, _⟩ := h
    exact L.snapInit hs h hi
  · obtain ⟨_, _, _, rfl, _⟩ := callSnap_eq h3
    exact keep_initializeRaftNode L _ _ _ _ hs

/-- The snapshot processor and the replica have the same id. -/
def Named (d : Driver σ ρ κ H) : Prop := d.snap.replicaId = d.id

theorem pres_named_init (cfg : Option RaftConfig) (b : Bytes) (l : Bool) :
    Pres (Named (σ := σ) (ρ := ρ) (κ := κ) (H := H)) (initializeRaftNode S cfg b l) := by
  unfold initializeRaftNode getRaftState configure
  pres

theorem startConsensus_named {r : StartReq} {d d' : Driver σ ρ κ H} {u : Unit} (h : startConsensus S r d = .ok (d', .ok u)) : Named d' := by
  unfold startConsensus at h
  rcases M.bind_ok h with ⟨e, _, hc⟩ | ⟨d1, x, h1, h⟩
  · simp at hc
  rcases M.bind_ok h with ⟨e, _, hc⟩ | ⟨d2, y, h2, h⟩
  · simp at hc
  rw [M.bind_run (d1 := d2) (a := d2) rfl] at h
  rcases M.bind_ok h with ⟨e, _, hc⟩ | ⟨d3, z, h3, h⟩
  · simp at hc
  refine (pres_named_init _ _ _).run _ _ _ ?_ h
  obtain ⟨p, b, hp, rfl, _⟩ := callSnap_eq h3
  simp only [Run.bind_eq_ok, Run.ok.injEq, Prod.mk.injEq] at hp
  obtain ⟨p', hp, rfl, _⟩ := hp
  unfold Snap.Processor.init at hp
  split at hp
  · simp at hp
  · simp only [Run.ok.injEq] at hp
    subst hp
    rfl

theorem checkNonEphemeral_eq {d d' : Driver σ ρ κ H} {a : Unit} (h : checkNonEphemeral d = .ok (d', .ok a)) :
    d' = d ∧ d.ephemeral = false := by
  unfold checkNonEphemeral at h
  rw [M.bind_run (d1 := d) (a := d) rfl] at h
  split at h
  · simp [M.fail] at h
  · rename_i hs
    simp only [M.pure_def, M.pure, Run.ok.injEq, Prod.mk.injEq] at h
    exact ⟨h.1.symm, by simpa using hs⟩

theorem keep_processStart (L : Leaves S I) (r : StartReq) (d : Driver σ ρ κ H) : Keep I (processStart S r) d := by
  unfold processStart
  refine keep_bind (keep_checkState _ _) fun d1 _ h1 => ?_
  obtain ⟨rfl, hs⟩ := checkState_eq h1
  refine keep_modify_bind (L.quiet ⟨rfl, rfl, rfl, rfl, rfl, Or.inr hs, rfl, rfl, Or.inl rfl⟩) ?_
  refine keep_bind (keep_actor L fun _ _ => trivial) fun d2 _ h2 => ?_
  obtain ⟨_, _, _, rfl, _⟩ := callActor_eq h2
  refine keep_bind keep_orFail fun d3 _ h3 => ?_
  obtain ⟨rfl, _⟩ := orFail_eq h3
  refine keep_modify_bind (L.quiet ⟨rfl, rfl, rfl, rfl, rfl, Or.inl rfl, rfl, rfl, Or.inr hs⟩) ?_
  refine keep_bind (keep_when fun _ => keep_startConsensus L r _ hs) fun d4 _ h4 => ?_
  have hn4 : d4.ephemeral = false → d4.snap.replicaId = d4.id := by
    intro he
    cases hr : r.isEphemeral with
    | false =>
      simp only [hr, Bool.not_false, M.when, if_true] at h4
      exact startConsensus_named h4
    | true =>
      simp only [hr, Bool.not_true, M.when, Bool.false_eq_true, if_false, M.pure, Run.ok.injEq, Prod.mk.injEq] at h4
      rw [← h4.1] at he
      simp at he
  have hs4 : d4.state = .created := ((keeps_when (keeps_startConsensus r)).run _ _ _ h4).trans hs
  refine keep_bind (keep_when fun _ => keep_panic) fun d5 _ h5 => ?_
  have hs5 : d5 = d4 := by
    unfold M.when at h5
    split at h5
    · simp [M.panic] at h5
    · simp only [M.pure, Run.ok.injEq, Prod.mk.injEq] at h5
      exact h5.1.symm
  subst hs5
  refine ⟨fun hi d' x h => ?_⟩
  rw [M.bind_run (a := ()) rfl, M.bind_run (a := ()) rfl] at h
  refine (keep_get_bind (keep_stash L (by simp))).run ?_ _ _ h
  cases hc : r.raftConfig <;> exact L.started hs4 hn4 hi

theorem keep_processStop (L : Leaves S I) (d : Driver σ ρ κ H) : Keep I (processStop S) d := by
  unfold processStop
  refine keep_get_bind ?_
  split
  · keep L
  · refine keep_bind (keep_actor L fun _ _ => trivial) fun _ _ _ => ?_
    exact keep_modify_bind L.stopped (keep_stash L (by simp))

theorem keep_processChangeCluster (L : Leaves S I) (a b c : Nat) (d : Driver σ ρ κ H) : Keep I (processChangeCluster S a b c) d := by
  unfold processChangeCluster
  refine keep_bind (keep_checkState _ _) fun _ _ _ => ?_
  refine keep_bind (keep_checkNonEphemeral _) fun _ _ _ => ?_
  refine keep_bind ?_ fun _ _ _ => keep_stash L (by simp)
  unfold changeStatus
  split
  · exact keep_makeConfChangeProposal L _ _ _
  · split
    · exact keep_makeConfChangeProposal L _ _ _
    · exact keep_pure

theorem keep_processCheckCluster (L : Leaves S I) (d : Driver σ ρ κ H) : Keep I processCheckCluster d := by
  unfold processCheckCluster
  refine keep_bind (keep_checkState _ _) fun _ _ _ => ?_
  refine keep_bind (keep_checkNonEphemeral _) fun _ _ _ => ?_
  exact keep_modify (L.quiet (core_of rfl rfl rfl rfl rfl rfl))

theorem keep_processSystemMessage (L : Leaves S I) (a b : Nat) (p : Option Comm.Payload) (d : Driver σ ρ κ H) :
    Keep I (processSystemMessage S a b p) d := by
  unfold processSystemMessage
  refine keep_bind (keep_checkState _ _) fun _ _ _ => ?_
  refine keep_bind (keep_checkNonEphemeral _) fun d1 _ _ => ?_
  refine ⟨fun hi d' r h => ?_⟩
  rcases M.bind_ok h with ⟨e, h2, _⟩ | ⟨d2, up, h2, h⟩
  · exact (keep_commIn L (.data ⟨.system, a, b, p⟩) trivial).run hi _ _ h2
  have hi2 := (keep_commIn L (.data ⟨.system, a, b, p⟩) trivial).run hi _ _ h2
  obtain ⟨c, hc, rfl⟩ := callComm_eq h2
  split at h
  · exact (keep_pure).run hi2 _ _ h
  · rename_i snd rcp p
    unfold makeRaftStep at h
    cases hm : S.E.decRaft p.contents with
    | none => simp only [hm] at h; exact keep_pure.run hi2 _ _ h
    | some m =>
      simp only [hm] at h
      rcases M.bind_ok h with ⟨e, h3, _⟩ | ⟨d3, x3, h3, h⟩
      · obtain ⟨_, _, _, _, hb⟩ := callRaft_eq h3
        simp at hb
      · obtain ⟨r', z, hr, rfl, _⟩ := callRaft_eq h3
        exact keep_orFail.run (L.system hc hm hr hi) _ _ h
  · exact (keep_panic).run hi2 _ _ h
  · exact (keep_fail).run hi2 _ _ h

theorem keep_processSnapshotRequest (L : Leaves S I) (a b c : Nat) (p : Option Comm.Payload) (d : Driver σ ρ κ H) :
    Keep I (processSnapshotRequest S a b c p) d := by
  unfold processSnapshotRequest
  refine keep_bind (keep_checkNonEphemeral _) fun d1 _ h0 => ?_
  obtain ⟨rfl, he⟩ := checkNonEphemeral_eq h0
  refine ⟨fun hi d' r h => ?_⟩
  rcases M.bind_ok h with ⟨e, h2, _⟩ | ⟨d2, up, h2, h⟩
  · obtain ⟨c, hc, rfl⟩ := callComm_eq h2
    exact L.commIn (Or.inr (Or.inl (by intro m hm; cases hm))) hc hi
  obtain ⟨c, hc, rfl⟩ := callComm_eq h2
  split at h
  · exact (keep_pure).run (L.commIn (Or.inr (Or.inl (by intro m hm; cases hm))) hc hi) _ _ h
  · rcases M.bind_ok h with ⟨e, h3, _⟩ | ⟨d3, x3, h3, h⟩
    · obtain ⟨_, _, _, _, hb⟩ := callSnap_eq h3
      simp at hb
    · obtain ⟨p', b', hp, rfl, _⟩ := callSnap_eq h3
      refine (keep_commOut L _ (.response _)).run ?_ _ _ h
      simp only [Run.bind_eq_ok] at hp
      obtain ⟨s, hs, hp⟩ := hp
      split at hp
      · rename_i hf
        simp only [Run.bind_eq_ok, Run.ok.injEq, Prod.mk.injEq] at hp
        obtain ⟨_, _, rfl, _⟩ := hp
        refine L.commIn (Or.inr (Or.inr ?_)) hc hi
        unfold isSender at hs
        cases hr : d1.snap.role with
        | leader => rfl
        | unknown => simp [hr] at hs
        | follower => simp only [hr, Run.ok.injEq] at hs; exact absurd (hs.trans hf) (by simp)
      · rename_i hf
        simp only [Run.bind_eq_ok, Run.ok.injEq, Prod.mk.injEq] at hp
        obtain ⟨y, hy, rfl, _⟩ := hp
        refine L.chunk he ?_ hc hy hi
        unfold isSender at hs
        cases hr : d1.snap.role with
        | follower => rfl
        | unknown => simp [hr] at hs
        | leader => simp only [hr, Run.ok.injEq] at hs; exact absurd hs.symm hf
  · rename_i up hne
    refine (keep_fail).run (L.commIn (Or.inr (Or.inl ?_)) hc hi) _ _ h
    intro m hm
    simp only [Except.ok.injEq, Option.some.injEq] at hm
    subst hm
    cases up with
    | handshake => trivial
    | other => trivial
    | data x =>
      obtain ⟨k, rcp, snd, pl⟩ := x
      cases k <;> first | trivial | exact hne _ _ _ _ rfl

theorem keep_respond (L : Leaves S I) (snd did : Nat) (reply : Option Snap.Reply) (d : Driver σ ρ κ H) :
    Keep I (callSnap fun p => (isSender p).bind fun b =>
      if b then (p.sender.processResponse snd did reply).bind fun x => .ok ({ p with sender := x }, ())
      else .ok (p, ())) d := by
  refine keep_snap fun p b h hi => ?_
  simp only [Run.bind_eq_ok] at h
  obtain ⟨s, _, h⟩ := h
  split at h
  · simp only [Run.bind_eq_ok, Run.ok.injEq, Prod.mk.injEq] at h
    obtain ⟨_, hx, rfl, _⟩ := h
    exact L.sender (.response hx) hi
  · simp only [Run.ok.injEq, Prod.mk.injEq] at h
    rw [← h.1]; exact L.quiet (core_of rfl rfl rfl rfl rfl rfl) hi

theorem keep_processSnapshotResponse (L : Leaves S I) (a b c : Nat) (p : Option Comm.Payload) (d : Driver σ ρ κ H) :
    Keep I (processSnapshotResponse S a b c p) d := by
  unfold processSnapshotResponse
  refine keep_bind (keep_checkNonEphemeral _) fun d1 _ _ => ?_
  refine keep_bind (keep_commIn L _ trivial) fun d2 up _ => ?_
  split
  · exact keep_pure
  · exact keep_respond L _ _ _ _
  · exact keep_fail

theorem keep_processSnapshotFailure (L : Leaves S I) (a b : Nat) (d : Driver σ ρ κ H) : Keep I (processSnapshotFailure a b) d := by
  unfold processSnapshotFailure
  refine keep_bind (keep_checkNonEphemeral _) fun d1 _ _ => ?_
  exact keep_respond L _ _ _ _

theorem keep_processGetReplicaState (L : Leaves S I) (d : Driver σ ρ κ H) : Keep I (processGetReplicaState S) d := by
  unfold processGetReplicaState
  refine keep_bind (keep_checkState _ _) fun _ _ _ => ?_
  refine keep_get_bind ?_
  split
  · exact keep_stash L (by simp)
  · exact keep_bind keep_ask fun _ _ _ => keep_stash L (by simp)

theorem keep_processHandshake (L : Leaves S I) (a : Nat) (x : H) (d : Driver σ ρ κ H) : Keep I (processHandshake S a x) d := by
  unfold processHandshake
  refine keep_bind (keep_checkState _ _) fun _ _ _ => ?_
  exact keep_bind (keep_commIn L _ trivial) fun _ _ _ => keep_pure

theorem keep_processAppMessage (L : Leaves S I) (c : Option ActorCommand) (d : Driver σ ρ κ H) : Keep I (processAppMessage S c) d := by
  unfold processAppMessage
  refine keep_bind (keep_checkState _ _) fun _ _ _ => ?_
  refine keep_bind (keep_actor L fun _ _ => trivial) fun _ _ _ => ?_
  refine keep_bind keep_orFail fun _ _ _ => ?_
  refine keep_bind (keep_stashCommands L _ _) fun _ _ _ => ?_
  split
  · exact keep_pure
  · refine keep_get_bind ?_
    split
    · refine keep_bind (keep_actor L fun _ _ => trivial) fun _ _ _ => ?_
      refine keep_bind keep_orFail fun _ _ _ => keep_stashCommands L _ _
    · exact keep_modify (L.quiet (core_of rfl rfl rfl rfl rfl rfl))

theorem keep_proposeAll (L : Leaves S I) (bs : List Bytes) (d : Driver σ ρ κ H) : Keep I (proposeAll S bs) d := by
  induction bs generalizing d with
  | nil => exact keep_pure
  | cons b bs ih => exact keep_bind (keep_makeRaftProposal L _ _) fun _ _ _ => ih _

theorem keep_dispatch (L : Leaves S I) (m : InMsg H) (d : Driver σ ρ κ H) : Keep I (dispatch S m) d := by
  cases m <;> unfold dispatch
  · exact keep_bind (keep_processStart L _ _) fun _ _ _ => keep_pure
  · exact keep_bind (keep_processStop L _) fun _ _ _ => keep_pure
  · exact keep_bind (keep_modify (L.quiet (core_of rfl rfl rfl rfl rfl rfl))) fun _ _ _ => keep_pure
  · exact keep_bind (keep_processChangeCluster L _ _ _ _) fun _ _ _ => keep_pure
  · exact keep_bind (keep_processCheckCluster L _) fun _ _ _ => keep_pure
  · exact keep_bind (keep_processSystemMessage L _ _ _ _) fun _ _ _ => keep_pure
  · exact keep_bind (keep_processSnapshotRequest L _ _ _ _ _) fun _ _ _ => keep_pure
  · exact keep_bind (keep_processSnapshotResponse L _ _ _ _ _) fun _ _ _ => keep_pure
  · exact keep_bind (keep_processSnapshotFailure L _ _ _) fun _ _ _ => keep_pure
  · exact keep_bind (keep_processGetReplicaState L _) fun _ _ _ => keep_pure
  · exact keep_bind (keep_processHandshake L _ _ _) fun _ _ _ => keep_pure
  · exact keep_pure

theorem keep_runActor (L : Leaves S I) (c : Option ActorCommand) (d : Driver σ ρ κ H) : Keep I (runActor S c) d := by
  unfold runActor
  refine keep_get_bind ?_
  split
  · exact keep_bind (keep_processAppMessage L _ _) fun _ _ _ => keep_modify L.commTick
  · exact keep_pure

theorem keep_runRaft (L : Leaves S I) (d : Driver σ ρ κ H) : Keep I (runRaft S) d := by
  unfold runRaft
  refine keep_get_bind ?_
  split
  · exact keep_pure
  · refine keep_bind ?_ fun _ _ _ => ?_
    · unfold processProposals
      exact keep_get_bind (keep_modify_bind (L.quiet (core_of rfl rfl rfl rfl rfl rfl)) (keep_proposeAll L _ _))
    refine keep_bind (keep_processSnapshotProgress L _) fun _ _ _ => ?_
    refine keep_bind ?_ fun _ _ _ => keep_processSnapshotSending L _
    unfold processStateMachine
    refine keep_get_bind ?_
    split
    · refine keep_bind (keep_advanceRaft L _) fun _ _ _ => ?_
      exact keep_bind (keep_maybeCreateSnapshot L _) fun _ _ _ => keep_stashLeaderState L _
    · exact keep_pure

theorem keep_flush (L : Leaves S I) (d : Driver σ ρ κ H) : Keep I (flush S) d := by
  unfold flush
  refine keep_bind ⟨?_⟩ fun _ _ _ => ?_
  · intro hi d' r h
    simp only [stashComm, Run.bind_eq_ok, Run.ok.injEq, Prod.mk.injEq] at h
    obtain ⟨x, hx, h, _⟩ := h
    rw [← h]; exact L.take hx hi
  · refine keep_get_bind (keep_modify_bind (L.quiet (core_of rfl rfl rfl rfl rfl rfl)) keep_pure)

/-- Every call keeps the predicate. -/
theorem Leaves.receive (L : Leaves S I) (instant : Nat) (msg : Option (Option (InMsg H))) (d : Driver σ ρ κ H) :
    Keep I (receive S instant msg) d := by
  unfold Drv.receive
  refine keep_bind (keep_modify (L.quiet (core_of rfl rfl rfl rfl rfl rfl))) fun _ _ _ => ?_
  match msg with
  | some none => exact keep_pure
  | none =>
    refine keep_bind (keep_runActor L _ _) fun _ _ _ => ?_
    refine keep_bind (keep_runRaft L _) fun _ _ _ => ?_
    exact keep_bind (keep_flush L _) fun _ _ _ => keep_pure
  | some (some m) =>
    refine keep_bind (keep_dispatch L _ _) fun _ _ _ => ?_
    refine keep_bind (keep_runActor L _ _) fun _ _ _ => ?_
    refine keep_bind (keep_runRaft L _) fun _ _ _ => ?_
    exact keep_bind (keep_flush L _) fun _ _ _ => keep_pure

/-- And so does every run. -/
theorem Leaves.runs (L : Leaves S I) {d d' : Driver σ ρ κ H} {outs} (h : Runs S d outs d') (hi : I d) : I d' := by
  induction h with
  | nil => exact hi
  | snoc _ hs ih => exact (L.receive _ _ _).run ih _ _ hs

theorem Leaves.calls {I : Driver σ ρ κ H → Prop} (L : Leaves S I) {d d' : Driver σ ρ κ H} {rs} (h : DrvSpec.Calls S d rs d') (hi : I d) :
    I d' := by
  induction h with
  | nil => exact hi
  | snoc _ hs ih => exact (L.receive _ _ _).run ih _ _ hs

end TCP.Drv
