import Verif.Spec.Driver
import Verif.Lib.Codec

/-!
# A small concrete system for the driver

Used only to show that the hypotheses of the theorems in `Props/Driver` can be met, and for the counterexamples.  The actor concatenates
the contents of the events it applies; consensus has a single voter, so a proposal is committed by the next `Ready`, and hands out
the batches in `queue` first; the communication module delivers everything unchanged.
-/

namespace TCP.DrvExample

open TCP TCP.Drv TCP.DrvSpec

/-- Reference actor: a command with a payload proposes its payload; an owned event is answered with the whole state. -/
def actor : Actor Bytes where
  onInit _ s := .ok (s, .ok ())
  onShutdown _ s := .ok s
  onSaveSnapshot _ s := .ok (s, .ok s)
  onLoadSnapshot _ _ b := .ok (b, .ok ())
  onProcessCommand _ s c := .ok (s, .ok ⟨[], c.map fun c => ⟨c.correlationId, c.payload⟩⟩)
  onApplyEvent _ s ec ev := .ok (s ++ ev.contents, .ok ⟨if ec.owned then [⟨ev.correlationId, [], s ++ ev.contents⟩] else []⟩)

/-- A consensus layer with one voter. -/
structure Raft where
  on : Bool
  st : RaftState
  /-- index of the last entry -/
  last : Nat
  queue : List Ready
deriving Repr, DecidableEq

def noSnapshot : Snap.RaftSnapshot := ⟨⟨0, 0, ⟨[], [], []⟩⟩, []⟩

/-- A batch that delivers committed entries only. -/
def batch (es : List Entry) : Ready := ⟨[], [], [], es, none, noSnapshot, 1⟩

def raft : RaftT Raft where
  initialized r := r.on
  leader r := r.st.leaderId ≠ 0
  state r := .ok r.st
  init r _ _ _ leader _ := .ok ({ r with on := true, st := if leader then ⟨1, 1, [], false⟩ else .new, last := if leader then 1 else 0 }, .ok ())
  makeStep r _ := .ok (r, .ok ())
  makeProposal r b := .ok ({ r with last := r.last + 1, queue := r.queue ++ [batch [⟨r.last + 1, 1, .normal, b⟩]] }, .ok ())
  makeConfChange r c := .ok (r, if c.nodeId = 0 then .error .other else if r.st.leaderId = 0 then .error .proposalDropped else .ok ())
  makeTick r := .ok r
  applyConfChange r c := .ok (r, .ok ⟨if c.add then [1, c.nodeId] else [1], [], []⟩)
  hasReady r := .ok (!r.queue.isEmpty)
  getReady r := match r.queue with
    | [] => .panic
    | q :: qs => .ok ({ r with queue := qs }, q)
  advanceReady r _ := .ok (r, ⟨[], []⟩)
  advanceApply r := .ok r
  reportSnapshot r _ _ := .ok r
  setHardState r _ := .ok r
  appendEntries r _ := .ok (r, .ok ())
  applySnapshot r _ := .ok (r, .ok ())
  shouldSnapshot _ i _ := .ok (decide (i = 3))
  createSnapshot r _ _ _ := .ok (r, .ok ())
  latestSnapshotSize _ := .ok 7

/-- A communication module without encryption: outgoing messages are queued until taken. -/
def comm : CommT (List (Comm.OutMsg Nat)) Nat where
  init c _ _ _ _ _ _ := c
  processOut c m := .ok (c ++ [.data m.data], .ok ())
  processIn c m := .ok (c, .ok (some m))
  takeOut c := .ok ([], c)
  clusterChange c _ := c
  tick c := c

/-- Encoding of log entries. -/
def entryC : Codec LogEntry :=
  ((Codec.option (Codec.nat.pair Codec.nat)).pair Codec.bytes).map (fun x => ⟨x.1, x.2⟩) (fun e => (e.id, e.contents)) (fun _ => rfl)

def codecs : Codecs where
  encRaft m := [UInt8.ofNat m.to, UInt8.ofNat m.from_]
  decRaft b := match b with
    | [t, f] => some ⟨t.toNat, f.toNat, .other 0, none, []⟩
    | _ => none
  decConf b := match b with
    | [n, a] => some ⟨n.toNat, a = 1⟩
    | _ => none
  encEntry := entryC.enc
  decEntry := entryC.decode
  encContent _ := []
  decContent _ := none
  encAck _ := []
  decAck _ := none
  encMeta _ := []
  decMeta _ := none

def sys : Sys Bytes Raft (List (Comm.OutMsg Nat)) Nat := ⟨actor, raft, comm, codecs⟩

def config : RaftConfig := ⟨10, 5, 1, 100, some (5, 100, 3), 1⟩

/-- A start request. -/
def startReq (leader ephemeral : Bool) : StartReq := ⟨leader, 1, some config, [], ephemeral, some []⟩

def d0 : Driver Bytes Raft (List (Comm.OutMsg Nat)) Nat := .new [] ⟨false, .new, 0, []⟩ []

/-- Perform calls, keeping the messages sent to the host. -/
def calls : Driver Bytes Raft (List (Comm.OutMsg Nat)) Nat → List (Nat × Option (Option (InMsg Nat))) →
    Run (Driver Bytes Raft (List (Comm.OutMsg Nat)) Nat × List (Except PalErr (Option (List (OutMsg Nat)))))
  | d, [] => .ok (d, [])
  | d, (i, m) :: rest => (receive sys i m d).bind fun r => (calls r.1 rest).bind fun x => .ok (x.1, r.2 :: x.2)

theorem calls_sound {cs} {d e : Driver Bytes Raft (List (Comm.OutMsg Nat)) Nat} {rs rs'} (h : calls d cs = .ok (e, rs')) {b}
    (hb : Calls sys b rs d) : Calls sys b (rs ++ rs') e := by
  induction cs generalizing d rs rs' with
  | nil =>
    simp only [calls, Run.ok.injEq, Prod.mk.injEq] at h
    obtain ⟨rfl, rfl⟩ := h
    simpa using hb
  | cons c cs ih =>
    simp only [calls, Run.bind_eq_ok, Run.ok.injEq, Prod.mk.injEq] at h
    obtain ⟨r, hr, x, hx, rfl, rfl⟩ := h
    have := ih hx (hb.snoc hr)
    simpa [List.append_assoc] using this

/-- The calls do not panic and their results satisfy a predicate. -/
def check (b : Driver Bytes Raft (List (Comm.OutMsg Nat)) Nat) (cs : List (Nat × Option (Option (InMsg Nat))))
    (p : Driver Bytes Raft (List (Comm.OutMsg Nat)) Nat → List (Except PalErr (Option (List (OutMsg Nat)))) → Bool) : Bool :=
  match calls b cs with
  | .ok x => p x.1 x.2
  | .panic => false

theorem check_sound {b cs p} (h : check b cs p = true) : ∃ d rs, Calls sys b rs d ∧ p d rs = true := by
  unfold check at h
  split at h
  · rename_i x hx
    exact ⟨x.1, x.2, by simpa using calls_sound hx (.nil (d := b)), h⟩
  · cases h

/-- All calls returned `Ok`. -/
def allOk (rs : List (Except PalErr (Option (List (OutMsg Nat))))) : Bool := rs.all fun r => match r with | .ok _ => true | .error _ => false

theorem calls_runs {σ ρ κ H : Type} {S : Sys σ ρ κ H} {d d' : Driver σ ρ κ H} {rs} (h : Calls S d rs d')
    (hr : ∀ r ∈ rs, ∃ o, r = .ok o) : ∃ outs, rs = outs.map .ok ∧ Runs S d outs d' := by
  induction h with
  | nil => exact ⟨[], rfl, .nil⟩
  | @snoc _ d1 instant _ r _ _ hs ih =>
    obtain ⟨outs, rfl, ho⟩ := ih fun x hx => hr x (List.mem_append_left _ hx)
    obtain ⟨o, rfl⟩ := hr r (by simp)
    exact ⟨outs ++ [o], by simp, ho.snoc hs⟩

theorem check_runs {b cs} {p : Driver Bytes Raft (List (Comm.OutMsg Nat)) Nat → List (Except PalErr (Option (List (OutMsg Nat)))) → Bool}
    (h : check b cs (fun d rs => allOk rs && p d rs) = true) :
    ∃ d outs, Runs sys b outs d ∧ p d (outs.map .ok) = true := by
  obtain ⟨d, rs, hc, hp⟩ := check_sound h
  simp only [Bool.and_eq_true] at hp
  obtain ⟨outs, rfl, ho⟩ := calls_runs hc fun r hr => by
    have := List.all_eq_true.1 hp.1 r hr
    split at this
    · exact ⟨_, rfl⟩
    · cases this
  exact ⟨d, outs, ho, hp.2⟩

/-- An application message. -/
def app (corr : Nat) (payload : Bytes) : Option (Option (InMsg Nat)) := some (some (.appMessage ⟨corr, [], payload⟩))

/-- Start a leader. -/
def startLeader : Nat × Option (Option (InMsg Nat)) := (1, some (some (.startReplica (startReq true false))))

/-- Start a follower. -/
def startFollower : Nat × Option (Option (InMsg Nat)) := (1, some (some (.startReplica (startReq false false))))

/-- Start a replica without replication. -/
def startEphemeral : Nat × Option (Option (InMsg Nat)) := (1, some (some (.startReplica (startReq false true))))

/-- A call does not panic and its result satisfies a predicate. -/
def next (i : Nat) (m : Option (Option (InMsg Nat))) (d : Driver Bytes Raft (List (Comm.OutMsg Nat)) Nat)
    (p : Driver Bytes Raft (List (Comm.OutMsg Nat)) Nat → Except PalErr (Option (List (OutMsg Nat))) → Bool) : Bool :=
  match receive sys i m d with
  | .ok x => p x.1 x.2
  | .panic => false

theorem next_sound {i m d p} (h : next i m d p = true) : ∃ d' r, receive sys i m d = .ok (d', r) ∧ p d' r = true := by
  unfold next at h
  split at h
  · rename_i x hx
    exact ⟨x.1, x.2, hx, h⟩
  · cases h

end TCP.DrvExample
