import Verif.Spec.Removed
import Verif.Props.ReplicaExample

/-!
# A small concrete replica whose cluster grows and shrinks

Used only to show that the hypotheses of the theorems in `Props/Removed` can be met, and where the property fails.  Actor, encodings,
handshake and encryption are those of `Props/ReplicaExample`.  Consensus learns from a message that a change of the membership was
committed: from 3 that replica 2 was added, from 4 that it was removed, and from 5 that replica 2 was added and needs a snapshot and then that
it was removed.
-/

namespace TCP.RemovedExample

open TCP TCP.Drv TCP.DrvSpec TCP.Replica TCP.Replica.Spec

structure Nd where
  store : Storage.Store
  lead : Bool
  queue : List (List RaftMsg × Bool)
deriving Repr, DecidableEq

/-- A message with a snapshot for replica 2. -/
def offer : RaftMsg := ⟨2, 1, .snapshot, some ⟨⟨1, 1, ⟨[1, 2], [], []⟩⟩, [7, 8]⟩, []⟩

/-- What consensus wants: messages sent, and replica 2 added or removed. -/
def change (s : Storage.Store) (ms : List RaftMsg) (add : Bool) : Ready :=
  let e : Drv.Entry := ⟨Storage.lastIndex s + 1, 1, .confChange, [2, if add then 1 else 0]⟩
  ⟨ms, [], [e], [e], none, DrvExample.noSnapshot, 1⟩

def node : NodeT Nd Nat where
  new _ _ s := .ok (.ok ⟨s, decide (s.snap.index = 1), []⟩)
  store n := n.store
  setStore n s := { n with store := s }
  isLeader n := n.lead
  leaderId n := if n.lead then 1 else 0
  term _ := 1
  hasPendingConf _ := false
  step n m := .ok ({ n with queue := n.queue ++
    if m.from_ = 3 then [([], true)] else if m.from_ = 4 then [([], false)] else if m.from_ = 5 then [([offer], true), ([], false)] else [] }, .ok ())
  propose n _ := .ok (n, .ok ())
  proposeConf n _ := .ok (n, .ok ())
  tick n := .ok n
  applyConf n c := .ok (n, .ok ⟨if c.add then [1, 2] else [1], [], []⟩)
  hasReady n := .ok (!n.queue.isEmpty)
  ready n := match n.queue with
    | [] => .panic
    | q :: qs => .ok ({ n with queue := qs }, 1, change n.store q.1 q.2)
  advance n _ := .ok (n, ⟨[], []⟩)
  advanceApply n := .ok n
  reportSnapshot n _ _ := .ok n

theorem leader_contract : LeaderContract node where
  reportLeader h := by simp only [node, Run.ok.injEq] at h; subst h; rfl
  reportId h := by simp only [node, Run.ok.injEq] at h; subst h; rfl
  reportTerm _ := rfl
  reportConf _ := rfl
  known {n} h := by simp only [node] at h ⊢; rw [h]; simp

/-- Acknowledgements are for the first transfer. -/
def codecs : Codecs := { DrvExample.codecs with decAck := fun | [c] => some ⟨1, c.toNat, .accepted⟩ | _ => none }

abbrev Rep := Driver Bytes (Simple Nd Nat) (Channels Unit Nat Nat Nat) Nat

def rep : Sys Bytes (Simple Nd Nat) (Channels Unit Nat Nat Nat) Nat := sys DrvExample.actor node Comm.exOps RepExample.env codecs

def start : Rep := Replica.fresh [] ()

/-- Perform calls, keeping the answers. -/
def calls : Rep → List (Option (Option (InMsg Nat))) → Run (Rep × List (Except PalErr (Option (List (OutMsg Nat)))))
  | d, [] => .ok (d, [])
  | d, m :: rest => (receive rep 1 m d).bind fun r => (calls r.1 rest).bind fun x => .ok (x.1, r.2 :: x.2)

theorem calls_sound {cs} {d e : Rep} {rs rs'} (h : calls d cs = .ok (e, rs')) {b : Rep} (hb : Calls rep b rs d) : Calls rep b (rs ++ rs') e := by
  induction cs generalizing d rs rs' with
  | nil =>
    simp only [calls, Run.ok.injEq, Prod.mk.injEq] at h
    obtain ⟨rfl, rfl⟩ := h
    simpa using hb
  | cons c cs ih =>
    simp only [calls, Run.bind_eq_ok, Run.ok.injEq, Prod.mk.injEq] at h
    obtain ⟨r, hr, x, hx, rfl, rfl⟩ := h
    have := ih hx (hb.snoc hr)
    simpa [List.append_assoc] using this

/-- The calls do not panic and return `Ok`, so does one more call, which answers, and the three states and the answer satisfy a predicate. -/
def check (cs : List (Option (Option (InMsg Nat)))) (m : Option (InMsg Nat)) (cs' : List (Option (Option (InMsg Nat))))
    (p : Rep → Rep → List (OutMsg Nat) → Rep → Bool) : Bool :=
  match calls start cs with
  | .ok x => DrvExample.allOk x.2 && match receive rep 1 (m.map some) x.1 with
    | .ok (d', .ok (some out)) => match calls d' cs' with
      | .ok y => p x.1 d' out y.1
      | .panic => false
    | _ => false
  | .panic => false

theorem check_sound {cs m cs' p} (h : check cs m cs' p = true) : ∃ (d : Rep) (outs : List (Option (List (OutMsg Nat)))) (d' : Rep) (out : List (OutMsg Nat))
    (e : Rep) (rs : List (Except PalErr (Option (List (OutMsg Nat))))), Runs rep start outs d ∧ receive rep 1 (m.map some) d = .ok (d', .ok (some out)) ∧
      Calls rep d' rs e ∧ p d d' out e = true := by
  unfold check at h
  split at h
  · rename_i x hx
    simp only [Bool.and_eq_true] at h
    obtain ⟨h1, h2⟩ := h
    have hc : Calls rep start x.2 x.1 := by simpa using calls_sound hx (.nil (d := start))
    obtain ⟨outs, ho, hr⟩ := DrvExample.calls_runs hc fun r hr => by
      have := List.all_eq_true.1 h1 r hr
      split at this
      · exact ⟨_, rfl⟩
      · cases this
    split at h2
    · rename_i d' out hd
      split at h2
      · rename_i y hy
        exact ⟨x.1, outs, d', out, y.1, y.2, hr, hd, by simpa using calls_sound hy (.nil (d := d')), h2⟩
      · cases h2
    · cases h2
  · cases h

/-- Start replica 1. -/
def startMsg (leader : Bool) : Option (Option (InMsg Nat)) :=
  some (some (.startReplica ⟨leader, 1, some ⟨10, 5, 1, 100, some (100, 1, 1), 1⟩, [], false, some []⟩))

/-- A handshake message of replica 2. -/
def greet : Option (Option (InMsg Nat)) := some (some (.handshake 2 7))

/-- An encrypted message of replica 2 for replica 1, which says it is from `from_`. -/
def message (from_ : UInt8) : InMsg Nat := .systemMessage 1 2 (some ⟨[from_, 1], []⟩)

/-- Replica 2 acknowledges the first message of the first transfer. -/
def ack : InMsg Nat := .snapshotResponse 1 2 1 (some ⟨[0], []⟩)

end TCP.RemovedExample
