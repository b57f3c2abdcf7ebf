import Verif.Spec.Replica
import Verif.Props.DriverExample
import Verif.Props.Comm

/-!
# A small concrete replica

Used only to show that the hypotheses of the theorems in `Props/Replica` can be met.  The actor is the one of `Props/DriverExample`, the
handshake and the encryption are those of `Props/Comm` (a handshake is complete after one message, encryption reverses the bytes), the
store is the model of the real one.  Consensus answers every message: it wants an empty entry and its vote stored and a message sent
back.  A replica that starts from the initial snapshot leads until it gets a message that is not for replica 1.
-/

namespace TCP.RepExample

open TCP TCP.Drv TCP.DrvSpec TCP.Replica TCP.Replica.Spec

structure Nd where
  store : Storage.Store
  lead : Bool
  number : Nat
  queue : List Ready
deriving Repr, DecidableEq

/-- What consensus wants after a message. -/
def answer (n : Nd) (m : RaftMsg) : Ready :=
  ⟨[], [⟨m.from_, m.to, .other 0, none, []⟩], [⟨Storage.lastIndex n.store + 1, 1, .normal, []⟩], [], some ⟨1, m.from_, 0⟩,
   DrvExample.noSnapshot, n.number⟩

def node : NodeT Nd Nat where
  new _ _ s := .ok (.ok ⟨s, decide (s.snap.index = 1), 1, []⟩)
  store n := n.store
  setStore n s := { n with store := s }
  isLeader n := n.lead
  leaderId n := if n.lead then 1 else 0
  term _ := 1
  hasPendingConf _ := false
  step n m := .ok ({ n with queue := n.queue ++ [answer n m], number := n.number + 1, lead := n.lead && decide (m.to = 1) }, .ok ())
  propose n _ := .ok (n, .ok ())
  proposeConf n _ := .ok (n, .ok ())
  tick n := .ok n
  applyConf n _ := .ok (n, .ok ⟨[1], [], []⟩)
  hasReady n := .ok (!n.queue.isEmpty)
  ready n := match n.queue with
    | [] => .panic
    | q :: qs => .ok ({ n with queue := qs }, q.number, q)
  advance n _ := .ok (n, ⟨[], []⟩)
  advanceApply n := .ok n
  reportSnapshot n _ _ := .ok n

theorem node_contract : NodeContract node where
  store_set _ _ := rfl
  new h := by simp only [node, Run.ok.injEq, Except.ok.injEq] at h; subst h; exact .refl
  step h := by simp only [node, Run.ok.injEq, Prod.mk.injEq] at h; obtain ⟨rfl, _⟩ := h; exact .refl
  propose h := by simp only [node, Run.ok.injEq, Prod.mk.injEq] at h; obtain ⟨rfl, _⟩ := h; exact .refl
  proposeConf h := by simp only [node, Run.ok.injEq, Prod.mk.injEq] at h; obtain ⟨rfl, _⟩ := h; exact .refl
  tick h := by simp only [node, Run.ok.injEq] at h; subst h; exact .refl
  applyConf h := by simp only [node, Run.ok.injEq, Prod.mk.injEq] at h; obtain ⟨rfl, _⟩ := h; exact .refl
  ready {n n' y r} h := by
    simp only [node] at h
    split at h
    · simp at h
    · simp only [Run.ok.injEq, Prod.mk.injEq] at h
      obtain ⟨rfl, _⟩ := h
      exact .refl
  advance h := by simp only [node, Run.ok.injEq, Prod.mk.injEq] at h; obtain ⟨rfl, _⟩ := h; exact .refl
  advanceApply h := by simp only [node, Run.ok.injEq] at h; subst h; exact .refl
  reportSnapshot h := by simp only [node, Run.ok.injEq] at h; subst h; exact .refl

theorem leader_contract : LeaderContract node where
  reportLeader h := by simp only [node, Run.ok.injEq] at h; subst h; rfl
  reportId h := by simp only [node, Run.ok.injEq] at h; subst h; rfl
  reportTerm _ := rfl
  reportConf _ := rfl
  known {n} h := by simp only [node] at h ⊢; rw [h]; simp

/-- Every peer gets the same session; a hash map is iterated in the order of the list. -/
def env : Env Unit Nat Nat Nat where
  provide _ _ _ _ := ((), some 0)
  order _ rs := rs
  order_perm _ rs := .refl rs

abbrev Rep := Driver Bytes (Simple Nd Nat) (Channels Unit Nat Nat Nat) Nat

def rep : Sys Bytes (Simple Nd Nat) (Channels Unit Nat Nat Nat) Nat := sys DrvExample.actor node Comm.exOps env DrvExample.codecs

def start : Rep := Replica.fresh [] ()

/-- Perform calls, keeping the answers. -/
def calls : Rep → List (Option (Option (InMsg Nat))) → Run (Rep × List (Except PalErr (Option (List (OutMsg Nat)))))
  | d, [] => .ok (d, [])
  | d, m :: rest => (receive rep 1 m d).bind fun r => (calls r.1 rest).bind fun x => .ok (x.1, r.2 :: x.2)

theorem calls_sound {cs} {d e : Rep} {rs rs'} (h : calls d cs = .ok (e, rs')) {b : Rep} (hb : Calls rep b rs d) : Calls rep b (rs ++ rs') e := by
  induction cs generalizing d rs rs' with
  | nil =>
    simp only [calls, Run.ok.injEq, Prod.mk.injEq] at h
    obtain ⟨rfl, rfl⟩ := h
    simpa using hb
  | cons c cs ih =>
    simp only [calls, Run.bind_eq_ok, Run.ok.injEq, Prod.mk.injEq] at h
    obtain ⟨r, hr, x, hx, rfl, rfl⟩ := h
    have := ih hx (hb.snoc hr)
    simpa [List.append_assoc] using this

/-- The calls do not panic, return `Ok`, and satisfy a predicate. -/
def check (cs : List (Option (Option (InMsg Nat)))) (p : Rep → List (Except PalErr (Option (List (OutMsg Nat)))) → Bool) : Bool :=
  match calls start cs with
  | .ok x => DrvExample.allOk x.2 && p x.1 x.2
  | .panic => false

theorem check_sound {cs p} (h : check cs p = true) :
    ∃ (d : Rep) (outs : List (Option (List (OutMsg Nat)))), Calls rep start (outs.map .ok) d ∧ Runs rep start outs d ∧ p d (outs.map .ok) = true := by
  unfold check at h
  split at h
  · rename_i x hx
    simp only [Bool.and_eq_true] at h
    have hc : Calls rep start x.2 x.1 := by simpa using calls_sound hx (.nil (d := start))
    obtain ⟨outs, ho, hr⟩ := DrvExample.calls_runs hc fun r hr => by
      have := List.all_eq_true.1 h.1 r hr
      split at this
      · exact ⟨_, rfl⟩
      · cases this
    exact ⟨x.1, outs, ho ▸ hc, hr, ho ▸ h.2⟩
  · cases h

/-- Start replica 1. -/
def startMsg (leader : Bool) : Option (Option (InMsg Nat)) := some (some (.startReplica (DrvExample.startReq leader false)))

/-- A handshake message of replica 2. -/
def greet : Option (Option (InMsg Nat)) := some (some (.handshake 2 7))

/-- An encrypted message of replica 2 for replica 1, which says it is for `to` and from `from_`. -/
def message (to from_ : UInt8) : Option (Option (InMsg Nat)) := some (some (.systemMessage 1 2 (some ⟨[from_, to], []⟩)))

/-- A request for a report. -/
def ask : Option (Option (InMsg Nat)) := some (some .checkCluster)

end TCP.RepExample
