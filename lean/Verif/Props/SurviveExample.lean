import Verif.Proofs.SurviveApps
import Verif.Props.ReplicaExample

/-!
# A small concrete replica for C95

Used only to show that the hypotheses of the theorems in `Props/Survive` can be met.  The application is the counter.  Consensus has one voter:
what is proposed is committed by the next `Ready`.  It refuses messages of replica 9, and drops the proposals of a replica that
does not lead or was removed.
-/

namespace TCP.SurvExample

open TCP TCP.Drv TCP.Replica TCP.Survive

def raft : RaftT DrvExample.Raft := { DrvExample.raft with
  leader := fun r => decide (r.st.leaderId = 1)
  makeStep := fun r m => .ok (r, if m.from_ = 9 then .error .other else .ok ())
  makeProposal := fun r b => if r.last = 0 then .ok (r, .error .proposalDropped) else
    .ok ({ r with last := r.last + 1, queue := r.queue ++ [DrvExample.batch [⟨r.last + 1, 1, .normal, b⟩]] }, .ok ())
  makeConfChange := fun r c => if r.last = 0 then .ok (r, .error .proposalDropped) else
    .ok ({ r with last := r.last + 1, queue := r.queue ++ [DrvExample.batch [⟨r.last + 1, 1, .confChange, [UInt8.ofNat c.nodeId, if c.add then 1 else 0]⟩]] }, .ok ())
  applyConfChange := fun r c => .ok (if c.nodeId = 1 ∧ c.add = false then { r with last := 0 } else r, .ok ⟨if c.add then [1, c.nodeId] else [1], [], []⟩) }

abbrev codecs := DrvExample.codecs

/-- The replica itself is not removed. -/
def Other (c : ConfChange) : Prop := ¬ (c.nodeId % 256 = 1 ∧ c.add = false)

def Good {σ : Type} (T : Terms σ DrvExample.Raft) (y : Ready) : Prop :=
  y.messages = [] ∧ y.persisted = [] ∧ y.snapshot = DrvExample.noSnapshot ∧ (∀ e ∈ y.committed, Readable codecs { T with change := Other } e) ∧ Ordered y.committed

/-- Everything that will be handed out can be read, a leader was not removed, and messages do not come from replica 9. -/
def close {σ : Type} (T : Terms σ DrvExample.Raft) : Terms σ DrvExample.Raft :=
  { T with
    raftConfig := fun _ => True
    raft := fun _ _ _ r => (∀ y ∈ r.queue, Good T y) ∧ (r.st.leaderId = 1 → r.last ≠ 0)
    message := fun _ m => m.from_ ≠ 9
    snapshot := fun _ => True
    change := Other }

/-- No promises. -/
def free (σ : Type) : Terms σ DrvExample.Raft :=
  ⟨fun _ => True, fun _ => True, fun _ => True, fun _ => True, fun _ => True, fun _ => True, fun _ _ _ _ => True, fun _ _ => True, fun _ => True, fun _ => True⟩

def r0 : DrvExample.Raft := ⟨false, .new, 0, []⟩

theorem consensus_safe {σ : Type} (T : Terms σ DrvExample.Raft) : ConsensusSafe raft codecs (close T) r0 where
  init {id cfg b leader n} _ _ := ⟨_, rfl, fun y hy => (by cases hy), by cases leader <;> simp [DrvExample.raft, RaftState.new]⟩
  state _ := ⟨_, rfl⟩
  step {_ _ r m} h hm := ⟨r, by simp only [raft]; rw [if_neg (show ¬ m.from_ = 9 from hm)], h⟩
  deliver {_ _ r me snd s} h _ := ⟨r, _, rfl, h⟩
  propose {_ _ r id c b} h hl hb := by
    have hlead : r.st.leaderId = 1 := by simpa [raft] using hl
    have hn : r.last ≠ 0 := h.2 hlead
    refine ⟨_, by simp only [raft]; rw [if_neg hn], fun y hy => ?_, fun _ => by simp⟩
    simp only [List.mem_append, List.mem_singleton] at hy
    rcases hy with hy | rfl
    · exact h.1 y hy
    · refine ⟨rfl, rfl, rfl, fun e he => ?_, List.pairwise_singleton ..⟩
      simp only [DrvExample.batch, List.mem_singleton] at he
      subst he
      exact Or.inr (Or.inr ⟨by simp, (id, c), b, Codec.decode_enc DrvExample.entryC _, hb⟩)
  change {_ _ r c} h hc := by
    by_cases hn : r.last = 0
    · exact ⟨r, _, by simp only [raft]; rw [if_pos hn], by simp, h⟩
    · refine ⟨_, _, by simp only [raft]; rw [if_neg hn], by simp, fun y hy => ?_, fun _ => by simp⟩
      simp only [List.mem_append, List.mem_singleton] at hy
      rcases hy with hy | rfl
      · exact h.1 y hy
      · refine ⟨rfl, rfl, rfl, fun e he => ?_, List.pairwise_singleton ..⟩
        simp only [DrvExample.batch, List.mem_singleton] at he
        subst he
        refine Or.inr (Or.inl ⟨rfl, _, rfl, ?_⟩)
        change ¬ ((UInt8.ofNat c.nodeId).toNat % 256 = 1 ∧ decide ((if c.add then (1 : UInt8) else 0) = 1) = false)
        rintro ⟨h1, h2⟩
        refine hc ⟨by simpa using h1, ?_⟩
        cases ha : c.add <;> simp_all
  tick h := ⟨_, rfl, h⟩
  report h := ⟨_, rfl, h⟩
  size _ := ⟨_, rfl⟩
  should _ := ⟨_, rfl⟩
  create h _ _ := ⟨_, rfl, h⟩
  has _ := ⟨_, rfl⟩
  fetch {_ _ r} h hr := by
    cases hq : r.queue with
    | nil => simp [raft, DrvExample.raft, hq] at hr
    | cons y ys =>
      obtain ⟨h1, h2, h3, h4, h5⟩ := h.1 y (by rw [hq]; exact .head _)
      refine ⟨{ r with queue := ys }, y, by simp [raft, DrvExample.raft, hq], ⟨fun z hz => h.1 z (by rw [hq]; exact .tail _ hz), h.2⟩, ?_, ?_, h4, h5, ?_⟩
      · rw [h1]; intro m hm; cases hm
      · rw [h2]; intro m hm; cases hm
      · rw [h3]; intro hi; exact absurd rfl hi
  hardState h _ := ⟨_, rfl, h⟩
  noHardState h _ := h
  snapshot h _ := ⟨_, rfl, h⟩
  noSnapshot h _ := h
  append h _ := ⟨_, rfl, h⟩
  noEntries h _ := h
  advance h := ⟨_, _, rfl, h, fun m hm => (by cases hm), fun e he => (by cases he), .nil⟩
  done h := ⟨_, rfl, h⟩
  applied h _ _ := h
  applyChange {_ _ r _ _ c _} h _ _ _ _ hc := by
    have : ¬ (c.nodeId = 1 ∧ c.add = false) := fun ⟨h1, h2⟩ => hc ⟨by rw [h1], h2⟩
    exact ⟨r, _, by simp only [raft]; rw [if_neg this], h⟩

theorem channels_safe : ChannelsSafe Comm.exOps RepExample.env where
  provide _ _ _ _ := rfl
  completed _ _ := rfl
  encrypt _ _ := ⟨_, rfl⟩

abbrev Rep (σ : Type) := Driver σ DrvExample.Raft (Channels Unit Nat Nat Nat) Nat

def sysOf {σ : Type} (A : Actor σ) (E : Codecs) : Sys σ DrvExample.Raft (Channels Unit Nat Nat Nat) Nat := replica A raft Comm.exOps RepExample.env E

def new {σ : Type} (a : σ) : Rep σ := .new a r0 (Channels.new ())

def startReq (leader ephemeral : Bool) : StartReq := ⟨leader, 1, some DrvExample.config, [0], ephemeral, some []⟩

def start (leader ephemeral : Bool) : Option (Option (InMsg Nat)) := some (some (.startReplica (startReq leader ephemeral)))

/-- Perform calls, keeping what was sent. -/
def runAll {σ : Type} (Sy : Sys σ DrvExample.Raft (Channels Unit Nat Nat Nat) Nat) : Rep σ → List (Option (Option (InMsg Nat))) → Run (Rep σ × List (OutMsg Nat))
  | d, [] => .ok (d, [])
  | d, m :: rest => (serve Sy 1 m d).bind fun r => (runAll Sy r.1 rest).bind fun x => .ok (x.1, r.2 ++ x.2)

/-- The calls succeed and their results satisfy a predicate. -/
def check {σ : Type} (Sy : Sys σ DrvExample.Raft (Channels Unit Nat Nat Nat) Nat) (d : Rep σ) (cs : List (Option (Option (InMsg Nat))))
    (p : Rep σ → List (OutMsg Nat) → Bool) : Bool :=
  match runAll Sy d cs with
  | .ok x => p x.1 x.2
  | .panic => false

theorem check_sound {σ : Type} {Sy : Sys σ DrvExample.Raft (Channels Unit Nat Nat Nat) Nat} {d : Rep σ} {cs p} (h : check Sy d cs p = true) :
    ∃ d' out, runAll Sy d cs = .ok (d', out) ∧ p d' out = true := by
  unfold check at h
  split at h
  · rename_i x hx
    exact ⟨x.1, x.2, hx, h⟩
  · cases h

/-- The call ends the process. -/
def fails {σ : Type} (Sy : Sys σ DrvExample.Raft (Channels Unit Nat Nat Nat) Nat) (m : Option (Option (InMsg Nat))) (d : Rep σ) : Bool :=
  match serve Sy 1 m d with
  | .ok _ => false
  | .panic => true

theorem kept_runAll {σ : Type} {Sy : Sys σ DrvExample.Raft (Channels Unit Nat Nat Nat) Nat} {T : Terms σ DrvExample.Raft} {d0 d d' : Rep σ} {cs out}
    (h : Kept Sy T d0 d) (hc : ∀ m ∈ cs, m = none ∨ ∃ c, m = some (some (.appMessage c)) ∧ T.command (some c)) (hr : runAll Sy d cs = .ok (d', out)) : Kept Sy T d0 d' := by
  induction cs generalizing d out with
  | nil => simp only [runAll, Run.ok.injEq, Prod.mk.injEq] at hr; exact hr.1 ▸ h
  | cons m cs ih =>
    simp only [runAll, Run.bind_eq_ok, Run.ok.injEq, Prod.mk.injEq] at hr
    obtain ⟨r, h1, x, h2, rfl, _⟩ := hr
    refine ih (h.call (msg := m) ?_ h1) (fun m hm => hc m (.tail _ hm)) h2
    rcases hc m (.head _) with rfl | ⟨c, rfl, h3⟩
    · trivial
    · exact h3

/-- A command to the counter: swap it from 0 to 5. -/
def swap : ActorCommand := ⟨7, 1 :: Counter.Spec.exMsgs.encReq ⟨"a", some ⟨0, 5⟩, [], []⟩, []⟩

def app (c : ActorCommand) : Option (Option (InMsg Nat)) := some (some (.appMessage c))

/-- The terms of the counter. -/
def counter : Terms Counter.State DrvExample.Raft := close (counterTerms Counter.Spec.exMsgs (free _))

abbrev counterSys := sysOf (Counter.actor Counter.Spec.exMsgs) codecs

theorem good_start : GoodStart counter (startReq true false) where
  id := by decide
  ephemeral := rfl
  endorsements := rfl
  config := show (Counter.Spec.exMsgs.decConfig [0]).isSome = true by decide +kernel
  raftConfig := trivial
  chunkSize c s hc hs := by cases hc; cases hs; decide

end TCP.SurvExample
