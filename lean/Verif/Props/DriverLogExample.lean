import Verif.Props.DriverExample
import Verif.Proofs.DriverLog

/-!
# A cluster of two replicas of the small concrete system

Shows that the hypotheses of `Props/DriverLog` can be met.
-/

namespace TCP.DrvExample

open TCP TCP.Drv TCP.DrvSpec

abbrev Drv := Driver Bytes Raft (List (Comm.OutMsg Nat)) Nat

theorem entryC_lawful (x : LogEntry) : codecs.decEntry (codecs.encEntry x) = some x := Codec.decode_enc entryC x

/-- The replicated part of the toy actor's state is all of it. -/
theorem actor_deterministic : Deterministic actor id fun v _ ev => v ++ ev.contents where
  apply h := by simp only [actor, Run.ok.injEq, Prod.mk.injEq] at h; exact h.1.symm
  command h := by simp only [actor, Run.ok.injEq, Prod.mk.injEq] at h; exact h.1.symm
  save h := by simp only [actor, Run.ok.injEq, Prod.mk.injEq] at h; exact h.1.symm
  shutdown h := by simp only [actor, Run.ok.injEq] at h; exact h.symm
  load h g := by
    simp only [actor, Run.ok.injEq, Prod.mk.injEq, Except.ok.injEq, and_true] at h g
    exact g.symm.trans h.2.symm

theorem actor_answers : Answers actor where
  command h := by
    simp only [actor, Run.ok.injEq, Prod.mk.injEq, Except.ok.injEq] at h
    rw [← h.2]; simp
  event {ctx s c s' o ev} h g := by
    simp only [actor, Run.ok.injEq, Prod.mk.injEq, Except.ok.injEq] at h
    rw [← h.2] at g
    cases c with
    | none => cases g
    | some c => simp only [Option.map_some, Option.some.injEq] at g; exact ⟨c, rfl, by rw [← g]⟩
  apply {ctx s ec ev s' o} h := by
    simp only [actor, Run.ok.injEq, Prod.mk.injEq, Except.ok.injEq] at h
    rw [← h.2]
    cases hw : ec.owned
    · simp
    · simp

/-- The log: index 1 is the founding snapshot, and replica 1 proposed entries 2 to 4. -/
def log (i : Nat) : Entry :=
  match i with
  | 2 => ⟨2, 1, .normal, codecs.encEntry ⟨some (1, 7), [10]⟩⟩
  | 3 => ⟨3, 1, .normal, codecs.encEntry ⟨some (1, 8), [20, 21]⟩⟩
  | 4 => ⟨4, 1, .normal, codecs.encEntry ⟨some (1, 9), [30]⟩⟩
  | i => ⟨i, 1, .normal, []⟩

theorem log_index (i : Nat) : (log i).index = i := by
  unfold log
  split <;> rfl

/-- Checks `Advances`. -/
def follows : List (Ev Nat) → Nat × Nat → Option (Nat × Nat)
  | [], x => some x
  | e :: t, x => match e with
    | .raftInit _ _ true (.ok _) => if x.2 ≤ 1 then follows t (1, 1) else none
    | .ready r =>
      if r.committed = segment log (loadIndex r.snapshot x.2) r.committed.length ∧ x.2 ≤ loadIndex r.snapshot x.2 then
        follows t (if r.snapshot.metadata.index = 0 then x.1 else r.snapshot.metadata.index, loadIndex r.snapshot x.2 + r.committed.length)
      else none
    | .light l => if l.committed = segment log x.2 l.committed.length then follows t (x.1, x.2 + l.committed.length) else none
    | _ => follows t x

theorem follows_sound {t : List (Ev Nat)} {x y : Nat × Nat} (h : follows t x = some y) : Trail (Advances log) t x y := by
  induction t generalizing x with
  | nil => simp only [follows, Option.some.injEq] at h; exact h
  | cons e t ih =>
    cases e with
    | ready r =>
      simp only [follows] at h
      split at h
      · rename_i hc
        exact ⟨_, ⟨⟨r.committed.length, by rw [← hc.1], rfl⟩, hc.2⟩, ih h⟩
      · cases h
    | light l =>
      simp only [follows] at h
      split at h
      · rename_i hc
        exact ⟨_, ⟨⟨l.committed.length, by rw [← hc], rfl⟩, Nat.le_add_right _ _⟩, ih h⟩
      · cases h
    | raftInit id b l r =>
      cases l <;> cases r
      · exact ⟨x, ⟨rfl, Nat.le_refl _⟩, ih h⟩
      · exact ⟨x, ⟨rfl, Nat.le_refl _⟩, ih h⟩
      · exact ⟨x, ⟨rfl, Nat.le_refl _⟩, ih h⟩
      · simp only [follows] at h
        split at h
        · rename_i hc
          exact ⟨(1, 1), ⟨rfl, hc⟩, ih h⟩
        · cases h
    | _ => exact ⟨x, ⟨rfl, Nat.le_refl _⟩, ih h⟩

theorem follows_only {t : List (Ev Nat)} {x y : Nat × Nat} (h : Trail (Advances log) t x y) : Trail (Follows log) t x y := by
  induction t generalizing x with
  | nil => exact h
  | cons e t ih =>
    obtain ⟨z, h1, h2⟩ := h
    exact ⟨z, h1.1, ih h2⟩

/-- The batches among interactions. -/
def ready? : Ev Nat → Option Ready
  | .ready r => some r
  | _ => none

/-- The snapshots a replica created. -/
def created? : Ev Nat → Option (Nat × Bytes)
  | .storeCreate i _ b => some (i, b)
  | .raftInit _ b true (.ok _) => some (1, b)
  | _ => none

theorem created_sound {t : List (Ev Nat)} {i : Nat} {b : Bytes} (h : (i, b) ∈ t.filterMap created?) :
    (∃ c, .storeCreate i c b ∈ t) ∨ (i = 1 ∧ ∃ id, .raftInit id b true (.ok ()) ∈ t) := by
  obtain ⟨e, hm, he⟩ := List.mem_filterMap.1 h
  match e, hm, he with
  | .storeCreate j c b', hm, he => cases he; exact .inl ⟨c, hm⟩
  | .raftInit _ b' true (.ok ()), hm, he => cases he; exact .inr ⟨rfl, _, hm⟩

/-- Two replicas; the others are never started. -/
def pair (ab : Drv × Drv) (p : Nat) : Drv := if p = 0 then ab.1 else if p = 1 then ab.2 else d0

def setPair (ab : Drv × Drv) (second : Bool) (d : Drv) : Drv × Drv := if second then (ab.1, d) else (d, ab.2)

theorem update_pair (ab : Drv × Drv) (second : Bool) (d : Drv) : update (pair ab) (if second then 1 else 0) d = pair (setPair ab second d) := by
  funext q
  cases second <;> simp only [update, pair, setPair] <;> (by_cases h0 : q = 0 <;> by_cases h1 : q = 1 <;> simp_all)

/-- Does a call meet the conditions of `Cluster.call`, with replica 0 as the founder? -/
def callOk (ab : Drv × Drv) (second : Bool) (d : Drv) (r : Except PalErr (Option (List (OutMsg Nat)))) : Bool :=
  (match r with | .ok _ => true | .error _ => false) && !d.ephemeral && (follows d.trace (0, 0)).isSome &&
    (d.trace.flatMap delivered).all (fun e => decide (2 ≤ e.index)) &&
    (d.trace.filterMap ready?).all (fun r => decide (r.snapshot.metadata.index = 0 ∨ r ∈ (pair ab (if second then 1 else 0)).trace.filterMap ready? ∨
      (r.snapshot.metadata.index, r.snapshot.data) ∈ ab.1.trace.filterMap created?)) &&
    (!second || (d.trace.filterMap created?).all fun x => x.1 != 1)

/-- Run two replicas. -/
def cluster : Drv × Drv → List (Bool × Nat × Option (Option (InMsg Nat))) → Option (Drv × Drv)
  | ab, [] => some ab
  | ab, (second, i, m) :: rest => match receive sys i m (pair ab (if second then 1 else 0)) with
    | .ok x => if callOk ab second x.1 x.2 then cluster (setPair ab second x.1) rest else none
    | .panic => none

theorem cluster_sound {cs} {ab ab' : Drv × Drv} (h : cluster ab cs = some ab') (hc : Cluster sys log 0 (pair ab)) : Cluster sys log 0 (pair ab') := by
  induction cs generalizing ab with
  | nil => cases h; exact hc
  | cons c cs ih =>
    obtain ⟨second, i, m⟩ := c
    simp only [cluster] at h
    rcases hx : receive sys i m (pair ab (if second then 1 else 0)) with ⟨d, r⟩ | _ <;> rw [hx] at h
    · simp only [] at h
      split at h
      · rename_i hok
        refine ih h ?_
        rw [← update_pair]
        simp only [callOk, Bool.and_eq_true] at hok
        obtain ⟨⟨⟨⟨⟨h1, h2⟩, h3⟩, h4⟩, h5⟩, h6⟩ := hok
        match r, h1 with
        | .ok out, _ =>
          refine hc.call hx (by simpa using h2) ?_ ?_ ?_ ?_
          · obtain ⟨y, hy⟩ := Option.isSome_iff_exists.1 h3
            exact ⟨y, follows_only (follows_sound hy)⟩
          · intro e he
            exact of_decide_eq_true (List.all_eq_true.1 h4 e he)
          · intro r hr hz
            have := of_decide_eq_true (List.all_eq_true.1 h5 r (List.mem_filterMap.2 ⟨_, hr, rfl⟩))
            rcases this with h | h | h
            · exact absurd h hz
            · left
              obtain ⟨e, hm, he⟩ := List.mem_filterMap.1 h
              match e, hm, he with
              | .ready r', hm, he => cases he; exact hm
            · exact .inr ⟨0, created_sound h⟩
          · intro id b hb
            cases second with
            | false => rfl
            | true =>
              have := List.all_eq_true.1 (by simpa using h6) (1, b) (List.mem_filterMap.2 ⟨_, hb, rfl⟩)
              simp at this
      · cases h
    · cases h

/-- The second replica gets the snapshot of index 3 and then entry 4 from consensus. -/
def follower : Drv :=
  .new [] ⟨false, .new, 0, [⟨[], [], [], [], none, ⟨⟨3, 1, ⟨[1], [], []⟩⟩, [10, 20, 21]⟩, 1⟩, batch [log 4]]⟩ []

def script : List (Bool × Nat × Option (Option (InMsg Nat))) :=
  [(false, startLeader), (false, 2, app 7 [10]), (false, 3, app 8 [20, 21]), (false, 4, app 9 [30]),
   (true, 1, some (some (.startReplica { startReq false false with idHint := 2 }))), (true, 2, some (some .checkCluster)), (true, 3, none), (true, 4, none)]

end TCP.DrvExample
