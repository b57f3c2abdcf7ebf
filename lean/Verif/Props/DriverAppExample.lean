import Verif.Props.DriverLogExample
import Verif.Spec.DriverApp

/-!
# A cluster of two replicas of any application

Like `Props/DriverLogExample`, with the application and the log as parameters; shows that the hypotheses about clusters with an application
can be met.
-/

namespace TCP.AppExample

open TCP TCP.Drv TCP.DrvSpec TCP.DrvExample

variable {σ : Type}

abbrev AppDrv (σ : Type) := Driver σ Raft (List (Comm.OutMsg Nat)) Nat

/-- The application with the toy consensus layer and the toy communication module. -/
def appSys (A : Actor σ) : Sys σ Raft (List (Comm.OutMsg Nat)) Nat := ⟨A, raft, comm, codecs⟩

/-- The log with the given entries from index 2 on: who proposed it, the correlation id and the contents. -/
def logOf (es : List LogEntry) (i : Nat) : Entry :=
  match i with
  | i + 2 => ⟨i + 2, 1, .normal, match es[i]? with | some e => codecs.encEntry e | none => []⟩
  | i => ⟨i, 1, .normal, []⟩

theorem logOf_index (es : List LogEntry) (i : Nat) : (logOf es i).index = i := by
  unfold logOf
  split <;> rfl

/-- Checks `Advances`. -/
def advances (log : Nat → Entry) : List (Ev Nat) → Nat × Nat → Option (Nat × Nat)
  | [], x => some x
  | e :: t, x => match e with
    | .raftInit _ _ true (.ok _) => if x.2 ≤ 1 then advances log t (1, 1) else none
    | .ready r =>
      if r.committed = segment log (loadIndex r.snapshot x.2) r.committed.length ∧ x.2 ≤ loadIndex r.snapshot x.2 then
        advances log t (if r.snapshot.metadata.index = 0 then x.1 else r.snapshot.metadata.index, loadIndex r.snapshot x.2 + r.committed.length)
      else none
    | .light l => if l.committed = segment log x.2 l.committed.length then advances log t (x.1, x.2 + l.committed.length) else none
    | _ => advances log t x

theorem advances_sound {log : Nat → Entry} {t : List (Ev Nat)} {x y : Nat × Nat} (h : advances log t x = some y) : Trail (Advances log) t x y := by
  induction t generalizing x with
  | nil => simp only [advances, Option.some.injEq] at h; exact h
  | cons e t ih =>
    cases e with
    | ready r =>
      simp only [advances] at h
      split at h
      · rename_i hc
        exact ⟨_, ⟨⟨r.committed.length, by rw [← hc.1], rfl⟩, hc.2⟩, ih h⟩
      · cases h
    | light l =>
      simp only [advances] at h
      split at h
      · rename_i hc
        exact ⟨_, ⟨⟨l.committed.length, by rw [← hc], rfl⟩, Nat.le_add_right _ _⟩, ih h⟩
      · cases h
    | raftInit id b l r =>
      cases l <;> cases r
      · exact ⟨x, ⟨rfl, Nat.le_refl _⟩, ih h⟩
      · exact ⟨x, ⟨rfl, Nat.le_refl _⟩, ih h⟩
      · exact ⟨x, ⟨rfl, Nat.le_refl _⟩, ih h⟩
      · simp only [advances] at h
        split at h
        · rename_i hc
          exact ⟨(1, 1), ⟨rfl, hc⟩, ih h⟩
        · cases h
    | _ => exact ⟨x, ⟨rfl, Nat.le_refl _⟩, ih h⟩

/-- Two replicas; the others are never started. -/
def two (d : AppDrv σ) (ab : AppDrv σ × AppDrv σ) (p : Nat) : AppDrv σ := if p = 0 then ab.1 else if p = 1 then ab.2 else d

def setTwo (ab : AppDrv σ × AppDrv σ) (second : Bool) (d : AppDrv σ) : AppDrv σ × AppDrv σ := if second then (ab.1, d) else (d, ab.2)

theorem update_two (d0 : AppDrv σ) (ab : AppDrv σ × AppDrv σ) (second : Bool) (d : AppDrv σ) :
    update (two d0 ab) (if second then 1 else 0) d = two d0 (setTwo ab second d) := by
  funext q
  cases second <;> simp only [update, two, setTwo] <;> (by_cases h0 : q = 0 <;> by_cases h1 : q = 1 <;> simp_all)

/-- The configurations an actor was initialised with. -/
def configs (t : List (Ev Nat)) : List Bytes := t.filterMap fun e => match e with | .actorInit ctx _ => some ctx.config | _ => none

/-- Does a call meet the conditions of `Deployed.call`, with replica 0 as the founder? -/
def stepOk (log : Nat → Entry) (cfg : Bytes) (d0 : AppDrv σ) (ab : AppDrv σ × AppDrv σ) (second : Bool) (d : AppDrv σ)
    (r : Except PalErr (Option (List (OutMsg Nat)))) : Bool :=
  (match r with | .ok _ => true | .error _ => false) && !d.ephemeral && (advances log d.trace (0, 0)).isSome &&
    (d.trace.flatMap delivered).all (fun e => decide (2 ≤ e.index)) &&
    (d.trace.filterMap ready?).all (fun r => decide (r.snapshot.metadata.index = 0 ∨
      r ∈ (two d0 ab (if second then 1 else 0)).trace.filterMap ready? ∨
      (r.snapshot.metadata.index, r.snapshot.data) ∈ ab.1.trace.filterMap created?)) &&
    (!second || (d.trace.filterMap created?).all fun x => x.1 != 1) && (configs d.trace).all (· == cfg)

/-- Run two replicas. -/
def deploy (A : Actor σ) (log : Nat → Entry) (cfg : Bytes) (d0 : AppDrv σ) :
    AppDrv σ × AppDrv σ → List (Bool × Nat × Option (Option (InMsg Nat))) → Option (AppDrv σ × AppDrv σ)
  | ab, [] => some ab
  | ab, (second, i, m) :: rest => match receive (appSys A) i m (two d0 ab (if second then 1 else 0)) with
    | .ok x => if stepOk log cfg d0 ab second x.1 x.2 then deploy A log cfg d0 (setTwo ab second x.1) rest else none
    | .panic => none

theorem deploy_sound {A : Actor σ} {log : Nat → Entry} {cfg : Bytes} {fresh : σ → Prop} {d0 : AppDrv σ} {cs} {ab ab' : AppDrv σ × AppDrv σ}
    (h : deploy A log cfg d0 ab cs = some ab') (hc : Deployed (appSys A) log 0 fresh cfg (two d0 ab)) :
    Deployed (appSys A) log 0 fresh cfg (two d0 ab') := by
  induction cs generalizing ab with
  | nil => cases h; exact hc
  | cons c cs ih =>
    obtain ⟨second, i, m⟩ := c
    simp only [deploy] at h
    rcases hx : receive (appSys A) i m (two d0 ab (if second then 1 else 0)) with ⟨d, r⟩ | _ <;> rw [hx] at h
    · simp only [] at h
      split at h
      · rename_i hok
        refine ih h ?_
        rw [← update_two]
        simp only [stepOk, Bool.and_eq_true] at hok
        obtain ⟨⟨⟨⟨⟨⟨h1, h2⟩, h3⟩, h4⟩, h5⟩, h6⟩, h7⟩ := hok
        match r, h1 with
        | .ok out, _ =>
          refine hc.call hx (by simpa using h2) ?_ ?_ ?_ ?_ ?_
          · obtain ⟨y, hy⟩ := Option.isSome_iff_exists.1 h3
            exact ⟨y, advances_sound hy⟩
          · intro e he
            exact of_decide_eq_true (List.all_eq_true.1 h4 e he)
          · intro r hr hz
            have := of_decide_eq_true (List.all_eq_true.1 h5 r (List.mem_filterMap.2 ⟨_, hr, rfl⟩))
            rcases this with h | h | h
            · exact absurd h hz
            · left
              obtain ⟨e, hm, he⟩ := List.mem_filterMap.1 h
              match e, hm, he with
              | .ready r', hm, he => cases he; exact hm
            · exact .inr ⟨0, created_sound h⟩
          · intro id b hb
            cases second with
            | false => rfl
            | true =>
              have := List.all_eq_true.1 (by simpa using h6) (1, b) (List.mem_filterMap.2 ⟨_, hb, rfl⟩)
              simp at this
          · intro ctx res hm
            have := List.all_eq_true.1 h7 ctx.config (List.mem_filterMap.2 ⟨_, hm, rfl⟩)
            simpa using this
      · cases h
    · cases h

/-- A replica that was not started; consensus will hand it some batches. -/
def idle (a : σ) (queue : List Ready) : AppDrv σ := .new a ⟨false, .new, 0, queue⟩ []

/-- The batch with a snapshot of index 3. -/
def snapBatch (data : Bytes) : Ready := ⟨[], [], [], [], none, ⟨⟨3, 1, ⟨[1], [], []⟩⟩, data⟩, 1⟩

/-- Start a replica. -/
def start (leader : Bool) (id : Nat) (cfg : Bytes) : Option (Option (InMsg Nat)) := some (some (.startReplica ⟨leader, id, some config, cfg, false, some []⟩))

/-- An application message with a header. -/
def request (corr : Nat) (header payload : Bytes) : Option (Option (InMsg Nat)) := some (some (.appMessage ⟨corr, header, payload⟩))

/-- The founder handles three requests, which become entries 2 to 4, and saves a snapshot at index 3; the other replica installs that
snapshot and then applies entry 4. -/
def scenario (cfg : Bytes) (rs : List (Nat × Bytes × Bytes)) : List (Bool × Nat × Option (Option (InMsg Nat))) :=
  (false, 1, start true 1 cfg) :: rs.map (fun r => (false, 2, request r.1 r.2.1 r.2.2)) ++
    [(true, 1, start false 2 cfg), (true, 2, some (some .checkCluster)), (true, 3, none), (true, 4, none)]

/-- The scenario ends in states that satisfy a predicate. -/
def outcome (A : Actor σ) (a0 : σ) (cfg : Bytes) (es : List LogEntry) (snap : Bytes) (rs : List (Nat × Bytes × Bytes))
    (p : AppDrv σ → AppDrv σ → Bool) : Bool :=
  match deploy A (logOf es) cfg (idle a0 []) (idle a0 [], idle a0 [snapBatch snap, batch [logOf es 4]]) (scenario cfg rs) with
  | some x => p x.1 x.2
  | none => false

theorem outcome_sound {A : Actor σ} {a0 : σ} {cfg : Bytes} {es : List LogEntry} {snap : Bytes} {rs : List (Nat × Bytes × Bytes)}
    {p : AppDrv σ → AppDrv σ → Bool} {fresh : σ → Prop} (hf : fresh a0) (h : outcome A a0 cfg es snap rs p = true) :
    ∃ ds, Deployed (appSys A) (logOf es) 0 fresh cfg ds ∧ p (ds 0) (ds 1) = true := by
  unfold outcome at h
  split at h
  · rename_i x hx
    refine ⟨_, deploy_sound hx (.init fun p => ?_), h⟩
    unfold two
    split
    · exact ⟨_, _, _, hf, rfl⟩
    · split
      · exact ⟨_, _, _, hf, rfl⟩
      · exact ⟨_, _, _, hf, rfl⟩
  · cases h

/-- Both replicas reached index 4, and the messages of the first one to clients. -/
def reached (answers : List ActorCommand) (a b : AppDrv σ) : Bool :=
  decide (a.applied = 4 ∧ b.applied = 4 ∧ a.id = 1 ∧ b.id = 2 ∧ a.state ≠ .created ∧ b.state ≠ .created ∧
    applyIndices (observed b.trace) = [4] ∧ appMessages (outMessages a.trace) = answers)

/-- The founder has handled the requests but the last, whose correlation id is `c`. -/
def before (es : List LogEntry) (c : Nat) (a b : AppDrv σ) : Bool :=
  decide (a.applied = 3 ∧ b.applied = 0 ∧ b.trace.length = 0 ∧ a.id = 1 ∧ (a.trace.filterMap handed).all (fun x => x.correlationId != c) = true ∧
    a.trace.filterMap proposal = [(logOf es 2).data, (logOf es 3).data])

/-- The scenario at two moments: before the last request, and at the end. -/
def moments (A : Actor σ) (a0 : σ) (cfg : Bytes) (es : List LogEntry) (snap : Bytes) (r1 r2 r3 : Nat × Bytes × Bytes)
    (p : AppDrv σ → AppDrv σ → Bool) : Bool :=
  match deploy A (logOf es) cfg (idle a0 []) (idle a0 [], idle a0 [snapBatch snap, batch [logOf es 4]])
      ((false, 1, start true 1 cfg) :: [r1, r2].map (fun r => (false, 2, request r.1 r.2.1 r.2.2))) with
  | some x => before es r3.1 x.1 x.2 && match deploy A (logOf es) cfg (idle a0 []) x
      [(false, 2, request r3.1 r3.2.1 r3.2.2), (true, 1, start false 2 cfg), (true, 2, some (some .checkCluster)), (true, 3, none), (true, 4, none)] with
    | some y => p y.1 y.2
    | none => false
  | none => false

theorem moments_sound {A : Actor σ} {a0 : σ} {cfg : Bytes} {es : List LogEntry} {snap : Bytes} {r1 r2 r3 : Nat × Bytes × Bytes}
    {p : AppDrv σ → AppDrv σ → Bool} {fresh : σ → Prop} (hf : fresh a0) (h : moments A a0 cfg es snap r1 r2 r3 p = true) :
    ∃ ds ds', Deployed (appSys A) (logOf es) 0 fresh cfg ds ∧ Causal codecs.decEntry (logOf es) ds ∧ (ds 0).applied = 3 ∧
      Deployed (appSys A) (logOf es) 0 fresh cfg ds' ∧ p (ds' 0) (ds' 1) = true ∧
      ∀ q, ∀ c ∈ (ds q).trace.filterMap handed, c.correlationId ≠ r3.1 := by
  unfold moments at h
  split at h
  · rename_i x hx
    simp only [Bool.and_eq_true] at h
    obtain ⟨h0, h⟩ := h
    split at h
    · rename_i y hy
      obtain ⟨h1, h2, h3, h4, h5, h6⟩ := of_decide_eq_true h0
      have hd : Deployed (appSys A) (logOf es) 0 fresh cfg (two (idle a0 []) x) := deploy_sound hx (.init fun p => by
        unfold two
        split
        · exact ⟨_, _, _, hf, rfl⟩
        · split <;> exact ⟨_, _, _, hf, rfl⟩)
      have hother : ∀ q, q ≠ 0 → (two (idle a0 []) x q).applied = 0 ∧ (two (idle a0 []) x q).trace = [] := by
        intro q hq
        simp only [two, if_neg hq]
        split
        · exact ⟨h2, List.length_eq_zero_iff.1 h3⟩
        · exact ⟨rfl, rfl⟩
      refine ⟨_, _, hd, ?_, h1, deploy_sound hy hd, h, ?_⟩
      · intro p i ev hi hle hev
        by_cases hp : p = 0
        · subst hp
          have hle : i ≤ 3 := h1 ▸ hle
          have hm : (logOf es i).data ∈ x.1.trace.filterMap proposal := by
            rw [h6]
            have : i = 2 ∨ i = 3 := by omega
            rcases this with rfl | rfl <;> simp
          obtain ⟨e, he, hb⟩ := List.mem_filterMap.1 hm
          match e, he, hb with
          | .propose b, he, hb => cases hb; exact ⟨0, he⟩
        · rw [(hother p hp).1] at hle
          omega
      · intro q c hc
        by_cases hp : q = 0
        · subst hp
          have := List.all_eq_true.1 h5 c hc
          simpa using this
        · rw [(hother q hp).2] at hc
          simp at hc
    · cases h
  · cases h

end TCP.AppExample
