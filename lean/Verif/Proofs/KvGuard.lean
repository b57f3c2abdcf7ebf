import Verif.Proofs.KvCalls

/-!
# Handlers that are only called with a property
-/

namespace TCP.Cache

open TCP TCP.TabletStore TCP.Cache.Spec

section
variable {α η ω : Type} {env : TxnEnv α η ω}

/-! ## Replacing the handlers by ones that do the same in the calls that are made -/

/-- The handlers of `f` do the same as those of `env` in this call. -/
def Follows (env : TxnEnv α η ω) (f : η → ω → Nat → List (Query × UInt32 × Option α) → Run (ω × List (Option α))) (x : Call α η ω) : Prop :=
  ∀ y, env.handle x.1 x.2.1 x.2.2.1 x.2.2.2 = .ok y → f x.1 x.2.1 x.2.2.1 x.2.2.2 = .ok y

variable {f : η → ω → Nat → List (Query × UInt32 × Option α) → Run (ω × List (Option α))}

theorem procStep_swap {i : Nat} {p : Proc α η} {w : World α ω} {r : Proc α η × World α ω} (h : p.step env i w = .ok r) (hf : ∀ x ∈ callOf i p w, Follows env f x) :
    p.step { env with handle := f } i w = .ok r := by
  rw [← h]
  unfold Proc.step at h ⊢
  cases hs : p.status with
  | loading id =>
    simp only [hs] at h ⊢
    cases hc : w.data.cells.loads.get id with
    | none => rfl
    | some o =>
      cases o with
      | none => rfl
      | some res =>
        simp only [hc] at h ⊢
        obtain ⟨ts, h1, h2⟩ := Run.bind_eq_ok.mp h
        obtain ⟨x, h3, h4⟩ := Run.bind_eq_ok.mp h2
        rw [h1, Run.bind_ok, Run.bind_ok, h3, hf (p.handler, w.shared, i, views ts) (by simp [callOf, hs, hc, h1]) x h3]
  | pending _ => rfl
  | resolving _ => rfl
  | storing o => cases o <;> rfl
  | completed => rfl
  | failed => rfl

theorem stepProcs_swap {i : Nat} : ∀ {ps : List (Proc α η)} {w : World α ω} {r : List (Proc α η) × World α ω}, stepProcs env i ps w = .ok r →
    (∀ x ∈ procCalls env i ps w, Follows env f x) →
    stepProcs { env with handle := f } i ps w = .ok r ∧ procCalls { env with handle := f } i ps w = procCalls env i ps w := by
  intro ps
  induction ps with
  | nil => intro w r h _; exact ⟨h, rfl⟩
  | cons p rest ih =>
    intro w r h hf
    simp only [stepProcs] at h
    obtain ⟨x, h1, h⟩ := Run.bind_eq_ok.mp h
    obtain ⟨y, h2, h3⟩ := Run.bind_eq_ok.mp h
    simp only [procCalls, h1, List.mem_append] at hf
    obtain ⟨k3, k4⟩ := ih h2 fun x hx => hf x (.inr hx)
    have k1 := procStep_swap h1 fun x hx => hf x (.inl hx)
    simp only [stepProcs, procCalls, k1, h1, k3, k4, Run.bind_ok]
    exact ⟨h3, trivial⟩

theorem stepTxns_swap : ∀ {ts : AMap Nat (TxnState α η)} {w : World α ω} {r : AMap Nat (TxnState α η) × World α ω}, stepTxns env ts w = .ok r →
    (∀ x ∈ txnCalls env ts w, Follows env f x) →
    stepTxns { env with handle := f } ts w = .ok r ∧ txnCalls { env with handle := f } ts w = txnCalls env ts w := by
  intro ts
  induction ts with
  | nil => intro w r h _; exact ⟨h, rfl⟩
  | cons e rest ih =>
    obtain ⟨i, s⟩ := e
    intro w r h hf
    cases s with
    | preparing ps =>
      simp only [stepTxns] at h
      obtain ⟨x, h1, h⟩ := Run.bind_eq_ok.mp h
      obtain ⟨y, h2, h3⟩ := Run.bind_eq_ok.mp h
      simp only [txnCalls, h1, List.mem_append] at hf
      obtain ⟨k1, k2⟩ := stepProcs_swap h1 fun x hx => hf x (.inl hx)
      obtain ⟨k3, k4⟩ := ih h2 fun x hx => hf x (.inr hx)
      simp only [stepTxns, txnCalls, k1, h1, k2, k3, k4, Run.bind_ok]
      exact ⟨h3, trivial⟩
    | committing _ =>
      simp only [stepTxns] at h
      obtain ⟨y, h2, h3⟩ := Run.bind_eq_ok.mp h
      obtain ⟨k3, k4⟩ := ih h2 (by simpa only [txnCalls] using hf)
      simp only [stepTxns, txnCalls, k3, k4, Run.bind_ok]
      exact ⟨h3, trivial⟩
    | completed _ =>
      simp only [stepTxns] at h
      obtain ⟨y, h2, h3⟩ := Run.bind_eq_ok.mp h
      obtain ⟨k3, k4⟩ := ih h2 (by simpa only [txnCalls] using hf)
      simp only [stepTxns, txnCalls, k3, k4, Run.bind_ok]
      exact ⟨h3, trivial⟩

theorem callOf_shared {i : Nat} {p : Proc α η} {w : World α ω} {x : Call α η ω} (hx : x ∈ callOf i p w) : x.2.1 = w.shared := by
  unfold callOf at hx
  repeat' split at hx
  all_goals simp only [List.mem_cons, List.not_mem_nil, or_false] at hx
  rw [hx]

/-- What comes before and after a call, in an order that the handlers respect. -/
theorem procStep_upper {Le : ω → ω → Prop} (hrefl : ∀ w, Le w w) (hk : ∀ x w i vs w' ws, env.handle x w i vs = .ok (w', ws) → Le w w') {i : Nat} {p : Proc α η} {w : World α ω}
    {r : Proc α η × World α ω} (h : p.step env i w = .ok r) :
    Le w.shared r.2.shared ∧ ∀ x ∈ callOf i p w, ∀ y, env.handle x.1 x.2.1 x.2.2.1 x.2.2.2 = .ok y → Le y.1 r.2.shared := by
  refine ⟨procStep_called (p' := r.1) (P := Le w.shared) h (fun x hx w' ws hP hh => ?_) (hrefl _), fun x hx y hy => ?_⟩
  · rw [← callOf_shared hx]; exact hk _ _ _ _ _ _ hh
  · unfold Proc.step at h
    cases hs : p.status with
    | loading id =>
      cases hc : w.data.cells.loads.get id with
      | none => simp [callOf, hs, hc] at hx
      | some o =>
        cases o with
        | none => simp [callOf, hs, hc] at hx
        | some res =>
          simp only [hs, hc] at h
          obtain ⟨ts, h1, h2⟩ := Run.bind_eq_ok.mp h
          obtain ⟨z, h3, h4⟩ := Run.bind_eq_ok.mp h2
          obtain ⟨u, h5, h6⟩ := Run.bind_eq_ok.mp h4
          simp only [callOf, hs, hc, h1, List.mem_cons, List.not_mem_nil, or_false] at hx
          subst hx
          dsimp only at hy
          rw [h3] at hy
          simp only [Run.ok.injEq] at hy h6
          rw [← h6, ← hy]
          exact hrefl _
    | pending _ => simp [callOf, hs] at hx
    | resolving _ => simp [callOf, hs] at hx
    | storing o => simp [callOf, hs] at hx
    | completed => simp [callOf, hs] at hx
    | failed => simp [callOf, hs] at hx

theorem stepProcs_upper {Le : ω → ω → Prop} (hrefl : ∀ w, Le w w) (htrans : ∀ a b c, Le a b → Le b c → Le a c)
    (hk : ∀ x w i vs w' ws, env.handle x w i vs = .ok (w', ws) → Le w w') {i : Nat} : ∀ {ps : List (Proc α η)} {w : World α ω} {r : List (Proc α η) × World α ω},
    stepProcs env i ps w = .ok r → Le w.shared r.2.shared ∧ ∀ x ∈ procCalls env i ps w, Le w.shared x.2.1 ∧ ∀ y, env.handle x.1 x.2.1 x.2.2.1 x.2.2.2 = .ok y → Le y.1 r.2.shared := by
  intro ps
  induction ps with
  | nil => intro w r h; simp only [stepProcs, Run.ok.injEq] at h; exact ⟨by rw [← h]; exact hrefl _, by simp [procCalls]⟩
  | cons p rest ih =>
    intro w r h
    simp only [stepProcs] at h
    obtain ⟨x, h1, h⟩ := Run.bind_eq_ok.mp h
    obtain ⟨y, h2, h3⟩ := Run.bind_eq_ok.mp h
    obtain ⟨k1, k2⟩ := procStep_upper hrefl hk h1
    obtain ⟨k3, k4⟩ := ih h2
    simp only [Run.ok.injEq] at h3
    rw [← h3]
    refine ⟨htrans _ _ _ k1 k3, fun x hx => ?_⟩
    simp only [procCalls, h1, List.mem_append] at hx
    rcases hx with hx | hx
    · exact ⟨by rw [callOf_shared hx]; exact hrefl _, fun z hz => htrans _ _ _ (k2 x hx z hz) k3⟩
    · exact ⟨htrans _ _ _ k1 (k4 x hx).1, (k4 x hx).2⟩

theorem stepTxns_upper {Le : ω → ω → Prop} (hrefl : ∀ w, Le w w) (htrans : ∀ a b c, Le a b → Le b c → Le a c)
    (hk : ∀ x w i vs w' ws, env.handle x w i vs = .ok (w', ws) → Le w w') : ∀ {ts : AMap Nat (TxnState α η)} {w : World α ω} {r : AMap Nat (TxnState α η) × World α ω},
    stepTxns env ts w = .ok r → Le w.shared r.2.shared ∧ ∀ x ∈ txnCalls env ts w, Le w.shared x.2.1 ∧ ∀ y, env.handle x.1 x.2.1 x.2.2.1 x.2.2.2 = .ok y → Le y.1 r.2.shared := by
  intro ts
  induction ts with
  | nil => intro w r h; simp only [stepTxns, Run.ok.injEq] at h; exact ⟨by rw [← h]; exact hrefl _, by simp [txnCalls]⟩
  | cons e rest ih =>
    obtain ⟨i, s⟩ := e
    intro w r h
    cases s with
    | preparing ps =>
      simp only [stepTxns] at h
      obtain ⟨x, h1, h⟩ := Run.bind_eq_ok.mp h
      obtain ⟨y, h2, h3⟩ := Run.bind_eq_ok.mp h
      obtain ⟨k1, k2⟩ := stepProcs_upper hrefl htrans hk h1
      obtain ⟨k3, k4⟩ := ih h2
      simp only [Run.ok.injEq] at h3
      rw [← h3]
      refine ⟨htrans _ _ _ k1 k3, fun x hx => ?_⟩
      simp only [txnCalls, h1, List.mem_append] at hx
      rcases hx with hx | hx
      · exact ⟨(k2 x hx).1, fun z hz => htrans _ _ _ ((k2 x hx).2 z hz) k3⟩
      · exact ⟨htrans _ _ _ k1 (k4 x hx).1, (k4 x hx).2⟩
    | committing _ =>
      simp only [stepTxns] at h
      obtain ⟨y, h2, h3⟩ := Run.bind_eq_ok.mp h
      obtain ⟨k3, k4⟩ := ih h2
      simp only [Run.ok.injEq] at h3
      rw [← h3]
      exact ⟨k3, by simpa only [txnCalls] using k4⟩
    | completed _ =>
      simp only [stepTxns] at h
      obtain ⟨y, h2, h3⟩ := Run.bind_eq_ok.mp h
      obtain ⟨k3, k4⟩ := ih h2
      simp only [Run.ok.injEq] at h3
      rw [← h3]
      exact ⟨k3, by simpa only [txnCalls] using k4⟩

section
variable [DecidableEq α] [DecidableEq η] [DecidableEq ω]

theorem makeProgress_swap {m m' : Manager α η ω} (h : m.makeProgress env = .ok m') (hf : ∀ x : Call α η ω, Calls env m m' x.1 x.2.1 x.2.2.1 x.2.2.2 → Follows env f x) :
    m.makeProgress { env with handle := f } = .ok m' ∧ ∀ x w i vs, Calls { env with handle := f } m m' x w i vs ↔ Calls env m m' x w i vs := by
  have h0 := h
  unfold Manager.makeProgress at h
  obtain ⟨md, h1, h⟩ := Run.bind_eq_ok.mp h
  obtain ⟨d, h2, h⟩ := Run.bind_eq_ok.mp h
  obtain ⟨y, h3, h⟩ := Run.bind_eq_ok.mp h
  have h3' : stepTxns env m.coord.txns { m.world with md := md, data := d } = .ok (y.1, y.2) := h3
  have hm : m' = { m with coord := { m.coord with txns := y.1 }, world := y.2 } := by simpa using h.symm
  subst hm
  have hi : ∀ x : Call α η ω, Calls env m { m with coord := { m.coord with txns := y.1 }, world := y.2 } x.1 x.2.1 x.2.2.1 x.2.2.2 ↔
      x ∈ txnCalls env m.coord.txns { m.world with md := md, data := d } := fun x => calls_iff h1 h2 h3' h0
  obtain ⟨k1, k2⟩ := stepTxns_swap h3' fun x hx => hf x ((hi x).mpr hx)
  have h2' : m.world.data.makeProgress ({ env with handle := f } : TxnEnv α η ω).evict = .ok d := h2
  have h0' : m.makeProgress { env with handle := f } = .ok { m with coord := { m.coord with txns := y.1 }, world := y.2 } := by
    unfold Manager.makeProgress
    rw [h1, Run.bind_ok, h2', Run.bind_ok, k1, Run.bind_ok]
  refine ⟨h0', fun x w i vs => ?_⟩
  have hj := calls_iff (h := x) (s := w) (i := i) (vs := vs) h1 h2' k1 h0'
  rw [k2] at hj
  exact hj.trans (hi (x, w, i, vs)).symm

theorem makeProgress_upper {Le : ω → ω → Prop} (hrefl : ∀ w, Le w w) (htrans : ∀ a b c, Le a b → Le b c → Le a c)
    (hk : ∀ x w i vs w' ws, env.handle x w i vs = .ok (w', ws) → Le w w') {m m' : Manager α η ω} (h : m.makeProgress env = .ok m') :
    Le m.world.shared m'.world.shared ∧ ∀ x w i vs, Calls env m m' x w i vs → Le m.world.shared w ∧ ∀ w' ws, env.handle x w i vs = .ok (w', ws) → Le w' m'.world.shared := by
  have h0 := h
  unfold Manager.makeProgress at h
  obtain ⟨md, h1, h⟩ := Run.bind_eq_ok.mp h
  obtain ⟨d, h2, h⟩ := Run.bind_eq_ok.mp h
  obtain ⟨y, h3, h⟩ := Run.bind_eq_ok.mp h
  have h3' : stepTxns env m.coord.txns { m.world with md := md, data := d } = .ok (y.1, y.2) := h3
  have hm : m' = { m with coord := { m.coord with txns := y.1 }, world := y.2 } := by simpa using h.symm
  subst hm
  obtain ⟨k1, k2⟩ := stepTxns_upper hrefl htrans hk h3'
  exact ⟨k1, fun x w i vs hc => have k3 := k2 (x, w, i, vs) ((calls_iff h1 h2 h3' h0).mp hc); ⟨k3.1, fun w' ws hh => k3.2 _ hh⟩⟩

/-- Steps in which the handlers do the same. -/
theorem mstep_swap {c c' : Client α η ω} {ev : MEvent η} (h : MStep env c ev c') (hf : ∀ x : Call α η ω, ev = .progress → Calls env c.m c'.m x.1 x.2.1 x.2.2.1 x.2.2.2 → Follows env f x) :
    MStep { env with handle := f } c ev c' := by
  cases h with
  | init h => exact .init h
  | start => exact .start
  | process h1 h2 => exact .process h1 h2
  | pending h1 h2 => exact .pending h1 h2
  | commit h1 h2 => exact .commit h1 h2
  | abort h => exact .abort h
  | check h1 h2 => exact .check h1 h2
  | resolve h => exact .resolve h
  | input h => exact .input h
  | progress h => exact .progress (makeProgress_swap h fun x hx => hf x rfl hx).1
  | take h => exact .take h
  | app => exact .app

end

/-! ## Guards -/

/-- A property of calls of handlers. -/
abbrev Guard (α η ω : Type) := η → ω → Nat → List (Query × UInt32 × Option α) → Prop

open Classical in
/-- As `env`, but handlers panic unless `G` holds. -/
noncomputable def guarded (G : Guard α η ω) (env : TxnEnv α η ω) : TxnEnv α η ω :=
  { env with handle := fun x w i vs => if G x w i vs then env.handle x w i vs else .panic }

variable {G G' : Guard α η ω}

theorem guarded_ok {x : η} {w : ω} {i : Nat} {vs : List (Query × UInt32 × Option α)} {y : ω × List (Option α)} (h : (guarded G env).handle x w i vs = .ok y) :
    G x w i vs ∧ env.handle x w i vs = .ok y := by
  unfold guarded at h
  dsimp only at h
  split at h
  · exact ⟨‹_›, h⟩
  · cases h

theorem guarded_follows {x : Call α η ω} (h : G x.1 x.2.1 x.2.2.1 x.2.2.2) : Follows env (guarded G env).handle x := by
  intro y hy
  simp [guarded, h, hy]

variable [DecidableEq α] [DecidableEq η] [DecidableEq ω]

theorem makeProgress_guard {m m' : Manager α η ω} (h : m.makeProgress env = .ok m') (hG : ∀ x w i vs, Calls env m m' x w i vs → G x w i vs) :
    m.makeProgress (guarded G env) = .ok m' :=
  (makeProgress_swap (f := (guarded G env).handle) h fun _ hx => guarded_follows (hG _ _ _ _ hx)).1

/-- Back. -/
theorem mstep_unguard {c c' : Client α η ω} {ev : MEvent η} (h : MStep (guarded G env) c ev c') : MStep env c ev c' :=
  mstep_swap (env := guarded G env) (f := env.handle) h fun _ _ _ _ hy => (guarded_ok hy).2

theorem msteps_unguard {c c' : Client α η ω} {evs : List (MEvent η)} (h : MSteps (guarded G env) c evs c') : MSteps env c evs c' := by
  induction h with
  | refl => exact .refl
  | step _ hs ih => exact .step ih (mstep_unguard hs)

theorem mhistory_unguard {c : Client α η ω} {evs : List (MEvent η)} (h : MHistory (guarded G env) evs c) : MHistory env evs c := by
  obtain ⟨co, md, d, w, h⟩ := h
  exact ⟨co, md, d, w, msteps_unguard h⟩

/-- A weaker guard. -/
theorem mhistory_guard_mono (hG : ∀ x w i vs, G x w i vs → G' x w i vs) {c : Client α η ω} {evs : List (MEvent η)} (h : MHistory (guarded G env) evs c) : MHistory (guarded G' env) evs c := by
  obtain ⟨co, md, d, w, h⟩ := h
  refine ⟨co, md, d, w, ?_⟩
  generalize (⟨Manager.create co md d w, [], []⟩ : Client α η ω) = c0 at h
  induction h with
  | refl => exact .refl
  | step _ hs ih =>
    refine .step ih (mstep_swap (env := guarded G env) (f := (guarded G' env).handle) hs fun x _ _ y hy => ?_)
    obtain ⟨h1, h2⟩ := guarded_ok hy
    exact guarded_follows (hG _ _ _ _ h1) y h2

/-- Other steps do not depend on handlers. -/
theorem msteps_guard {c c' : Client α η ω} {evs : List (MEvent η)} (h : MSteps env c evs c') : .progress ∉ evs → MSteps (guarded G env) c evs c' := by
  induction h with
  | refl => intro _; exact .refl
  | step _ hs ih =>
    intro hn
    exact .step (ih fun h => hn (by simp [h])) (mstep_swap (f := (guarded G env).handle) hs fun x hp => absurd hp fun h => hn (by simp [h]))

theorem calls_unguard {m m' : Manager α η ω} {x : η} {w : ω} {i : Nat} {vs : List (Query × UInt32 × Option α)} (h : Calls (guarded G env) m m' x w i vs) : Calls env m m' x w i vs :=
  ((makeProgress_swap (env := guarded G env) (f := env.handle) h.1 fun _ _ _ hy => (guarded_ok hy).2).2 x w i vs).mpr h

theorem calledIn_unguard {evs : List (MEvent η)} {c : Client α η ω} {x : η} {w : ω} {i : Nat} {vs : List (Query × UInt32 × Option α)} (h : CalledIn (guarded G env) evs c x w i vs) :
    CalledIn env evs c x w i vs := by
  obtain ⟨a, b, c1, m, h1, h2, h3, h4⟩ := h
  exact ⟨a, b, c1, m, h1, mhistory_unguard h2, calls_unguard h3, msteps_unguard h4⟩

end

end TCP.Cache
