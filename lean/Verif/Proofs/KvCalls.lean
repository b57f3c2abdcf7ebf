import Verif.Proofs.CacheTxn
import Verif.Proofs.CacheStore

/-!
# What handler calls preserve
-/

namespace TCP.Cache

open TCP TCP.TabletStore TCP.Cache.Spec

section
variable {α η ω : Type} {env : TxnEnv α η ω} {P : ω → Prop}

/-- A call keeps `P`. -/
def KeepsCall (env : TxnEnv α η ω) (P : ω → Prop) (x : Call α η ω) : Prop :=
  ∀ w' ws, P x.2.1 → env.handle x.1 x.2.1 x.2.2.1 x.2.2.2 = .ok (w', ws) → P w'

theorem procStep_called {i : Nat} {p p' : Proc α η} {w w' : World α ω} (h : p.step env i w = .ok (p', w')) (hP : ∀ x ∈ callOf i p w, KeepsCall env P x)
    (hw : P w.shared) : P w'.shared := by
  unfold Proc.step at h
  cases hs : p.status with
  | pending qs =>
    simp only [hs] at h
    obtain ⟨c, _, h2⟩ := Run.bind_eq_ok.mp h
    simp only [Run.ok.injEq, Prod.mk.injEq] at h2
    rw [← h2.2]; exact hw
  | resolving id =>
    simp only [hs] at h
    split at h
    · simp only [Run.ok.injEq, Prod.mk.injEq] at h; rw [← h.2]; exact hw
    · obtain ⟨c, _, h2⟩ := Run.bind_eq_ok.mp h
      simp only [Run.ok.injEq, Prod.mk.injEq] at h2
      rw [← h2.2]; exact hw
  | loading id =>
    simp only [hs] at h
    cases hc : w.data.cells.loads.get id with
    | none => simp only [hc, Run.ok.injEq, Prod.mk.injEq] at h; rw [← h.2]; exact hw
    | some o =>
      cases o with
      | none => simp only [hc, Run.ok.injEq, Prod.mk.injEq] at h; rw [← h.2]; exact hw
      | some res =>
        simp only [hc] at h
        obtain ⟨ts, h1, h2⟩ := Run.bind_eq_ok.mp h
        obtain ⟨⟨w1, ws⟩, h3, h4⟩ := Run.bind_eq_ok.mp h2
        obtain ⟨y, _, h6⟩ := Run.bind_eq_ok.mp h4
        simp only [Run.ok.injEq, Prod.mk.injEq] at h6
        rw [← h6.2]
        exact hP (p.handler, w.shared, i, views ts) (by simp [callOf, hs, hc, h1]) _ _ hw h3
  | storing o =>
    cases o with
    | none => simp only [hs, Run.ok.injEq, Prod.mk.injEq] at h; rw [← h.2]; exact hw
    | some id =>
      simp only [hs] at h
      split at h <;> (simp only [Run.ok.injEq, Prod.mk.injEq] at h; rw [← h.2]; exact hw)
  | completed => simp only [hs, Run.ok.injEq, Prod.mk.injEq] at h; rw [← h.2]; exact hw
  | failed => simp only [hs, Run.ok.injEq, Prod.mk.injEq] at h; rw [← h.2]; exact hw

theorem stepProcs_called {i : Nat} : ∀ {ps ps' : List (Proc α η)} {w w' : World α ω}, stepProcs env i ps w = .ok (ps', w') →
    (∀ x ∈ procCalls env i ps w, KeepsCall env P x) → P w.shared → P w'.shared := by
  intro ps
  induction ps with
  | nil => intro ps' w w' h _ hw; simp only [stepProcs, Run.ok.injEq, Prod.mk.injEq] at h; rw [← h.2]; exact hw
  | cons p rest ih =>
    intro ps' w w' h hP hw
    simp only [stepProcs] at h
    obtain ⟨⟨p1, w1⟩, h1, h2⟩ := Run.bind_eq_ok.mp h
    obtain ⟨⟨ps2, w2⟩, h3, h4⟩ := Run.bind_eq_ok.mp h2
    simp only [Run.ok.injEq, Prod.mk.injEq] at h4
    rw [← h4.2]
    simp only [procCalls, h1, List.mem_append] at hP
    exact ih h3 (fun x hx => hP x (.inr hx)) (procStep_called h1 (fun x hx => hP x (.inl hx)) hw)

theorem stepTxns_called : ∀ {ts ts' : AMap Nat (TxnState α η)} {w w' : World α ω}, stepTxns env ts w = .ok (ts', w') →
    (∀ x ∈ txnCalls env ts w, KeepsCall env P x) → P w.shared → P w'.shared := by
  intro ts
  induction ts with
  | nil => intro ps' w w' h _ hw; simp only [stepTxns, Run.ok.injEq, Prod.mk.injEq] at h; rw [← h.2]; exact hw
  | cons e rest ih =>
    obtain ⟨i, s⟩ := e
    intro ps' w w' h hP hw
    cases s with
    | preparing ps =>
      simp only [stepTxns] at h
      obtain ⟨⟨p1, w1⟩, h1, h2⟩ := Run.bind_eq_ok.mp h
      obtain ⟨⟨ps2, w2⟩, h3, h4⟩ := Run.bind_eq_ok.mp h2
      simp only [Run.ok.injEq, Prod.mk.injEq] at h4
      rw [← h4.2]
      simp only [txnCalls, h1, List.mem_append] at hP
      exact ih h3 (fun x hx => hP x (.inr hx)) (stepProcs_called h1 (fun x hx => hP x (.inl hx)) hw)
    | committing ops =>
      simp only [stepTxns] at h
      obtain ⟨⟨ps2, w2⟩, h3, h4⟩ := Run.bind_eq_ok.mp h
      simp only [Run.ok.injEq, Prod.mk.injEq] at h4
      rw [← h4.2]
      exact ih h3 (by simpa only [txnCalls] using hP) hw
    | completed o =>
      simp only [stepTxns] at h
      obtain ⟨⟨ps2, w2⟩, h3, h4⟩ := Run.bind_eq_ok.mp h
      simp only [Run.ok.injEq, Prod.mk.injEq] at h4
      rw [← h4.2]
      exact ih h3 (by simpa only [txnCalls] using hP) hw

variable [DecidableEq α] [DecidableEq η] [DecidableEq ω]

/-- What the handlers that are called preserve is preserved when the manager makes progress. -/
theorem makeProgress_called {m m' : Manager α η ω} (h : m.makeProgress env = .ok m')
    (hP : ∀ x w i vs w' ws, Calls env m m' x w i vs → P w → env.handle x w i vs = .ok (w', ws) → P w') (hw : P m.world.shared) : P m'.world.shared := by
  have h0 := h
  unfold Manager.makeProgress at h
  obtain ⟨md, h1, h⟩ := Run.bind_eq_ok.mp h
  obtain ⟨d, h2, h⟩ := Run.bind_eq_ok.mp h
  obtain ⟨⟨ts, w⟩, h3, h⟩ := Run.bind_eq_ok.mp h
  simp only [Run.ok.injEq] at h
  rw [← h]
  refine stepTxns_called h3 (fun x hx w' ws hp hh => ?_) hw
  exact hP x.1 x.2.1 x.2.2.1 x.2.2.2 w' ws ((calls_iff h1 h2 h3 h0).mpr hx) hp hh

end

end TCP.Cache
