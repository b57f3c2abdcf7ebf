import Verif.Spec.CacheMany
import Verif.Proofs.Blob
import Verif.Proofs.CacheSerial
import Verif.Props.CacheTxn

/-!
# Several transaction managers (C88)
-/

namespace TCP.Cache

open TCP TCP.TabletStore TCP.TabletStore.Spec TCP.Cache.Spec

variable {α η ω : Type}

/-! ## Requests to the storage are not forgotten -/

theorem load_keep {c c' : DataCache α} {ms : List Metadata} (h : c.load ms = .ok c') : ∀ r ∈ c.out, r ∈ c'.out :=
  ((loadEntries_more ms c).batch h).keep

theorem procStep_keep {env : TxnEnv α η ω} {i : Nat} {p : Proc α η} {w : World α ω} {x : Proc α η × World α ω} (h : p.step env i w = .ok x) :
    ∀ r ∈ w.data.out, r ∈ x.2.data.out := by
  have same : ∀ {p' : Proc α η}, Run.ok (p', w) = .ok x → ∀ r ∈ w.data.out, r ∈ x.2.data.out := by
    intro p' h; simp only [Run.ok.injEq] at h; subst h; exact fun _ h => h
  unfold Proc.step at h
  cases hs : p.status with
  | pending qs =>
    simp only [hs] at h
    obtain ⟨y, _, h2⟩ := Run.bind_eq_ok.mp h
    simp only [Run.ok.injEq] at h2
    subst h2; exact fun _ h => h
  | resolving id =>
    simp only [hs] at h
    cases hc : w.md.cells.get id with
    | none => simp only [hc] at h; exact same h
    | some res =>
      simp only [hc] at h
      obtain ⟨y, h1, h2⟩ := Run.bind_eq_ok.mp h
      simp only [Run.ok.injEq] at h2
      subst h2; exact load_keep h1
  | loading id =>
    simp only [hs] at h
    cases hc : w.data.cells.loads.get id with
    | none => simp only [hc] at h; exact same h
    | some o =>
      cases o with
      | none => simp only [hc] at h; exact same h
      | some res =>
        simp only [hc] at h
        obtain ⟨ts, _, h⟩ := Run.bind_eq_ok.mp h
        obtain ⟨y, _, h⟩ := Run.bind_eq_ok.mp h
        obtain ⟨z, h1, h2⟩ := Run.bind_eq_ok.mp h
        simp only [Run.ok.injEq] at h2
        subst h2; exact (store_more h1).keep
  | storing o =>
    cases o with
    | none => simp only [hs] at h; exact same h
    | some id =>
      simp only [hs] at h
      cases hc : w.data.cells.stores.get id with
      | none => simp only [hc] at h; exact same h
      | some o => cases o <;> (simp only [hc] at h; exact same h)
  | completed => simp only [hs] at h; exact same h
  | failed => simp only [hs] at h; exact same h

theorem stepProcs_keep {env : TxnEnv α η ω} {i : Nat} : ∀ {ps : List (Proc α η)} {w : World α ω} {x : List (Proc α η) × World α ω},
    stepProcs env i ps w = .ok x → ∀ r ∈ w.data.out, r ∈ x.2.data.out := by
  intro ps
  induction ps with
  | nil => intro w x h; simp only [stepProcs, Run.ok.injEq] at h; subst h; exact fun _ h => h
  | cons p rest ih =>
    intro w x h r hr
    unfold stepProcs at h
    obtain ⟨y, h1, h⟩ := Run.bind_eq_ok.mp h
    obtain ⟨z, h2, h⟩ := Run.bind_eq_ok.mp h
    simp only [Run.ok.injEq] at h
    subst h
    exact ih h2 r (procStep_keep h1 r hr)

theorem stepTxns_keep {env : TxnEnv α η ω} : ∀ {ts : AMap Nat (TxnState α η)} {w : World α ω} {x : AMap Nat (TxnState α η) × World α ω},
    stepTxns env ts w = .ok x → ∀ r ∈ w.data.out, r ∈ x.2.data.out := by
  intro ts
  induction ts with
  | nil => intro w x h; simp only [stepTxns, Run.ok.injEq] at h; subst h; exact fun _ h => h
  | cons e rest ih =>
    obtain ⟨i, s⟩ := e
    intro w x h r hr
    have key : (stepTxns env rest w).bind (fun y => .ok ((i, s) :: y.1, y.2)) = .ok x → r ∈ x.2.data.out := by
      intro h
      obtain ⟨y, h1, h2⟩ := Run.bind_eq_ok.mp h
      simp only [Run.ok.injEq] at h2
      subst h2; exact ih h1 r hr
    cases s with
    | preparing ps =>
      unfold stepTxns at h
      obtain ⟨y, h1, h⟩ := Run.bind_eq_ok.mp h
      obtain ⟨z, h2, h⟩ := Run.bind_eq_ok.mp h
      simp only [Run.ok.injEq] at h
      subst h
      exact ih h2 r (stepProcs_keep h1 r hr)
    | committing _ => exact key h
    | completed _ => exact key h

theorem opsResponse_data {m m' : Manager α η ω} {corr : Nat} {r : Response} (h : m.opsResponse corr r = .ok m') : m'.world.data = m.world.data := by
  unfold Manager.opsResponse at h
  obtain ⟨md, _, h⟩ := Run.bind_eq_ok.mp h
  split at h
  · simp only [Run.ok.injEq] at h; subst h; rfl
  · obtain ⟨x, _, h⟩ := Run.bind_eq_ok.mp h
    simp only [Run.ok.injEq] at h; subst h; rfl

theorem mrequests_snoc {evs : List (MEvent η)} {m m' : Manager α η ω} {ev : MEvent η} (he : ∀ outs, ev ≠ .take outs)
    (h : ∀ r ∈ m.world.data.out, r ∈ m'.world.data.out) : ∀ r ∈ mrequests evs m, r ∈ mrequests (evs ++ [ev]) m' := by
  intro r hr
  simp only [mrequests, List.mem_append, List.flatMap_append, List.flatMap_cons, List.flatMap_nil, List.append_nil] at hr ⊢
  rcases hr with hr | hr
  · exact .inl hr
  · exact .inr (h r hr)

theorem mrequests_step {env : TxnEnv α η ω} (hsane : Sane env) {evs : List (MEvent η)} {c c' : Client α η ω} {ev : MEvent η} (h : MHistory env evs c)
    (hs : MStep env c ev c') : ∀ r ∈ mrequests evs c.m, r ∈ mrequests (evs ++ [ev]) c'.m := by
  obtain ⟨devs, w⟩ := history_winv hsane h
  have hb := (history_inv w.hist).base
  cases hs with
  | @init tables m hs =>
    refine mrequests_snoc (by simp) ?_
    unfold Manager.init at hs
    obtain ⟨md, _, hs⟩ := Run.bind_eq_ok.mp hs
    simp only [Run.ok.injEq] at hs; subst hs; exact fun _ h => h
  | start => exact mrequests_snoc (by simp) fun _ h => h
  | process => exact mrequests_snoc (by simp) fun _ h => h
  | pending => exact mrequests_snoc (by simp) fun _ h => h
  | commit => exact mrequests_snoc (by simp) fun _ h => h
  | abort => exact mrequests_snoc (by simp) fun _ h => h
  | @check i h h' m ho hs =>
    refine mrequests_snoc (by simp) ?_
    unfold Commit.check at hs
    split at hs
    · simp only [Run.ok.injEq, Prod.mk.injEq] at hs; rw [← hs.2]; exact fun _ h => h
    · obtain ⟨x, _, hs⟩ := Run.bind_eq_ok.mp hs
      simp only [Run.ok.injEq, Prod.mk.injEq] at hs; rw [← hs.2]; exact fun _ h => h
  | @resolve qs m hs =>
    refine mrequests_snoc (by simp) ?_
    unfold Manager.resolve at hs
    obtain ⟨md, _, hs⟩ := Run.bind_eq_ok.mp hs
    simp only [Run.ok.injEq] at hs; subst hs; exact fun _ h => h
  | @input i m hs =>
    refine mrequests_snoc (by simp) ?_
    cases i with
    | data r =>
      simp only [Manager.processIn] at hs
      obtain ⟨d, h1, hs⟩ := Run.bind_eq_ok.mp hs
      simp only [Run.ok.injEq] at hs
      subst hs
      intro r hr
      show r ∈ d.out
      rw [(processIn_ok hb h1).2.2.2.2.2]; exact hr
    | response corr r =>
      simp only [Manager.processIn] at hs
      rw [opsResponse_data hs]; exact fun _ h => h
    | error corr =>
      simp only [Manager.processIn] at hs
      split at hs
      · rw [opsResponse_data hs]; exact fun _ h => h
      · simp only [Run.ok.injEq] at hs; subst hs; exact fun _ h => h
  | @progress m hs =>
    refine mrequests_snoc (by simp) ?_
    unfold Manager.makeProgress at hs
    obtain ⟨md, _, hs⟩ := Run.bind_eq_ok.mp hs
    obtain ⟨d, h1, hs⟩ := Run.bind_eq_ok.mp hs
    obtain ⟨x, h2, hs⟩ := Run.bind_eq_ok.mp hs
    simp only [Run.ok.injEq] at hs
    subst hs
    intro r hr
    refine stepTxns_keep h2 r ?_
    show r ∈ d.out
    rw [(makeProgress_ok hb hsane h1).2.2.2.2.2]; exact hr
  | @take m outs hs =>
    unfold Manager.takeOut at hs
    obtain ⟨es, _, hs⟩ := Run.bind_eq_ok.mp hs
    simp only [Run.ok.injEq, Prod.mk.injEq] at hs
    obtain ⟨rfl, rfl⟩ := hs
    intro r hr
    simp only [mrequests, List.mem_append, List.flatMap_append, List.flatMap_cons, List.flatMap_nil, List.append_nil] at hr ⊢
    rcases hr with hr | hr
    · exact .inl (.inl hr)
    · refine .inl (.inr ?_)
      rw [List.mem_filterMap]
      exact ⟨.data r, by simp [hr], rfl⟩
  | app => exact mrequests_snoc (by simp) fun _ h => h

/-- Requests made so far are among those made later. -/
theorem mrequests_steps {env : TxnEnv α η ω} (hsane : Sane env) {evs more : List (MEvent η)} {c c' : Client α η ω} (h : MHistory env evs c)
    (hs : MSteps env c more c') : ∀ r ∈ mrequests evs c.m, r ∈ mrequests (evs ++ more) c'.m := by
  induction hs with
  | refl => simp
  | @step more' c1 ev c2 h1 hs ih =>
    intro r hr
    have hh : MHistory env (evs ++ more') c1 := by
      obtain ⟨x1, x2, x3, x4, x5⟩ := h
      exact ⟨x1, x2, x3, x4, x5.append h1⟩
    rw [← List.append_assoc]
    exact mrequests_step hsane hh hs r (ih r hr)

/-! ## Where the tablets of the store come from -/

section
variable {senv : TabletStore.Env}

/-- A tablet of the store was there at the beginning, or an update of the log wrote it. -/
theorem log_written (ho : senv.overflowChecks = true) {t0 t : Tables} {l : List (List TabletOp × Response)} (h : Log senv t0 l t) (hw : WFTables t0)
    {n : String} {i : UInt32} {m : Metadata} (hm : stored t n i = some m) :
    stored t0 n i = some m ∨ ∃ ops r, (ops, r) ∈ l ∧ ⟨n, some (.update (some m))⟩ ∈ ops := by
  induction h generalizing m with
  | nil => exact .inl hm
  | @snoc log t ops t' r h hap ih =>
    rcases apply_tablet (s := ⟨t, 0⟩) (s' := ⟨t', 0⟩) (h.wf hw) ho hap n i with ⟨he, _⟩ | ⟨_, x, u, k1, k2, ⟨o, k3, k4, k5, k6⟩, _⟩
    · rw [← stored_view, ← stored_view] at he
      rw [he] at hm
      rcases ih hm with h1 | ⟨ops', r', h1, h2⟩
      · exact .inl h1
      · exact .inr ⟨ops', r', by simp [h1], h2⟩
    · rw [← stored_view, hm] at k2
      cases k2
      obtain ⟨ot, oo⟩ := o
      simp only at k4 k5
      subst k4 k5
      exact .inr ⟨ops, r, by simp, k3⟩

/-- A tablet that is not updated stays as it is. -/
theorem log_untouched (ho : senv.overflowChecks = true) {t0 t : Tables} {l : List (List TabletOp × Response)} (h : Log senv t0 l t) (hw : WFTables t0)
    {n : String} {i : UInt32} (hu : Untouched l n i) : stored t n i = stored t0 n i := by
  induction h with
  | nil => rfl
  | @snoc log t ops t' r h hap ih =>
    rw [← ih fun ops' r' hm => hu ops' r' (by simp [hm])]
    rcases apply_tablet (s := ⟨t, 0⟩) (s' := ⟨t', 0⟩) (h.wf hw) ho hap n i with ⟨he, _⟩ | ⟨hs, x, u, k1, k2, ⟨o, k3, k4, k5, k6⟩, _⟩
    · rw [stored_view, stored_view]; exact he
    · obtain ⟨ot, oo⟩ := o
      simp only at k4 k5
      subst k4 k5
      exact absurd k6 (hu ops r (by simp) hs u k3)

end

section
variable [DecidableEq α] [DecidableEq η] [DecidableEq ω]
variable {ι : Type} {env : TxnEnv α η ω} {senv : TabletStore.Env} {s0 : State} {log : List (List TabletOp × Response)} {t : Tables} {blank : Bytes}
  {cfg : ι → List (String × UInt32)} {evs : ι → List (MEvent η)} {c : ι → Client α η ω}

/-- Tablets that were in the store once are new, or named by the managers. -/
theorem deployment_named (hsane : Sane env) (ho : senv.overflowChecks = true) (hw : WFTables s0.tables) (D : Deployment env senv s0 log t blank cfg evs c) {n : String} {m : Metadata}
    (hm : Once senv s0.tables log n m) : m.uri = "" ∨ Named env.data m := by
  obtain ⟨t1, ⟨x, y, rfl, h1⟩, h2⟩ := hm
  rcases log_written ho h1 hw h2 with h3 | ⟨ops, r, h3, h4⟩
  · exact .inl (D.new _ _ _ h3)
  · obtain ⟨p, i, corr, h5⟩ := D.writes ops r (by simp [h3]) _ _ h4
    obtain ⟨_, _, _, _, _, _, _, _, _, _, _, _, _, _, _, _, _, _, _, _, _, _, _, _, _, h6⟩ := Props.C84_stored hsane (D.history p) (D.configured p) h5 h4
    exact .inr h6

end

end TCP.Cache
