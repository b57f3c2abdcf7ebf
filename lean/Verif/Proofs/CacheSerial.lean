import Verif.Proofs.CacheTxn
import Verif.Proofs.CacheProv
import Verif.Spec.CacheSerial
import Verif.Props.CacheCoordinator

/-!
# Transactions and the log of the tablet store (C85)
-/

namespace TCP.Cache

open TCP TCP.TabletStore TCP.TabletStore.Spec TCP.Cache.Spec

variable {α η ω : Type}

/-! ## The log -/

theorem stored_view (t : Tables) (n : String) (i : UInt32) : stored t n i = at_ (view ⟨t, 0⟩) n i := by
  unfold stored at_ view
  cases t.get n <;> rfl

section
variable {senv : TabletStore.Env}

theorem Spec.Log.split {t0 t : Tables} {b : List (List TabletOp × Response)} : ∀ {l : List (List TabletOp × Response)}, Log senv t0 l t → ∀ {a}, l = a ++ b →
    ∃ t1, Log senv t0 a t1 ∧ Log senv t1 b t := by
  intro l h
  induction h generalizing b with
  | nil =>
    intro a he
    simp only [List.nil_eq, List.append_eq_nil_iff] at he
    obtain ⟨rfl, rfl⟩ := he
    exact ⟨_, .nil, .nil⟩
  | @snoc log t ops t' r h ha ih =>
    intro a he
    rcases List.eq_nil_or_concat b with rfl | ⟨b', x, rfl⟩
    · simp only [List.append_nil] at he
      subst he
      exact ⟨_, .snoc h ha, .nil⟩
    · rw [List.concat_eq_append, ← List.append_assoc] at he
      obtain ⟨h1, h2⟩ := List.append_inj' he (by simp)
      simp only [List.cons.injEq, and_true] at h2
      subst h2
      obtain ⟨t1, k1, k2⟩ := ih h1
      exact ⟨t1, k1, by rw [List.concat_eq_append]; exact .snoc k2 ha⟩

theorem Spec.Log.det {t0 t : Tables} {l : List (List TabletOp × Response)} (h : Log senv t0 l t) : ∀ {t'}, Log senv t0 l t' → t = t' := by
  induction h with
  | nil =>
    intro t' h'
    generalize he : ([] : List (List TabletOp × Response)) = l at h'
    cases h' with
    | nil => rfl
    | snoc => simp at he
  | @snoc log t ops t1 r h ha ih =>
    intro t' h'
    generalize he : log ++ [(ops, r)] = l at h'
    cases h' with
    | nil => simp at he
    | @snoc log' t2 ops' _ r' k ka =>
      obtain ⟨h1, h2⟩ := List.append_inj' he (by simp)
      simp only [List.cons.injEq, and_true, Prod.mk.injEq] at h2
      obtain ⟨rfl, rfl⟩ := h2
      subst h1
      have := ih k
      subst this
      rw [ha] at ka
      simp only [Run.ok.injEq, Prod.mk.injEq, and_true] at ka
      exact ka

theorem Spec.Log.wf {t0 t : Tables} {l : List (List TabletOp × Response)} (h : Log senv t0 l t) (hw : WFTables t0) : WFTables t := by
  induction h with
  | nil => exact hw
  | snoc _ ha ih => exact wf_applyRequest ih ha

/-- Along the log a tablet keeps its version and is the same, or its version grows. -/
theorem Spec.Log.tablet (ho : senv.overflowChecks = true) {t0 t : Tables} {l : List (List TabletOp × Response)} (h : Log senv t0 l t) (hw : WFTables t0)
    {n : String} {i : UInt32} {a : Metadata} (ha : stored t0 n i = some a) :
    ∃ b, stored t n i = some b ∧ a.version ≤ b.version ∧ (a.version = b.version → a = b) := by
  induction h with
  | nil => exact ⟨a, ha, by simp, fun _ => rfl⟩
  | @snoc log t ops t' r h hap ih =>
    obtain ⟨b, h1, h2, h3⟩ := ih
    rcases apply_tablet (s := ⟨t, 0⟩) (s' := ⟨t', 0⟩) (h.wf hw) ho hap n i with ⟨he, _⟩ | ⟨_, x, u, k1, k2, _, k3⟩
    · rw [← stored_view, ← stored_view] at he
      exact ⟨b, by rw [he]; exact h1, h2, h3⟩
    · rw [← stored_view] at k1 k2
      rw [h1] at k1
      simp only [Option.some.injEq] at k1
      subst k1
      refine ⟨u, k2, ?_, fun e => ?_⟩
      · simp only [UInt32.le_iff_toNat_le] at h2 ⊢; omega
      · rw [e] at h2
        simp only [UInt32.le_iff_toNat_le] at h2; omega

/-- A moment of the log: what the store has then. -/
def Moment (senv : TabletStore.Env) (t0 : Tables) (log : List (List TabletOp × Response)) (t : Tables) : Prop :=
  ∃ a b, log = a ++ b ∧ Log senv t0 a t

/-- At two moments the same version of a tablet is the same tablet. -/
theorem moment_same (ho : senv.overflowChecks = true) {t0 t1 t2 : Tables} {log : List (List TabletOp × Response)} (hw : WFTables t0)
    (h1 : Moment senv t0 log t1) (h2 : Moment senv t0 log t2) {n : String} {i : UInt32} {x y : Metadata} (hx : stored t1 n i = some x)
    (hy : stored t2 n i = some y) (he : x.version = y.version) : x = y := by
  obtain ⟨a1, b1, e1, l1⟩ := h1
  obtain ⟨a2, b2, e2, l2⟩ := h2
  rw [e1] at e2
  have key : ∀ {a1 a2 c : List (List TabletOp × Response)} {t1 t2 : Tables} {x y : Metadata}, Log senv t0 a1 t1 → Log senv t0 a2 t2 → a2 = a1 ++ c →
      stored t1 n i = some x → stored t2 n i = some y → x.version = y.version → x = y := by
    intro a1 a2 c t1 t2 x y l1 l2 e hx hy he
    obtain ⟨t, k1, k2⟩ := l2.split e
    have := k1.det l1
    subst this
    obtain ⟨b, g1, _, g2⟩ := k2.tablet ho (k1.wf hw) hx
    rw [hy] at g1
    simp only [Option.some.injEq] at g1
    subst g1
    exact g2 he
  rcases List.append_eq_append_iff.mp e2 with ⟨c, h1, _⟩ | ⟨c, h1, _⟩
  · exact key l1 l2 h1 hx hy he
  · exact (key l2 l1 h1 hy hx he.symm).symm

theorem moment_of_mem {t0 t : Tables} {log : List (List TabletOp × Response)} (h : Log senv t0 log t) {e : List TabletOp × Response} (he : e ∈ log) :
    ∃ pre post t1 t2, log = pre ++ e :: post ∧ Log senv t0 pre t1 ∧ applyRequest senv t1 e.1 = .ok (t2, e.2) ∧ Moment senv t0 log t1 ∧ Moment senv t0 log t2 := by
  obtain ⟨pre, post, rfl⟩ := List.append_of_mem he
  obtain ⟨t2, h1, h2⟩ := h.split (a := pre ++ [e]) (b := post) (by simp)
  have h1' := h1
  generalize hl : pre ++ [e] = l at h1'
  cases h1' with
  | nil => simp at hl
  | @snoc log t1 ops _ r k ka =>
    obtain ⟨e1, e2⟩ := List.append_inj' hl (by simp)
    simp only [List.cons.injEq, and_true] at e2
    subst e2 e1
    exact ⟨pre, post, t1, t2, rfl, k, ka, ⟨pre, _, rfl, k⟩, ⟨pre ++ [(ops, r)], post, by simp, h1⟩⟩

theorem Matched.get {α β : Type} {R : α → β → Prop} {as : List α} {bs : List β} (h : Matched R as bs) : ∀ {k : Nat} {a : α} {b : β}, as[k]? = some a → bs[k]? = some b → R a b := by
  induction h with
  | nil => simp
  | cons h _ ih =>
    intro k a b ha hb
    cases k with
    | zero => simp only [List.getElem?_cons_zero, Option.some.injEq] at ha hb; subst ha hb; exact h
    | succ k => simp only [List.getElem?_cons_succ] at ha hb; exact ih ha hb

theorem Matched.mem_right {α β : Type} {R : α → β → Prop} {as : List α} {bs : List β} (h : Matched R as bs) {b : β} (hb : b ∈ bs) : ∃ a ∈ as, R a b := by
  induction h with
  | nil => simp at hb
  | cons h _ ih =>
    rcases List.mem_cons.mp hb with rfl | hb
    · exact ⟨_, by simp, h⟩
    · obtain ⟨a, h1, h2⟩ := ih hb
      exact ⟨a, by simp [h1], h2⟩

theorem names_commitAll {n : String} : ∀ {ops : List TabletOp} {t t' : Tables}, commitAll t ops = .ok t' → (t.get n).isSome → (t'.get n).isSome := by
  intro ops
  induction ops with
  | nil => intro t t' k h; simp only [commitAll, Run.ok.injEq] at k; subst k; exact h
  | cons o rest ih =>
    intro t t' k h
    simp only [commitAll] at k
    obtain ⟨t1, k1, k2⟩ := Run.bind_eq_ok.mp k
    refine ih k2 ?_
    have := (names_commit k1 n)
    revert h this
    cases t.get n <;> cases t1.get n <;> simp

/-- The tables of the store stay. -/
theorem Spec.Log.names {t0 t : Tables} {l : List (List TabletOp × Response)} (h : Log senv t0 l t) (n : String) (hn : (t0.get n).isSome) : (t.get n).isSome := by
  induction h with
  | nil => exact hn
  | @snoc log t ops t' r h ha ih =>
    obtain ⟨_, _, _, _, ⟨_, k⟩ | ⟨_, rfl⟩⟩ := applyRequest_cases ha
    · exact names_commitAll k ih
    · exact ih

end

/-! ## What the cache is told was in the store -/

/-- The store has, or had, this tablet. -/
def Once (senv : TabletStore.Env) (t0 : Tables) (log : List (List TabletOp × Response)) (n : String) (m : Metadata) : Prop :=
  ∃ t, Moment senv t0 log t ∧ stored t n m.tabletId = some m

section
variable {senv : TabletStore.Env} {t0 t : Tables} {log : List (List TabletOp × Response)}

theorem view_stored {t1 : Tables} {n : String} {ring : Ring} (h : view ⟨t1, 0⟩ n = some ring) (i : UInt32) : stored t1 n i = ring i := by
  rw [stored_view]; simp [at_, h]

/-- The answers to the ops of a transaction. -/
theorem commit_answers {env : TxnEnv α η ω} {evs : List (MEvent η)} {c : Client α η ω} (h : MHistory env evs c) (hw : WFTables t0)
    (hk : TablesKnown evs t0) {i corr : Nat} {ops : List TabletOp} (hc : .commit i [(corr, ops)] ∈ evs) {t1 t2 : Tables} {r : Response}
    {pre : List (List TabletOp × Response)} (hl : Log senv t0 pre t1) (ha : applyRequest senv t1 ops = .ok (t2, r)) :
    answers r = r.results ∧ r.results.length = ops.length ∧ Matched (OpAnswer (view ⟨t1, 0⟩)) ops r.results ∧
      (r.succeeded = true ↔ ∀ x ∈ r.results, x.status = .succeeded) ∧ (r.succeeded = true ↔ ∀ o ∈ ops, OpSucceeds (view ⟨t1, 0⟩) o) := by
  obtain ⟨k1, k2, k3⟩ := Props.store_answers ha (fun o ho => hl.names _ (hk i corr ops hc o ho)) (commit_ops h hc)
  obtain ⟨k4, k5, _⟩ := apply_effect (s := ⟨t1, 0⟩) (s' := ⟨t2, 0⟩) (hl.wf hw) ha
  exact ⟨k1, k2, k4, k3, k5⟩

/-- An update that was carried out is in the store. -/
theorem updated_stored {ops : List TabletOp} {r : Response} {t1 t2 : Tables} (hw : WFTables t1) (ho : senv.overflowChecks = true)
    (ha : applyRequest senv t1 ops = .ok (t2, r)) (hs : r.succeeded = true)
    (hu : ∀ table m m', ⟨table, some (.update (some m))⟩ ∈ ops → ⟨table, some (.update (some m'))⟩ ∈ ops → m.tabletId = m'.tabletId → m = m')
    {table : String} {m : Metadata} (hm : ⟨table, some (.update (some m))⟩ ∈ ops) : stored t2 table m.tabletId = some m := by
  rcases apply_tablet (s := ⟨t1, 0⟩) (s' := ⟨t2, 0⟩) hw ho ha table m.tabletId with ⟨_, h⟩ | ⟨_, x, u, _, k2, ⟨o, k3, k4, k5, k6⟩, _⟩
  · exact absurd ⟨rfl, rfl, rfl⟩ (h hs _ hm m)
  · rw [stored_view, k2]
    obtain ⟨ot, oo⟩ := o
    simp only at k4 k5
    subst k4 k5
    rw [hu _ u m k3 hm k6]

/-- Everything the cache was told was in the store at some moment. -/
theorem sourced_once {env : TxnEnv α η ω} {evs evs0 : List (MEvent η)} {c : Client α η ω} {ins : List Input} (h : MHistory env evs c) (hsub : ∀ e ∈ evs0, e ∈ evs)
    (hs : Sourced evs0 ins) (hlog : Log senv t0 log t) (hw : WFTables t0) (ho : senv.overflowChecks = true) (hf : FromLog evs log) (hk : TablesKnown evs t0)
    (hd : AllRejected evs) (hu : UpdatedOnce evs) : ∀ i ∈ ins, InP (Once senv t0 log) i := by
  intro i hi
  cases i with
  | update tb m b =>
    obtain ⟨j, corr, ops, k, o, r, x, h1, h2, rfl, h4, h5, h6⟩ := hs.updates tb m b hi
    have h1 := hsub _ h1
    have h4 := hsub _ h4
    obtain ⟨pre, post, t1, t2, e1, e2, e3, e4, e5⟩ := moment_of_mem hlog (hf.commits j corr ops r h1 h4)
    dsimp only at e3
    obtain ⟨a1, a2, a3, a4, a5⟩ := commit_answers h hw hk h1 e2 e3
    rw [a1] at h5
    have hx := Matched.get a3 h2 h5
    have hmem := List.mem_of_getElem? h5
    cases b with
    | true =>
      simp only [if_true] at h6
      refine ⟨t1, e4, ?_⟩
      unfold OpAnswer at hx
      obtain ⟨_, _, hx⟩ := hx
      have hsome := hk j corr ops h1 o (List.mem_of_getElem? h2)
      cases hv : view ⟨t1, 0⟩ o.table with
      | none =>
        rw [hv] at hx
        rcases h6.2 with e | e <;> rw [hx.2] at e <;> cases e
      | some ring =>
        rw [view_stored hv]
        have hid : ∀ i m', ring i = some m' → m'.tabletId = i := by
          intro i m' hm'
          cases hg : t1.get o.table with
          | none => rw [view_none.mpr (show (⟨t1, 0⟩ : State).tables.get o.table = none from hg)] at hv; cases hv
          | some tb =>
            rw [view_some (show (⟨t1, 0⟩ : State).tables.get o.table = some tb from hg)] at hv
            simp only [Option.some.injEq] at hv
            subst hv
            exact ((e2.wf hw).2 _ _ hg).2 _ (SMap.mem_of_get hm')
        rcases commit_ops h h1 o (List.mem_of_getElem? h2) with ⟨j', v, hop⟩ | ⟨u, hop⟩
        · rw [hv, hop] at hx
          simp only [if_neg h6.1] at hx
          rcases h6.2 with e | e
          · rw [hx.2] at e
            simp only [Option.some.injEq, OpResult.check.injEq] at e
            rw [hid _ _ e]; exact e
          · rw [hx.2] at e; cases e
        · rw [hv, hop] at hx
          simp only at hx
          rcases h6.2 with e | e
          · rw [hx.2] at e; cases e
          · rw [hx.2] at e
            simp only [Option.some.injEq, OpResult.update.injEq] at e
            rw [hid _ _ e]; exact e
    | false =>
      simp only [Bool.false_eq_true, if_false] at h6
      refine ⟨t2, e5, ?_⟩
      have hsucc : r.succeeded = true := by
        cases hr : r.succeeded with
        | true => rfl
        | false => exact absurd h6.1 (hd j corr ops r h1 h4 hr x hmem)
      obtain ⟨ot, oo⟩ := o
      dsimp only at h6
      obtain ⟨h6, rfl⟩ := h6
      exact updated_stored (e2.wf hw) ho e3 hsucc (hu j corr ops h1) (List.mem_of_getElem? h2)
  | list rs =>
    intro x hx hst a b ts hres m hm
    rcases hs.lists rs hi x hx with ⟨corr, r, h1, h2⟩ | h1
    · obtain ⟨ops, h3⟩ := hf.responses corr r (hsub _ h1)
      obtain ⟨pre, post, t1, t2, e1, e2, e3, e4, e5⟩ := moment_of_mem hlog h3
      obtain ⟨k4, _, _⟩ := apply_effect (s := ⟨t1, 0⟩) (s' := ⟨t2, 0⟩) (e2.wf hw) e3
      obtain ⟨o, _, ⟨hxt, hxs, hx2⟩⟩ := Matched.mem_right k4 h2
      refine ⟨t1, e4, ?_⟩
      have hsucc := hxs.mp hst
      obtain ⟨ring, hv, hop⟩ := hsucc
      rw [hxt, view_stored hv]
      rw [hv] at hx2
      obtain ⟨ot, oo⟩ := o
      dsimp only at hx2 hop
      rcases oo with _ | (⟨x1, y1⟩ | _ | _ | (_ | u) | _)
      · rw [hx2.1] at hst; cases hst
      · obtain ⟨ts', g1, _, g3⟩ := hx2
        rw [hres] at g1
        simp only [Option.some.injEq, OpResult.list.injEq] at g1
        obtain ⟨_, _, rfl⟩ := g1
        obtain ⟨hh, _, g4⟩ := (g3 m).mp hm
        exact g4.1
      · rw [hx2.2] at hres; cases hres
      · exact hx2.elim
      · rw [hx2.2] at hres; cases hres
      · rw [hx2.2] at hres; cases hres
      · exact hx2.elim
    · rw [h1] at hst; cases hst
  | _ => trivial

end

end TCP.Cache
