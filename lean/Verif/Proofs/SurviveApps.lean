import Verif.Proofs.Survive
import Verif.Proofs.Counter
import Verif.Spec.TabletStore
import Verif.Spec.Willow

/-!
# The applications of the repository survive their commands (C95)
-/

namespace TCP.Survive

open TCP TCP.Drv TCP.Replica

variable {ρ : Type}

theorem counter_safe {ms : Counter.Msgs} (hl : Counter.Spec.Lawful ms) (T : Terms Counter.State ρ) :
    ActorSafe (Counter.actor ms) (counterTerms ms T) Counter.State.new where
  empty := trivial
  init {ctx} h := by
    obtain ⟨vs, hv⟩ := Option.isSome_iff_exists.1 h
    simp only [Counter.actor, Counter.onInit, hv]
    exact ⟨_, rfl, Counter.WF_insertAll _ AMap.WF.nil⟩
  shutdown h := ⟨_, rfl, h⟩
  save {ctx s} h := ⟨s, _, rfl, h, by
    change (ms.decSnap (ms.encSnap s.values)).isSome
    rw [hl.snap _ h]; rfl⟩
  load {ctx s b} h hb := by
    obtain ⟨vs, hv⟩ := Option.isSome_iff_exists.1 hb
    simp only [Counter.actor, Counter.onLoadSnapshot, hv]
    exact ⟨_, rfl, Counter.WF_insertAll _ h⟩
  command {ctx s c} h _ := by
    cases c with
    | none => exact ⟨s, _, rfl, h, fun ev he => by cases he⟩
    | some c =>
      simp only [Counter.actor, Counter.onProcessCommand]
      cases hd : ms.decIn c.header with
      | none => exact ⟨s, _, rfl, h, fun ev he => by cases he⟩
      | some o =>
        cases o with
        | none => exact ⟨s, _, rfl, h, fun ev he => by cases he⟩
        | some r =>
          cases hx : ctx.leader with
          | false => exact ⟨s, _, rfl, h, fun ev he => by cases he⟩
          | true =>
            cases ho : r.op with
            | none =>
              simp only [ho, Option.isNone_none, if_true, Bool.not_true, Bool.false_eq_true, if_false, reduceCtorEq]
              exact ⟨s, _, rfl, h, fun ev he => by cases he⟩
            | some cas =>
              simp only [ho, Option.isNone_some, if_true, Bool.not_true, Bool.false_eq_true, if_false]
              refine ⟨s, _, rfl, h, fun ev he => ?_⟩
              simp only [Option.some.injEq] at he
              subst he
              exact ⟨⟨_, hl.req _, by simp⟩, trivial, by simp⟩
  apply {ctx s ec ev} h he := by
    obtain ⟨r, hr, ho⟩ := he
    obtain ⟨cas, hc⟩ := Option.isSome_iff_exists.1 ho
    simp only [Counter.actor, Counter.onApplyEvent, hr, hc, Run.unwrap, Run.bind_ok]
    refine ⟨_, _, rfl, ?_⟩
    change AMap.WF (Counter.compareAndSwap s r.name cas r.payload).1.values
    unfold Counter.compareAndSwap
    simp only
    split
    · exact h.set _ _
    · exact h.set _ _

theorem decryptor_safe {env : Willow.Env} (hl : Willow.Spec.Lawful env) (T : Terms Willow.State ρ) (a0 : Willow.State) :
    ActorSafe (Willow.actor env) (decryptorTerms env T) a0 where
  empty := fun x hx => by cases hx
  init _ := ⟨_, rfl, trivial⟩
  shutdown _ := ⟨_, rfl, trivial⟩
  save {ctx s} _ := ⟨s, _, rfl, trivial, by
    change (env.decSnap (env.encSnap s.keys)).isSome
    rw [hl.snap]; rfl⟩
  load {ctx s b} _ hb := by
    obtain ⟨l, hv⟩ := Option.isSome_iff_exists.1 hb
    simp only [Willow.actor, Willow.onLoadSnapshot, hv]
    exact ⟨_, rfl, trivial⟩
  command {ctx s c} _ hc := by
    cases c with
    | none => exact ⟨s, _, rfl, trivial, fun ev he => by cases he⟩
    | some c =>
      obtain ⟨r, hr, hd⟩ := hc c rfl
      simp only [Willow.actor, Willow.onProcessCommand, hr]
      split
      · exact ⟨s, _, rfl, trivial, fun ev he => by cases he⟩
      · rename_i hx
        have hx : ctx.leader = true := by cases h : ctx.leader <;> simp_all
        cases r with
        | generateKey k =>
          refine ⟨_, _, rfl, trivial, fun ev he => ?_⟩
          unfold Willow.generateCommand at he
          split at he
          · cases he
          · simp only [Option.some.injEq] at he
            subst he
            exact ⟨by change (env.decEv _).isSome; rw [hl.ev]; rfl, hx, by simp⟩
        | decrypt k q =>
          simp only [Willow.decryptCommand]
          cases hk : SMap.get s.keys k with
          | none => exact ⟨_, _, rfl, trivial, fun ev he => by cases he⟩
          | some key =>
            obtain ⟨x, hx'⟩ := Option.isSome_iff_exists.1 (hd k q rfl key.privateKey s.draws)
            simp only [hx', Run.bind_ok]
            refine ⟨_, _, rfl, trivial, fun ev he => ?_⟩
            simp only [Option.some.injEq] at he
            subst he
            exact ⟨by change (env.decEv _).isSome; rw [hl.ev]; rfl, hx, by simp⟩
        | empty => exact ⟨_, _, rfl, trivial, fun ev he => by cases he⟩
  apply {ctx s ec ev} _ he := by
    obtain ⟨x, hx⟩ := Option.isSome_iff_exists.1 he
    simp only [Willow.actor, Willow.onApplyEvent, hx]
    cases x <;> exact ⟨_, _, rfl, trivial⟩

/-! ## The tablet store -/

section tablets
variable {env : TabletStore.Env}

theorem keys_initTables (cs : List (String × Nat)) (s : TabletStore.State) (n : String) :
    n ∈ (TabletStore.initTables env s cs).tables.keys ↔ n ∈ s.tables.keys ∨ n ∈ cs.map Prod.fst := by
  induction cs generalizing s with
  | nil => simp [TabletStore.initTables]
  | cons c cs ih =>
    obtain ⟨m, k⟩ := c
    simp only [TabletStore.initTables, ih, AMap.mem_keys_set, List.map_cons, List.mem_cons]
    constructor
    · rintro ((h | h) | h)
      · exact .inr (.inl h)
      · exact .inl h
      · exact .inr (.inr h)
    · rintro (h | h | h)
      · exact .inl (.inr h)
      · exact .inl (.inl h)
      · exact .inr h

theorem loadTables_ok (l : List (String × List TabletStore.Metadata)) (t : AMap String TabletStore.Tablets) (h : ∀ e ∈ l, e.1 ∈ t.keys) :
    (TabletStore.loadTables t l).2 = .ok () ∧ ∀ n, n ∈ (TabletStore.loadTables t l).1.keys ↔ n ∈ t.keys := by
  induction l generalizing t with
  | nil => exact ⟨rfl, fun n => Iff.rfl⟩
  | cons e l ih =>
    obtain ⟨k, ms⟩ := e
    have hk : k ∈ t.keys := h _ (.head _)
    obtain ⟨x, hx⟩ := Option.isSome_iff_exists.1 ((AMap.get_isSome_iff t k).2 hk)
    have hs : ∀ n, n ∈ (t.set k (TabletStore.loadTable ms)).keys ↔ n ∈ t.keys := by
      intro n
      rw [AMap.mem_keys_set]
      exact ⟨fun h => h.elim (fun h => h ▸ hk) id, .inr⟩
    obtain ⟨h1, h2⟩ := ih (t.set k (TabletStore.loadTable ms)) fun e he => (hs _).2 (h e (.tail _ he))
    simp only [TabletStore.loadTables, hx]
    exact ⟨h1, fun n => (h2 n).trans (hs n)⟩

/-- An operation that is implemented. -/
def Plain (o : TabletStore.TabletOp) : Prop := (∀ m, o.op ≠ some (.add m)) ∧ ∀ i j, o.op ≠ some (.remove i j)

/-- An operation that can be committed. -/
def Fits (t : AMap String TabletStore.Tablets) (o : TabletStore.TabletOp) : Prop :=
  o.table ∈ t.keys ∧ ∃ op, o.op = some op ∧ op ≠ .update none

theorem prepare_ok (hov : env.overflowChecks = false) (t : AMap String TabletStore.Tablets) {o : TabletStore.TabletOp} (h : Plain o) :
    ∃ r, TabletStore.prepare env t o = .ok r ∧ (r.status = .succeeded → Fits t o) := by
  unfold TabletStore.prepare
  cases hg : t.get o.table with
  | none => exact ⟨_, rfl, fun h => by cases h⟩
  | some m =>
    have hk : o.table ∈ t.keys := (AMap.get_isSome_iff t _).1 (by rw [hg]; rfl)
    cases ho : o.op with
    | none => exact ⟨_, rfl, fun h => by cases h⟩
    | some op =>
      cases op with
      | list a b => exact ⟨_, rfl, fun _ => ⟨hk, _, ho, by simp⟩⟩
      | check i v =>
        simp only [TabletStore.prepareOp]
        split
        · exact ⟨_, rfl, fun _ => ⟨hk, _, ho, by simp⟩⟩
        · exact ⟨_, rfl, fun h => by cases h⟩
      | update u =>
        cases u with
        | none => exact ⟨_, rfl, fun h => by cases h⟩
        | some u =>
          simp only [TabletStore.prepareOp]
          split
          · simp only [TabletStore.nextVersion, hov, Bool.false_eq_true, false_and, if_false, Run.bind_ok]
            exact ⟨_, rfl, fun _ => ⟨hk, _, ho, by simp⟩⟩
          · exact ⟨_, rfl, fun h => by cases h⟩
      | add m => exact absurd ho (h.1 m)
      | remove i j => exact absurd ho (h.2 i j)

theorem prepareAll_ok (hov : env.overflowChecks = false) (t : AMap String TabletStore.Tablets) (ops : List TabletStore.TabletOp) (h : ∀ o ∈ ops, Plain o) :
    ∃ rs, TabletStore.prepareAll env t ops = .ok rs ∧ (rs.all (fun r => r.status == .succeeded) = true → ∀ o ∈ ops, Fits t o) := by
  induction ops with
  | nil => exact ⟨[], rfl, fun _ o ho => by cases ho⟩
  | cons o ops ih =>
    obtain ⟨r, hr, hf⟩ := prepare_ok hov t (h o (.head _))
    obtain ⟨rs, hrs, hfs⟩ := ih fun x hx => h x (.tail _ hx)
    refine ⟨r :: rs, by simp only [TabletStore.prepareAll, hr, hrs, Run.bind_ok], fun ha x hx => ?_⟩
    simp only [List.all_cons, Bool.and_eq_true, beq_iff_eq] at ha
    cases hx with
    | head => exact hf ha.1
    | tail _ hx => exact hfs ha.2 x hx

theorem commitAll_ok (ops : List TabletStore.TabletOp) (t : AMap String TabletStore.Tablets) (h : ∀ o ∈ ops, Plain o) (hf : ∀ o ∈ ops, Fits t o) :
    ∃ t', TabletStore.commitAll t ops = .ok t' ∧ ∀ n, n ∈ t'.keys ↔ n ∈ t.keys := by
  induction ops generalizing t with
  | nil => exact ⟨t, rfl, fun _ => Iff.rfl⟩
  | cons o ops ih =>
    have : ∃ t1, TabletStore.commit t o = .ok t1 ∧ ∀ n, n ∈ t1.keys ↔ n ∈ t.keys := by
      obtain ⟨hk, op, ho, hu⟩ := hf o (.head _)
      obtain ⟨x, hx⟩ := Option.isSome_iff_exists.1 ((AMap.get_isSome_iff t _).2 hk)
      simp only [TabletStore.commit, hx, ho, Run.unwrap, Run.bind_ok]
      cases op with
      | list a b => exact ⟨t, rfl, fun _ => Iff.rfl⟩
      | check i v => exact ⟨t, rfl, fun _ => Iff.rfl⟩
      | update u =>
        cases u with
        | none => exact absurd rfl hu
        | some u =>
          refine ⟨_, rfl, fun n => ?_⟩
          rw [AMap.mem_keys_set]
          exact ⟨fun h => h.elim (fun h => h ▸ hk) id, .inr⟩
      | add m => exact absurd ho ((h o (.head _)).1 m)
      | remove i j => exact absurd ho ((h o (.head _)).2 i j)
    obtain ⟨t1, h1, h2⟩ := this
    obtain ⟨t2, h3, h4⟩ := ih t1 (fun x hx => h x (.tail _ hx)) fun x hx => ⟨(h2 _).2 (hf x (.tail _ hx)).1, (hf x (.tail _ hx)).2⟩
    exact ⟨t2, by simp only [TabletStore.commitAll, h1, Run.bind_ok, h3], fun n => (h4 n).trans (h2 n)⟩

theorem tablets_safe (hl : TabletStore.Spec.Lawful env) (hov : env.overflowChecks = false) (names : List String) (T : Terms TabletStore.State ρ)
    {a0 : TabletStore.State} (ha : a0.tables = []) : ActorSafe (TabletStore.actor env) (tabletTerms env names T) a0 where
  empty := fun x hx => by cases hx
  init {ctx} h := by
    obtain ⟨cs, hc, hn⟩ := h
    simp only [TabletStore.actor, TabletStore.onInit, hc]
    refine ⟨_, rfl, fun n => ?_⟩
    rw [keys_initTables, ha]
    simp only [AMap.keys_nil, List.not_mem_nil, false_or]
    exact hn n
  shutdown h := ⟨_, rfl, h⟩
  save {ctx s} h := ⟨s, _, rfl, h, _, hl.snap _, fun e he => by
    obtain ⟨x, hx, rfl⟩ := List.mem_map.1 he
    exact (h _).1 (List.mem_map_of_mem (f := Prod.fst) hx)⟩
  load {ctx s b} h hb := by
    obtain ⟨l, hd, hn⟩ := hb
    obtain ⟨h1, h2⟩ := loadTables_ok l s.tables fun e he => (h _).2 (hn e he)
    simp only [TabletStore.actor, TabletStore.onLoadSnapshot, hd, h1]
    refine ⟨_, rfl, fun n => (h2 n).trans (h n)⟩
  command {ctx s c} h hc := by
    cases c with
    | none => exact ⟨s, _, rfl, h, fun ev he => by cases he⟩
    | some c =>
      simp only [TabletStore.actor, TabletStore.onProcessCommand]
      split
      · exact ⟨s, _, rfl, h, fun ev he => by cases he⟩
      · rename_i hx
        have hx : ctx.leader = true := by cases h : ctx.leader <;> simp_all
        split
        · split
          · rename_i ops hd
            refine ⟨s, _, rfl, h, fun ev he => ?_⟩
            simp only [Option.some.injEq] at he
            subst he
            exact ⟨⟨by rw [hd]; rfl, hc c rfl⟩, hx, by simp⟩
          · exact ⟨s, _, rfl, h, fun ev he => by cases he⟩
        · exact ⟨s, _, rfl, h, fun ev he => by cases he⟩
  apply {ctx s ec ev} h he := by
    obtain ⟨hs, hp⟩ := he
    obtain ⟨ops, hd⟩ := Option.isSome_iff_exists.1 hs
    have hpl : ∀ o ∈ ops, Plain o := hp ops hd
    obtain ⟨rs, hrs, hf⟩ := prepareAll_ok hov s.tables ops hpl
    simp only [TabletStore.actor, TabletStore.onApplyEvent, hd, TabletStore.applyRequest, hrs, Run.bind_ok]
    split
    · rename_i hall
      obtain ⟨t, ht, hk⟩ := commitAll_ok ops s.tables hpl (hf hall)
      simp only [ht, Run.bind_ok]
      exact ⟨_, _, rfl, fun n => (hk n).trans (h n)⟩
    · exact ⟨_, _, rfl, h⟩

end tablets

end TCP.Survive
