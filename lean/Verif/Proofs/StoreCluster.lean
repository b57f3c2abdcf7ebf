import Verif.Proofs.CacheMany
import Verif.Spec.CacheCluster
import Verif.Props.Apps

/-!
# A replicated tablet store acts as one (lemmas for C90)
-/

namespace TCP.TabletStore

open TCP ActorSpec Spec Drv DrvSpec
open TCP.Cache.Spec (Tables Log stored requestsIn)

variable {senv : Env}

/-- The same tables, whatever the order in which a hash map keeps them. -/
def Same (t t' : Tables) : Prop := ∀ n, t.get n = t'.get n

theorem Same.refl (t : Tables) : Same t t := fun _ => rfl

theorem Same.trans {a b c : Tables} (h : Same a b) (g : Same b c) : Same a c := fun n => (h n).trans (g n)

theorem Same.symm {a b : Tables} (h : Same a b) : Same b a := fun n => (h n).symm

theorem prepareAll_same {t t' : Tables} (h : Same t t') : ∀ ops, prepareAll senv t ops = prepareAll senv t' ops
  | [] => rfl
  | o :: rest => by
    unfold prepareAll
    rw [prepareAll_same h rest]
    unfold prepare
    rw [h o.table]

theorem commit_same {t t' t1 : Tables} (h : Same t t') {o : TabletOp} (hc : commit t o = .ok t1) : ∃ t1', commit t' o = .ok t1' ∧ Same t1 t1' := by
  unfold commit at hc ⊢
  rw [Run.bind_eq_ok] at hc
  obtain ⟨m, h1, hc⟩ := hc
  rw [h o.table] at h1
  rw [h1, Run.bind_ok]
  rw [Run.bind_eq_ok] at hc
  obtain ⟨op, h2, hc⟩ := hc
  rw [h2, Run.bind_ok]
  cases op with
  | list a b => simp only [Run.ok.injEq] at hc; exact ⟨t', rfl, hc ▸ h⟩
  | check i v => simp only [Run.ok.injEq] at hc; exact ⟨t', rfl, hc ▸ h⟩
  | update u =>
    simp only at hc ⊢
    rw [Run.bind_eq_ok] at hc
    obtain ⟨u', h3, hc⟩ := hc
    rw [h3, Run.bind_ok]
    simp only [Run.ok.injEq] at hc
    refine ⟨_, rfl, fun n => ?_⟩
    rw [← hc]
    by_cases hn : n = o.table
    · rw [hn, AMap.get_set_self, AMap.get_set_self]
    · rw [AMap.get_set_ne _ _ (Ne.symm hn), AMap.get_set_ne _ _ (Ne.symm hn)]; exact h n
  | add m => cases hc
  | remove a b => cases hc

theorem commitAll_same : ∀ {ops : List TabletOp} {t t' t1 : Tables}, Same t t' → commitAll t ops = .ok t1 → ∃ t1', commitAll t' ops = .ok t1' ∧ Same t1 t1'
  | [], t, t', t1, h, hc => by
    simp only [commitAll, Run.ok.injEq] at hc
    exact ⟨t', rfl, hc ▸ h⟩
  | o :: rest, t, t', t1, h, hc => by
    unfold commitAll at hc ⊢
    rw [Run.bind_eq_ok] at hc
    obtain ⟨t2, h1, hc⟩ := hc
    obtain ⟨t2', h2, h3⟩ := commit_same h h1
    rw [h2, Run.bind_ok]
    exact commitAll_same h3 hc

theorem applyRequest_same {t t' t1 : Tables} {ops : List TabletOp} {r : Response} (h : Same t t') (ha : applyRequest senv t ops = .ok (t1, r)) :
    ∃ t1', applyRequest senv t' ops = .ok (t1', r) ∧ Same t1 t1' := by
  unfold applyRequest at ha ⊢
  rw [prepareAll_same h] at ha
  rw [Run.bind_eq_ok] at ha
  obtain ⟨rs, h1, ha⟩ := ha
  rw [h1, Run.bind_ok]
  split at ha
  · rename_i hs
    rw [if_pos hs]
    rw [Run.bind_eq_ok] at ha
    obtain ⟨t2, h2, ha⟩ := ha
    obtain ⟨t2', h3, h4⟩ := commitAll_same h h2
    simp only [Run.ok.injEq, Prod.mk.injEq] at ha
    rw [h3, Run.bind_ok]
    exact ⟨t2', by rw [ha.2], ha.1 ▸ h4⟩
  · rename_i hs
    rw [if_neg hs]
    simp only [Run.ok.injEq, Prod.mk.injEq] at ha
    exact ⟨t', by rw [ha.2], ha.1 ▸ h⟩

theorem same_of_view {s s' : State} (hw : WFTables s.tables) (hw' : WFTables s'.tables) (h : view s = view s') : Same s.tables s'.tables := by
  intro n
  have hn := congrFun h n
  unfold view at hn
  cases h1 : s.tables.get n with
  | none =>
    cases h2 : s'.tables.get n with
    | none => rfl
    | some m' => rw [h1, h2] at hn; cases hn
  | some m =>
    cases h2 : s'.tables.get n with
    | none => rw [h1, h2] at hn; cases hn
    | some m' =>
      rw [h1, h2] at hn
      simp only [Option.map_some, Option.some.injEq] at hn
      rw [SMap.ext (hw.2 _ _ h1).1 (hw'.2 _ _ h2).1 fun k => congrFun hn k]

theorem member_log (he : Lawful senv) {cfg : Bytes} {b : State} {evs : List ActorEvent} {s : State} (h : Spec.Member senv cfg b evs s) :
    ∃ log t, Log senv b.tables log t ∧ Same t s.tables ∧ log.map Prod.fst = requestsIn senv evs := by
  induction h with
  | boot _ _ _ => exact ⟨[], _, .nil, .refl _, rfl⟩
  | @apply evs s ctx ec ev res s' h hs ih =>
    obtain ⟨log, t, h1, h2, h3⟩ := ih
    cases hs with
    | apply ha =>
      rcases apply_cases (ctx := ctx) ha with ⟨hd, rfl, _⟩ | ⟨ops, resp, hd, h4, _⟩
      · exact ⟨log, t, h1, h2, by simp [requestsIn, hd, h3]⟩
      · obtain ⟨t', h5, h6⟩ := applyRequest_same h2.symm h4
        exact ⟨log ++ [(ops, resp)], t', h1.snoc h5, h6.symm, by simp [requestsIn, hd, h3]⟩
  | command h hs ih =>
    cases hs with
    | command h1 => rw [command_state h1]; exact ih
  | save h hs ih =>
    cases hs with
    | save h1 => simp [actor, onSaveSnapshot] at h1; rw [← h1.1]; exact ih
  | @load evs s ctx1 t t' ctx x s' h g hsave hs ih =>
    obtain ⟨log, u, h1, h2, h3⟩ := ih
    have hm : Spec.Member senv cfg b evs s' := .load h g hsave hs
    refine ⟨log, u, h1, h2.trans ?_, h3⟩
    exact same_of_view (reachable_wf (member_reachable g)) (reachable_wf (member_reachable hm)) ((member_view he g).trans (member_view he hm).symm)

theorem log_same {t0 t : Tables} {l : List (List TabletOp × Response)} (h : Log senv t0 l t) :
    ∀ {l' : List (List TabletOp × Response)} {t' : Tables}, Log senv t0 l' t' → l.map Prod.fst = l'.map Prod.fst → l = l' ∧ t = t' := by
  induction h with
  | nil =>
    intro l' t' h' he
    cases h' with
    | nil => exact ⟨rfl, rfl⟩
    | snoc _ _ => simp at he
  | @snoc log t ops t1 r h ha ih =>
    intro l' t' h' he
    cases h' with
    | nil => simp at he
    | @snoc log' t2 ops' _ r' h2 ha2 =>
      simp only [List.map_append, List.map_cons, List.map_nil] at he
      obtain ⟨h3, h4⟩ := List.append_inj' he rfl
      simp only [List.cons.injEq, and_true] at h4
      subst h4
      obtain ⟨rfl, rfl⟩ := ih h2 h3
      rw [ha] at ha2
      simp only [Run.ok.injEq, Prod.mk.injEq] at ha2
      exact ⟨by rw [ha2.2], ha2.1⟩

theorem log_take {t0 t : Tables} {l : List (List TabletOp × Response)} (h : Log senv t0 l t) : ∀ {k l2}, l = k ++ l2 → ∃ t1, Log senv t0 k t1 := by
  induction h with
  | nil => intro k l2 he; simp at he; exact ⟨t0, he.1 ▸ .nil⟩
  | @snoc log t ops t1 r h ha ih =>
    intro k l2 he
    rcases List.eq_nil_or_concat l2 with rfl | ⟨l3, x, rfl⟩
    · rw [List.append_nil] at he
      exact ⟨t1, he ▸ h.snoc ha⟩
    · rw [List.concat_eq_append, ← List.append_assoc] at he
      obtain ⟨h1, _⟩ := List.append_inj' he rfl
      exact ih h1

/-- Logs are determined by their requestsIn; so a log whose requestsIn begin with those of another one begins with it. -/
theorem log_prefix {t0 t t' : Tables} {l k : List (List TabletOp × Response)} (h : Log senv t0 l t) (h' : Log senv t0 k t')
    (hp : k.map Prod.fst <+: l.map Prod.fst) : ∃ post, l = k ++ post := by
  have hlen : k.length ≤ l.length := by simpa using hp.length_le
  obtain ⟨t1, h1⟩ := log_take h (List.take_append_drop k.length l).symm
  have he : (l.take k.length).map Prod.fst = k.map Prod.fst := by
    rw [List.map_take]
    have := List.prefix_iff_eq_take.mp hp
    rw [List.length_map] at this
    exact this.symm
  obtain ⟨h2, _⟩ := log_same h1 h' he
  exact ⟨l.drop k.length, by rw [← h2, List.length_take]; rw [Nat.min_eq_left hlen]; exact (List.take_append_drop _ _).symm⟩

/-! ## Tablets a store starts with -/

theorem createTable_new : ∀ (ids : List UInt32) {m : Tablets}, (∀ e ∈ m, e.2 = Metadata.new e.1) →
    ∀ e ∈ ids.foldl (fun m i => SMap.insert m i (.new i)) m, e.2 = Metadata.new e.1
  | [], _, h => h
  | i :: rest, m, h => createTable_new rest fun e he => by
    rcases SMap.mem_insert he with rfl | he
    · rfl
    · exact h e he

theorem initTables_new : ∀ (cs : List (String × Nat)) {s : State}, (∀ n m, s.tables.get n = some m → ∀ e ∈ m, e.2 = Metadata.new e.1) →
    ∀ n m, (initTables senv s cs).tables.get n = some m → ∀ e ∈ m, e.2 = Metadata.new e.1
  | [], _, h => h
  | (n0, count) :: rest, s, h => initTables_new rest fun n m hn => by
    by_cases he : n = n0
    · subst he
      simp only [AMap.get_set_self, Option.some.injEq] at hn
      rw [← hn]
      exact createTable_new _ (by simp)
    · simp only [AMap.get_set_ne _ _ (Ne.symm he)] at hn
      exact h n m hn

theorem initTables_names : ∀ (cs : List (String × Nat)) {s : State} {n : String}, (n ∈ cs.map Prod.fst ∨ (s.tables.get n).isSome) →
    ((initTables senv s cs).tables.get n).isSome
  | [], _, _, h => by simpa [initTables] using h
  | (n0, count) :: rest, s, n, h => initTables_names rest (by
    by_cases he : n = n0
    · subst he; right; simp [AMap.get_set_self]
    · simp only [AMap.get_set_ne _ _ (Ne.symm he)]
      rcases h with h | h
      · left; simpa [he] using h
      · exact .inr h)

theorem started_new {s0 s : State} {ctx : ActorCtx} (h0 : s0.tables = []) (h : Started (actor senv) s0 ctx s) {table : String} {id : UInt32} {m : Metadata}
    (hm : stored s.tables table id = some m) : m = Metadata.new m.tabletId := by
  obtain ⟨cs, _, rfl⟩ := started_eq h
  unfold stored at hm
  cases ht : (initTables senv s0 cs).tables.get table with
  | none => rw [ht] at hm; cases hm
  | some ts =>
    rw [ht, Option.bind_some] at hm
    have := initTables_new cs (s := s0) (by rw [h0]; intro n m hn; simp [AMap.get] at hn) table ts ht _ (SMap.mem_of_get hm)
    simp only at this
    rw [this]
    rfl

theorem command_refuses {ctx : ActorCtx} {s s' : State} {c : Option ActorCommand} {o : CommandOutcome} {r : ActorCommand}
    (hc : (actor senv).onProcessCommand ctx s c = .ok (s', .ok o)) (hr : r ∈ o.commands) :
    ∃ q, c = some q ∧ ∃ st, r = ⟨q.correlationId, senv.encOut (.error st), []⟩ := by
  cases c with
  | none =>
    simp only [actor, onProcessCommand, Run.ok.injEq, Prod.mk.injEq, Except.ok.injEq] at hc
    rw [← hc.2] at hr
    simp at hr
  | some c =>
    refine ⟨c, rfl, ?_⟩
    have hc : onProcessCommand senv ctx s (some c) = .ok (s', .ok o) := hc
    unfold onProcessCommand at hc
    simp only at hc
    have done : ∀ {x}, (Run.ok (s, Except.ok (⟨[.withHeader c.correlationId x], none⟩ : CommandOutcome)) : Run (State × Except ActorErr CommandOutcome)) = .ok (s', .ok o) →
        r = ⟨c.correlationId, x, []⟩ := by
      intro x h
      simp only [Run.ok.injEq, Prod.mk.injEq, Except.ok.injEq] at h
      rw [← h.2] at hr
      simpa [ActorCommand.withHeader] using hr
    split at hc
    · exact ⟨_, done hc⟩
    · split at hc
      · split at hc
        · simp only [Run.ok.injEq, Prod.mk.injEq, Except.ok.injEq] at hc
          rw [← hc.2] at hr
          simp at hr
        · exact ⟨_, done hc⟩
      · exact ⟨_, done hc⟩

/-! ## How far the replicas are -/

section
variable {σ ρ κ H : Type} {S : Sys σ ρ κ H}

theorem deployed_bound {log : Nat → Entry} {founder : Nat} {fresh : σ → Prop} {cfg : Bytes} {ds : Nat → Driver σ ρ κ H}
    (h : Deployed S log founder fresh cfg ds) : ∃ N, ∀ p, (ds p).applied ≤ N := by
  induction h with
  | init h =>
    refine ⟨0, fun p => ?_⟩
    obtain ⟨a, r, c, _, hp⟩ := h p
    rw [hp]
    exact Nat.le_refl 0
  | @call ds p instant m d out h _ _ _ _ _ _ _ ih =>
    obtain ⟨N, hN⟩ := ih
    refine ⟨max N d.applied, fun q => ?_⟩
    unfold DrvSpec.update
    split
    · exact Nat.le_max_right _ _
    · exact Nat.le_trans (hN q) (Nat.le_max_left _ _)

/-- Some replica has applied as much as any. -/
theorem deployed_max {log : Nat → Entry} {founder : Nat} {fresh : σ → Prop} {cfg : Bytes} {ds : Nat → Driver σ ρ κ H}
    (h : Deployed S log founder fresh cfg ds) : ∃ p, ∀ q, (ds q).applied ≤ (ds p).applied := by
  obtain ⟨N, hN⟩ := deployed_bound h
  clear h
  induction N with
  | zero => exact ⟨0, fun q => by have := hN q; omega⟩
  | succ N ih =>
    by_cases hp : ∃ p, (ds p).applied = N + 1
    · obtain ⟨p, hp⟩ := hp
      exact ⟨p, fun q => by rw [hp]; exact hN q⟩
    · exact ih fun q => by
        have := hN q
        by_cases hq : (ds q).applied = N + 1
        · exact absurd ⟨q, hq⟩ hp
        · omega

end

end TCP.TabletStore
