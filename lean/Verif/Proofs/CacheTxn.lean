import Verif.Proofs.CacheGiven
import Verif.Proofs.CacheRun

/-! # What process handlers are given, and what they write: histories -/

namespace TCP.Cache

open TCP TCP.TabletStore TCP.Cache.Spec

variable {α η ω : Type}

theorem feedAll_cells : ∀ {ins : List Input} {c c' : MetaCache}, feedAll c ins = .ok c' → ∀ j x, c.cells.get j = some x → c'.cells.get j = some x := by
  intro ins
  induction ins with
  | nil => intro c c' h; simp only [feedAll, Run.ok.injEq] at h; subst h; exact fun _ _ h => h
  | cons i rest ih =>
    intro c c' h j x hx
    obtain ⟨c1, h1, h2⟩ := Run.bind_eq_ok.mp h
    exact ih h2 j x (feed_cells h1 j x hx)

theorem updateTablets_feed : ∀ {l : List (String × Metadata × Bool)} {md md' : MetaCache}, updateTablets md l = .ok md' →
    feedAll md (l.map fun x => .update x.1 x.2.1 x.2.2) = .ok md' := by
  intro l
  induction l with
  | nil => intro md md' h; exact h
  | cons x rest ih =>
    obtain ⟨t, m, b⟩ := x
    intro md md' h
    obtain ⟨md1, h1, h2⟩ := Run.bind_eq_ok.mp h
    simp only [List.map_cons, feedAll, feed, h1, Run.bind_ok]
    exact ih h2

/-- An update of the metadata cache, by a response with the results `rs` to the ops. -/
def Upd (ops : List TabletOp) (rs : List TabletOpResult) (t : String) (m : Metadata) (b : Bool) : Prop :=
  ∃ (k : Nat) (o : TabletOp) (x : TabletOpResult), ops[k]? = some o ∧ rs[k]? = some x ∧ o.table = t ∧ (if b then x.status ≠ .succeeded ∧ (x.result = some (.check (some m)) ∨ x.result = some (.update (some m)))
    else x.status = .succeeded ∧ o.op = some (.update (some m)))

theorem completeOps_upd : ∀ {ops : List TabletOp} {rs : List TabletOpResult} {b : Bool} {l : List (String × Metadata × Bool)},
    completeOps ops rs = .ok (b, l) → ∀ e ∈ l, Upd ops rs e.1 e.2.1 e.2.2 := by
  intro ops
  induction ops with
  | nil => intro rs b l h; simp only [completeOps, Run.ok.injEq, Prod.mk.injEq] at h; rw [← h.2]; simp
  | cons o ops ih =>
    intro rs b l h
    cases rs with
    | nil => simp only [completeOps, Run.ok.injEq, Prod.mk.injEq] at h; rw [← h.2]; simp
    | cons r rs =>
      unfold completeOps at h
      dsimp only at h
      obtain ⟨x, h1, h2⟩ := Run.bind_eq_ok.mp h
      obtain ⟨⟨b', l'⟩, h3, h4⟩ := Run.bind_eq_ok.mp h2
      simp only [Run.ok.injEq, Prod.mk.injEq] at h4
      rw [← h4.2]
      intro e he
      rcases List.mem_append.mp he with he | he
      · refine ⟨0, o, r, rfl, rfl, ?_⟩
        by_cases hst : r.status = .succeeded
        · simp only [hst, decide_true, if_true] at h1
          split at h1
          · simp only [Run.ok.injEq] at h1; rw [← h1] at he; simp at he
          · rename_i u _ ho _
            obtain ⟨m, k1, k2⟩ := Run.bind_eq_ok.mp h1
            simp only [Run.ok.injEq] at k2
            rw [← k2] at he
            rw [List.mem_singleton.mp he]
            cases u with
            | none => simp [Run.unwrap] at k1
            | some u =>
              simp only [Run.unwrap_some, Run.ok.injEq] at k1
              subst k1
              exact ⟨rfl, by simp [hst, ho]⟩
          · simp at h1
        · simp only [hst, decide_false, Bool.false_eq_true, if_false] at h1
          split at h1
          · rename_i existing _ hr
            obtain ⟨m, k1, k2⟩ := Run.bind_eq_ok.mp h1
            simp only [Run.ok.injEq] at k2
            rw [← k2] at he
            rw [List.mem_singleton.mp he]
            cases existing with
            | none => simp [Run.unwrap] at k1
            | some u =>
              simp only [Run.unwrap_some, Run.ok.injEq] at k1
              subst k1
              exact ⟨rfl, by simp [hst, hr]⟩
          · rename_i existing _ hr
            obtain ⟨m, k1, k2⟩ := Run.bind_eq_ok.mp h1
            simp only [Run.ok.injEq] at k2
            rw [← k2] at he
            rw [List.mem_singleton.mp he]
            cases existing with
            | none => simp [Run.unwrap] at k1
            | some u =>
              simp only [Run.unwrap_some, Run.ok.injEq] at k1
              subst k1
              exact ⟨rfl, by simp [hst, hr]⟩
          · simp at h1
      · obtain ⟨k, o', x', k1, k2, k3⟩ := ih h3 e he
        exact ⟨k + 1, o', x', by simpa using k1, by simpa using k2, k3⟩

/-- A response feeds the metadata cache. -/
theorem opsResponse_feed {m m' : Manager α η ω} {corr : Nat} {r : Response} (h : m.opsResponse corr r = .ok m') :
    ∃ us, feedAll m.world.md (.list (r.results.filter TabletOpResult.isList) :: us) = .ok m'.world.md ∧
      (us = [] ∨ ∃ i ops b l, m.coord.correlations.get corr = some i ∧ m.coord.txns.get i = some (.committing ops) ∧ answers r ≠ [] ∧
        completeOps ops (answers r) = .ok (b, l) ∧ us = l.map fun x => .update x.1 x.2.1 x.2.2) := by
  obtain ⟨_, _, _, md, h1, h2⟩ := opsResponse_cases h
  have hl : feed m.world.md (.list (r.results.filter TabletOpResult.isList)) = .ok md := h1
  rcases h2 with ⟨_, _, rfl⟩ | ⟨hne, h2⟩
  · exact ⟨[], by simp [feedAll, hl], .inl rfl⟩
  · unfold Coordinator.processIn at h2
    cases hcr : m.coord.correlations.get corr with
    | none =>
      simp only [hcr, Run.ok.injEq, Prod.mk.injEq] at h2
      rw [← h2.2]
      exact ⟨[], by simp [feedAll, hl], .inl rfl⟩
    | some i =>
      simp only [hcr] at h2
      split at h2
      · rename_i ops hops
        obtain ⟨x, h3, h4⟩ := Run.bind_eq_ok.mp h2
        obtain ⟨md', h5, h6⟩ := Run.bind_eq_ok.mp h4
        simp only [Run.ok.injEq, Prod.mk.injEq] at h6
        rw [← h6.2]
        refine ⟨x.2.map fun x => .update x.1 x.2.1 x.2.2, ?_, .inr ⟨i, ops, x.1, x.2, rfl, hops, hne, h3, rfl⟩⟩
        simp only [feedAll, hl, Run.bind_ok]
        exact updateTablets_feed h5
      · simp only [Run.ok.injEq, Prod.mk.injEq] at h2
        rw [← h2.2]
        exact ⟨[], by simp [feedAll, hl], .inl rfl⟩

theorem _root_.TCP.Cache.Spec.Sourced.mono {evs more : List (MEvent η)} {ins : List Input} (h : Sourced evs ins) : Sourced (evs ++ more) ins where
  lists := fun rs hr x hx => by
    rcases h.lists rs hr x hx with ⟨corr, r, h1, h2⟩ | h1
    · exact .inl ⟨corr, r, by simp [h1], h2⟩
    · exact .inr h1
  updates := fun t m b hm => by
    obtain ⟨i, corr, ops, k, o, r, x, h1, h2, h3, h4, h5⟩ := h.updates t m b hm
    exact ⟨i, corr, ops, k, o, r, x, by simp [h1], h2, h3, by simp [h4], h5⟩

theorem _root_.TCP.Cache.Spec.Sourced.append {evs : List (MEvent η)} {a b : List Input} (h : Sourced evs a) (k : Sourced evs b) : Sourced evs (a ++ b) where
  lists := fun rs hr => by
    rcases List.mem_append.mp hr with hr | hr
    · exact h.lists rs hr
    · exact k.lists rs hr
  updates := fun t m b hm => by
    rcases List.mem_append.mp hm with hm | hm
    · exact h.updates t m b hm
    · exact k.updates t m b hm

theorem sourced_plain {evs : List (MEvent η)} {a : List Input} (h : ∀ i ∈ a, Plain i) : Sourced evs a where
  lists := fun rs hr => absurd (h _ hr) (by simp [Plain])
  updates := fun t m b hm => absurd (h _ hm) (by simp [Plain])

structure GW (env : TxnEnv α η ω) (cfg : List (String × UInt32)) (evs : List (MEvent η)) (c : Client α η ω) (c0 : MetaCache) (ins : List Input)
    (devs : List (Event α)) (R : Call α η ω → Prop) : Prop where
  wh : WH env cfg c0 ins devs c.m.world
  io : devs.filterMap ioD = evs.filterMap ioM
  sourced : Sourced evs ins
  wf : c.m.coord.txns.WF
  procs : AllG env evs R ins devs c.m.world c.m.coord.txns
  did : ∀ x, R x → ∀ ps, (x.2.2.1, TxnState.preparing ps) ∈ c.m.coord.txns → ∃ p ∈ ps, Did env ins devs c.m.world x p
  known : ∀ x, R x → x.2.2.1 ≤ c.m.coord.txnCounter

/-- Steps that start no process requests and advance none. -/
theorem GW.next {env : TxnEnv α η ω} {cfg : List (String × UInt32)} {evs : List (MEvent η)} {c c' : Client α η ω} {c0 : MetaCache} {ins ins' : List Input}
    {devs devs' : List (Event α)} {R : Call α η ω → Prop} {ev : MEvent η} (h : GW env cfg evs c c0 ins devs R)
    (hw : WH env cfg c0 ins' devs' c'.m.world) (he : Ext ins ins' devs devs' c.m.world c'.m.world)
    (hio : devs'.filterMap ioD = (evs ++ [ev]).filterMap ioM) (hso : Sourced (evs ++ [ev]) ins') (hwf : c'.m.coord.txns.WF)
    (h1 : ∀ i ps, (i, TxnState.preparing ps) ∈ c'.m.coord.txns → (i, TxnState.preparing ps) ∈ c.m.coord.txns)
    (h2 : c'.m.coord.txnCounter = c.m.coord.txnCounter) : GW env cfg (evs ++ [ev]) c' c0 ins' devs' R where
  wh := hw
  io := hio
  sourced := hso
  wf := hwf
  procs := fun i ps hi p hp => (h.procs i ps (h1 i ps hi) p hp).mono (fun _ h => h) he
  did := fun x hx ps hp => by
    obtain ⟨p, h3, h4⟩ := h.did x hx ps (h1 _ _ hp)
    exact ⟨p, h3, h4.mono he⟩
  known := fun x hx => by rw [h2]; exact h.known x hx

/-- Only the metadata cache is fed. -/
theorem WH.feed {env : TxnEnv α η ω} {cfg : List (String × UInt32)} {c0 : MetaCache} {ins a : List Input} {devs : List (Event α)} {w w' : World α ω}
    (h : WH env cfg c0 ins devs w) (hf : feedAll w.md a = .ok w'.md) (hd : w'.data = w.data) :
    WH env cfg c0 (ins ++ a) devs w' ∧ Ext ins (ins ++ a) devs devs w w' := by
  have hc := feedAll_cells hf
  refine ⟨⟨h.started, feedAll_append h.fed hf, by rw [hd]; exact h.hist, by rw [hd]; exact h.metas.mono fun m hm => KnownMeta.mono hc hm⟩,
    ⟨a, rfl⟩, ⟨[], by simp⟩, hc, by rw [hd]; exact Keeps.refl _⟩

theorem gw_opsResponse {env : TxnEnv α η ω} {cfg : List (String × UInt32)} {evs : List (MEvent η)} {c : Client α η ω} {c0 : MetaCache} {ins : List Input}
    {devs : List (Event α)} {R : Call α η ω → Prop} (hi : CInv evs c) (h : GW env cfg evs c c0 ins devs R) {corr : Nat} {r : Response} {m' : Manager α η ω}
    {es : AMap Nat Response} {inp : MgrIn} (hio : ioM (.input inp : MEvent η) = none)
    (hinp : inp = .response corr r ∨ ∀ x ∈ r.results, ErrRes x) (hs : { c.m with errors := es }.opsResponse corr r = .ok m') :
    ∃ ins', GW env cfg (evs ++ [.input inp]) { c with m := m' } c0 ins' devs R := by
  obtain ⟨us, hf, hus⟩ := opsResponse_feed hs
  generalize ha : Input.list (r.results.filter TabletOpResult.isList) :: us = a at hf
  have hso : Sourced (evs ++ [MEvent.input inp]) (ins ++ a) := by
    refine h.sourced.mono.append ?_
    rw [← ha]
    constructor
    · intro rs hr x hx
      have hrs : rs = r.results.filter TabletOpResult.isList := by
        rcases List.mem_cons.mp hr with hr | hr
        · simpa using hr
        · rcases hus with rfl | ⟨i, ops, b, l, _, _, _, _, rfl⟩
          · simp at hr
          · obtain ⟨y, _, hy⟩ := List.mem_map.mp hr; simp at hy
      subst hrs
      have hx' := (List.mem_filter.mp hx).1
      rcases hinp with rfl | hinp
      · exact .inl ⟨corr, r, by simp, hx'⟩
      · exact .inr (hinp x hx').1
    · intro t m b hm
      rcases List.mem_cons.mp hm with hm | hm
      · simp at hm
      · rcases hus with rfl | ⟨i, ops, b', l, h1, h2, h3, h4, rfl⟩
        · simp at hm
        · obtain ⟨y, hy, hym⟩ := List.mem_map.mp hm
          simp only [Input.update.injEq] at hym
          obtain ⟨rfl, rfl, rfl⟩ := hym
          obtain ⟨k, o, x, k1, k2, k3, k4⟩ := completeOps_upd h4 y hy
          obtain ⟨_, ops', a', b'', e1, e2⟩ := hi.corr corr i h1
          have h2' : c.m.coord.txns.get i = some (.committing ops) := h2
          rw [e1] at h2'
          simp only [Option.some.injEq, TxnState.committing.injEq] at h2'
          subst h2'
          rcases hinp with rfl | hinp
          · exact ⟨i, corr, ops', k, o, r, x, by simp [e2], k1, k3, by simp, k2, k4⟩
          · exfalso
            cases ha' : answers r with
            | nil => exact h3 ha'
            | cons z zs =>
              have hz : z ∈ answers r := by rw [ha']; simp
              rw [← answers_eq] at hz
              obtain ⟨z1, z2⟩ := List.mem_filter.mp hz
              cases ops' with
              | nil => simp at k1
              | cons o' ops' =>
                rw [ha', completeOps_err (hinp z z1) z2] at h4
                cases h4
  obtain ⟨hd, _, _, md, _, hc⟩ := opsResponse_cases hs
  obtain ⟨k1, k2⟩ := h.wh.feed (w' := m'.world) hf hd
  have hio' : devs.filterMap ioD = (evs ++ [MEvent.input inp]).filterMap ioM := by
    rw [List.filterMap_append, h.io]; simp [List.filterMap_cons, hio]
  refine ⟨ins ++ a, ?_⟩
  have same : m'.coord.txns = c.m.coord.txns → m'.coord.txnCounter = c.m.coord.txnCounter → GW env cfg (evs ++ [.input inp]) { c with m := m' } c0 (ins ++ a) devs R :=
    fun h1 h2 => h.next k1 k2 hio' hso (by dsimp only; rw [h1]; exact h.wf) (by dsimp only; rw [h1]; exact fun _ _ h => h) h2
  rcases hc with ⟨_, hc, _⟩ | ⟨_, hc⟩
  · exact same (by rw [hc]) (by rw [hc])
  · rcases processIn_cases hc with ⟨_, hc⟩ | ⟨i, _, hc⟩
    · exact same (by rw [hc]) (by rw [hc])
    · rcases hc with ⟨ops, b, l, _, _, _, hc⟩ | ⟨_, hc⟩
      · refine h.next k1 k2 hio' hso ?_ ?_ (by simp [hc])
        · simp only [hc]; exact h.wf.set _ _
        · intro j ps hj
          simp only [hc] at hj
          rcases mem_set hj with hj | hj
          · simp at hj
          · exact hj
      · exact same (by rw [hc]) (by rw [hc])

section
variable [DecidableEq α] [DecidableEq η] [DecidableEq ω]

theorem gw_step {env : TxnEnv α η ω} (hsane : Sane env) {cfg : List (String × UInt32)} {evs : List (MEvent η)} {c c' : Client α η ω} {c0 : MetaCache}
    {ins : List Input} {devs : List (Event α)} {R : Call α η ω → Prop} {ev : MEvent η} (hc : CInv evs c) (h : GW env cfg evs c c0 ins devs R)
    (hs : MStep env c ev c') (hi : ∀ t, ev ≠ .init t) :
    ∃ ins' devs', GW env cfg (evs ++ [ev]) c' c0 ins' devs' (fun x => R x ∨ ev = .progress ∧ Calls env c.m c'.m x.1 x.2.1 x.2.2.1 x.2.2.2) ∧
      ∀ x : Call α η ω, ev = .progress ∧ Calls env c.m c'.m x.1 x.2.1 x.2.2.1 x.2.2.2 → GivenW evs ins' devs' c'.m.world x := by
  -- nothing is called
  have quiet : ev ≠ .progress → (∃ ins' devs', GW env cfg (evs ++ [ev]) c' c0 ins' devs' R) →
      ∃ ins' devs', GW env cfg (evs ++ [ev]) c' c0 ins' devs' (fun x => R x ∨ ev = .progress ∧ Calls env c.m c'.m x.1 x.2.1 x.2.2.1 x.2.2.2) ∧
      ∀ x : Call α η ω, ev = .progress ∧ Calls env c.m c'.m x.1 x.2.1 x.2.2.1 x.2.2.2 → GivenW evs ins' devs' c'.m.world x := by
    rintro hne ⟨ins', devs', hg⟩
    refine ⟨ins', devs', ?_, fun x hx => absurd hx.1 hne⟩
    have : (fun x : Call α η ω => R x ∨ ev = .progress ∧ Calls env c.m c'.m x.1 x.2.1 x.2.2.1 x.2.2.2) = R := by
      funext x; simp [hne]
    rw [this]; exact hg
  have hio0 : ioM ev = none → devs.filterMap ioD = (evs ++ [ev]).filterMap ioM := by
    intro hn; rw [List.filterMap_append, h.io]; simp [List.filterMap_cons, hn]
  have keep : ioM ev = none → c'.m.world = c.m.world → c'.m.coord.txns.WF →
      (∀ i ps, (i, TxnState.preparing ps) ∈ c'.m.coord.txns → (i, TxnState.preparing ps) ∈ c.m.coord.txns) →
      c'.m.coord.txnCounter = c.m.coord.txnCounter → ∃ ins' devs', GW env cfg (evs ++ [ev]) c' c0 ins' devs' R := by
    intro k1 k2 k3 k4 k5
    exact ⟨ins, devs, h.next (by rw [k2]; exact h.wh) (by rw [k2]; exact Ext.refl _ _ _) (hio0 k1) h.sourced.mono k3 k4 k5⟩
  cases hs with
  | init _ => exact absurd rfl (hi _)
  | @app w =>
    refine quiet (by simp) ⟨ins, devs, h.next ⟨h.wh.started, h.wh.fed, h.wh.hist, h.wh.metas⟩ ⟨⟨[], by simp⟩, ⟨[], by simp⟩, fun _ _ h => h, Keeps.refl _⟩
      (hio0 rfl) h.sourced.mono h.wf (fun _ _ h => h) rfl⟩
  | start =>
    refine quiet (by simp) ⟨ins, devs, h.wh, hio0 rfl, h.sourced.mono, h.wf.set _ _, ?_, ?_, ?_⟩
    · intro i ps hi p hp
      rcases mem_set hi with hi | hi
      · simp only [Prod.mk.injEq, TxnState.preparing.injEq] at hi
        rw [hi.2] at hp; simp at hp
      · exact (h.procs i ps hi p hp).mono (fun _ h => h) (Ext.refl _ _ _)
    · intro x hx ps hp
      rcases mem_set hp with hp | hp
      · simp only [Prod.mk.injEq] at hp
        have := h.known x hx
        omega
      · exact h.did x hx ps hp
    · intro x hx
      have := h.known x hx
      simp only [Coordinator.createTxn]
      omega
  | @process i qs hd co ho hs =>
    obtain ⟨ps, hps⟩ := hc.opened i ho
    simp only [Coordinator.process, hps, Run.ok.injEq] at hs
    subst hs
    refine quiet (by simp) ⟨ins, devs, h.wh, hio0 rfl, h.sourced.mono, h.wf.set _ _, ?_, ?_, h.known⟩
    · intro j ps' hj p hp
      rcases mem_set hj with hj | hj
      · simp only [Prod.mk.injEq, TxnState.preparing.injEq] at hj
        obtain ⟨rfl, rfl⟩ := hj
        rcases List.mem_append.mp hp with hp | hp
        · exact (h.procs _ ps (AMap.mem_of_get hps) p hp).mono (fun _ h => h) (Ext.refl _ _ _)
        · rw [List.mem_singleton.mp hp]
          exact ⟨qs, by simp, rfl, rfl⟩
      · exact (h.procs j ps' hj p hp).mono (fun _ h => h) (Ext.refl _ _ _)
    · intro x hx ps' hp
      rcases mem_set hp with hp | hp
      · simp only [Prod.mk.injEq, TxnState.preparing.injEq] at hp
        obtain ⟨hxi, rfl⟩ := hp
        obtain ⟨p, k1, k2⟩ := h.did x hx ps (by rw [hxi]; exact AMap.mem_of_get hps)
        exact ⟨p, by simp [k1], k2⟩
      · exact h.did x hx ps' hp
  | pending ho hs => exact quiet (by simp) (keep rfl rfl h.wf (fun _ _ h => h) rfl)
  | @commit i co ho hs =>
    obtain ⟨ps, hps, ha, rfl⟩ := commit_cases hs
    refine quiet (by simp) (keep rfl rfl (h.wf.set _ _) (fun j ps' hj => ?_) rfl)
    rcases mem_set hj with hj | hj
    · simp at hj
    · exact hj
  | @abort i ho => exact quiet (by simp) (keep rfl rfl (h.wf.erase _) (fun j ps hj => mem_erase hj) rfl)
  | @check i x x' m ho hs =>
    refine quiet (by simp) ?_
    unfold Commit.check at hs
    cases hx : x.outcome with
    | some o =>
      simp only [hx, Run.ok.injEq, Prod.mk.injEq] at hs
      obtain ⟨rfl, rfl⟩ := hs
      exact keep rfl rfl h.wf (fun _ _ h => h) rfl
    | none =>
      simp only [hx] at hs
      obtain ⟨⟨co, r⟩, h1, h2⟩ := Run.bind_eq_ok.mp hs
      simp only [Run.ok.injEq, Prod.mk.injEq] at h2
      obtain ⟨rfl, rfl⟩ := h2
      unfold Coordinator.check at h1
      split at h1
      · simp at h1
      · simp at h1
      · simp only [Run.ok.injEq, Prod.mk.injEq] at h1
        obtain ⟨rfl, rfl⟩ := h1
        exact keep rfl rfl h.wf (fun _ _ h => h) rfl
      · simp only [Run.ok.injEq, Prod.mk.injEq] at h1
        obtain ⟨rfl, rfl⟩ := h1
        exact keep rfl rfl (h.wf.erase _) (fun j ps hj => mem_erase hj) rfl
  | @resolve qs m hs =>
    unfold Manager.resolve at hs
    obtain ⟨md, h1, h2⟩ := Run.bind_eq_ok.mp hs
    simp only [Run.ok.injEq] at h2
    subst h2
    have hf : feedAll c.m.world.md [.resolve .handler qs] = .ok md := by simp [feedAll, feed, h1]
    obtain ⟨k1, k2⟩ := h.wh.feed (w' := { c.m.world with md := md }) hf rfl
    exact quiet (by simp) ⟨_, devs, h.next k1 k2 (hio0 rfl) (h.sourced.mono.append (sourced_plain (by simp [Plain]))) h.wf (fun _ _ h => h) rfl⟩
  | @input i m hs =>
    refine quiet (by simp) ?_
    cases i with
    | data r =>
      simp only [Manager.processIn] at hs
      obtain ⟨d, h1, h2⟩ := Run.bind_eq_ok.mp hs
      simp only [Run.ok.injEq] at h2
      subst h2
      refine ⟨ins, devs ++ [.response r], h.next ⟨h.wh.started, h.wh.fed, h.wh.hist.response h1, processIn_meta h1 h.wh.metas⟩
        ⟨⟨[], by simp⟩, ⟨_, rfl⟩, fun _ _ h => h, ?_⟩ ?_ h.sourced.mono h.wf (fun _ _ h => h) rfl⟩
      · have := (processIn_ok (history_inv h.wh.hist).base h1)
        exact (by dsimp only; rw [this.2.1]; exact Keeps.refl _)
      · rw [List.filterMap_append, List.filterMap_append, h.io]; simp [List.filterMap_cons, ioM, ioD]
    | response corr r =>
      obtain ⟨ins', hg⟩ := gw_opsResponse hc h rfl (.inl rfl) hs
      exact ⟨ins', devs, hg⟩
    | error corr =>
      simp only [Manager.processIn] at hs
      cases hg : c.m.errors.get corr with
      | none =>
        simp only [hg, Run.ok.injEq] at hs
        subst hs
        exact keep rfl rfl h.wf (fun _ _ h => h) rfl
      | some r =>
        simp only [hg] at hs
        obtain ⟨ins', hg⟩ := gw_opsResponse (inp := .error corr) hc h rfl (.inr (hc.errors _ _ hg)) hs
        exact ⟨ins', devs, hg⟩
  | @take m outs hs =>
    unfold Manager.takeOut at hs
    obtain ⟨es, h1, h2⟩ := Run.bind_eq_ok.mp hs
    simp only [Run.ok.injEq, Prod.mk.injEq] at h2
    obtain ⟨rfl, rfl⟩ := h2
    have hf : feed c.m.world.md .take = .ok c.m.world.md.takeOut.1 := rfl
    refine quiet (by simp) ⟨ins ++ [.take], devs ++ [.take c.m.world.data.out], h.next ⟨h.wh.started, feedAll_snoc (c0 := c0) h.wh.fed hf, h.wh.hist.take, ?_⟩
      ⟨⟨_, rfl⟩, ⟨_, rfl⟩, feed_cells hf, Keeps.refl _⟩ ?_ (h.sourced.mono.append (sourced_plain (by simp [Plain]))) h.wf (fun _ _ h => h) rfl⟩
    · exact ⟨h.wh.metas.entries, h.wh.metas.batches, h.wh.metas.cells⟩
    · rw [List.filterMap_append, List.filterMap_append, h.io]
      have e1 : ∀ l : List (Nat × List TabletOp), (l.map (fun x => MgrOut.ops x.1 x.2)).filterMap MgrOut.data? = [] := by
        intro l; rw [List.filterMap_map, List.filterMap_eq_nil_iff]; intro x _; rfl
      have e2 : ∀ l : List DataOut, (l.map MgrOut.data).filterMap MgrOut.data? = l := by
        intro l; rw [List.filterMap_map]; exact List.filterMap_some
      simp only [List.filterMap_cons, ioM, ioD, List.filterMap_append, e1, e2, List.nil_append]
      rfl
  | @progress m hs =>
    have hs0 := hs
    unfold Manager.makeProgress at hs
    obtain ⟨md, hmd, h2⟩ := Run.bind_eq_ok.mp hs
    obtain ⟨d, hd, h3⟩ := Run.bind_eq_ok.mp h2
    obtain ⟨⟨ts, w⟩, h4, h5⟩ := Run.bind_eq_ok.mp h3
    simp only [Run.ok.injEq] at h5
    subst h5
    have hf : feed c.m.world.md .progress = .ok md := hmd
    have hcalls : ∀ x : Call α η ω, Calls env c.m _ x.1 x.2.1 x.2.2.1 x.2.2.2 ↔ x ∈ txnCalls env c.m.coord.txns { c.m.world with md := md, data := d } :=
      fun x => calls_iff hmd hd h4 hs0
    have hw1 : WH env cfg c0 (ins ++ [.progress]) (devs ++ [.progress]) { c.m.world with md := md, data := d } :=
      ⟨h.wh.started, feedAll_snoc (c0 := c0) h.wh.fed hf, h.wh.hist.progress hsane hd,
        makeProgress_meta hd (h.wh.metas.mono fun m hm => KnownMeta.mono (feed_cells hf) hm)⟩
    have he1 : Ext ins (ins ++ [.progress]) devs (devs ++ [.progress]) c.m.world { c.m.world with md := md, data := d } :=
      ⟨⟨_, rfl⟩, ⟨_, rfl⟩, feed_cells hf, (makeProgress_ok (history_inv h.wh.hist).base hsane hd).2.1⟩
    let R' : Call α η ω → Prop := fun x => R x ∨ MEvent.progress (η := η) = .progress ∧ Calls env c.m { c.m with coord := { c.m.coord with txns := ts }, world := w } x.1 x.2.1 x.2.2.1 x.2.2.2
    have ha : AllG env evs R' (ins ++ [.progress]) (devs ++ [.progress]) { c.m.world with md := md, data := d } c.m.coord.txns := by
      have := h.procs.mono (more := []) (R' := R') (fun _ h => .inl h) he1
      simpa using this
    obtain ⟨a, b, k1, kp, k2, k3, k4, k5, k6, k7⟩ := stepTxns_ginv hw1 ha h4 (fun x hx => .inr ⟨rfl, (hcalls x).mpr hx⟩)
    have hk := (stepTxns_each h4).2.1
    have hwf : ts.WF := by
      have := h.wf
      unfold AMap.WF at this ⊢
      rw [hk]; exact this
    refine ⟨ins ++ [.progress] ++ a, devs ++ [.progress] ++ b, ⟨k2, ?_, ?_, hwf, ?_, ?_, ?_⟩, fun x hx => (k7 x ((hcalls x).mp hx.2)).2⟩
    · rw [List.filterMap_append, List.filterMap_append, List.filterMap_append, h.io, called_io k1]; simp [List.filterMap_cons, ioM, ioD]
    · exact (h.sourced.mono.append (sourced_plain (by simp [Plain]))).append (sourced_plain kp)
    · exact k4.mono (fun _ h => h) (Ext.refl _ _ _)
    · intro x hx ps hp
      have hin : DidIn env (ins ++ [.progress] ++ a) (devs ++ [.progress] ++ b) w ts x := by
        apply k5
        rcases hx with hx | hx
        · obtain ⟨ps0, h6⟩ := k6 _ _ hp
          obtain ⟨p, h7, h8⟩ := h.did x hx ps0 h6
          exact .inr ⟨ps0, h6, p, h7, h8.mono he1⟩
        · exact .inl ((hcalls x).mp hx.2)
      obtain ⟨ps', h6, h7⟩ := hin
      have e1 := AMap.get_of_mem hwf hp
      have e2 := AMap.get_of_mem hwf h6
      rw [e1] at e2
      simp only [Option.some.injEq, TxnState.preparing.injEq] at e2
      subst e2
      exact h7
    · rintro x (hx | hx)
      · exact h.known x hx
      · obtain ⟨⟨ps, h6⟩, _⟩ := k7 x ((hcalls x).mp hx.2)
        exact hc.le _ _ (AMap.get_of_mem h.wf h6)

theorem gw_steps {env : TxnEnv α η ω} (hsane : Sane env) {cfg : List (String × UInt32)} {evs more : List (MEvent η)} {c c' : Client α η ω} {c0 : MetaCache}
    {ins : List Input} {devs : List (Event α)} {R : Call α η ω → Prop} (hc : CInv evs c) (h : GW env cfg evs c c0 ins devs R)
    (hs : MSteps env c more c') (hi : ∀ t, .init t ∉ more) :
    ∃ ins' devs' R', GW env cfg (evs ++ more) c' c0 ins' devs' R' ∧ (∀ x, R x → R' x) ∧ ∀ x, R' x → R x ∨
      ∃ a b c1 m, more = a ++ .progress :: b ∧ MSteps env c a c1 ∧ Calls env c1.m m x.1 x.2.1 x.2.2.1 x.2.2.2 ∧ MSteps env { c1 with m := m } b c' := by
  induction hs with
  | refl => exact ⟨ins, devs, R, by simpa using h, fun _ h => h, fun _ h => .inl h⟩
  | @step evs' c1 ev c2 h1 hs ih =>
    obtain ⟨ins', devs', R', k1, k2, k3⟩ := ih (fun t ht => hi t (by simp [ht]))
    obtain ⟨ins2, devs2, l1, _⟩ := gw_step hsane (cinv_steps hc h1) k1 hs (fun t ht => hi t (by simp [ht]))
    refine ⟨ins2, devs2, fun x => R' x ∨ ev = .progress ∧ Calls env c1.m c2.m x.1 x.2.1 x.2.2.1 x.2.2.2, by simpa using l1, fun x hx => .inl (k2 x hx), ?_⟩
    rintro x (hx | ⟨rfl, hx⟩)
    · rcases k3 x hx with hx | ⟨a, b, c3, m, e1, e2, e3, e4⟩
      · exact .inl hx
      · exact .inr ⟨a, b ++ [ev], c3, m, by simp [e1], e2, e3, .step e4 hs⟩
    · right
      refine ⟨evs', [], c1, c2.m, rfl, h1, hx, ?_⟩
      generalize he : MEvent.progress (η := η) = ev at hs
      cases hs with
      | progress hs => exact .refl
      | _ => simp at he

omit [DecidableEq α] [DecidableEq η] [DecidableEq ω] in
theorem gw_init {env : TxnEnv α η ω} {cfg : List (String × UInt32)} {co md d : Nat} {w : ω} {c : Client α η ω}
    (hs : MStep env (⟨.create co md d w, [], []⟩ : Client α η ω) (.init cfg) c) :
    ∃ c0, GW env cfg [.init cfg] c c0 [] [] (fun _ => False) := by
  generalize he : MEvent.init (η := η) cfg = ev at hs
  cases hs with
  | @init tables m hs =>
    simp only [MEvent.init.injEq] at he
    subst he
    unfold Manager.init at hs
    obtain ⟨c0, h1, h2⟩ := Run.bind_eq_ok.mp hs
    simp only [Run.ok.injEq] at h2
    subst h2
    exact ⟨c0, ⟨⟨md, h1⟩, rfl, .create, allMeta_create⟩, rfl, sourced_plain (by simp), AMap.WF.nil, by simp [AllG, Manager.create, Coordinator.create], by simp, by simp⟩
  | _ => simp at he

theorem history_gw {env : TxnEnv α η ω} (hsane : Sane env) {cfg : List (String × UInt32)} {evs : List (MEvent η)} {c : Client α η ω} (h : MHistory env evs c)
    (hcfg : Configured cfg evs) : ∃ c0 ins devs R, GW env cfg evs c c0 ins devs R ∧ ∀ x, R x → CalledIn env evs c x.1 x.2.1 x.2.2.1 x.2.2.2 := by
  obtain ⟨rest, rfl, hno⟩ := hcfg
  obtain ⟨co, md, d, w, h⟩ := h
  obtain ⟨c1, c2, h1, h2, h3⟩ := h.split (a := []) rfl
  have : c1 = ⟨.create co md d w, [], []⟩ := by
    generalize he : ([] : List (MEvent η)) = l at h1
    cases h1 with
    | refl => rfl
    | step _ _ => simp at he
  subst this
  obtain ⟨c0, k⟩ := gw_init h2
  have hc := cinv_step (cinv_create co md d w) h2
  obtain ⟨ins, devs, R, l1, l2, l3⟩ := gw_steps hsane hc k h3 hno
  refine ⟨c0, ins, devs, R, l1, fun x hx => ?_⟩
  rcases l3 x hx with hx | ⟨a, b, c3, m, e1, e2, e3, e4⟩
  · exact hx.elim
  · exact ⟨.init cfg :: a, b, c3, m, by simp [e1], ⟨co, md, d, w, (MSteps.single h2).append e2⟩, e3, e4⟩

/-- All calls so far are tracked. -/
theorem called_gw {env : TxnEnv α η ω} (hsane : Sane env) {cfg : List (String × UInt32)} {evs : List (MEvent η)} {c : Client α η ω} (hcfg : Configured cfg evs)
    {x : Call α η ω} (hx : CalledIn env evs c x.1 x.2.1 x.2.2.1 x.2.2.2) : ∃ c0 ins devs R, GW env cfg evs c c0 ins devs R ∧ R x := by
  obtain ⟨a, b, c1, m, rfl, h1, h2, h3⟩ := hx
  obtain ⟨rest, he, hno⟩ := hcfg
  cases a with
  | nil => simp at he
  | cons e a =>
    simp only [List.cons_append, List.cons.injEq] at he
    obtain ⟨rfl, rfl⟩ := he
    obtain ⟨c0, ins, devs, R, k1, _⟩ := history_gw hsane h1 ⟨a, rfl, fun t ht => hno t (by simp [ht])⟩
    have hs : MStep env c1 .progress { c1 with m := m } := .progress h2.1
    obtain ⟨ins1, devs1, k2, _⟩ := gw_step hsane (history_cinv h1) k1 hs (by simp)
    have hc := cinv_step (history_cinv h1) hs
    obtain ⟨ins2, devs2, R', k3, k4, _⟩ := gw_steps hsane hc k2 h3 (fun t ht => hno t (by simp [ht]))
    exact ⟨c0, ins2, devs2, R', by simpa using k3, k4 x (.inr ⟨rfl, h2⟩)⟩

/-- What a call was given. -/
theorem calls_given {env : TxnEnv α η ω} (hsane : Sane env) {cfg : List (String × UInt32)} {evs : List (MEvent η)} {c : Client α η ω} (h : MHistory env evs c)
    (hcfg : Configured cfg evs) {m : Manager α η ω} {x : Call α η ω} (hx : Calls env c.m m x.1 x.2.1 x.2.2.1 x.2.2.2) :
    ∃ c0 ins devs R, GW env cfg (evs ++ [.progress]) { c with m := m } c0 ins devs R ∧ GivenW evs ins devs m.world x := by
  obtain ⟨c0, ins, devs, R, k1, _⟩ := history_gw hsane h hcfg
  obtain ⟨ins1, devs1, k2, k3⟩ := gw_step hsane (history_cinv h) k1 (.progress hx.1) (by simp)
  exact ⟨c0, ins1, devs1, _, k2, k3 x ⟨rfl, hx⟩⟩

end

/-! ## What the storage did, seen from the manager -/

def IO.outs : IO → List DataOut
  | .out l => l
  | .inp _ => []

theorem requests_io {devs : List (Event α)} : (devs.flatMap fun e => match e with | .take outs => outs | _ => []) = (devs.filterMap ioD).flatMap IO.outs := by
  induction devs with
  | nil => rfl
  | cons e rest ih => cases e <;> simp [List.flatMap_cons, List.filterMap_cons, ih, ioD, IO.outs]

theorem mrequests_io {evs : List (MEvent η)} : (evs.flatMap fun e => match e with
    | .take outs => outs.filterMap fun o => match o with | .data r => some r | .ops _ _ => none
    | _ => []) = (evs.filterMap ioM).flatMap IO.outs := by
  induction evs with
  | nil => rfl
  | cons e rest ih =>
    cases e with
    | input i => cases i <;> simp [List.flatMap_cons, List.filterMap_cons, ih, ioM, IO.outs]
    | take outs =>
      simp only [List.flatMap_cons, ih, List.filterMap_cons, ioM, IO.outs]
      rfl
    | _ => simp [List.flatMap_cons, List.filterMap_cons, ih, ioM]

theorem requests_lift {evs : List (MEvent η)} {devs : List (Event α)} (hio : devs.filterMap ioD = evs.filterMap ioM) {m : Manager α η ω} :
    requests devs m.world.data = mrequests evs m := by
  unfold requests mrequests
  congr 1
  exact (requests_io.trans (by rw [hio])).trans mrequests_io.symm

theorem response_lift {evs : List (MEvent η)} {devs : List (Event α)} (hio : devs.filterMap ioD = evs.filterMap ioM) {r : DataIn} (h : .response r ∈ devs) :
    .input (.data r) ∈ evs := by
  have : IO.inp r ∈ devs.filterMap ioD := List.mem_filterMap.mpr ⟨_, h, rfl⟩
  rw [hio] at this
  obtain ⟨e, h1, h2⟩ := List.mem_filterMap.mp this
  cases e with
  | input i =>
    cases i with
    | data r' => simp only [ioM, Option.some.injEq, IO.inp.injEq] at h2; subst h2; exact h1
    | _ => simp [ioM] at h2
  | _ => simp [ioM] at h2

theorem stored_lift {evs : List (MEvent η)} {devs : List (Event α)} (hio : devs.filterMap ioD = evs.filterMap ioM) {m : Manager α η ω} {k : String} {b : Bytes}
    (h : Stored devs m.world.data k b) : MStored evs m k b := by
  obtain ⟨corr, h1, h2⟩ := h
  rw [requests_lift hio] at h1
  exact ⟨corr, h1, response_lift hio h2⟩

theorem came_lift {env : TxnEnv α η ω} {evs : List (MEvent η)} {devs : List (Event α)} (hio : devs.filterMap ioD = evs.filterMap ioM) {m : Manager α η ω}
    {k : String} {v : α} (h : Came env.data devs m.world.data k v) : MCame env evs m k v := by
  rcases h with ⟨corr, b, h1, h2, h3⟩ | ⟨b, h1, h2⟩
  · rw [requests_lift hio] at h1
    exact .inl ⟨corr, b, h1, response_lift hio h2, h3⟩
  · exact .inr ⟨b, h1.1, stored_lift hio h2⟩

/-! ## The tablets a handler sees -/

theorem tabletKey_inj {m m' : Metadata} : tabletKey m = tabletKey m' ↔ m.tabletId = m'.tabletId ∧ m.version = m'.version := by
  unfold tabletKey
  have h1 := m.version.toNat_lt
  have h2 := m'.version.toNat_lt
  constructor
  · intro h
    have e1 : m.tabletId.toNat = m'.tabletId.toNat := by omega
    have e2 : m.version.toNat = m'.version.toNat := by omega
    exact ⟨UInt32.toNat_inj.mp e1, UInt32.toNat_inj.mp e2⟩
  · rintro ⟨h3, h4⟩
    rw [h3, h4]

theorem set_fresh {κ ν : Type} [DecidableEq κ] {k : κ} {v : ν} : ∀ {m : AMap κ ν}, m.get k = none → m.set k v = m ++ [(k, v)] := by
  intro m
  induction m with
  | nil => intro _; rfl
  | cons x rest ih =>
    obtain ⟨k', v'⟩ := x
    intro h
    rw [AMap.get_cons] at h
    unfold AMap.set
    split at h
    · simp at h
    · rename_i hne
      rw [if_neg hne, ih h]
      rfl

theorem get_none_of_keys {κ ν : Type} [DecidableEq κ] {k : κ} : ∀ {m : AMap κ ν}, (∀ e ∈ m, e.1 ≠ k) → m.get k = none := by
  intro m h
  cases hg : m.get k with
  | none => rfl
  | some v => exact absurd rfl (h _ (AMap.mem_of_get hg))

/-- Tracked tablets with different keys. -/
theorem trackTablets_eq : ∀ {res : List (Query × Metadata)} {ts : AMap Nat (TabletState α)}, (res.map fun x => tabletKey x.2).Nodup →
    (∀ e ∈ ts, ∀ x ∈ res, e.1 ≠ tabletKey x.2) →
    trackTablets ts res = ts ++ res.map fun x => (tabletKey x.2, ⟨x.1, .create x.2⟩) := by
  intro res
  induction res with
  | nil => intro ts _ _; simp [trackTablets]
  | cons x rest ih =>
    obtain ⟨q, m⟩ := x
    intro ts hn ht
    simp only [List.map_cons, List.nodup_cons] at hn
    unfold trackTablets
    rw [set_fresh (get_none_of_keys fun e he => ht e he (q, m) (by simp))]
    rw [ih hn.2]
    · simp
    · intro e he x hx
      rcases List.mem_append.mp he with he | he
      · exact ht e he x (by simp [hx])
      · rw [List.mem_singleton.mp he]
        intro heq
        exact hn.1 (List.mem_map.mpr ⟨x, hx, heq.symm⟩)

/-- The contents are filled in. -/
def fill (l : List (Nat × α)) (e : Nat × TabletState α) : Nat × TabletState α :=
  match (l.filter fun p => p.1 = e.1).getLast? with
  | some p => (e.1, { e.2 with tablet := { e.2.tablet with contents := some p.2 } })
  | none => e

def keyed (l : List (Metadata × α)) : List (Nat × α) := l.map fun p => (tabletKey p.1, p.2)

theorem fill_cons (k : Nat) (v : α) (l : List (Nat × α)) (e : Nat × TabletState α) :
    fill ((k, v) :: l) e = fill l (if e.1 = k then (e.1, { e.2 with tablet := { e.2.tablet with contents := some v } }) else e) := by
  by_cases hk : e.1 = k
  · subst hk
    simp only [if_true, fill, List.filter_cons, decide_true]
    rw [List.getLast?_cons]
    cases hl : (l.filter fun p => decide (p.1 = e.1)).getLast? with
    | none => simp
    | some p => simp
  · have hk' : ¬ k = e.1 := fun h => hk h.symm
    simp [hk, hk', fill]

theorem map_set {κ ν : Type} [DecidableEq κ] {k : κ} {v : ν} {f : ν → ν} : ∀ {m : AMap κ ν}, m.WF → m.get k = some v →
    m.set k (f v) = m.map fun e => if e.1 = k then (e.1, f e.2) else e := by
  intro m
  induction m with
  | nil => intro _ h; simp at h
  | cons x rest ih =>
    obtain ⟨k', v'⟩ := x
    intro hw h
    have hw' : (k' :: rest.map Prod.fst).Nodup := hw
    rw [List.nodup_cons] at hw'
    rw [AMap.get_cons] at h
    unfold AMap.set
    split at h
    · rename_i hk
      subst hk
      simp only [Option.some.injEq] at h
      subst h
      simp only [if_true, List.map_cons]
      congr 1
      symm
      conv => rhs; rw [← List.map_id rest]
      apply List.map_congr_left
      intro e he
      have : e.1 ≠ k' := fun heq => hw'.1 (List.mem_map.mpr ⟨e, he, heq⟩)
      simp [this]
    · rename_i hne
      simp only [hne, if_false, List.map_cons]
      rw [ih hw'.2 h]

theorem initTablets_fill : ∀ {l : List (Metadata × α)} {ts ts' : AMap Nat (TabletState α)}, ts.WF → initTablets ts l = .ok ts' → ts' = ts.map (fill (keyed l)) := by
  intro l
  induction l with
  | nil =>
    intro ts ts' _ h
    simp only [initTablets, Run.ok.injEq] at h
    subst h
    conv => lhs; rw [← List.map_id ts]
    apply List.map_congr_left
    intro e _
    simp [fill, keyed]
  | cons x rest ih =>
    obtain ⟨m, v⟩ := x
    intro ts ts' hw h
    unfold initTablets at h
    obtain ⟨s, h1, h2⟩ := Run.bind_eq_ok.mp h
    have hkey : keyed ((m, v) :: rest) = (tabletKey m, v) :: keyed rest := rfl
    rw [hkey]
    generalize tabletKey m = k at *
    cases hg : ts.get k with
    | none => simp [hg] at h1
    | some s0 =>
      simp only [hg, Run.unwrap_some, Run.ok.injEq] at h1
      subst h1
      rw [ih (hw.set _ _) h2, map_set (f := fun s => { s with tablet := { s.tablet with contents := some v } }) hw hg, List.map_map]
      apply List.map_congr_left
      intro e _
      rw [fill_cons]
      rfl

theorem fill_contents {l : List (Nat × α)} {e : Nat × TabletState α} (h : e.2.tablet.contents = none) :
    (∀ v, (fill l e).2.tablet.contents = some v → (e.1, v) ∈ l) ∧ (∀ v, (e.1, v) ∈ l → (fill l e).2.tablet.contents.isSome) := by
  unfold fill
  cases hl : (l.filter fun p => decide (p.1 = e.1)).getLast? with
  | none =>
    refine ⟨fun v hv => ?_, fun v hv => ?_⟩
    · simp only [h] at hv; cases hv
    · rw [List.getLast?_eq_none_iff] at hl
      have : (e.1, v) ∈ l.filter fun p => decide (p.1 = e.1) := List.mem_filter.mpr ⟨hv, by simp⟩
      rw [hl] at this; simp at this
  | some p =>
    refine ⟨fun v hv => ?_, fun v hv => rfl⟩
    simp only [Option.some.injEq] at hv
    have := List.mem_filter.mp (List.mem_of_getLast? hl)
    obtain ⟨k, v'⟩ := p
    simp only [decide_eq_true_eq] at this hv
    rw [← this.2, ← hv]; exact this.1

theorem fill_same (l : List (Nat × α)) (e : Nat × TabletState α) : (fill l e).2.query = e.2.query ∧ (fill l e).2.tablet.metadata = e.2.tablet.metadata := by
  unfold fill
  split <;> exact ⟨rfl, rfl⟩

theorem nodup_keys {res : List (Query × Metadata)} (h : (res.map fun p => (p.2.tabletId, p.2.version)).Nodup) : (res.map fun p => tabletKey p.2).Nodup := by
  unfold List.Nodup at h ⊢
  rw [List.pairwise_map] at h ⊢
  refine h.imp fun {a b} hne heq => hne ?_
  have := tabletKey_inj.mp heq
  rw [this.1, this.2]

theorem nodup_map_inj {β γ : Type} {f : β → γ} : ∀ {l : List β}, (l.map f).Nodup → ∀ {a b}, a ∈ l → b ∈ l → f a = f b → a = b := by
  intro l
  induction l with
  | nil => intro _ a b ha; simp at ha
  | cons x rest ih =>
    intro h a b ha hb hab
    rw [List.map_cons, List.nodup_cons] at h
    rcases List.mem_cons.mp ha with ea | ha' <;> rcases List.mem_cons.mp hb with eb | hb'
    · rw [ea, eb]
    · subst ea; exact absurd (List.mem_map (l := rest) |>.mpr ⟨b, hb', hab.symm⟩) h.1
    · subst eb; exact absurd (List.mem_map (l := rest) |>.mpr ⟨a, ha', hab⟩) h.1
    · exact ih h.2 ha' hb' hab

/-- What a handler is given, and where it comes from. -/
theorem given_ts {env : TxnEnv α η ω} {cfg : List (String × UInt32)} {evs : List (MEvent η)} {c : Client α η ω} {c0 : MetaCache} {ins : List Input}
    {devs : List (Event α)} {R : Call α η ω → Prop} (h : GW env cfg evs c c0 ins devs R) {qs : List Query} {lid : Nat} {ts0 ts : AMap Nat (TabletState α)}
    {loaded : List (Metadata × α)} (hl : Loading ins devs c.m.world qs lid ts0) (h3 : c.m.world.data.cells.loads.get lid = some (some loaded))
    (h4 : initTablets ts0 loaded = .ok ts) :
    ∃ res, Spec.Answered cfg evs c.m.world.md qs res ∧
      ((res.map fun p => (p.2.tabletId, p.2.version)).Nodup → UrisDiffer env.data c.m.world.md →
        ∃ xs : List (Query × Metadata × Option α), ts.map (fun e => (e.2.query, e.2.tablet.metadata, e.2.tablet.contents)) = xs ∧ xs.map (fun y => (y.1, y.2.1)) = res ∧
          (∀ y ∈ xs, ∀ v, y.2.2 = some v → MCame env evs c.m y.2.1.uri v) ∧
          ((∀ y ∈ xs, y.2.2.isSome) ∨ ∃ first, res.head? = some first ∧ ∀ y ∈ xs, y.2.2.isSome ↔ (y.1, y.2.1) = first)) := by
  obtain ⟨k, res, now, l1, l2, l3, l4, l5⟩ := hl
  refine ⟨res, ⟨c0, ins, k, h.wh.started, h.wh.fed, h.sourced, l1, l2⟩, fun hn hu => ?_⟩
  have hkeys := nodup_keys hn
  have hts0 := trackTablets_eq (α := α) (ts := []) hkeys (by simp)
  rw [List.nil_append] at hts0
  have hwf : ts0.WF := by
    rw [l3, hts0]
    unfold AMap.WF AMap.keys
    rw [List.map_map]
    exact hkeys
  have hts := initTablets_fill hwf h4
  rw [l3, hts0, List.map_map] at hts
  -- the metadata of what was loaded
  have hinv := history_inv h.wh.hist
  obtain ⟨ks, now', ⟨ms', e1, rfl⟩, e2, e3⟩ := hinv.base.core.cells.loadOk lid loaded h3
  cases handle_unique hinv.ids.nodup l4 e1 rfl rfl
  have hknown : ∀ p ∈ loaded, KnownMeta env.data c.m.world.md p.1 := h.wh.metas.cells _ (AMap.mem_of_get h3) _ rfl
  have hres : ∀ p ∈ res, KnownMeta env.data c.m.world.md p.2 := fun p hp => .inl ⟨_, res, l2, List.mem_map.mpr ⟨p, hp, rfl⟩⟩
  have same : ∀ p ∈ loaded, ∀ y ∈ res, p.1.uri = y.2.uri → tabletKey p.1 = tabletKey y.2 :=
    fun p hp y hy he => tabletKey_inj.mpr (hu _ _ (hknown p hp) (hres y hy) he)
  have hmem : ∀ k v, (k, v) ∈ keyed loaded ↔ ∃ p ∈ loaded, tabletKey p.1 = k ∧ p.2 = v := by
    intro k v
    unfold keyed
    rw [List.mem_map]
    constructor
    · rintro ⟨p, hp, he⟩
      simp only [Prod.mk.injEq] at he
      exact ⟨p, hp, he⟩
    · rintro ⟨p, hp, he⟩
      exact ⟨p, hp, by rw [he.1, he.2]⟩
  refine ⟨res.map fun p => (p.1, p.2, (fill (keyed loaded) (tabletKey p.2, (⟨p.1, .create p.2⟩ : TabletState α))).2.tablet.contents), ?_, ?_, ?_, ?_⟩
  · rw [hts]
    rw [List.map_map]
    apply List.map_congr_left
    intro p _
    simp only [Function.comp]
    have := fill_same (keyed loaded) (tabletKey p.2, (⟨p.1, .create p.2⟩ : TabletState α))
    rw [this.1, this.2]
    rfl
  · rw [List.map_map]
    conv => rhs; rw [← List.map_id res]
    rfl
  · intro y hy v hv
    obtain ⟨p, hp, rfl⟩ := List.mem_map.mp hy
    have := (fill_contents (l := keyed loaded) (e := (tabletKey p.2, (⟨p.1, .create p.2⟩ : TabletState α))) rfl).1 v hv
    obtain ⟨z, hz, z1, rfl⟩ := (hmem _ _).mp this
    obtain ⟨z2, z3⟩ := e2 z hz
    rw [List.map_map] at z2
    obtain ⟨p', hp', z4⟩ := List.mem_map.mp z2
    have z4' : p'.2.uri = z.1.uri := z4
    have : p' = p := nodup_map_inj hkeys hp' hp ((same z hz p' hp' z4'.symm).symm.trans z1)
    subst this
    dsimp only
    rw [z4']
    exact came_lift h.io z3
  · have some_of : ∀ p ∈ res, ∀ z ∈ loaded, z.1.uri = p.2.uri → (fill (keyed loaded) (tabletKey p.2, (⟨p.1, .create p.2⟩ : TabletState α))).2.tablet.contents.isSome := by
      intro p hp z hz he
      exact (fill_contents (l := keyed loaded) (e := (tabletKey p.2, (⟨p.1, .create p.2⟩ : TabletState α))) rfl).2 z.2 ((hmem _ _).mpr ⟨z, hz, same z hz p hp he, rfl⟩)
    cases now with
    | false =>
      left
      intro y hy
      obtain ⟨p, hp, rfl⟩ := List.mem_map.mp hy
      have hp2 : p.2.uri ∈ loaded.map fun p => p.1.uri := (e3 rfl).mem_iff.mpr (by rw [List.map_map]; exact List.mem_map.mpr ⟨p, hp, rfl⟩)
      obtain ⟨z, hz, he⟩ := List.mem_map.mp hp2
      exact some_of p hp z hz he
    | true =>
      right
      obtain ⟨o, o1, o2⟩ := l5 rfl
      rw [h3] at o1
      simp only [Option.some.injEq] at o1
      obtain ⟨z, z1, z2⟩ := o2 loaded o1.symm
      cases hr : res with
      | nil => rw [hr] at z2; simp at z2
      | cons first rest =>
        rw [hr] at z2
        simp only [List.map_cons, List.head?_cons, Option.map_some, Option.some.injEq] at z2
        refine ⟨first, rfl, ?_⟩
        rw [← hr]
        intro y hy
        have hfirst : first ∈ res := by rw [hr]; simp
        have hzl : z ∈ loaded := by rw [z1]; simp
        obtain ⟨p, hp, rfl⟩ := List.mem_map.mp hy
        constructor
        · intro hsome
          obtain ⟨v, hv⟩ := Option.isSome_iff_exists.mp hsome
          have := (fill_contents (l := keyed loaded) (e := (tabletKey p.2, (⟨p.1, .create p.2⟩ : TabletState α))) rfl).1 v hv
          obtain ⟨z', hz', z3, rfl⟩ := (hmem _ _).mp this
          rw [z1] at hz'
          rw [List.mem_singleton.mp hz'] at z3
          exact nodup_map_inj hkeys hp hfirst (z3.symm.trans (same z hzl first hfirst z2.symm))
        · intro he
          have : p = first := he
          subst this
          exact some_of p hp z hzl z2.symm

theorem given_views {env : TxnEnv α η ω} {cfg : List (String × UInt32)} {evs evs' : List (MEvent η)} {c : Client α η ω} {c0 : MetaCache} {ins : List Input}
    {devs : List (Event α)} {R : Call α η ω → Prop} (h : GW env cfg evs c c0 ins devs R) {x : Call α η ω} (hx : GivenW evs' ins devs c.m.world x) :
    ∃ qs res, .process x.2.2.1 qs x.1 ∈ evs' ∧ Spec.Answered cfg evs c.m.world.md qs res ∧
      ((res.map fun p => (p.2.tabletId, p.2.version)).Nodup → UrisDiffer env.data c.m.world.md →
        ∃ xs : List (Query × Metadata × Option α), x.2.2.2 = xs.map (fun y => (y.1, y.2.1.tabletId, y.2.2)) ∧ xs.map (fun y => (y.1, y.2.1)) = res ∧
          (∀ y ∈ xs, ∀ v, y.2.2 = some v → MCame env evs c.m y.2.1.uri v) ∧
          ((∀ y ∈ xs, y.2.2.isSome) ∨ ∃ first, res.head? = some first ∧ ∀ y ∈ xs, y.2.2.isSome ↔ (y.1, y.2.1) = first)) := by
  obtain ⟨qs, lid, ts0, loaded, ts, h1, h2, h3, h4, h5⟩ := hx
  obtain ⟨res, k1, k2⟩ := given_ts h h2 h3 h4
  refine ⟨qs, res, h1, k1, fun hn hu => ?_⟩
  obtain ⟨xs, rfl, k4, k5⟩ := k2 hn hu
  exact ⟨_, by rw [h5, List.map_map]; rfl, k4, k5⟩

/-! ## The tablets a transaction writes -/

theorem put_at : ∀ {ts : AMap Nat (TabletState α)} {sets : List (Option α)} {ms : List Metadata} {j : Nat} {e : Nat × TabletState α}, Clean ts →
    ms.length = (takeWrites (applySets ts sets)).length → ts[j]? = some e →
    (∀ v, sets[j]? = some (some v) → ∃ e' : Nat × TabletState α, (putMetadata (applySets ts sets) ms)[j]? = some e' ∧ e'.2.query = e.2.query ∧ e'.2.tablet.dirty = true ∧
      ((e.2.tablet.metadata, v), e'.2.tablet.metadata) ∈ (takeWrites (applySets ts sets)).zip ms) ∧
    ((∀ v, sets[j]? ≠ some (some v)) → (putMetadata (applySets ts sets) ms)[j]? = some e) := by
  intro ts
  induction ts with
  | nil => intro sets ms j e _ _ h; simp at h
  | cons x rest ih =>
    obtain ⟨k, s⟩ := x
    intro sets ms j e hc hl he
    have hcr : Clean rest := fun e he => hc e (List.mem_cons_of_mem _ he)
    have hcs : s.tablet.updated = none ∧ s.tablet.dirty = false := hc (k, s) (by simp)
    -- sets can be padded
    have key : ∀ (o : Option α) (sets' : List (Option α)), ms.length = (takeWrites (applySets ((k, s) :: rest) (o :: sets'))).length →
        (∀ v, (o :: sets')[j]? = some (some v) → ∃ e' : Nat × TabletState α, (putMetadata (applySets ((k, s) :: rest) (o :: sets')) ms)[j]? = some e' ∧ e'.2.query = e.2.query ∧ e'.2.tablet.dirty = true ∧
          ((e.2.tablet.metadata, v), e'.2.tablet.metadata) ∈ (takeWrites (applySets ((k, s) :: rest) (o :: sets'))).zip ms) ∧
        ((∀ v, (o :: sets')[j]? ≠ some (some v)) → (putMetadata (applySets ((k, s) :: rest) (o :: sets')) ms)[j]? = some e) := by
      intro o sets' hl
      cases o with
      | none =>
        have e1 : applySets ((k, s) :: rest) (none :: sets') = (k, s) :: applySets rest sets' := rfl
        have e2 : takeWrites ((k, s) :: applySets rest sets') = takeWrites (applySets rest sets') := by
          unfold takeWrites; rw [List.filterMap_cons]; simp [hcs.1]
        have e3 : putMetadata ((k, s) :: applySets rest sets') ms = (k, s) :: putMetadata (applySets rest sets') ms := by
          conv => lhs; unfold putMetadata
          simp only [hcs.1]
        rw [e1, e2] at hl
        rw [e1, e2, e3]
        cases j with
        | zero =>
          simp only [List.getElem?_cons_zero, Option.some.injEq] at he
          subst he
          exact ⟨by simp, by simp⟩
        | succ j => simpa using ih hcr hl (by simpa using he)
      | some v =>
        have e1 : applySets ((k, s) :: rest) (some v :: sets') = (k, { s with tablet := s.tablet.setContents v }) :: applySets rest sets' := rfl
        have e2 : takeWrites ((k, { s with tablet := s.tablet.setContents v }) :: applySets rest sets') = (s.tablet.metadata, v) :: takeWrites (applySets rest sets') := by
          unfold takeWrites; rw [List.filterMap_cons]; simp [Tablet.setContents]
        rw [e1, e2] at hl
        cases ms with
        | nil => simp at hl
        | cons m ms =>
          have e3 : putMetadata ((k, { s with tablet := s.tablet.setContents v }) :: applySets rest sets') (m :: ms) =
              (k, { s with tablet := { s.tablet.setContents v with updated := none, metadata := m } }) :: putMetadata (applySets rest sets') ms := by
            conv => lhs; unfold putMetadata
            simp [Tablet.setContents]
          rw [e1, e2, e3]
          cases j with
          | zero =>
            simp only [List.getElem?_cons_zero, Option.some.injEq] at he
            subst he
            refine ⟨fun v' hv => ?_, fun hn => absurd (by simp) (hn v)⟩
            simp only [List.getElem?_cons_zero, Option.some.injEq] at hv
            subst hv
            exact ⟨_, rfl, rfl, by simp [Tablet.setContents], by simp⟩
          | succ j =>
            obtain ⟨i1, i2⟩ := ih (sets := sets') (ms := ms) hcr (by simpa using hl) (j := j) (by simpa using he)
            refine ⟨fun v' hv => ?_, fun hn => by simpa using i2 (fun v => by simpa using hn v)⟩
            obtain ⟨e', h1, h2, h3, h4⟩ := i1 v' (by simpa using hv)
            exact ⟨e', by simpa using h1, h2, h3, by simp [h4]⟩
    cases sets with
    | cons o sets' => exact key o sets' hl
    | nil =>
      have e0 : applySets ((k, s) :: rest) ([] : List (Option α)) = (k, s) :: rest := rfl
      refine ⟨by simp, fun _ => ?_⟩
      rw [e0]
      have hall : ∀ (l : AMap Nat (TabletState α)), Clean l → ∀ ms, putMetadata l ms = l := by
        intro l
        induction l with
        | nil => intro _ ms; rfl
        | cons y l ihl =>
          obtain ⟨k', s'⟩ := y
          intro hcl ms
          have : s'.tablet.updated = none ∧ s'.tablet.dirty = false := hcl (k', s') (by simp)
          unfold putMetadata
          simp only [this.1]
          rw [ihl (fun e he => hcl e (List.mem_cons_of_mem _ he))]
      rw [hall _ hc]
      exact he

theorem put_length {ts : AMap Nat (TabletState α)} {sets : List (Option α)} {ms : List Metadata} : (putMetadata (applySets ts sets) ms).length = ts.length := by
  have h1 : ∀ (l : AMap Nat (TabletState α)) ms, (putMetadata l ms).length = l.length := by
    intro l
    induction l with
    | nil => intro ms; rfl
    | cons x l ih =>
      obtain ⟨k, s⟩ := x
      intro ms
      unfold putMetadata
      split <;> simp [ih]
  have h2 : ∀ (l : AMap Nat (TabletState α)) sets, (applySets l sets).length = l.length := by
    intro l
    induction l with
    | nil => intro sets; cases sets <;> rfl
    | cons x l ih =>
      obtain ⟨k, s⟩ := x
      intro sets
      cases sets with
      | nil => rfl
      | cons o sets => cases o <;> simp [applySets, ih]
  rw [h1, h2]

theorem mem_zip_swap {β γ : Type} {a : β} {b : γ} : ∀ {l : List β} {l' : List γ}, (a, b) ∈ l.zip l' → (b, a) ∈ l'.zip l := by
  intro l
  induction l with
  | nil => intro l' h; simp at h
  | cons x l ih =>
    intro l' h
    cases l' with
    | nil => simp at h
    | cons y l' =>
      rw [List.zip_cons_cons, List.mem_cons] at h ⊢
      rcases h with h | h
      · simp only [Prod.mk.injEq] at h
        exact .inl (by rw [h.1, h.2])
      · exact .inr (ih h)

/-- A completed process request: what happened to each of its tablets. -/
theorem completed_tablets {env : TxnEnv α η ω} {evs : List (MEvent η)} {ins : List Input} {devs : List (Event α)} {m : Manager α η ω} (hh : History env.data devs m.world.data)
    (hio : devs.filterMap ioD = evs.filterMap ioM) {x : Call α η ω} {p : Proc α η} (hs : p.status = .completed) (h : Did env ins devs m.world x p) :
    ∃ w' sets ts, env.handle x.1 x.2.1 x.2.2.1 x.2.2.2 = .ok (w', sets) ∧ x.2.2.2 = views ts ∧ TsGiven ins devs m.world ts ∧ p.tablets.length = ts.length ∧
      ∀ (j : Nat) (e0 : Nat × TabletState α), ts[j]? = some e0 → ∃ e : Nat × TabletState α, p.tablets[j]? = some e ∧ e.2.query = e0.2.query ∧
        e.2.tablet.metadata.tabletId = e0.2.tablet.metadata.tabletId ∧
        (∀ v, sets[j]? = some (some v) → e.2.tablet.dirty = true ∧ e.2.tablet.metadata.version = e0.2.tablet.metadata.version + 1 ∧
          ∃ b, env.data.ser v = some b ∧ MStored evs m e.2.tablet.metadata.uri b ∧
          e.2.tablet.metadata.hash = env.data.hash b ∧ e.2.tablet.metadata.size = UInt32.ofNat b.length ∧ Named env.data e.2.tablet.metadata) ∧
        ((∀ v, sets[j]? ≠ some (some v)) → e = e0 ∧ e.2.tablet.dirty = false) := by
  simp only [Did, hs] at h
  obtain ⟨id, ⟨w', sets, ts, ms, h1, h2, h3, h4, h5, hg⟩, h6⟩ := h
  obtain ⟨_, g2, g3⟩ := history_writes hh _ _ _ h4
  refine ⟨w', sets, ts, h1, h3, hg, by rw [h5, put_length], fun j e hts => ?_⟩
  obtain ⟨k1, k2⟩ := put_at h2 g2 hts
  by_cases hv : ∃ v, sets[j]? = some (some v)
  · obtain ⟨v, hv⟩ := hv
    obtain ⟨e', l1, l2, l3, l4⟩ := k1 v hv
    obtain ⟨b, b1, b2⟩ := g3 _ l4
    dsimp only at b1 b2
    have hz : (e'.2.tablet.metadata, v) ∈ ms.zip ((takeWrites (applySets ts sets)).map Prod.snd) := by
      rw [List.zip_map_right]
      refine List.mem_map.mpr ⟨(e'.2.tablet.metadata, (e.2.tablet.metadata, v)), ?_, rfl⟩
      exact mem_zip_swap l4
    obtain ⟨b', b3, b4⟩ := store_confirmed hh h4 h6 hz
    rw [b1] at b3
    simp only [Option.some.injEq] at b3
    subst b3
    refine ⟨e', by rw [h5]; exact l1, l2, by rw [b2], fun v' hv' => ?_, fun hn => absurd hv (hn v)⟩
    rw [hv] at hv'
    simp only [Option.some.injEq] at hv'
    subst hv'
    exact ⟨l3, by rw [b2], b, b1, stored_lift hio b4, by rw [b2], by rw [b2], by rw [b2]; rfl⟩
  · have hn : ∀ v, sets[j]? ≠ some (some v) := fun v h => hv ⟨v, h⟩
    exact ⟨e, by rw [h5]; exact k2 hn, rfl, rfl, fun v h => absurd h (hn v), fun _ => ⟨rfl, (h2 e (List.mem_of_getElem? hts)).2⟩⟩

end TCP.Cache
