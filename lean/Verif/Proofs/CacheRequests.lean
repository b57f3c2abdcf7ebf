import Verif.Proofs.CacheTxn
import Verif.Proofs.CacheResolve

/-!
# The requests of a transaction manager to the tablet store

A request is that of a commit, or it only lists the tablets of regions.
-/

namespace TCP.Cache

open TCP TCP.TabletStore TCP.Cache.Spec

variable {α η ω : Type}

/-- The ops only list the tablets of regions; `size` gives the region size of a table. -/
def OnlyLists (size : String → Option UInt32) (ops : List TabletOp) : Prop :=
  ∀ o ∈ ops, ∃ a b, o.op = some (.list a b) ∧ ∀ s, size o.table = some s → ∀ h, region s h = region s a → a ≤ h ∧ h ≤ b

variable {size : String → Option UInt32}

theorem regionBounds_exact {s : UInt32} {idx : Nat} {b : Nat × Nat} (hb : regionBounds s idx = .ok b) (h : UInt32)
    (hr : region s h = region s (UInt32.ofNat b.1)) : UInt32.ofNat b.1 ≤ h ∧ h ≤ UInt32.ofNat b.2 := by
  have hle : idx * s.toNat ≤ u32Max := by
    unfold regionBounds at hb
    split at hb
    · cases hb
    · omega
  have hz : s ≠ 0 := by
    rintro rfl
    simp [regionBounds] at hb
  have hp := size_pos hz
  have h1 : b.1 = idx * s.toNat := by
    rw [regionBounds_ok hz hle] at hb
    cases hb; rfl
  have h2 : region s (UInt32.ofNat b.1) = idx := by
    unfold region
    rw [h1, toNat_ofNat_small hle]
    exact Nat.mul_div_cancel _ hp
  rw [h2] at hr
  obtain ⟨lo, hi, e1, e2, e3⟩ := Props.C46_bounds hz (h0 := h)
  rw [hr, hb] at e1
  simp only [Run.ok.injEq] at e1
  subst e1
  have := (e3 h).mp rfl
  dsimp only at h1 ⊢
  rw [UInt32.le_iff_toNat_le, UInt32.le_iff_toNat_le, toNat_ofNat_small (by rw [h1]; exact hle), toNat_ofNat_small e2]
  exact this

theorem prepareListOps_lists {n : String} {s : UInt32} (hs : size n = some s) : ∀ {rs rs' : AMap Nat Region} {ops : List TabletOp},
    prepareListOps n s rs = .ok (rs', ops) → OnlyLists size ops := by
  intro rs
  induction rs with
  | nil => intro rs' ops h; simp only [prepareListOps, Run.ok.injEq, Prod.mk.injEq] at h; rw [← h.2]; simp [OnlyLists]
  | cons e rest ih =>
    intro rs' ops h
    obtain ⟨i, r⟩ := e
    unfold prepareListOps at h
    obtain ⟨b, hb, h2⟩ := Run.bind_eq_ok.mp h
    obtain ⟨x, h3, h4⟩ := Run.bind_eq_ok.mp h2
    simp only [Run.ok.injEq, Prod.mk.injEq] at h4
    rw [← h4.2]
    have := ih (rs' := x.1) (ops := x.2) h3
    intro o ho
    split at ho
    · rcases List.mem_cons.mp ho with rfl | ho
      · refine ⟨_, _, rfl, fun s' hs' h hr => ?_⟩
        dsimp only at hs'
        rw [hs] at hs'
        cases hs'
        exact regionBounds_exact hb h hr
      · exact this o ho
    · exact this o ho

/-- The region sizes of the tables. -/
def SizesAre (size : String → Option UInt32) (tables : AMap String Table) : Prop := ∀ e ∈ tables, size e.2.name = some e.2.size

theorem prepareAll_lists : ∀ {a b : AMap String Table} {ops : List TabletOp}, prepareAllTables a = .ok (b, ops) → SizesAre size a → OnlyLists size ops := by
  intro a
  induction a with
  | nil => intro b ops h _; simp only [prepareAllTables, Run.ok.injEq, Prod.mk.injEq] at h; rw [← h.2]; simp [OnlyLists]
  | cons e rest ih =>
    intro b ops h hz
    obtain ⟨n, t⟩ := e
    unfold prepareAllTables at h
    obtain ⟨x, h1, h2⟩ := Run.bind_eq_ok.mp h
    obtain ⟨y, h3, h4⟩ := Run.bind_eq_ok.mp h2
    simp only [Run.ok.injEq, Prod.mk.injEq] at h4
    rw [← h4.2]
    intro o ho
    rcases List.mem_append.mp ho with ho | ho
    · exact prepareListOps_lists (hz (n, t) (by simp)) (rs' := x.1) (ops := x.2) h1 o ho
    · exact ih (b := y.1) (ops := y.2) h3 (fun e he => hz e (by simp [he])) o ho

theorem SizesAre.set {tables : AMap String Table} (h : SizesAre size tables) {n k : String} {t t' : Table} (ht : tables.get n = some t) (h1 : t'.size = t.size)
    (h2 : t'.name = t.name) : SizesAre size (tables.set k t') := by
  intro e he
  rcases mem_set he with rfl | he
  · dsimp only; rw [h1, h2]; exact h _ (AMap.mem_of_get ht)
  · exact h e he

theorem prepareAll_sizes : ∀ {a b : AMap String Table} {ops : List TabletOp}, prepareAllTables a = .ok (b, ops) → SizesAre size a → SizesAre size b := by
  intro a
  induction a with
  | nil => intro b ops h hz; simp only [prepareAllTables, Run.ok.injEq, Prod.mk.injEq] at h; rw [← h.1]; exact hz
  | cons e rest ih =>
    intro b ops h hz
    obtain ⟨n, t⟩ := e
    unfold prepareAllTables at h
    obtain ⟨x, h1, h2⟩ := Run.bind_eq_ok.mp h
    obtain ⟨y, h3, h4⟩ := Run.bind_eq_ok.mp h2
    simp only [Run.ok.injEq, Prod.mk.injEq] at h4
    rw [← h4.1]
    intro e he
    rcases List.mem_cons.mp he with rfl | he
    · exact hz (n, t) (by simp)
    · exact ih (b := y.1) (ops := y.2) h3 (fun e he => hz e (by simp [he])) e he

theorem resolveParts_sizes {id : Nat} : ∀ {parts : List (Query × Nat)} {a b : AMap String Table} {r r' : Resolve}, resolveParts id a r parts = .ok (b, r') →
    SizesAre size a → SizesAre size b := by
  intro parts
  induction parts with
  | nil => intro a b r r' h ha; simp only [resolveParts, Run.ok.injEq, Prod.mk.injEq] at h; rw [← h.1]; exact ha
  | cons e rest ih =>
    obtain ⟨q, idx⟩ := e
    intro a b r r' h ha
    simp only [resolveParts] at h
    obtain ⟨t, h1, h2⟩ := Run.bind_eq_ok.mp h
    obtain ⟨x, h3, h4⟩ := Run.bind_eq_ok.mp h2
    have ht : a.get q.table = some t := by
      cases hg : a.get q.table with
      | none => rw [hg] at h1; cases h1
      | some y => rw [hg] at h1; simp only [Run.unwrap_some, Run.ok.injEq] at h1; rw [h1]
    cases x with
    | some res => exact ih h4 ha
    | none =>
      obtain ⟨t', h5, h6⟩ := Run.bind_eq_ok.mp h4
      obtain ⟨u1, u2, _⟩ := registerPending_inv h5
      exact ih h6 (ha.set ht u1 u2)

theorem processIn_sizes : ∀ {rs : List TabletOpResult} {c c' : MetaCache}, c.processIn rs = .ok c' → SizesAre size c.tables → SizesAre size c'.tables := by
  intro rs
  induction rs with
  | nil => intro c c' h hc; simp only [MetaCache.processIn, Run.ok.injEq] at h; rw [← h]; exact hc
  | cons x rest ih =>
    intro c c' h hc
    obtain ⟨c1, h1, h2⟩ := Run.bind_eq_ok.mp h
    refine ih h2 ?_
    unfold MetaCache.processResult at h1
    split at h1
    · split at h1
      · rename_i t ht
        obtain ⟨y, h3, h4⟩ := Run.bind_eq_ok.mp h1
        obtain ⟨u1, u2, _⟩ := updateRegion_inv (t' := y.1) (i := y.2.1) (ns := y.2.2) h3
        rw [notifyAll_tables h4]
        exact hc.set ht u1 u2
      · simp only [Run.ok.injEq] at h1; rw [← h1]; exact hc
    · cases h1

theorem feed_sizes {c c' : MetaCache} {i : Input} (h : feed c i = .ok c') (hc : SizesAre size c.tables) : SizesAre size c'.tables := by
  cases i with
  | progress =>
    simp only [feed, MetaCache.makeProgress] at h
    obtain ⟨x, h1, h2⟩ := Run.bind_eq_ok.mp h
    simp only [Run.ok.injEq] at h2
    subst h2
    have := prepareAll_sizes (b := x.1) (ops := x.2) h1 hc
    split
    · exact this
    · exact this
  | resolve n qs =>
    simp only [feed, MetaCache.resolve] at h
    obtain ⟨parts, _, h2⟩ := Run.bind_eq_ok.mp h
    obtain ⟨x, h3, h4⟩ := Run.bind_eq_ok.mp h2
    obtain ⟨y, h5, h6⟩ := Run.bind_eq_ok.mp h4
    simp only [Run.ok.injEq] at h6
    subst h6
    have := resolveParts_sizes (b := x.1) (r' := x.2) h3 hc
    rw [← show y.1.tables = x.1 from (maybeResolve_frame (c' := y.1) (r' := y.2) h5).1] at this
    exact this
  | update n m b =>
    simp only [feed, MetaCache.updateTablet] at h
    split at h
    · rename_i t ht
      obtain ⟨t', h1, h2⟩ := Run.bind_eq_ok.mp h
      simp only [Run.ok.injEq] at h2
      subst h2
      refine hc.set ht ?_ ?_ <;>
      · unfold Table.updateTablet at h1
        obtain ⟨i, _, h4⟩ := Run.bind_eq_ok.mp h1
        dsimp only at h4
        split at h4
        · simp only [Run.ok.injEq] at h4
          subst h4
          split <;> rfl
        · simp only [Run.ok.injEq] at h4
          subst h4
          rfl
    · simp only [Run.ok.injEq] at h; subst h; exact hc
  | list rs => exact processIn_sizes h hc
  | take =>
    simp only [feed, MetaCache.takeOut, Run.ok.injEq] at h
    subst h
    exact hc

/-- The requests of the metadata cache. -/
def MdLists (size : String → Option UInt32) (c : MetaCache) : Prop := ∀ x ∈ c.out, OnlyLists size x.2

theorem processIn_out : ∀ {rs : List TabletOpResult} {c c' : MetaCache}, c.processIn rs = .ok c' → c'.out = c.out := by
  intro rs
  induction rs with
  | nil => intro c c' h; simp only [MetaCache.processIn, Run.ok.injEq] at h; rw [h]
  | cons x rest ih =>
    intro c c' h
    obtain ⟨c1, h1, h2⟩ := Run.bind_eq_ok.mp h
    rw [ih h2]
    unfold MetaCache.processResult at h1
    split at h1
    · split at h1
      · obtain ⟨y, _, h3⟩ := Run.bind_eq_ok.mp h1
        exact (notifyAll_free h3).2.1
      · simp only [Run.ok.injEq] at h1; rw [h1]
    · cases h1

theorem feed_lists {c c' : MetaCache} {i : Input} (h : feed c i = .ok c') (hz : SizesAre size c.tables) (hc : MdLists size c) : MdLists size c' := by
  cases i with
  | progress =>
    simp only [feed, MetaCache.makeProgress] at h
    obtain ⟨x, h1, h2⟩ := Run.bind_eq_ok.mp h
    simp only [Run.ok.injEq] at h2
    subst h2
    split
    · exact hc
    · intro y hy
      rcases List.mem_append.mp hy with hy | hy
      · exact hc y hy
      · rw [List.mem_singleton.mp hy]; exact prepareAll_lists (b := x.1) (ops := x.2) h1 hz
  | resolve n qs =>
    simp only [feed, MetaCache.resolve] at h
    obtain ⟨parts, _, h2⟩ := Run.bind_eq_ok.mp h
    obtain ⟨x, h3, h4⟩ := Run.bind_eq_ok.mp h2
    obtain ⟨y, h5, h6⟩ := Run.bind_eq_ok.mp h4
    simp only [Run.ok.injEq] at h6
    subst h6
    intro z hz
    exact hc z (by rw [← show y.1.out = c.out from (maybeResolve_frame (c' := y.1) (r' := y.2) h5).2.2.2.1]; exact hz)
  | update t m b =>
    simp only [feed, MetaCache.updateTablet] at h
    split at h
    · obtain ⟨t', h1, h2⟩ := Run.bind_eq_ok.mp h
      simp only [Run.ok.injEq] at h2
      subst h2
      exact hc
    · simp only [Run.ok.injEq] at h; subst h; exact hc
  | list rs => intro z hz; rw [processIn_out h] at hz; exact hc z hz
  | take =>
    simp only [feed, MetaCache.takeOut, Run.ok.injEq] at h
    subst h
    simp [MdLists]

theorem feedAll_lists : ∀ {ins : List Input} {c c' : MetaCache}, feedAll c ins = .ok c' → SizesAre size c.tables → MdLists size c → MdLists size c' := by
  intro ins
  induction ins with
  | nil => intro c c' h _ hc; simp only [feedAll, Run.ok.injEq] at h; subst h; exact hc
  | cons i rest ih =>
    intro c c' h hz hc
    obtain ⟨c1, h1, h2⟩ := Run.bind_eq_ok.mp h
    exact ih h2 (feed_sizes h1 hz) (feed_lists h1 hz hc)

theorem init_out : ∀ {cfg : List (String × UInt32)} {c c' : MetaCache}, c.init cfg = .ok c' → c'.out = c.out := by
  intro cfg
  induction cfg with
  | nil => intro c c' h; simp only [MetaCache.init, Run.ok.injEq] at h; rw [h]
  | cons e rest ih =>
    intro c c' h
    obtain ⟨n, size⟩ := e
    unfold MetaCache.init at h
    obtain ⟨t, _, h2⟩ := Run.bind_eq_ok.mp h
    exact ih (c := { c with tables := c.tables.set n t }) h2

/-- The region size a table is configured with. -/
def regionSize : List (String × UInt32) → String → Option UInt32
  | [], _ => none
  | (k, s) :: rest, n => (regionSize rest n).or (if k = n then some s else none)

theorem init_sizes : ∀ {cfg : List (String × UInt32)} {c c' : MetaCache}, c.init cfg = .ok c' → c.tables.WF → (∀ n t, c.tables.get n = some t → t.name = n) →
    c'.tables.WF ∧ ∀ n t, c'.tables.get n = some t → t.name = n ∧ (regionSize cfg n).or ((c.tables.get n).map Table.size) = some t.size := by
  intro cfg
  induction cfg with
  | nil =>
    intro c c' h hw hn
    simp only [MetaCache.init, Run.ok.injEq] at h
    rw [← h]
    exact ⟨hw, fun n t ht => ⟨hn n t ht, by simp [ht, regionSize]⟩⟩
  | cons e rest ih =>
    obtain ⟨k, s⟩ := e
    intro c c' h hw hn
    unfold MetaCache.init at h
    obtain ⟨t0, h1, h2⟩ := Run.bind_eq_ok.mp h
    have ht0 : t0.name = k ∧ t0.size = s := by
      unfold Table.create at h1
      split at h1
      · cases h1
      · simp only [Run.ok.injEq] at h1; rw [← h1]; exact ⟨rfl, rfl⟩
    obtain ⟨k1, k2⟩ := ih (c := { c with tables := c.tables.set k t0 }) h2 (hw.set _ _) fun n t ht => by
      dsimp only at ht
      rw [AMap.get_set] at ht
      split at ht
      · simp only [Option.some.injEq] at ht; rw [← ht, ht0.1]; assumption
      · exact hn n t ht
    refine ⟨k1, fun n t ht => ⟨(k2 n t ht).1, ?_⟩⟩
    have := (k2 n t ht).2
    dsimp only at this
    rw [AMap.get_set] at this
    rw [← this, regionSize]
    cases regionSize rest n with
    | some x => rfl
    | none =>
      by_cases e : k = n
      · simp [e, ht0.2]
      · simp [e]

theorem started_sizes {cfg : List (String × UInt32)} {c0 : MetaCache} (h : Started cfg c0) :
    SizesAre (regionSize cfg) c0.tables ∧ ∀ n t, c0.tables.get n = some t → regionSize cfg n = some t.size := by
  obtain ⟨corr, h⟩ := h
  obtain ⟨k1, k2⟩ := init_sizes h AMap.WF.nil (by simp [MetaCache.create])
  have k3 : ∀ n t, c0.tables.get n = some t → t.name = n ∧ regionSize cfg n = some t.size := fun n t ht => by
    have := k2 n t ht
    simpa [MetaCache.create] using this
  refine ⟨fun e he => ?_, fun n t ht => (k3 n t ht).2⟩
  obtain ⟨g1, g2⟩ := k3 e.1 e.2 (AMap.get_of_mem k1 he)
  rw [g1]; exact g2

theorem history_lists [DecidableEq α] [DecidableEq η] [DecidableEq ω] {env : TxnEnv α η ω} (hsane : Sane env) {cfg : List (String × UInt32)} {evs : List (MEvent η)} {c : Client α η ω} (h : MHistory env evs c)
    (hcfg : Configured cfg evs) : MdLists (regionSize cfg) c.m.world.md := by
  obtain ⟨c0, ins, devs, R, k, _⟩ := history_gw hsane h hcfg
  obtain ⟨corr, h0⟩ := k.wh.started
  refine feedAll_lists k.wh.fed (started_sizes k.wh.started).1 fun x hx => ?_
  rw [init_out h0] at hx
  simp [MetaCache.create] at hx

/-- The requests to the tablet store that were taken. -/
def takenOps (evs : List (MEvent η)) : List (Nat × List TabletOp) :=
  evs.flatMap fun e => match e with
    | .take outs => outs.filterMap fun o => match o with | .ops corr ops => some (corr, ops) | .data _ => none
    | _ => []

/-- The requests of the coordinator are those of commits. -/
structure RInv (size : String → Option UInt32) (evs : List (MEvent η)) (c : Client α η ω) : Prop where
  made : ∀ i x, .commit i [x] ∈ evs → x ∈ takenOps evs ++ c.m.coord.out
  mine : ∀ x ∈ takenOps evs ++ c.m.coord.out, (∃ i, .commit i [x] ∈ evs) ∨ OnlyLists size x.2
  noList : ∀ i x, .commit i [x] ∈ evs → ∀ o ∈ x.2, ∀ a b, o.op ≠ some (.list a b)

theorem RInv.keep {evs : List (MEvent η)} {c c' : Client α η ω} {ev : MEvent η} (h : RInv size evs c) (h1 : ∀ i s, ev ≠ .commit i s) (h2 : ∀ outs, ev ≠ .take outs)
    (h3 : c'.m.coord.out = c.m.coord.out) : RInv size (evs ++ [ev]) c' := by
  have ht : takenOps (evs ++ [ev]) = takenOps evs := by
    simp only [takenOps, List.flatMap_append, List.flatMap_cons, List.flatMap_nil, List.append_nil]
  constructor
  · intro i x hx
    rw [ht, h3]
    rcases List.mem_append.mp hx with hx | hx
    · exact h.made i x hx
    · exact absurd (List.mem_singleton.mp hx).symm (h1 i _)
  · intro x hx
    rw [ht, h3] at hx
    rcases h.mine x hx with ⟨i, g⟩ | g
    · exact .inl ⟨i, by simp [g]⟩
    · exact .inr g
  · intro i x hx
    rcases List.mem_append.mp hx with hx | hx
    · exact h.noList i x hx
    · exact absurd (List.mem_singleton.mp hx).symm (h1 i _)

theorem coordIn_out {c c' : Coordinator α η} {md md' : MetaCache} {corr : Nat} {rs : List TabletOpResult} (h : c.processIn md corr rs = .ok (c', md')) :
    c'.out = c.out := by
  unfold Coordinator.processIn at h
  split at h
  · simp only [Run.ok.injEq, Prod.mk.injEq] at h; rw [h.1]
  · dsimp only at h
    split at h
    · obtain ⟨x, _, h2⟩ := Run.bind_eq_ok.mp h
      obtain ⟨y, _, h4⟩ := Run.bind_eq_ok.mp h2
      simp only [Run.ok.injEq, Prod.mk.injEq] at h4
      rw [← h4.1]
    · simp only [Run.ok.injEq, Prod.mk.injEq] at h; rw [← h.1]

theorem opsResponse_out {m m' : Manager α η ω} {corr : Nat} {r : Response} (h : m.opsResponse corr r = .ok m') : m'.coord.out = m.coord.out := by
  unfold Manager.opsResponse at h
  obtain ⟨md, _, h2⟩ := Run.bind_eq_ok.mp h
  split at h2
  · simp only [Run.ok.injEq] at h2; rw [← h2]
  · obtain ⟨x, h3, h4⟩ := Run.bind_eq_ok.mp h2
    simp only [Run.ok.injEq] at h4
    rw [← h4]
    exact coordIn_out (c' := x.1) (md' := x.2) h3

theorem rinv_step {env : TxnEnv α η ω} {evs : List (MEvent η)} {c c' : Client α η ω} {ev : MEvent η} (h : RInv size evs c) (hl : MdLists size c.m.world.md)
    (hs : MStep env c ev c') : RInv size (evs ++ [ev]) c' := by
  have hs0 := hs
  cases hs with
  | app => exact h.keep (by simp) (by simp) rfl
  | init hs =>
    unfold Manager.init at hs
    obtain ⟨md, _, h2⟩ := Run.bind_eq_ok.mp hs
    simp only [Run.ok.injEq] at h2
    subst h2
    exact h.keep (by simp) (by simp) rfl
  | start => exact h.keep (by simp) (by simp) rfl
  | process ho hs =>
    unfold Coordinator.process at hs
    split at hs
    · simp only [Run.ok.injEq] at hs; subst hs; exact h.keep (by simp) (by simp) rfl
    · cases hs
  | pending => exact h.keep (by simp) (by simp) rfl
  | @commit i co ho hs =>
    obtain ⟨ps, h1, h2, rfl⟩ := commit_cases hs
    have ht : ∀ e, takenOps (evs ++ [.commit i e]) = takenOps evs := by intro e; simp [takenOps]
    simp only [List.drop_left]
    constructor
    · intro j x hx
      rw [ht]
      rcases List.mem_append.mp hx with hx | hx
      · have := h.made j x hx
        simp only [List.mem_append] at this ⊢
        rcases this with g | g <;> simp [g]
      · simp only [List.mem_singleton, MEvent.commit.injEq, List.cons.injEq, and_true] at hx
        simp [hx.2]
    · intro x hx
      rw [ht] at hx
      simp only [← List.append_assoc] at hx
      rcases List.mem_append.mp hx with hx | hx
      · rcases h.mine x hx with ⟨j, g⟩ | g
        · exact .inl ⟨j, by simp [g]⟩
        · exact .inr g
      · rw [List.mem_singleton.mp hx]
        exact .inl ⟨i, by simp⟩
    · intro j x hx
      rcases List.mem_append.mp hx with hx | hx
      · exact h.noList j x hx
      · simp only [List.mem_singleton, MEvent.commit.injEq, List.cons.injEq, and_true] at hx
        rw [hx.2]
        intro o ho' a b
        obtain ⟨p, _, hp⟩ := List.mem_flatMap.mp ho'
        obtain ⟨e, _, rfl⟩ := List.mem_map.mp hp
        unfold TabletState.op
        dsimp only
        split <;> simp
  | abort => exact h.keep (by simp) (by simp) rfl
  | check ho hs =>
    refine h.keep (by simp) (by simp) ?_
    unfold Commit.check at hs
    split at hs
    · simp only [Run.ok.injEq, Prod.mk.injEq] at hs; rw [← hs.2]
    · obtain ⟨x, h1, h2⟩ := Run.bind_eq_ok.mp hs
      simp only [Run.ok.injEq, Prod.mk.injEq] at h2
      rw [← h2.2]
      unfold Coordinator.check at h1
      split at h1
      · cases h1
      · cases h1
      · simp only [Run.ok.injEq] at h1; rw [← h1]
      · simp only [Run.ok.injEq] at h1; rw [← h1]
  | resolve hs =>
    unfold Manager.resolve at hs
    obtain ⟨md, _, h2⟩ := Run.bind_eq_ok.mp hs
    simp only [Run.ok.injEq] at h2
    subst h2
    exact h.keep (by simp) (by simp) rfl
  | @input i m hs =>
    refine h.keep (by simp) (by simp) ?_
    cases i with
    | data r =>
      obtain ⟨d, _, h2⟩ := Run.bind_eq_ok.mp hs
      simp only [Run.ok.injEq] at h2
      rw [← h2]
    | response corr r => exact opsResponse_out (m := { c.m with errors := c.m.errors.erase corr }) hs
    | error corr =>
      simp only [Manager.processIn] at hs
      split at hs
      · exact opsResponse_out (m := { c.m with errors := c.m.errors.erase corr }) hs
      · simp only [Run.ok.injEq] at hs; rw [← hs]
  | progress hs =>
    unfold Manager.makeProgress at hs
    obtain ⟨md, _, h2⟩ := Run.bind_eq_ok.mp hs
    obtain ⟨d, _, h3⟩ := Run.bind_eq_ok.mp h2
    obtain ⟨x, _, h4⟩ := Run.bind_eq_ok.mp h3
    simp only [Run.ok.injEq] at h4
    subst h4
    exact h.keep (by simp) (by simp) rfl
  | @take m outs hs =>
    unfold Manager.takeOut at hs
    obtain ⟨es, _, h2⟩ := Run.bind_eq_ok.mp hs
    simp only [Run.ok.injEq, Prod.mk.injEq] at h2
    obtain ⟨rfl, rfl⟩ := h2
    have ht : takenOps (evs ++ [.take ((c.m.coord.out ++ c.m.world.md.out).map (fun x => MgrOut.ops x.1 x.2) ++ c.m.world.data.out.map MgrOut.data)]) =
        takenOps evs ++ (c.m.coord.out ++ c.m.world.md.out) := by
      simp only [takenOps, List.flatMap_append, List.flatMap_cons, List.flatMap_nil, List.append_nil, List.filterMap_append, List.filterMap_map]
      simp [Function.comp_def]
    constructor
    · intro i x hx
      rw [ht]
      have := h.made i x (by simpa using hx)
      simp only [List.mem_append] at this ⊢
      rcases this with g | g <;> simp [g]
    · intro x hx
      rw [ht] at hx
      simp only [List.append_nil, ← List.append_assoc] at hx
      rcases List.mem_append.mp hx with hx | hx
      · rcases h.mine x hx with ⟨i, g⟩ | g
        · exact .inl ⟨i, by simp [g]⟩
        · exact .inr g
      · exact .inr (hl x hx)
    · exact fun i x hx => h.noList i x (by simpa using hx)

theorem rinv_steps [DecidableEq α] [DecidableEq η] [DecidableEq ω] {env : TxnEnv α η ω} (hsane : Sane env) {co md d : Nat} {w : ω} {cfg : List (String × UInt32)} {evs : List (MEvent η)} {c : Client α η ω}
    (h : MSteps env ⟨.create co md d w, [], []⟩ evs c) : evs = [] ∨ Configured cfg evs → RInv (regionSize cfg) evs c := by
  induction h with
  | refl => intro _; constructor <;> simp [takenOps, Manager.create, Coordinator.create]
  | @step evs c1 ev c2 h hs ih =>
    intro hc
    have hc1 : evs = [] ∨ Configured cfg evs := by
      obtain ⟨rest, he, hno⟩ := hc.resolve_left (by simp)
      cases evs with
      | nil => exact .inl rfl
      | cons e evs =>
        simp only [List.cons_append, List.cons.injEq] at he
        obtain ⟨rfl, rfl⟩ := he
        exact .inr ⟨evs, rfl, fun t ht => hno t (by simp [ht])⟩
    refine rinv_step (ih hc1) ?_ hs
    rcases hc1 with rfl | hc1
    · generalize he : ([] : List (MEvent η)) = l at h
      cases h with
      | refl => simp [MdLists, Manager.create, MetaCache.create]
      | step _ _ => simp at he
    · exact history_lists hsane ⟨co, md, d, w, h⟩ hc1

theorem history_rinv [DecidableEq α] [DecidableEq η] [DecidableEq ω] {env : TxnEnv α η ω} (hsane : Sane env) {cfg : List (String × UInt32)} {evs : List (MEvent η)} {c : Client α η ω} (h : MHistory env evs c)
    (hcfg : Configured cfg evs) : RInv (regionSize cfg) evs c := by
  obtain ⟨co, md, d, w, h⟩ := h
  exact rinv_steps hsane h (.inr hcfg)

/-! ## Answers of the metadata cache stay -/

theorem updateTablets_cells : ∀ {l : List (String × Metadata × Bool)} {c c' : MetaCache}, updateTablets c l = .ok c' →
    ∀ j x, c.cells.get j = some x → c'.cells.get j = some x := by
  intro l
  induction l with
  | nil => intro c c' h; simp only [updateTablets, Run.ok.injEq] at h; rw [← h]; exact fun _ _ h => h
  | cons e rest ih =>
    intro c c' h j x hx
    obtain ⟨t, m, b⟩ := e
    unfold updateTablets at h
    obtain ⟨c1, h1, h2⟩ := Run.bind_eq_ok.mp h
    exact ih h2 j x (feed_cells (i := .update t m b) h1 j x hx)

theorem coordIn_cells {c c' : Coordinator α η} {md md' : MetaCache} {corr : Nat} {rs : List TabletOpResult} (h : c.processIn md corr rs = .ok (c', md')) :
    ∀ j x, md.cells.get j = some x → md'.cells.get j = some x := by
  unfold Coordinator.processIn at h
  split at h
  · simp only [Run.ok.injEq, Prod.mk.injEq] at h; rw [← h.2]; exact fun _ _ h => h
  · dsimp only at h
    split at h
    · obtain ⟨x, _, h2⟩ := Run.bind_eq_ok.mp h
      obtain ⟨y, h3, h4⟩ := Run.bind_eq_ok.mp h2
      simp only [Run.ok.injEq, Prod.mk.injEq] at h4
      rw [← h4.2]
      exact updateTablets_cells h3
    · simp only [Run.ok.injEq, Prod.mk.injEq] at h; rw [← h.2]; exact fun _ _ h => h

theorem opsResponse_cells {m m' : Manager α η ω} {corr : Nat} {r : Response} (h : m.opsResponse corr r = .ok m') :
    ∀ j x, m.world.md.cells.get j = some x → m'.world.md.cells.get j = some x := by
  unfold Manager.opsResponse at h
  obtain ⟨md, h1, h2⟩ := Run.bind_eq_ok.mp h
  intro j x hx
  have hx := processIn_cells h1 j x hx
  split at h2
  · simp only [Run.ok.injEq] at h2; rw [← h2]; exact hx
  · obtain ⟨y, h3, h4⟩ := Run.bind_eq_ok.mp h2
    simp only [Run.ok.injEq] at h4
    rw [← h4]
    exact coordIn_cells (c' := y.1) (md' := y.2) h3 j x hx

theorem init_cells : ∀ {cfg : List (String × UInt32)} {c c' : MetaCache}, c.init cfg = .ok c' → c'.cells = c.cells := by
  intro cfg
  induction cfg with
  | nil => intro c c' h; simp only [MetaCache.init, Run.ok.injEq] at h; rw [h]
  | cons e rest ih =>
    intro c c' h
    obtain ⟨n, size⟩ := e
    unfold MetaCache.init at h
    obtain ⟨t, _, h2⟩ := Run.bind_eq_ok.mp h
    exact ih (c := { c with tables := c.tables.set n t }) h2

theorem mstep_cells {env : TxnEnv α η ω} {c c' : Client α η ω} {ev : MEvent η} (hs : MStep env c ev c') :
    ∀ j x, c.m.world.md.cells.get j = some x → c'.m.world.md.cells.get j = some x := by
  intro j x hx
  cases hs with
  | app => exact hx
  | init hs =>
    unfold Manager.init at hs
    obtain ⟨md, h1, h2⟩ := Run.bind_eq_ok.mp hs
    simp only [Run.ok.injEq] at h2
    subst h2
    dsimp only
    rw [init_cells h1]; exact hx
  | start => exact hx
  | process ho hs => exact hx
  | pending => exact hx
  | commit => exact hx
  | abort => exact hx
  | check ho hs =>
    unfold Commit.check at hs
    split at hs
    · simp only [Run.ok.injEq, Prod.mk.injEq] at hs; rw [← hs.2]; exact hx
    · obtain ⟨y, _, h2⟩ := Run.bind_eq_ok.mp hs
      simp only [Run.ok.injEq, Prod.mk.injEq] at h2
      rw [← h2.2]; exact hx
  | resolve hs =>
    unfold Manager.resolve at hs
    obtain ⟨md, h1, h2⟩ := Run.bind_eq_ok.mp hs
    simp only [Run.ok.injEq] at h2
    subst h2
    exact resolve_cells h1 j x hx
  | @input i m hs =>
    cases i with
    | data r =>
      obtain ⟨d, _, h2⟩ := Run.bind_eq_ok.mp hs
      simp only [Run.ok.injEq] at h2
      rw [← h2]; exact hx
    | response corr r => exact opsResponse_cells (m := { c.m with errors := c.m.errors.erase corr }) hs j x hx
    | error corr =>
      simp only [Manager.processIn] at hs
      split at hs
      · exact opsResponse_cells (m := { c.m with errors := c.m.errors.erase corr }) hs j x hx
      · simp only [Run.ok.injEq] at hs; rw [← hs]; exact hx
  | progress hs =>
    unfold Manager.makeProgress at hs
    obtain ⟨md, h1, h2⟩ := Run.bind_eq_ok.mp hs
    obtain ⟨d, _, h3⟩ := Run.bind_eq_ok.mp h2
    obtain ⟨y, h4, h5⟩ := Run.bind_eq_ok.mp h3
    simp only [Run.ok.injEq] at h5
    subst h5
    exact (stepTxns_each (ts' := y.1) (w' := y.2) h4).1.cells j x (feed_cells (i := .progress) h1 j x hx)
  | take hs =>
    unfold Manager.takeOut at hs
    obtain ⟨es, _, h2⟩ := Run.bind_eq_ok.mp hs
    simp only [Run.ok.injEq, Prod.mk.injEq] at h2
    rw [← h2.1]; exact hx

theorem msteps_cells {env : TxnEnv α η ω} {c c' : Client α η ω} {evs : List (MEvent η)} (hs : MSteps env c evs c') :
    ∀ j x, c.m.world.md.cells.get j = some x → c'.m.world.md.cells.get j = some x := by
  induction hs with
  | refl => exact fun _ _ h => h
  | step _ hs ih => exact fun j x hx => mstep_cells hs j x (ih j x hx)

end TCP.Cache
