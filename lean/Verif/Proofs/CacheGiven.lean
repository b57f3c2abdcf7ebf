import Verif.Proofs.CacheMetas

/-! # What process handlers are given, and what they write -/

namespace TCP.Cache

open TCP TCP.TabletStore TCP.Cache.Spec

variable {α η ω : Type}

/-! ## Answers of the metadata cache stay -/

theorem processFresh_cells {c c' : MetaCache} {n : String} {idx id : Nat} {t : Table} (h : c.processFresh n idx t id = .ok c') :
    ∀ j x, c.cells.get j = some x → c'.cells.get j = some x := by
  unfold MetaCache.processFresh at h
  cases hr : c.resolves.get id with
  | none => simp only [hr, Run.ok.injEq] at h; rw [← h]; exact fun _ _ h => h
  | some r =>
    simp only [hr] at h
    obtain ⟨r', _, h2⟩ := Run.bind_eq_ok.mp h
    obtain ⟨y, h3, h4⟩ := Run.bind_eq_ok.mp h2
    simp only [Run.ok.injEq] at h4
    subst h4
    exact maybeResolve_cells (c' := y.1) (r' := y.2) h3

theorem notifyAll_cells {n : String} {idx : Nat} {t : Table} : ∀ {ids : List Nat} {c c' : MetaCache}, c.notifyAll n idx t ids = .ok c' →
    ∀ j x, c.cells.get j = some x → c'.cells.get j = some x := by
  intro ids
  induction ids with
  | nil => intro c c' h; simp only [MetaCache.notifyAll, Run.ok.injEq] at h; rw [← h]; exact fun _ _ h => h
  | cons id rest ih =>
    intro c c' h j x hx
    obtain ⟨c1, h1, h2⟩ := Run.bind_eq_ok.mp h
    exact ih h2 j x (processFresh_cells h1 j x hx)

theorem processResult_cells {c c' : MetaCache} {r : TabletOpResult} (h : c.processResult r = .ok c') :
    ∀ j x, c.cells.get j = some x → c'.cells.get j = some x := by
  unfold MetaCache.processResult at h
  split at h
  · split at h
    · obtain ⟨y, _, h2⟩ := Run.bind_eq_ok.mp h
      exact fun j x hx => notifyAll_cells h2 j x hx
    · simp only [Run.ok.injEq] at h; rw [← h]; exact fun _ _ h => h
  · simp at h

theorem processIn_cells : ∀ {rs : List TabletOpResult} {c c' : MetaCache}, c.processIn rs = .ok c' →
    ∀ j x, c.cells.get j = some x → c'.cells.get j = some x := by
  intro rs
  induction rs with
  | nil => intro c c' h; simp only [MetaCache.processIn, Run.ok.injEq] at h; rw [← h]; exact fun _ _ h => h
  | cons r rest ih =>
    intro c c' h j x hx
    obtain ⟨c1, h1, h2⟩ := Run.bind_eq_ok.mp h
    exact ih h2 j x (processResult_cells h1 j x hx)

theorem feed_cells {c c' : MetaCache} {i : Input} (h : feed c i = .ok c') : ∀ j x, c.cells.get j = some x → c'.cells.get j = some x := by
  cases i with
  | progress =>
    simp only [feed, MetaCache.makeProgress] at h
    obtain ⟨y, _, h2⟩ := Run.bind_eq_ok.mp h
    simp only [Run.ok.injEq] at h2
    subst h2
    intro j x hx
    split <;> exact hx
  | resolve n qs => exact resolve_cells h
  | update t m b =>
    simp only [feed, MetaCache.updateTablet] at h
    split at h
    · obtain ⟨y, _, h2⟩ := Run.bind_eq_ok.mp h
      simp only [Run.ok.injEq] at h2
      subst h2
      exact fun _ _ h => h
    · simp only [Run.ok.injEq] at h; rw [← h]; exact fun _ _ h => h
  | list rs => exact processIn_cells h
  | take => simp only [feed, Run.ok.injEq] at h; rw [← h]; exact fun _ _ h => h

/-! ## The calls made while transactions advance -/

abbrev Call (α η ω : Type) := η × ω × Nat × List (Query × UInt32 × Option α)

def callOf (i : Nat) (p : Proc α η) (w : World α ω) : List (Call α η ω) :=
  match p.status with
  | .loading id =>
    match w.data.cells.loads.get id with
    | some (some res) =>
      match initTablets p.tablets res with
      | .ok ts => [(p.handler, w.shared, i, views ts)]
      | .panic => []
    | _ => []
  | _ => []

def procCalls (env : TxnEnv α η ω) (i : Nat) : List (Proc α η) → World α ω → List (Call α η ω)
  | [], _ => []
  | p :: rest, w => callOf i p w ++ match p.step env i w with
    | .ok x => procCalls env i rest x.2
    | .panic => []

def txnCalls (env : TxnEnv α η ω) : AMap Nat (TxnState α η) → World α ω → List (Call α η ω)
  | [], _ => []
  | (i, .preparing ps) :: rest, w => procCalls env i ps w ++ match stepProcs env i ps w with
    | .ok x => txnCalls env rest x.2
    | .panic => []
  | (_, .committing _) :: rest, w => txnCalls env rest w
  | (_, .completed _) :: rest, w => txnCalls env rest w

section
variable [DecidableEq α] [DecidableEq η] [DecidableEq ω]

open scoped Classical in
theorem without_handle {env : TxnEnv α η ω} {h h' : η} {s s' : ω} {i i' : Nat} {vs vs' : List (Query × UInt32 × Option α)} :
    (without env h s i vs).handle h' s' i' vs' = if ((h, s, i, vs) : Call α η ω) = (h', s', i', vs') then .panic else env.handle h' s' i' vs' := by
  simp only [without, Prod.mk.injEq]
  by_cases hc : h' = h ∧ s' = s ∧ i' = i ∧ vs' = vs
  · obtain ⟨rfl, rfl, rfl, rfl⟩ := hc
    simp
  · rw [if_neg hc, if_neg]
    rintro ⟨rfl, rfl, rfl, rfl⟩
    exact hc ⟨rfl, rfl, rfl, rfl⟩

open scoped Classical in
theorem step_without {env : TxnEnv α η ω} {h : η} {s : ω} {j : Nat} {vs : List (Query × UInt32 × Option α)} {i : Nat} {p : Proc α η} {w : World α ω} :
    p.step (without env h s j vs) i w = if (h, s, j, vs) ∈ callOf i p w then .panic else p.step env i w := by
  unfold Proc.step callOf
  cases hs : p.status with
  | loading id =>
    simp only
    cases hc : w.data.cells.loads.get id with
    | none => simp
    | some o =>
      cases o with
      | none => simp
      | some res =>
        simp only
        cases ht : initTablets p.tablets res with
        | panic => simp [Run.bind]
        | ok ts =>
          simp only [Run.bind_ok, without_handle, List.mem_singleton]
          by_cases hc : (h, s, j, vs) = ((p.handler, w.shared, i, views ts) : Call α η ω)
          · rw [if_pos hc, if_pos hc]; rfl
          · rw [if_neg hc, if_neg hc]; rfl
  | pending qs => simp
  | resolving id => simp
  | storing o => cases o <;> simp [without]
  | completed => simp
  | failed => simp

open scoped Classical in
theorem stepProcs_without {env : TxnEnv α η ω} {h : η} {s : ω} {j : Nat} {vs : List (Query × UInt32 × Option α)} {i : Nat} :
    ∀ {ps : List (Proc α η)} {w : World α ω} {r}, stepProcs env i ps w = .ok r →
    stepProcs (without env h s j vs) i ps w = if (h, s, j, vs) ∈ procCalls env i ps w then .panic else .ok r := by
  intro ps
  induction ps with
  | nil => intro w r hr; simp [stepProcs, procCalls] at hr ⊢; exact hr
  | cons p rest ih =>
    intro w r hr
    unfold stepProcs at hr ⊢
    obtain ⟨x, h1, h2⟩ := Run.bind_eq_ok.mp hr
    obtain ⟨y, h3, h4⟩ := Run.bind_eq_ok.mp h2
    simp only [procCalls, h1, step_without, List.mem_append]
    by_cases hc : (h, s, j, vs) ∈ callOf i p w
    · simp [hc, Run.bind]
    · simp only [hc, if_false, Run.bind_ok, false_or]
      rw [ih h3]
      by_cases hd : (h, s, j, vs) ∈ procCalls env i rest x.2
      · simp [hd, Run.bind]
      · simp only [hd, if_false, Run.bind_ok]; exact h4

open scoped Classical in
theorem stepTxns_without {env : TxnEnv α η ω} {h : η} {s : ω} {j : Nat} {vs : List (Query × UInt32 × Option α)} :
    ∀ {ts : AMap Nat (TxnState α η)} {w : World α ω} {r}, stepTxns env ts w = .ok r →
    stepTxns (without env h s j vs) ts w = if (h, s, j, vs) ∈ txnCalls env ts w then .panic else .ok r := by
  intro ts
  induction ts with
  | nil => intro w r hr; simp [stepTxns, txnCalls] at hr ⊢; exact hr
  | cons e rest ih =>
    obtain ⟨i, st⟩ := e
    intro w r hr
    cases st with
    | preparing ps =>
      unfold stepTxns at hr ⊢
      obtain ⟨x, h1, h2⟩ := Run.bind_eq_ok.mp hr
      obtain ⟨y, h3, h4⟩ := Run.bind_eq_ok.mp h2
      rw [stepProcs_without h1]
      simp only [txnCalls, h1, List.mem_append]
      by_cases hc : (h, s, j, vs) ∈ procCalls env i ps w
      · simp [hc, Run.bind]
      · simp only [hc, if_false, Run.bind_ok, false_or]
        rw [ih h3]
        by_cases hd : (h, s, j, vs) ∈ txnCalls env rest x.2
        · simp [hd, Run.bind]
        · simp only [hd, if_false, Run.bind_ok]; exact h4
    | committing ops =>
      unfold stepTxns at hr ⊢
      obtain ⟨y, h3, h4⟩ := Run.bind_eq_ok.mp hr
      rw [ih h3]
      simp only [txnCalls]
      by_cases hd : (h, s, j, vs) ∈ txnCalls env rest w
      · simp [hd, Run.bind]
      · simp only [hd, if_false, Run.bind_ok]; exact h4
    | completed o =>
      unfold stepTxns at hr ⊢
      obtain ⟨y, h3, h4⟩ := Run.bind_eq_ok.mp hr
      rw [ih h3]
      simp only [txnCalls]
      by_cases hd : (h, s, j, vs) ∈ txnCalls env rest w
      · simp [hd, Run.bind]
      · simp only [hd, if_false, Run.bind_ok]; exact h4

open scoped Classical in
theorem calls_iff {env : TxnEnv α η ω} {m m' : Manager α η ω} {md : MetaCache} {d : DataCache α} (h1 : m.world.md.makeProgress = .ok md)
    (h2 : m.world.data.makeProgress env.evict = .ok d) {r} (h3 : stepTxns env m.coord.txns { m.world with md := md, data := d } = .ok r)
    (h4 : m.makeProgress env = .ok m') {h : η} {s : ω} {i : Nat} {vs : List (Query × UInt32 × Option α)} :
    Calls env m m' h s i vs ↔ (h, s, i, vs) ∈ txnCalls env m.coord.txns { m.world with md := md, data := d } := by
  have he : m.makeProgress (without env h s i vs) = if (h, s, i, vs) ∈ txnCalls env m.coord.txns { m.world with md := md, data := d } then .panic else .ok m' := by
    unfold Manager.makeProgress at h4 ⊢
    have h2' : m.world.data.makeProgress (without env h s i vs).evict = .ok d := h2
    simp only [h1, h2, h2', Run.bind_ok] at h4 ⊢
    rw [stepTxns_without h3]
    by_cases hc : (h, s, i, vs) ∈ txnCalls env m.coord.txns { m.world with md := md, data := d }
    · simp [hc, Run.bind]
    · simp only [hc, if_false, Run.bind_ok]
      rw [h3] at h4
      exact h4
  unfold Calls
  rw [he]
  constructor
  · rintro ⟨_, h5⟩
    by_cases hc : (h, s, i, vs) ∈ txnCalls env m.coord.txns { m.world with md := md, data := d }
    · exact hc
    · simp [hc] at h5
  · intro hc
    exact ⟨h4, by simp [hc]⟩

end

/-! ## The caches while transactions advance -/

/-- The metadata cache was fed `ins`, the data cache has the history `devs`. -/
structure WH (env : TxnEnv α η ω) (cfg : List (String × UInt32)) (c0 : MetaCache) (ins : List Input) (devs : List (Event α)) (w : World α ω) : Prop where
  started : Started cfg c0
  fed : feedAll c0 ins = .ok w.md
  hist : History env.data devs w.data
  metas : AllMeta (KnownMeta env.data w.md) w.data

/-- More happened. -/
structure Ext (ins ins' : List Input) (devs devs' : List (Event α)) (w w' : World α ω) : Prop where
  ins : ∃ a, ins' = ins ++ a
  devs : ∃ b, devs' = devs ++ b
  cells : ∀ j x, w.md.cells.get j = some x → w'.md.cells.get j = some x
  keeps : Keeps w.data.cells w'.data.cells

theorem Ext.refl (ins : List Input) (devs : List (Event α)) (w : World α ω) : Ext ins ins devs devs w w :=
  ⟨⟨[], by simp⟩, ⟨[], by simp⟩, fun _ _ h => h, Keeps.refl _⟩

theorem Ext.trans {i1 i2 i3 : List Input} {d1 d2 d3 : List (Event α)} {w1 w2 w3 : World α ω} (h : Ext i1 i2 d1 d2 w1 w2) (k : Ext i2 i3 d2 d3 w2 w3) :
    Ext i1 i3 d1 d3 w1 w3 := by
  obtain ⟨⟨a, rfl⟩, ⟨b, rfl⟩, h3, h4⟩ := h
  obtain ⟨⟨a', rfl⟩, ⟨b', rfl⟩, k3, k4⟩ := k
  exact ⟨⟨a ++ a', by simp⟩, ⟨b ++ b', by simp⟩, fun j x hx => k3 j x (h3 j x hx), h4.trans k4⟩

theorem KnownMeta.mono {env : DataEnv α} {md md' : MetaCache} (h : ∀ j x, md.cells.get j = some x → md'.cells.get j = some x) {m : Metadata}
    (hm : KnownMeta env md m) : KnownMeta env md' m := by
  rcases hm with ⟨id, res, h1, h2⟩ | hm
  · exact .inl ⟨id, res, h _ _ h1, h2⟩
  · exact .inr hm

/-- Inputs that are neither lists nor updates. -/
def Plain : Input → Prop
  | .list _ => False
  | .update _ _ _ => False
  | _ => True

/-- A load that is under way for a process request with the queries `qs`. -/
def Loading (ins : List Input) (devs : List (Event α)) (w : World α ω) (qs : List Query) (lid : Nat) (ts0 : AMap Nat (TabletState α)) : Prop :=
  ∃ k res now, (requestsOf ins)[k]? = some (.source, qs) ∧ w.md.cells.get (requestId k) = some res ∧ ts0 = trackTablets [] res ∧
    .load (res.map Prod.snd) lid now ∈ devs ∧ (now = true → ∃ x, w.data.cells.loads.get lid = some x ∧
      ∀ l, x = some l → ∃ p, l = [p] ∧ (res.map Prod.snd).head?.map Metadata.uri = some p.1.uri)

theorem requestsOf_get {ins a : List Input} {k : Nat} {x : Notification × List Query} (h : (requestsOf ins)[k]? = some x) :
    (requestsOf (ins ++ a))[k]? = some x := by
  rw [requestsOf_append, List.getElem?_append_left (List.getElem?_eq_some_iff.mp h).1]; exact h

theorem Loading.mono {ins ins' : List Input} {devs devs' : List (Event α)} {w w' : World α ω} (he : Ext ins ins' devs devs' w w') {qs : List Query}
    {lid : Nat} {ts0 : AMap Nat (TabletState α)} (h : Loading ins devs w qs lid ts0) : Loading ins' devs' w' qs lid ts0 := by
  obtain ⟨⟨a, rfl⟩, ⟨b, rfl⟩, h3, h4⟩ := he
  obtain ⟨k, res, now, k1, k2, k3, k4, k5⟩ := h
  refine ⟨k, res, now, requestsOf_get k1, h3 _ _ k2, k3, by simp [k4], fun hn => ?_⟩
  obtain ⟨x, l1, l2⟩ := k5 hn
  exact ⟨x, h4.1 _ _ l1, l2⟩

/-- What a handler is given. -/
def GivenW (evs : List (MEvent η)) (ins : List Input) (devs : List (Event α)) (w : World α ω) (call : Call α η ω) : Prop :=
  ∃ qs lid ts0 loaded ts, .process call.2.2.1 qs call.1 ∈ evs ∧ Loading ins devs w qs lid ts0 ∧ w.data.cells.loads.get lid = some (some loaded) ∧
    initTablets ts0 loaded = .ok ts ∧ call.2.2.2 = views ts

theorem GivenW.mono {evs more : List (MEvent η)} {ins ins' : List Input} {devs devs' : List (Event α)} {w w' : World α ω} (he : Ext ins ins' devs devs' w w')
    {call : Call α η ω} (h : GivenW evs ins devs w call) : GivenW (evs ++ more) ins' devs' w' call := by
  obtain ⟨qs, lid, ts0, loaded, ts, h1, h2, h3, h4, h5⟩ := h
  exact ⟨qs, lid, ts0, loaded, ts, by simp [h1], h2.mono he, he.keeps.1 _ _ h3, h4, h5⟩

/-- The tablets given to a handler. -/
def TsGiven (ins : List Input) (devs : List (Event α)) (w : World α ω) (ts : AMap Nat (TabletState α)) : Prop :=
  ∃ qs lid ts0 loaded, Loading ins devs w qs lid ts0 ∧ w.data.cells.loads.get lid = some (some loaded) ∧ initTablets ts0 loaded = .ok ts

theorem TsGiven.mono {ins ins' : List Input} {devs devs' : List (Event α)} {w w' : World α ω} (he : Ext ins ins' devs devs' w w')
    {ts : AMap Nat (TabletState α)} (h : TsGiven ins devs w ts) : TsGiven ins' devs' w' ts := by
  obtain ⟨qs, lid, ts0, loaded, h2, h3, h4⟩ := h
  exact ⟨qs, lid, ts0, loaded, h2.mono he, he.keeps.1 _ _ h3, h4⟩

/-- What a call led to. -/
def WroteAs (env : TxnEnv α η ω) (ins : List Input) (devs : List (Event α)) (w : World α ω) (call : Call α η ω) (id : Nat) (tablets : AMap Nat (TabletState α)) : Prop :=
  ∃ s' sets ts ms, env.handle call.1 call.2.1 call.2.2.1 call.2.2.2 = .ok (s', sets) ∧ Clean ts ∧ call.2.2.2 = views ts ∧
    .store (takeWrites (applySets ts sets)) ms (some id) ∈ devs ∧ tablets = putMetadata (applySets ts sets) ms ∧ TsGiven ins devs w ts

def Did (env : TxnEnv α η ω) (ins : List Input) (devs : List (Event α)) (w : World α ω) (call : Call α η ω) (p : Proc α η) : Prop :=
  match p.status with
  | .storing none => True
  | .failed => True
  | .storing (some id) => WroteAs env ins devs w call id p.tablets
  | .completed => ∃ id, WroteAs env ins devs w call id p.tablets ∧ w.data.cells.stores.get id = some (some ())
  | _ => False

theorem WroteAs.mono {env : TxnEnv α η ω} {ins ins' : List Input} {devs devs' : List (Event α)} {w w' : World α ω} (he : Ext ins ins' devs devs' w w') {call : Call α η ω} {id : Nat}
    {tablets : AMap Nat (TabletState α)} (h : WroteAs env ins devs w call id tablets) : WroteAs env ins' devs' w' call id tablets := by
  obtain ⟨s', sets, ts, ms, h1, h2, h3, h4, h5, h6⟩ := h
  obtain ⟨b, hb⟩ := he.devs
  exact ⟨s', sets, ts, ms, h1, h2, h3, by rw [hb]; simp [h4], h5, h6.mono he⟩

theorem Did.mono {env : TxnEnv α η ω} {ins ins' : List Input} {devs devs' : List (Event α)} {w w' : World α ω} (he : Ext ins ins' devs devs' w w')
    {call : Call α η ω} {p : Proc α η} (h : Did env ins devs w call p) : Did env ins' devs' w' call p := by
  unfold Did at h ⊢
  split at h
  · trivial
  · trivial
  · exact h.mono he
  · obtain ⟨id, h1, h2⟩ := h
    exact ⟨id, h1.mono he, he.keeps.2 _ _ h2⟩
  · exact h.elim

/-- What is known about a process request of transaction `i`, if the calls `R` were made. -/
def GInv (env : TxnEnv α η ω) (evs : List (MEvent η)) (R : Call α η ω → Prop) (ins : List Input) (devs : List (Event α)) (w : World α ω)
    (i : Nat) (p : Proc α η) : Prop :=
  ∃ qs, .process i qs p.handler ∈ evs ∧
  match p.status with
  | .pending qs' => qs' = qs ∧ p.tablets = []
  | .resolving id => p.tablets = [] ∧ ∃ k, id = requestId k ∧ (requestsOf ins)[k]? = some (.source, qs)
  | .loading id => Loading ins devs w qs id p.tablets
  | .storing (some _) => ∃ s vs, R (p.handler, s, i, vs) ∧ Did env ins devs w (p.handler, s, i, vs) p
  | .completed => ∃ s vs, R (p.handler, s, i, vs) ∧ Did env ins devs w (p.handler, s, i, vs) p
  | _ => True

theorem GInv.mono {env : TxnEnv α η ω} {evs more : List (MEvent η)} {R R' : Call α η ω → Prop} (hR : ∀ x, R x → R' x) {ins ins' : List Input}
    {devs devs' : List (Event α)} {w w' : World α ω} (he : Ext ins ins' devs devs' w w') {i : Nat} {p : Proc α η}
    (h : GInv env evs R ins devs w i p) : GInv env (evs ++ more) R' ins' devs' w' i p := by
  obtain ⟨qs, h1, h2⟩ := h
  refine ⟨qs, by simp [h1], ?_⟩
  cases hs : p.status with
  | pending qs' => simpa only [hs] using h2
  | resolving id =>
    simp only [hs] at h2 ⊢
    obtain ⟨h3, k, h4, h5⟩ := h2
    obtain ⟨a, rfl⟩ := he.ins
    exact ⟨h3, k, h4, requestsOf_get h5⟩
  | loading id => simp only [hs] at h2 ⊢; exact h2.mono he
  | storing o =>
    cases o with
    | none => trivial
    | some id =>
      simp only [hs] at h2 ⊢
      obtain ⟨s, vs, h3, h4⟩ := h2
      exact ⟨s, vs, hR _ h3, h4.mono he⟩
  | completed =>
    simp only [hs] at h2 ⊢
    obtain ⟨s, vs, h3, h4⟩ := h2
    exact ⟨s, vs, hR _ h3, h4.mono he⟩
  | failed => trivial

theorem trackTablets_clean' (res : List (Query × Metadata)) : Clean (trackTablets ([] : AMap Nat (TabletState α)) res) := trackTablets_clean (by simp [Clean])

theorem callOf_txn {i : Nat} {p : Proc α η} {w : World α ω} {call : Call α η ω} (h : call ∈ callOf i p w) : call.2.2.1 = i ∧ call.1 = p.handler := by
  unfold callOf at h
  split at h
  · split at h
    · split at h
      · rw [List.mem_singleton.mp h]; exact ⟨rfl, rfl⟩
      · simp at h
    · simp at h
  · simp at h

/-- One process request advances. -/
theorem step_ginv {env : TxnEnv α η ω} {cfg : List (String × UInt32)} {c0 : MetaCache} {evs : List (MEvent η)} {R : Call α η ω → Prop} {ins : List Input}
    {devs : List (Event α)} {i : Nat} {p p' : Proc α η} {w w' : World α ω} (hw : WH env cfg c0 ins devs w) (hp : GInv env evs R ins devs w i p)
    (h : p.step env i w = .ok (p', w')) (hR : ∀ x ∈ callOf i p w, R x) :
    ∃ a b, (∀ e ∈ b, Called e) ∧ (∀ e ∈ a, Plain e) ∧ WH env cfg c0 (ins ++ a) (devs ++ b) w' ∧ Ext ins (ins ++ a) devs (devs ++ b) w w' ∧
      GInv env evs R (ins ++ a) (devs ++ b) w' i p' ∧
      (∀ x, x ∈ callOf i p w ∨ Did env ins devs w x p → Did env (ins ++ a) (devs ++ b) w' x p') ∧ ∀ x ∈ callOf i p w, GivenW evs ins devs w x := by
  have same : p' = p → w' = w → callOf i p w = [] → ∃ a b, (∀ e ∈ b, Called e) ∧ (∀ e ∈ a, Plain e) ∧ WH env cfg c0 (ins ++ a) (devs ++ b) w' ∧
      Ext ins (ins ++ a) devs (devs ++ b) w w' ∧ GInv env evs R (ins ++ a) (devs ++ b) w' i p' ∧
      (∀ x, x ∈ callOf i p w ∨ Did env ins devs w x p → Did env (ins ++ a) (devs ++ b) w' x p') ∧ ∀ x ∈ callOf i p w, GivenW evs ins devs w x := by
    rintro rfl rfl hc
    rw [hc]
    exact ⟨[], [], by simp, by simp, by simpa using hw, by simpa using Ext.refl _ _ _, by simpa using hp, fun x hx => by simpa using hx, by simp⟩
  obtain ⟨qs, hq, hp'⟩ := hp
  unfold Proc.step at h
  cases hs : p.status with
  | pending qs' =>
    simp only [hs] at h hp'
    obtain ⟨rfl, ht⟩ := hp'
    obtain ⟨c, h1, h2⟩ := Run.bind_eq_ok.mp h
    simp only [Run.ok.injEq, Prod.mk.injEq] at h2
    obtain ⟨rfl, rfl⟩ := h2
    have hfeed : feed w.md (.resolve .source qs') = .ok c := h1
    have hf := feedAll_snoc (c0 := c0) hw.fed hfeed
    have he : Ext ins (ins ++ [.resolve .source qs']) devs (devs ++ []) w { w with md := c } :=
      ⟨⟨_, rfl⟩, ⟨_, rfl⟩, feed_cells hfeed, Keeps.refl _⟩
    have hcall : callOf i p w = [] := by simp [callOf, hs]
    refine ⟨[.resolve .source qs'], [], by simp, by simp [Plain], ⟨hw.started, hf, by simpa using hw.hist, hw.metas.mono fun m hm => KnownMeta.mono (feed_cells hfeed) hm⟩, he, ?_, ?_, ?_⟩
    · refine ⟨qs', hq, ht, (requestsOf ins).length, ?_, ?_⟩
      · have := (resolve_history_inv hw.started hf).counter
        rw [this, requestsOf_append]
        simp [requestsOf, requestId]
      · rw [requestsOf_append]; simp [requestsOf]
    · rw [hcall]; simp [Did, hs]
    · rw [hcall]; simp
  | resolving id =>
    have hcall : callOf i p w = [] := by simp [callOf, hs]
    simp only [hs] at h hp'
    cases hc : w.md.cells.get id with
    | none =>
      simp only [hc, Run.ok.injEq, Prod.mk.injEq] at h
      exact same h.1.symm h.2.symm hcall
    | some res =>
      simp only [hc] at h
      obtain ⟨d, h1, h2⟩ := Run.bind_eq_ok.mp h
      simp only [Run.ok.injEq, Prod.mk.injEq] at h2
      obtain ⟨rfl, rfl⟩ := h2
      obtain ⟨ht, k, rfl, hk⟩ := hp'
      have he : Ext ins (ins ++ []) devs (devs ++ [.load (res.map Prod.snd) d.batchCounter (firstReady w.data (res.map Prod.snd))]) w { w with data := d } :=
        ⟨⟨_, rfl⟩, ⟨_, rfl⟩, fun _ _ h => h, (load_ok (history_inv hw.hist) h1).2.1⟩
      refine ⟨[], [.load (res.map Prod.snd) d.batchCounter (firstReady w.data (res.map Prod.snd))], by simp [Called], by simp,
        ⟨hw.started, by simpa using hw.fed, hw.hist.load h1, load_meta h1 hw.metas fun m hm => .inl ⟨_, _, hc, hm⟩⟩, he, ?_, ?_, ?_⟩
      · refine ⟨qs, hq, k, res, _, by simpa using hk, hc, by rw [ht], List.mem_append.mpr (.inr (List.mem_singleton.mpr rfl)), fun hn => load_first hw.hist h1 hn⟩
      · rw [hcall]; simp [Did, hs]
      · rw [hcall]; simp
  | loading id =>
    simp only [hs] at h hp'
    cases hc : w.data.cells.loads.get id with
    | none =>
      simp only [hc, Run.ok.injEq, Prod.mk.injEq] at h
      exact same h.1.symm h.2.symm (by simp [callOf, hs, hc])
    | some o =>
      cases o with
      | none =>
        have hcall : callOf i p w = [] := by simp [callOf, hs, hc]
        simp only [hc, Run.ok.injEq, Prod.mk.injEq] at h
        obtain ⟨rfl, rfl⟩ := h
        rw [hcall]
        exact ⟨[], [], by simp, by simp, by simpa using hw, by simpa using Ext.refl _ _ _, ⟨qs, hq, trivial⟩, by simp [Did], by simp⟩
      | some res =>
        simp only [hc] at h
        obtain ⟨ts, h1, h2⟩ := Run.bind_eq_ok.mp h
        obtain ⟨⟨w1, sets⟩, h3, h4⟩ := Run.bind_eq_ok.mp h2
        obtain ⟨⟨d, ms, b⟩, h5, h6⟩ := Run.bind_eq_ok.mp h4
        simp only [Run.ok.injEq, Prod.mk.injEq] at h6
        obtain ⟨rfl, rfl⟩ := h6
        have hcall : callOf i p w = [(p.handler, w.shared, i, views ts)] := by simp [callOf, hs, hc, h1]
        have hcl : Clean ts := by
          obtain ⟨k, res', now, _, _, k3, _⟩ := hp'
          exact initTablets_clean h1 (k3 ▸ trackTablets_clean' res')
        have he : Ext ins (ins ++ []) devs (devs ++ [.store (takeWrites (applySets ts sets)) ms (if b then some d.batchCounter else none)]) w { w with data := d, shared := w1 } :=
          ⟨⟨_, rfl⟩, ⟨_, rfl⟩, fun _ _ h => h, (store_ok (history_inv hw.hist) h5).2.1⟩
        have hdid : Did env (ins ++ []) (devs ++ [.store (takeWrites (applySets ts sets)) ms (if b then some d.batchCounter else none)]) { w with data := d, shared := w1 }
            (p.handler, w.shared, i, views ts) { p with status := .storing (if b then some d.batchCounter else none), tablets := putMetadata (applySets ts sets) ms } := by
          cases b with
          | false => trivial
          | true => exact ⟨w1, sets, ts, ms, h3, hcl, rfl, by simp, rfl, TsGiven.mono he ⟨qs, id, p.tablets, res, hp', hc, h1⟩⟩
        refine ⟨[], [.store (takeWrites (applySets ts sets)) ms (if b then some d.batchCounter else none)], by simp [Called], by simp,
          ⟨hw.started, by simpa using hw.fed, hw.hist.store h5, store_meta h5 hw.metas fun m hm => .inr hm⟩, he, ⟨qs, hq, ?_⟩, ?_, ?_⟩
        · cases b with
          | false => trivial
          | true => exact ⟨w.shared, views ts, hR _ (by rw [hcall]; simp), hdid⟩
        · rw [hcall]
          rintro x (hx | hx)
          · rw [List.mem_singleton.mp hx]; exact hdid
          · simp [Did, hs] at hx
        · rw [hcall]
          intro x hx
          rw [List.mem_singleton.mp hx]
          exact ⟨qs, id, p.tablets, res, ts, hq, hp', hc, h1, rfl⟩
  | storing o =>
    have hcall : callOf i p w = [] := by simp [callOf, hs]
    cases o with
    | none =>
      simp only [hs, Run.ok.injEq, Prod.mk.injEq] at h
      obtain ⟨rfl, rfl⟩ := h
      rw [hcall]
      exact ⟨[], [], by simp, by simp, by simpa using hw, by simpa using Ext.refl _ _ _, ⟨qs, hq, trivial⟩, by simp [Did], by simp⟩
    | some id =>
      simp only [hs] at h hp'
      cases hc : w.data.cells.stores.get id with
      | none =>
        simp only [hc, Run.ok.injEq, Prod.mk.injEq] at h
        exact same h.1.symm h.2.symm hcall
      | some o =>
        cases o with
        | none =>
          simp only [hc, Run.ok.injEq, Prod.mk.injEq] at h
          obtain ⟨rfl, rfl⟩ := h
          rw [hcall]
          exact ⟨[], [], by simp, by simp, by simpa using hw, by simpa using Ext.refl _ _ _, ⟨qs, hq, trivial⟩, by simp [Did], by simp⟩
        | some u =>
          simp only [hc, Run.ok.injEq, Prod.mk.injEq] at h
          obtain ⟨rfl, rfl⟩ := h
          rw [hcall]
          have hdid : ∀ x, Did env ins devs w x p → Did env (ins ++ []) (devs ++ []) w x { p with status := .completed } := by
            intro x hx
            simp only [Did, hs] at hx
            exact ⟨id, by simpa using hx, hc⟩
          refine ⟨[], [], by simp, by simp, by simpa using hw, by simpa using Ext.refl _ _ _, ⟨qs, hq, ?_⟩, ?_, by simp⟩
          · obtain ⟨s, vs, k1, k2⟩ := hp'
            exact ⟨s, vs, k1, hdid _ k2⟩
          · rintro x (hx | hx)
            · simp at hx
            · exact hdid x hx
  | completed =>
    simp only [hs, Run.ok.injEq, Prod.mk.injEq] at h
    exact same h.1.symm h.2.symm (by simp [callOf, hs])
  | failed =>
    simp only [hs, Run.ok.injEq, Prod.mk.injEq] at h
    exact same h.1.symm h.2.symm (by simp [callOf, hs])

theorem stepProcs_ginv {env : TxnEnv α η ω} {cfg : List (String × UInt32)} {c0 : MetaCache} {evs : List (MEvent η)} {R : Call α η ω → Prop} {i : Nat} :
    ∀ {ps ps' : List (Proc α η)} {ins : List Input} {devs : List (Event α)} {w w' : World α ω}, WH env cfg c0 ins devs w →
    (∀ p ∈ ps, GInv env evs R ins devs w i p) → stepProcs env i ps w = .ok (ps', w') → (∀ x ∈ procCalls env i ps w, R x) →
    ∃ a b, (∀ e ∈ b, Called e) ∧ (∀ e ∈ a, Plain e) ∧ WH env cfg c0 (ins ++ a) (devs ++ b) w' ∧ Ext ins (ins ++ a) devs (devs ++ b) w w' ∧
      (∀ p ∈ ps', GInv env evs R (ins ++ a) (devs ++ b) w' i p) ∧
      (∀ x, (x ∈ procCalls env i ps w ∨ ∃ p ∈ ps, Did env ins devs w x p) → ∃ p ∈ ps', Did env (ins ++ a) (devs ++ b) w' x p) ∧
      ∀ x ∈ procCalls env i ps w, x.2.2.1 = i ∧ GivenW evs (ins ++ a) (devs ++ b) w' x := by
  intro ps
  induction ps with
  | nil =>
    intro ps' ins devs w w' hw _ h _
    simp only [stepProcs, Run.ok.injEq, Prod.mk.injEq] at h
    obtain ⟨rfl, rfl⟩ := h
    exact ⟨[], [], by simp, by simp, by simpa using hw, by simpa using Ext.refl _ _ _, by simp, by simp [procCalls], by simp [procCalls]⟩
  | cons p rest ih =>
    intro ps' ins devs w w' hw hp h hR
    unfold stepProcs at h
    obtain ⟨⟨p1, w1⟩, h1, h2⟩ := Run.bind_eq_ok.mp h
    obtain ⟨⟨ps1, w2⟩, h3, h4⟩ := Run.bind_eq_ok.mp h2
    simp only [Run.ok.injEq, Prod.mk.injEq] at h4
    obtain ⟨rfl, rfl⟩ := h4
    have hcalls : procCalls env i (p :: rest) w = callOf i p w ++ procCalls env i rest w1 := by simp [procCalls, h1]
    rw [hcalls] at hR ⊢
    obtain ⟨a, b, k1, kp, k2, k3, k4, k5, k6⟩ := step_ginv hw (hp p (by simp)) h1 (fun x hx => hR x (by simp [hx]))
    obtain ⟨a', b', l1, lp, l2, l3, l4, l5, l6⟩ := ih k2 (fun q hq => by have := (hp q (by simp [hq])).mono (more := []) (R' := R) (fun _ h => h) k3; simpa using this) h3
      (fun x hx => hR x (by simp [hx]))
    have he : Ext ins (ins ++ (a ++ a')) devs (devs ++ (b ++ b')) w w2 := by
      have := k3.trans l3
      simpa [List.append_assoc] using this
    refine ⟨a ++ a', b ++ b', ?_, fun e he => (List.mem_append.mp he).elim (kp e) (lp e), by simpa using l2, he, ?_, ?_, ?_⟩
    · intro e he
      rcases List.mem_append.mp he with he | he
      · exact k1 e he
      · exact l1 e he
    · intro q hq
      rw [← List.append_assoc, ← List.append_assoc]
      rcases List.mem_cons.mp hq with rfl | hq
      · have := k4.mono (more := []) (R' := R) (fun _ h => h) l3; simpa using this
      · exact l4 q hq
    · intro x hx
      rw [← List.append_assoc, ← List.append_assoc]
      have first : x ∈ callOf i p w ∨ Did env ins devs w x p → ∃ q ∈ p1 :: ps1, Did env (ins ++ a ++ a') (devs ++ b ++ b') w2 x q :=
        fun hx => ⟨p1, by simp, (k5 x hx).mono l3⟩
      have later : (x ∈ procCalls env i rest w1 ∨ ∃ q ∈ rest, Did env (ins ++ a) (devs ++ b) w1 x q) → ∃ q ∈ p1 :: ps1, Did env (ins ++ a ++ a') (devs ++ b ++ b') w2 x q := by
        intro hx
        obtain ⟨q, h5, h6⟩ := l5 x hx
        exact ⟨q, by simp [h5], h6⟩
      rcases hx with hx | ⟨q, hq, hx⟩
      · rcases List.mem_append.mp hx with hx | hx
        · exact first (.inl hx)
        · exact later (.inl hx)
      · rcases List.mem_cons.mp hq with rfl | hq
        · exact first (.inr hx)
        · exact later (.inr ⟨q, hq, hx.mono k3⟩)
    · intro x hx
      rcases List.mem_append.mp hx with hx | hx
      · exact ⟨(callOf_txn hx).1, by have := (k6 x hx).mono (more := []) he; simpa using this⟩
      · obtain ⟨h5, h6⟩ := l6 x hx
        exact ⟨h5, by simpa using h6⟩

/-- All process requests of all transactions. -/
def AllG (env : TxnEnv α η ω) (evs : List (MEvent η)) (R : Call α η ω → Prop) (ins : List Input) (devs : List (Event α)) (w : World α ω)
    (ts : AMap Nat (TxnState α η)) : Prop := ∀ i ps, (i, TxnState.preparing ps) ∈ ts → ∀ p ∈ ps, GInv env evs R ins devs w i p

/-- A process request that made the call. -/
def DidIn (env : TxnEnv α η ω) (ins : List Input) (devs : List (Event α)) (w : World α ω) (ts : AMap Nat (TxnState α η)) (x : Call α η ω) : Prop :=
  ∃ ps, (x.2.2.1, TxnState.preparing ps) ∈ ts ∧ ∃ p ∈ ps, Did env ins devs w x p

theorem AllG.mono {env : TxnEnv α η ω} {evs more : List (MEvent η)} {R R' : Call α η ω → Prop} (hR : ∀ x, R x → R' x) {ins ins' : List Input}
    {devs devs' : List (Event α)} {w w' : World α ω} (he : Ext ins ins' devs devs' w w') {ts : AMap Nat (TxnState α η)}
    (h : AllG env evs R ins devs w ts) : AllG env (evs ++ more) R' ins' devs' w' ts := fun i ps hi p hp => (h i ps hi p hp).mono hR he

theorem DidIn.mono {env : TxnEnv α η ω} {ins ins' : List Input} {devs devs' : List (Event α)} {w w' : World α ω} (he : Ext ins ins' devs devs' w w')
    {ts : AMap Nat (TxnState α η)} {x : Call α η ω} (h : DidIn env ins devs w ts x) : DidIn env ins' devs' w' ts x := by
  obtain ⟨ps, h1, p, h2, h3⟩ := h
  exact ⟨ps, h1, p, h2, h3.mono he⟩

theorem DidIn.cons {env : TxnEnv α η ω} {devs : List (Event α)} {w : World α ω} {ts : AMap Nat (TxnState α η)} {x : Call α η ω} (h : DidIn env ins devs w ts x)
    (e : Nat × TxnState α η) : DidIn env ins devs w (e :: ts) x := by
  obtain ⟨ps, h1, h2⟩ := h
  exact ⟨ps, List.mem_cons_of_mem _ h1, h2⟩

theorem stepTxns_ginv {env : TxnEnv α η ω} {cfg : List (String × UInt32)} {c0 : MetaCache} {evs : List (MEvent η)} {R : Call α η ω → Prop} :
    ∀ {ts ts' : AMap Nat (TxnState α η)} {ins : List Input} {devs : List (Event α)} {w w' : World α ω}, WH env cfg c0 ins devs w →
    AllG env evs R ins devs w ts → stepTxns env ts w = .ok (ts', w') → (∀ x ∈ txnCalls env ts w, R x) →
    ∃ a b, (∀ e ∈ b, Called e) ∧ (∀ e ∈ a, Plain e) ∧ WH env cfg c0 (ins ++ a) (devs ++ b) w' ∧ Ext ins (ins ++ a) devs (devs ++ b) w w' ∧
      AllG env evs R (ins ++ a) (devs ++ b) w' ts' ∧
      (∀ x, (x ∈ txnCalls env ts w ∨ DidIn env ins devs w ts x) → DidIn env (ins ++ a) (devs ++ b) w' ts' x) ∧
      (∀ i ps', (i, TxnState.preparing ps') ∈ ts' → ∃ ps, (i, TxnState.preparing ps) ∈ ts) ∧
      ∀ x ∈ txnCalls env ts w, (∃ ps, (x.2.2.1, TxnState.preparing ps) ∈ ts) ∧ GivenW evs (ins ++ a) (devs ++ b) w' x := by
  intro ts
  induction ts with
  | nil =>
    intro ts' ins devs w w' hw _ h _
    simp only [stepTxns, Run.ok.injEq, Prod.mk.injEq] at h
    obtain ⟨rfl, rfl⟩ := h
    exact ⟨[], [], by simp, by simp, by simpa using hw, by simpa using Ext.refl _ _ _, by simp [AllG], by simp [txnCalls, DidIn], by simp, by simp [txnCalls]⟩
  | cons e rest ih =>
    obtain ⟨i, s⟩ := e
    intro ts' ins devs w w' hw hp h hR
    have hrest : AllG env evs R ins devs w rest := fun j ps hj => hp j ps (List.mem_cons_of_mem _ hj)
    have idle : (∀ ps, s ≠ .preparing ps) → (stepTxns env rest w).bind (fun y => .ok ((i, s) :: y.1, y.2)) = .ok (ts', w') →
        txnCalls env ((i, s) :: rest) w = txnCalls env rest w → ∃ a b, (∀ e ∈ b, Called e) ∧ (∀ e ∈ a, Plain e) ∧ WH env cfg c0 (ins ++ a) (devs ++ b) w' ∧ Ext ins (ins ++ a) devs (devs ++ b) w w' ∧
      AllG env evs R (ins ++ a) (devs ++ b) w' ts' ∧
      (∀ x, (x ∈ txnCalls env ((i, s) :: rest) w ∨ DidIn env ins devs w ((i, s) :: rest) x) → DidIn env (ins ++ a) (devs ++ b) w' ts' x) ∧
      (∀ j ps', (j, TxnState.preparing ps') ∈ ts' → ∃ ps, (j, TxnState.preparing ps) ∈ (i, s) :: rest) ∧
      ∀ x ∈ txnCalls env ((i, s) :: rest) w, (∃ ps, (x.2.2.1, TxnState.preparing ps) ∈ (i, s) :: rest) ∧ GivenW evs (ins ++ a) (devs ++ b) w' x := by
      intro hne hst hcalls
      obtain ⟨⟨ts1, w1⟩, h1, h2⟩ := Run.bind_eq_ok.mp hst
      simp only [Run.ok.injEq, Prod.mk.injEq] at h2
      obtain ⟨rfl, rfl⟩ := h2
      rw [hcalls] at hR ⊢
      obtain ⟨a, b, k1, kp, k2, k3, k4, k5, k6, k7⟩ := ih hw hrest h1 hR
      refine ⟨a, b, k1, kp, k2, k3, ?_, ?_, ?_, ?_⟩
      · intro j ps hj
        rcases List.mem_cons.mp hj with hj | hj
        · simp only [Prod.mk.injEq] at hj; exact absurd hj.2.symm (hne ps)
        · exact k4 j ps hj
      · rintro x (hx | ⟨ps, hx, h3⟩)
        · exact (k5 x (.inl hx)).cons _
        · rcases List.mem_cons.mp hx with hx | hx
          · simp only [Prod.mk.injEq] at hx; exact absurd hx.2.symm (hne ps)
          · exact (k5 x (.inr ⟨ps, hx, h3⟩)).cons _
      · intro j ps' hj
        rcases List.mem_cons.mp hj with hj | hj
        · simp only [Prod.mk.injEq] at hj; exact absurd hj.2.symm (hne ps')
        · obtain ⟨ps, h3⟩ := k6 j ps' hj
          exact ⟨ps, List.mem_cons_of_mem _ h3⟩
      · intro x hx
        obtain ⟨⟨ps, h3⟩, h4⟩ := k7 x hx
        exact ⟨⟨ps, List.mem_cons_of_mem _ h3⟩, h4⟩
    cases s with
    | committing ops => exact idle (by simp) (by simpa [stepTxns] using h) rfl
    | completed o => exact idle (by simp) (by simpa [stepTxns] using h) rfl
    | preparing ps =>
      unfold stepTxns at h
      obtain ⟨⟨ps1, w1⟩, h1, h2⟩ := Run.bind_eq_ok.mp h
      obtain ⟨⟨ts1, w2⟩, h3, h4⟩ := Run.bind_eq_ok.mp h2
      simp only [Run.ok.injEq, Prod.mk.injEq] at h4
      obtain ⟨rfl, rfl⟩ := h4
      have hcalls : txnCalls env ((i, .preparing ps) :: rest) w = procCalls env i ps w ++ txnCalls env rest w1 := by simp [txnCalls, h1]
      rw [hcalls] at hR ⊢
      obtain ⟨a, b, k1, kp, k2, k3, k4, k5, k6⟩ := stepProcs_ginv hw (hp i ps (by simp)) h1 (fun x hx => hR x (by simp [hx]))
      obtain ⟨a', b', l1, lp, l2, l3, l4, l5, l6, l7⟩ := ih k2 (by have := hrest.mono (more := []) (R' := R) (fun _ h => h) k3; simpa using this) h3
        (fun x hx => hR x (by simp [hx]))
      have he : Ext ins (ins ++ (a ++ a')) devs (devs ++ (b ++ b')) w w2 := by
        have := k3.trans l3
        simpa [List.append_assoc] using this
      refine ⟨a ++ a', b ++ b', ?_, fun e he => (List.mem_append.mp he).elim (kp e) (lp e), by simpa using l2, he, ?_, ?_, ?_, ?_⟩
      · intro e he
        rcases List.mem_append.mp he with he | he
        · exact k1 e he
        · exact l1 e he
      · intro j qs hj q hq
        rw [← List.append_assoc, ← List.append_assoc]
        rcases List.mem_cons.mp hj with hj | hj
        · simp only [Prod.mk.injEq, TxnState.preparing.injEq] at hj
          obtain ⟨rfl, rfl⟩ := hj
          have := (k4 q hq).mono (more := []) (R' := R) (fun _ h => h) l3; simpa using this
        · exact l4 j qs hj q hq
      · intro x hx
        rw [← List.append_assoc, ← List.append_assoc]
        have first : x.2.2.1 = i → (x ∈ procCalls env i ps w ∨ ∃ q ∈ ps, Did env ins devs w x q) → DidIn env (ins ++ a ++ a') (devs ++ b ++ b') w2 ((i, .preparing ps1) :: ts1) x := by
          intro hi hx
          obtain ⟨q, h5, h6⟩ := k5 x hx
          exact ⟨ps1, by simp [hi], q, h5, h6.mono l3⟩
        rcases hx with hx | ⟨qs, hx, q, hq, hd⟩
        · rcases List.mem_append.mp hx with hx | hx
          · exact first (k6 x hx).1 (.inl hx)
          · exact (l5 x (.inl hx)).cons _
        · rcases List.mem_cons.mp hx with hx | hx
          · simp only [Prod.mk.injEq, TxnState.preparing.injEq] at hx
            obtain ⟨hxi, rfl⟩ := hx
            exact first hxi (.inr ⟨q, hq, hd⟩)
          · exact (l5 x (.inr ⟨qs, hx, q, hq, hd.mono k3⟩)).cons _
      · intro j ps' hj
        rcases List.mem_cons.mp hj with hj | hj
        · simp only [Prod.mk.injEq] at hj
          exact ⟨ps, by simp [hj.1]⟩
        · obtain ⟨ps0, h5⟩ := l6 j ps' hj
          exact ⟨ps0, List.mem_cons_of_mem _ h5⟩
      · intro x hx
        rcases List.mem_append.mp hx with hx | hx
        · obtain ⟨h5, h6⟩ := k6 x hx
          refine ⟨⟨ps, by simp [h5]⟩, ?_⟩
          have := h6.mono (more := []) l3; simpa using this
        · obtain ⟨⟨ps0, h5⟩, h6⟩ := l7 x hx
          exact ⟨⟨ps0, List.mem_cons_of_mem _ h5⟩, by simpa using h6⟩

end TCP.Cache
