import Verif.Proofs.CacheData

/-!
# The tablet data cache answers once the storage has answered
-/

namespace TCP.Cache

open TCP TCP.TabletStore TCP.Cache.Spec

variable {α : Type}

/-- The load has its result or waits. -/
def LiveL (bs : AMap Nat (Batch α)) (cells : Cells α) (id : Nat) : Prop :=
  (cells.loads.get id).isSome ∨ ∃ b l, bs.get id = some b ∧ b.state = .load l ∧ 0 < b.remaining

/-- The store has its result or waits. -/
def LiveS (bs : AMap Nat (Batch α)) (cells : Cells α) (id : Nat) : Prop :=
  (cells.stores.get id).isSome ∨ ∃ b, bs.get id = some b ∧ b.state = .store ∧ 0 < b.remaining

theorem isSome_keeps {a b : Cells α} (h : Keeps a b) (i : Nat) : ((a.loads.get i).isSome → (b.loads.get i).isSome) ∧
    ((a.stores.get i).isSome → (b.stores.get i).isSome) := by
  constructor
  · intro hi
    obtain ⟨x, hx⟩ := Option.isSome_iff_exists.mp hi
    rw [h.1 i x hx]; rfl
  · intro hi
    obtain ⟨x, hx⟩ := Option.isSome_iff_exists.mp hi
    rw [h.2 i x hx]; rfl

theorem resolve_live {id : Nat} {bs : AMap Nat (Batch α)} {b b' : Batch α} {e : Entry α} {cells cells' : Cells α} (hr : e.ready = true)
    (hg : bs.get id = some b) (h : resolveEntry id b e cells = .ok (b', cells')) (i : Nat) :
    (LiveL bs cells i → LiveL (bs.set id b') cells' i) ∧ (LiveS bs cells i → LiveS (bs.set id b') cells' i) := by
  have hk := isSome_keeps (resolveEntry_keeps hr h) i
  obtain ⟨h0, h1, hcase⟩ := resolveEntry_cases hr h
  constructor
  · rintro (hl | ⟨b0, l, h2, h3, h4⟩)
    · exact .inl (hk.1 hl)
    · by_cases hi : i = id
      · subst hi
        rw [hg] at h2; cases h2
        rcases hcase with ⟨v, l', e1, e2, e3, e4, e5, rfl⟩ | ⟨v, l', e1, e2, e3, e4, rfl⟩ | ⟨l', e1, e2, e3, e4, rfl⟩ |
          ⟨v, e1, e2, e3, e4, e5, rfl⟩ | ⟨v, e1, e2, e3, e4, rfl⟩ | ⟨e1, e2, e3, e4, rfl⟩ | ⟨e1, e2, rfl⟩
        · exact .inl (by simp)
        · exact .inr ⟨b', _, AMap.get_set_self _ _ _, e4, by omega⟩
        · exact .inl (by simp)
        · rw [h3] at e2; cases e2
        · rw [h3] at e2; cases e2
        · rw [h3] at e2; cases e2
        · rcases e1 with e1 | e1 <;> (rw [h3] at e1; cases e1)
      · exact .inr ⟨b0, l, by rw [AMap.get_set_ne _ _ (fun hh => hi hh.symm)]; exact h2, h3, h4⟩
  · rintro (hl | ⟨b0, h2, h3, h4⟩)
    · exact .inl (hk.2 hl)
    · by_cases hi : i = id
      · subst hi
        rw [hg] at h2; cases h2
        rcases hcase with ⟨v, l', e1, e2, e3, e4, e5, rfl⟩ | ⟨v, l', e1, e2, e3, e4, rfl⟩ | ⟨l', e1, e2, e3, e4, rfl⟩ |
          ⟨v, e1, e2, e3, e4, e5, rfl⟩ | ⟨v, e1, e2, e3, e4, rfl⟩ | ⟨e1, e2, e3, e4, rfl⟩ | ⟨e1, e2, rfl⟩
        · rw [h3] at e2; cases e2
        · rw [h3] at e2; cases e2
        · rw [h3] at e2; cases e2
        · exact .inl (by simp)
        · exact .inr ⟨b', AMap.get_set_self _ _ _, e4, by omega⟩
        · exact .inl (by simp)
        · rcases e1 with e1 | e1 <;> (rw [h3] at e1; cases e1)
      · exact .inr ⟨b0, by rw [AMap.get_set_ne _ _ (fun hh => hi hh.symm)]; exact h2, h3, h4⟩

theorem notifyBatches_live {e : Entry α} (hr : e.ready = true) : ∀ {w : List Nat} {bs bs' : AMap Nat (Batch α)} {cells cells' : Cells α},
    notifyBatches e w bs cells = .ok (bs', cells') → ∀ i, (LiveL bs cells i → LiveL bs' cells' i) ∧ (LiveS bs cells i → LiveS bs' cells' i) := by
  intro w
  induction w with
  | nil =>
    intro bs bs' cells cells' h i
    simp only [notifyBatches, Run.ok.injEq, Prod.mk.injEq] at h
    obtain ⟨rfl, rfl⟩ := h
    exact ⟨id, id⟩
  | cons id rest ih =>
    intro bs bs' cells cells' h i
    unfold notifyBatches at h
    cases hg : bs.get id with
    | none => simp [hg, Run.unwrap, Run.bind] at h
    | some b =>
      simp only [hg, Run.unwrap, Run.bind_ok] at h
      obtain ⟨⟨b', cells1⟩, h1, h2⟩ := Run.bind_eq_ok.mp h
      have r := resolve_live hr hg h1 i
      have s := ih h2 i
      exact ⟨fun x => s.1 (r.1 x), fun x => s.2 (r.2 x)⟩

theorem notifyEntries_live : ∀ {es es' : AMap String (Entry α)} {bs bs' : AMap Nat (Batch α)} {cells cells' : Cells α},
    notifyEntries es bs cells = .ok (es', bs', cells') → ∀ i, (LiveL bs cells i → LiveL bs' cells' i) ∧ (LiveS bs cells i → LiveS bs' cells' i) := by
  intro es
  induction es with
  | nil =>
    intro es' bs bs' cells cells' h i
    simp only [notifyEntries, Run.ok.injEq, Prod.mk.injEq] at h
    obtain ⟨rfl, rfl, rfl⟩ := h
    exact ⟨id, id⟩
  | cons x rest ih =>
    obtain ⟨k, e⟩ := x
    intro es' bs bs' cells cells' h i
    unfold notifyEntries at h
    split at h
    · rename_i hr
      obtain ⟨⟨bs1, cells1⟩, h1, h2⟩ := Run.bind_eq_ok.mp h
      obtain ⟨⟨es2, bs2, cells2⟩, h3, h4⟩ := Run.bind_eq_ok.mp h2
      simp only [Run.ok.injEq, Prod.mk.injEq] at h4
      obtain ⟨rfl, rfl, rfl⟩ := h4
      have r := notifyBatches_live hr h1 i
      have s := ih h3 i
      exact ⟨fun x => s.1 (r.1 x), fun x => s.2 (r.2 x)⟩
    · obtain ⟨⟨es2, bs2, cells2⟩, h3, h4⟩ := Run.bind_eq_ok.mp h
      simp only [Run.ok.injEq, Prod.mk.injEq] at h4
      obtain ⟨rfl, rfl, rfl⟩ := h4
      exact ih h3 i

/-- Registering keeps the other batches alive, and the new one is alive if it waits for anything. -/
theorem register_live {id : Nat} : ∀ {todo : List String} {es es' : AMap String (Entry α)} {b b' : Batch α} {cells cells' : Cells α},
    registerAll id es b cells todo = .ok (es', b', cells') →
    Keeps cells cells' ∧
    ((cells.loads.get id).isSome ∨ (∃ l, b.state = .load l ∧ (0 < b.remaining ∨ ∃ k ∈ todo, (es.get k).isSome)) →
      (cells'.loads.get id).isSome ∨ ∃ l, b'.state = .load l ∧ 0 < b'.remaining) ∧
    ((cells.stores.get id).isSome ∨ (b.state = .store ∧ (0 < b.remaining ∨ ∃ k ∈ todo, (es.get k).isSome)) →
      (cells'.stores.get id).isSome ∨ (b'.state = .store ∧ 0 < b'.remaining)) := by
  intro todo
  induction todo with
  | nil =>
    intro es es' b b' cells cells' h
    simp only [registerAll, Run.ok.injEq, Prod.mk.injEq] at h
    obtain ⟨rfl, rfl, rfl⟩ := h
    refine ⟨Keeps.refl _, ?_, ?_⟩
    · rintro (h | ⟨l, h1, h2 | ⟨k, hk, _⟩⟩)
      · exact .inl h
      · exact .inr ⟨l, h1, h2⟩
      · simp at hk
    · rintro (h | ⟨h1, h2 | ⟨k, hk, _⟩⟩)
      · exact .inl h
      · exact .inr ⟨h1, h2⟩
      · simp at hk
  | cons k rest ih =>
    intro es es' b b' cells cells' h
    unfold registerAll at h
    cases hg : es.get k with
    | none =>
      simp only [hg] at h
      obtain ⟨q1, q2, q3⟩ := ih h
      have hx : (∃ j ∈ k :: rest, (es.get j).isSome) → ∃ j ∈ rest, (es.get j).isSome := by
        rintro ⟨j, hj, hj2⟩
        rcases List.mem_cons.mp hj with rfl | hj
        · rw [hg] at hj2; cases hj2
        · exact ⟨j, hj, hj2⟩
      refine ⟨q1, fun hh => q2 (hh.imp (fun x => x) ?_), fun hh => q3 (hh.imp (fun x => x) ?_)⟩
      · rintro ⟨l, x, y⟩; exact ⟨l, x, y.imp (fun z => z) hx⟩
      · rintro ⟨x, y⟩; exact ⟨x, y.imp (fun z => z) hx⟩
    | some e =>
      simp only [hg] at h
      obtain ⟨⟨b1, e1, cells1⟩, h1, h2⟩ := Run.bind_eq_ok.mp h
      obtain ⟨q1, q2, q3⟩ := ih h2
      have key : Keeps cells cells1 ∧
          (∀ l, b.state = .load l → (cells1.loads.get id).isSome ∨ ∃ l, b1.state = .load l ∧ 0 < b1.remaining) ∧
          (b.state = .store → (cells1.stores.get id).isSome ∨ (b1.state = .store ∧ 0 < b1.remaining)) := by
        have hready : e.ready = true → resolveEntry id { b with remaining := b.remaining + 1 } e cells = .ok (b1, cells1) →
            Keeps cells cells1 ∧
            (∀ l, b.state = .load l → (cells1.loads.get id).isSome ∨ ∃ l, b1.state = .load l ∧ 0 < b1.remaining) ∧
            (b.state = .store → (cells1.stores.get id).isSome ∨ (b1.state = .store ∧ 0 < b1.remaining)) := by
          intro hr hh
          have hlive := resolve_live (bs := [(id, { b with remaining := b.remaining + 1 })]) hr (by simp) hh id
          refine ⟨resolveEntry_keeps hr hh, fun l hl => ?_, fun hl => ?_⟩
          · have := hlive.1 (.inr ⟨{ b with remaining := b.remaining + 1 }, l, by simp, hl, Nat.succ_pos _⟩)
            refine this.imp (fun x => x) ?_
            rintro ⟨b2, l2, x1, x2, x3⟩
            rw [AMap.get_set_self] at x1; cases x1
            exact ⟨l2, x2, x3⟩
          · have := hlive.2 (.inr ⟨{ b with remaining := b.remaining + 1 }, by simp, hl, Nat.succ_pos _⟩)
            refine this.imp (fun x => x) ?_
            rintro ⟨b2, x1, x2, x3⟩
            rw [AMap.get_set_self] at x1; cases x1
            exact ⟨x2, x3⟩
        unfold addPending at h1
        cases hst : e.state with
        | load =>
          simp only [hst, Run.ok.injEq, Prod.mk.injEq] at h1
          obtain ⟨rfl, rfl, rfl⟩ := h1
          exact ⟨Keeps.refl _, fun l hl => .inr ⟨l, hl, by simp⟩, fun hl => .inr ⟨hl, by simp⟩⟩
        | store v =>
          simp only [hst, Run.ok.injEq, Prod.mk.injEq] at h1
          obtain ⟨rfl, rfl, rfl⟩ := h1
          exact ⟨Keeps.refl _, fun l hl => .inr ⟨l, hl, by simp⟩, fun hl => .inr ⟨hl, by simp⟩⟩
        | cache v =>
          simp only [hst] at h1
          obtain ⟨⟨b2, cells2⟩, h3, h4⟩ := Run.bind_eq_ok.mp h1
          simp only [Run.ok.injEq, Prod.mk.injEq] at h4
          obtain ⟨rfl, rfl, rfl⟩ := h4
          exact hready (by simp [Entry.ready, hst]) h3
        | error =>
          simp only [hst] at h1
          obtain ⟨⟨b2, cells2⟩, h3, h4⟩ := Run.bind_eq_ok.mp h1
          simp only [Run.ok.injEq, Prod.mk.injEq] at h4
          obtain ⟨rfl, rfl, rfl⟩ := h4
          exact hready (by simp [Entry.ready, hst]) h3
      obtain ⟨k1, k2, k3⟩ := key
      refine ⟨k1.trans q1, fun hh => q2 ?_, fun hh => q3 ?_⟩
      · rcases hh with hh | ⟨l, hl, _⟩
        · exact .inl ((isSome_keeps k1 id).1 hh)
        · exact (k2 l hl).imp (fun x => x) (fun ⟨l, x, y⟩ => ⟨l, x, .inl y⟩)
      · rcases hh with hh | ⟨hl, _⟩
        · exact .inl ((isSome_keeps k1 id).2 hh)
        · exact (k3 hl).imp (fun x => x) (fun ⟨x, y⟩ => ⟨x, .inl y⟩)

/-- Every load and store of something is alive, and entries wait only for requests the storage has not answered. -/
structure Live (evs : List (Event α)) (c : DataCache α) : Prop where
  loads : ∀ ms id now, .load ms id now ∈ evs → ms ≠ [] → LiveL c.batches c.cells id
  stores : ∀ data ms id, .store data ms (some id) ∈ evs → ms ≠ [] → LiveS c.batches c.cells id
  pend : ∀ k e, c.entries.get k = some e → e.ready = false → ∃ corr, c.ops.get corr = some k
  out : ∀ corr k, c.ops.get corr = some k → ∃ r, Outstanding evs c r ∧ r.corr = corr ∧ r.uri = k

theorem out_push {evs : List (Event α)} {c c' : DataCache α} {r : DataOut} (h : Outstanding evs c r) (ev : Event α)
    (ho : ∀ r ∈ c.out, r ∈ c'.out) (he : ∀ x, ev = .response x → x.corr ≠ r.corr) : Outstanding (evs ++ [ev]) c' r := by
  rcases h with h | ⟨a, outs, b, h1, h2, h3⟩
  · exact .inl (ho r h)
  · refine .inr ⟨a, outs, b ++ [ev], by simp [h1], h2, ?_⟩
    intro x hx
    rcases List.mem_append.mp hx with hx | hx
    · exact h3 x hx
    · exact he x (List.mem_singleton.mp hx).symm

theorem out_more {evs : List (Event α)} {c c' : DataCache α} {r : DataOut} (h : Outstanding evs c r)
    (ho : ∀ r ∈ c.out, r ∈ c'.out) : Outstanding evs c' r := h.imp (ho r) (fun x => x)

/-- The entries and requests part alone. -/
structure Waits (evs : List (Event α)) (c : DataCache α) : Prop where
  pend : ∀ k e, c.entries.get k = some e → e.ready = false → ∃ corr, c.ops.get corr = some k
  out : ∀ corr k, c.ops.get corr = some k → ∃ r, Outstanding evs c r ∧ r.corr = corr ∧ r.uri = k
  bound : ∀ corr k, c.ops.get corr = some k → corr ≤ c.correlation

theorem Waits.addEntry {evs : List (Event α)} {c : DataCache α} (h : Waits evs c) {m : Metadata} {s : EntryState α} {o : DataOut}
    (hc : o.corr = c.correlation + 1) (hu : o.uri = m.uri) : Waits evs (addEntry c m s o) := by
  constructor
  · intro k e hk hr
    simp only [Cache.addEntry, AMap.get_set] at hk ⊢
    split at hk
    · rename_i hkk; exact ⟨c.correlation + 1, by simp [hkk]⟩
    · obtain ⟨corr, hcorr⟩ := h.pend k e hk hr
      have := h.bound corr k hcorr
      refine ⟨corr, ?_⟩
      rw [if_neg (by omega)]
      exact hcorr
  · intro corr k hk
    simp only [Cache.addEntry, AMap.get_set] at hk
    split at hk
    · cases hk
      exact ⟨o, .inl (by simp [Cache.addEntry]), by omega, hu⟩
    · obtain ⟨r, h1, h2⟩ := h.out corr k hk
      exact ⟨r, out_more h1 (fun r hr => by simp [Cache.addEntry, hr]), h2⟩
  · intro corr k hk
    simp only [Cache.addEntry, AMap.get_set] at hk ⊢
    split at hk
    · omega
    · have := h.bound corr k hk; omega

theorem loadEntries_waits {evs : List (Event α)} : ∀ (ms : List Metadata) {c : DataCache α}, Waits evs c → Waits evs (c.loadEntries ms) := by
  intro ms
  induction ms with
  | nil => intro c h; exact h
  | cons m rest ih =>
    intro c h
    unfold DataCache.loadEntries
    cases hg : c.entries.get m.uri with
    | some e => exact ih h
    | none => exact ih (h.addEntry (m := m) (s := .load) (o := .load (c.correlation + 1) m.uri) rfl rfl)

theorem storeEntries_waits {evs : List (Event α)} : ∀ (xs : List (Metadata × α × Bytes)) {c c' : DataCache α}, Waits evs c →
    c.storeEntries xs = .ok c' → Waits evs c' := by
  intro xs
  induction xs with
  | nil =>
    intro c c' h hs
    simp only [DataCache.storeEntries, Run.ok.injEq] at hs
    subst hs; exact h
  | cons x rest ih =>
    obtain ⟨m, v, b⟩ := x
    intro c c' h hs
    unfold DataCache.storeEntries at hs
    cases hg : c.entries.get m.uri with
    | some e => simp [hg] at hs
    | none =>
      simp only [hg] at hs
      exact ih (h.addEntry (m := m) (s := .store v) (o := .store (c.correlation + 1) m.uri b) rfl rfl) hs

theorem register_bare {id : Nat} : ∀ {todo : List String} {es es' : AMap String (Entry α)} {b b' : Batch α} {cells cells' : Cells α},
    registerAll id es b cells todo = .ok (es', b', cells') → ∀ k, bare es' k = bare es k := by
  intro todo
  induction todo with
  | nil =>
    intro es es' b b' cells cells' h k
    simp only [registerAll, Run.ok.injEq, Prod.mk.injEq] at h
    rw [h.1]
  | cons k rest ih =>
    intro es es' b b' cells cells' h j
    unfold registerAll at h
    cases hg : es.get k with
    | none => simp only [hg] at h; exact ih h j
    | some e =>
      simp only [hg] at h
      obtain ⟨⟨b1, e1, cells1⟩, h1, h2⟩ := Run.bind_eq_ok.mp h
      rw [ih h2 j]
      have he1 : ∃ w, e1 = { e with waiting := w } := by
        unfold addPending at h1
        cases hst : e.state with
        | load => simp only [hst, Run.ok.injEq, Prod.mk.injEq] at h1; exact ⟨_, by rw [← h1.2.1]⟩
        | store v => simp only [hst, Run.ok.injEq, Prod.mk.injEq] at h1; exact ⟨_, by rw [← h1.2.1]⟩
        | cache v =>
          simp only [hst] at h1
          obtain ⟨_, _, h4⟩ := Run.bind_eq_ok.mp h1
          simp only [Run.ok.injEq, Prod.mk.injEq] at h4
          exact ⟨e.waiting, by rw [← hst]; exact h4.2.1.symm⟩
        | error =>
          simp only [hst] at h1
          obtain ⟨_, _, h4⟩ := Run.bind_eq_ok.mp h1
          simp only [Run.ok.injEq, Prod.mk.injEq] at h4
          exact ⟨e.waiting, by rw [← hst]; exact h4.2.1.symm⟩
      obtain ⟨w, rfl⟩ := he1
      exact bare_set hg w j

theorem ready_of_bare {es es' : AMap String (Entry α)} {k : String} (h : bare es' k = bare es k) {e' : Entry α} (hg : es'.get k = some e') :
    ∃ e, es.get k = some e ∧ e.ready = e'.ready := by
  unfold bare at h
  rw [hg] at h
  cases he : es.get k with
  | none => rw [he] at h; cases h
  | some e =>
    rw [he] at h
    simp only [Option.map_some, Option.some.injEq, Prod.mk.injEq] at h
    exact ⟨e, rfl, by simp [Entry.ready, h.2]⟩

theorem batch_live {evs : List (Event α)} {c c' : DataCache α} {s : BatchState α} {keys : List String} (hw : Waits evs c)
    (hf : c.batches.get (c.batchCounter + 1) = none) (hb : c.batch s keys = .ok c') (hk : ∀ k ∈ keys, (c.entries.get k).isSome) :
    Waits evs c' ∧ (∀ i, LiveL c.batches c.cells i → LiveL c'.batches c'.cells i) ∧
    (∀ i, LiveS c.batches c.cells i → LiveS c'.batches c'.cells i) ∧
    (keys ≠ [] → ∀ l, s = .load l → LiveL c'.batches c'.cells (c.batchCounter + 1)) ∧
    (keys ≠ [] → s = .store → LiveS c'.batches c'.cells (c.batchCounter + 1)) := by
  unfold DataCache.batch at hb
  obtain ⟨⟨es', b', cells'⟩, h1, h2⟩ := Run.bind_eq_ok.mp hb
  simp only [Run.ok.injEq] at h2
  obtain ⟨q1, q2, q3⟩ := register_live h1
  have hbare := register_bare h1
  subst h2
  have hget : ∀ i b, c.batches.get i = some b → AMap.get (if b'.remaining = 0 then c.batches else c.batches.set (c.batchCounter + 1) b') i = some b := by
    intro i b hi
    split
    · exact hi
    · rw [AMap.get_set_ne _ _ (fun hh => by subst hh; rw [hf] at hi; cases hi)]; exact hi
  have hself : 0 < b'.remaining → AMap.get (if b'.remaining = 0 then c.batches else c.batches.set (c.batchCounter + 1) b') (c.batchCounter + 1) = some b' := by
    intro hp
    rw [if_neg (by omega), AMap.get_set_self]
  have hex : keys ≠ [] → ∃ k ∈ keys, (c.entries.get k).isSome := by
    intro hne
    cases keys with
    | nil => exact absurd rfl hne
    | cons k rest => exact ⟨k, by simp, hk k (by simp)⟩
  refine ⟨⟨?_, hw.out, hw.bound⟩, ?_, ?_, ?_, ?_⟩
  · intro k e he hr
    obtain ⟨e0, h3, h4⟩ := ready_of_bare (hbare k) he
    exact hw.pend k e0 h3 (by rw [h4]; exact hr)
  · intro i
    rintro (h | ⟨b, l, x1, x2, x3⟩)
    · exact .inl ((isSome_keeps q1 i).1 h)
    · exact .inr ⟨b, l, hget i b x1, x2, x3⟩
  · intro i
    rintro (h | ⟨b, x1, x2, x3⟩)
    · exact .inl ((isSome_keeps q1 i).2 h)
    · exact .inr ⟨b, hget i b x1, x2, x3⟩
  · intro hne l hl
    rcases q2 (.inr ⟨l, hl, .inr (hex hne)⟩) with h | ⟨l', x1, x2⟩
    · exact .inl h
    · exact .inr ⟨b', l', hself x2, x1, x2⟩
  · intro hne hl
    rcases q3 (.inr ⟨hl, .inr (hex hne)⟩) with h | ⟨x1, x2⟩
    · exact .inl h
    · exact .inr ⟨b', hself x2, x1, x2⟩

/-- All of the above. -/
structure LInv (evs : List (Event α)) (c : DataCache α) : Prop where
  waits : Waits evs c
  loads : ∀ ms id now, .load ms id now ∈ evs → ms ≠ [] → LiveL c.batches c.cells id
  stores : ∀ data ms id, .store data ms (some id) ∈ evs → ms ≠ [] → LiveS c.batches c.cells id

theorem Waits.push {evs : List (Event α)} {c : DataCache α} (h : Waits evs c) {ev : Event α} (he : ∀ x, ev ≠ .response x) :
    Waits (evs ++ [ev]) c where
  pend := h.pend
  out := fun corr k hk => by
    obtain ⟨r, h1, h2⟩ := h.out corr k hk
    exact ⟨r, out_push h1 ev (fun _ h => h) (fun x hx => absurd hx (he x)), h2⟩
  bound := h.bound

theorem processIn_shape {env : DataEnv α} {c c' : DataCache α} {r : DataIn} (hs : c.processIn env r = .ok c') :
    (c.ops.get r.corr = none ∧ c' = c) ∨ ∃ k e s, c.ops.get r.corr = some k ∧ c.entries.get k = some e ∧ s ≠ .load ∧ (∀ v, s ≠ .store v) ∧
      c' = { c with ops := c.ops.erase r.corr, entries := c.entries.set k { e with state := s } } := by
  cases r with
  | load corr st b =>
    simp only [DataCache.processIn] at hs
    simp only [DataIn.corr]
    cases ho : c.ops.get corr with
    | none => simp only [ho, Run.ok.injEq] at hs; exact .inl ⟨rfl, hs.symm⟩
    | some k =>
      simp only [ho] at hs
      cases hg : c.entries.get k with
      | none => simp [hg, Run.unwrap, Run.bind] at hs
      | some e =>
        simp only [hg, Run.unwrap, Run.bind_ok] at hs
        obtain ⟨e', h1, h2⟩ := Run.bind_eq_ok.mp hs
        simp only [Run.ok.injEq] at h2
        refine .inr ⟨k, e, e'.state, rfl, hg, ?_⟩
        unfold Entry.loadResponse at h1
        cases hst : e.state <;> simp only [hst] at h1 <;> try cases h1
        cases st <;> simp only at h1 <;> try cases h1
        · cases hd : env.deser b <;> simp only [hd, Run.ok.injEq] at h1 <;> (subst h1; exact ⟨by simp, by simp, h2.symm⟩)
        · exact ⟨by simp, by simp, h2.symm⟩
  | store corr st =>
    simp only [DataCache.processIn] at hs
    simp only [DataIn.corr]
    cases ho : c.ops.get corr with
    | none => simp only [ho, Run.ok.injEq] at hs; exact .inl ⟨rfl, hs.symm⟩
    | some k =>
      simp only [ho] at hs
      cases hg : c.entries.get k with
      | none => simp [hg, Run.unwrap, Run.bind] at hs
      | some e =>
        simp only [hg, Run.unwrap, Run.bind_ok] at hs
        obtain ⟨e', h1, h2⟩ := Run.bind_eq_ok.mp hs
        simp only [Run.ok.injEq] at h2
        refine .inr ⟨k, e, e'.state, rfl, hg, ?_⟩
        unfold Entry.storeResponse at h1
        cases hst : e.state <;> simp only [hst] at h1 <;> try cases h1
        cases st <;> simp only at h1 <;> try cases h1
        · exact ⟨by simp, by simp, h2.symm⟩
        · exact ⟨by simp, by simp, h2.symm⟩

theorem history_live {env : DataEnv α} {evs : List (Event α)} {c : DataCache α} (h : History env evs c) : LInv evs c := by
  induction h with
  | create => exact ⟨⟨by simp [DataCache.create], by simp [DataCache.create], by simp [DataCache.create]⟩, by simp, by simp⟩
  | @load evs c ms c' h hs ih =>
    have hinv := history_inv h
    obtain ⟨_, _, hcnt⟩ := load_ok hinv hs
    obtain ⟨_, _, l3, l4, _⟩ := loadEntries_ok ms hinv.base hinv.reqs
    have hw := (loadEntries_waits ms ih.waits).push (ev := .load ms c'.batchCounter (firstReady c ms)) (by simp)
    obtain ⟨b1, b2, b3, b4, b5⟩ := batch_live hw (by rw [l3.batches, l3.counter]; exact hinv.ids.fresh_batch) hs
      (fun k hk => by obtain ⟨m, hm, rfl⟩ := List.mem_map.mp hk; exact l4 m hm)
    rw [l3.batches, l3.cells] at b2 b3
    rw [l3.counter] at b4
    refine ⟨b1, fun ms' id now hm hne => ?_, fun data ms' id hm hne => ?_⟩
    · rcases List.mem_append.mp hm with hm | hm
      · exact b2 id (ih.loads ms' id now hm hne)
      · simp only [List.mem_singleton, Event.load.injEq] at hm
        obtain ⟨rfl, rfl, _⟩ := hm
        rw [hcnt]
        exact b4 (by simpa using hne) [] rfl
    · exact b3 id (ih.stores data ms' id (by simpa using hm) hne)
  | @store evs c data c' ms b h hs ih =>
    have hinv := history_inv h
    obtain ⟨_, _, hcnt⟩ := store_ok hinv hs
    unfold DataCache.store at hs
    obtain ⟨⟨ms0, o⟩, h1, h2⟩ := Run.bind_eq_ok.mp hs
    cases o with
    | none =>
      simp only [Run.ok.injEq, Prod.mk.injEq] at h2
      obtain ⟨rfl, rfl, rfl⟩ := h2
      exact ⟨ih.waits.push (by simp), fun ms' id now hm hne => ih.loads ms' id now (by simpa using hm) hne,
        fun data ms' id hm hne => ih.stores data ms' id (by simpa using hm) hne⟩
    | some bs =>
      simp only at h2
      obtain ⟨c1, h3, h4⟩ := Run.bind_eq_ok.mp h2
      obtain ⟨c2, h5, h6⟩ := Run.bind_eq_ok.mp h4
      simp only [Run.ok.injEq, Prod.mk.injEq] at h6
      obtain ⟨rfl, rfl, rfl⟩ := h6
      simp only [if_true] at hcnt ⊢
      obtain ⟨p1, p2, p3⟩ := prepareWrites_ok h1
      have hw := (storeEntries_waits _ ih.waits h3).push (ev := .store data ms0 (some c2.batchCounter)) (by simp)
      have hb : Adds c c1 ∧ ∀ m ∈ ms0, (c1.entries.get m.uri).isSome := by
        have : ∀ (xs : List (Metadata × α × Bytes)) {c c1 : DataCache α}, c.storeEntries xs = .ok c1 →
            Adds c c1 ∧ ∀ x ∈ xs, (c1.entries.get x.1.uri).isSome := by
          intro xs
          induction xs with
          | nil => intro c c1 hh; simp only [DataCache.storeEntries, Run.ok.injEq] at hh; subst hh; exact ⟨Adds.refl _, by simp⟩
          | cons x rest ih2 =>
            obtain ⟨m, v, b⟩ := x
            intro c c1 hh
            unfold DataCache.storeEntries at hh
            cases hg : c.entries.get m.uri with
            | some e => simp [hg] at hh
            | none =>
              simp only [hg] at hh
              obtain ⟨a1, a2⟩ := ih2 hh
              have a1' : Adds (addEntry c m (.store v) (.store (c.correlation + 1) m.uri b)) c1 := a1
              refine ⟨a1'.add hg, ?_⟩
              intro x hx
              rcases List.mem_cons.mp hx with rfl | hx
              · rw [a1'.old m.uri _ (AMap.get_set_self _ _ _)]; rfl
              · exact a2 x hx
        obtain ⟨a1, a2⟩ := this _ h3
        refine ⟨a1, fun m hm => ?_⟩
        obtain ⟨x, hx⟩ := mem_zip_left (l' := (data.map Prod.snd).zip bs) hm (by simp [p1, p2])
        exact a2 _ hx
      obtain ⟨l3, l4⟩ := hb
      obtain ⟨b1, b2, b3, b4, b5⟩ := batch_live hw (by rw [l3.batches, l3.counter]; exact hinv.ids.fresh_batch) h5
        (fun k hk => by obtain ⟨m, hm, rfl⟩ := List.mem_map.mp hk; exact l4 m hm)
      rw [l3.batches, l3.cells] at b2 b3
      rw [l3.counter] at b5
      refine ⟨b1, fun ms' id now hm hne => ?_, fun data' ms' id hm hne => ?_⟩
      · exact b2 id (ih.loads ms' id now (by simpa using hm) hne)
      · rcases List.mem_append.mp hm with hm | hm
        · exact b3 id (ih.stores data' ms' id hm hne)
        · simp only [List.mem_singleton, Event.store.injEq, Option.some.injEq] at hm
          obtain ⟨_, rfl, rfl⟩ := hm
          rw [hcnt]
          exact b5 (by simpa using hne) rfl
  | @response evs c r c' h hs ih =>
    obtain ⟨_, h2, h3, h4, h5, h6⟩ := processIn_ok (history_inv h).base hs
    refine ⟨?_, fun ms' id now hm hne => ?_, fun data ms' id hm hne => ?_⟩
    · rcases processIn_shape hs with ⟨x1, rfl⟩ | ⟨k, e, s, x1, x2, x3, x4, rfl⟩
      · refine ⟨ih.waits.pend, fun corr k hk => ?_, ih.waits.bound⟩
        obtain ⟨o, y1, y2, y3⟩ := ih.waits.out corr k hk
        refine ⟨o, out_push y1 _ (fun _ h => h) (fun x hx => ?_), y2, y3⟩
        cases hx
        intro hh
        rw [hh, y2, hk] at x1; cases x1
      · refine ⟨fun k' e' hk hr => ?_, fun corr k' hk => ?_, fun corr k' hk => ?_⟩
        · simp only [AMap.get_set] at hk
          split at hk
          · cases hk
            exfalso
            cases s <;> simp_all [Entry.ready]
          · obtain ⟨corr, hc⟩ := ih.waits.pend k' e' hk hr
            refine ⟨corr, ?_⟩
            rw [AMap.get_erase_ne _ (fun hh => by subst hh; rw [x1] at hc; cases hc; contradiction)]
            exact hc
        · simp only [AMap.get_erase] at hk
          split at hk
          · cases hk
          · rename_i hne
            obtain ⟨o, y1, y2, y3⟩ := ih.waits.out corr k' hk
            refine ⟨o, out_push y1 _ (fun _ h => h) (fun x hx => ?_), y2, y3⟩
            cases hx
            intro hh
            exact hne (by omega)
        · simp only [AMap.get_erase] at hk
          split at hk
          · cases hk
          · exact ih.waits.bound corr k' hk
    · rw [h3, h2]; exact ih.loads ms' id now (by simpa using hm) hne
    · rw [h3, h2]; exact ih.stores data ms' id (by simpa using hm) hne
  | @progress evs c policy c' h hp hs ih =>
    have hinv := history_inv h
    unfold DataCache.makeProgress at hs
    obtain ⟨⟨es1, bs1, cells1⟩, h1, h2⟩ := Run.bind_eq_ok.mp hs
    simp only [Run.ok.injEq] at h2
    obtain ⟨n1, n2, n3, n4, n5⟩ := notifyEntries_ok (X := []) hinv.base.core h1
    have wf1 : es1.WF := by rw [n2]; exact hinv.base.wfE.mapVals _
    have hl := notifyEntries_live h1
    have wfb := n4 hinv.base.wfB
    have hL : ∀ i, LiveL bs1 cells1 i → LiveL (bs1.filter fun b => b.2.remaining ≠ 0) cells1 i := by
      intro i
      rintro (h | ⟨b, l, x1, x2, x3⟩)
      · exact .inl h
      · refine .inr ⟨b, l, ?_, x2, x3⟩
        rw [AMap.get_filter wfb, x1]
        have : b.remaining ≠ 0 := by omega
        simp [Option.filter, this]
    have hS : ∀ i, LiveS bs1 cells1 i → LiveS (bs1.filter fun b => b.2.remaining ≠ 0) cells1 i := by
      intro i
      rintro (h | ⟨b, x1, x2, x3⟩)
      · exact .inl h
      · refine .inr ⟨b, ?_, x2, x3⟩
        rw [AMap.get_filter wfb, x1]
        have : b.remaining ≠ 0 := by omega
        simp [Option.filter, this]
    rw [foldl_erase] at h2
    subst h2
    refine ⟨⟨fun k e hk hr => ?_, fun corr k hk => ?_, ih.waits.bound⟩, fun ms' id now hm hne => ?_, fun data ms' id hm hne => ?_⟩
    · have hm := (List.mem_filter.mp (List.mem_filter.mp (AMap.mem_of_get hk)).1).1
      have hg := AMap.get_of_mem wf1 hm
      rw [n2, AMap.get_mapVals] at hg
      cases hg0 : c.entries.get k with
      | none => rw [hg0] at hg; cases hg
      | some e0 =>
        rw [hg0] at hg
        simp only [Option.map_some, Option.some.injEq] at hg
        refine ih.waits.pend k e0 hg0 ?_
        rw [← hg] at hr
        unfold settled at hr
        split at hr
        · exact hr
        · exact hr
    · obtain ⟨o, y1, y2⟩ := ih.waits.out corr k hk
      exact ⟨o, out_push y1 _ (fun _ h => h) (by simp), y2⟩
    · exact hL id ((hl id).1 (ih.loads ms' id now (by simpa using hm) hne))
    · exact hS id ((hl id).2 (ih.stores data ms' id (by simpa using hm) hne))
  | @take evs c h ih =>
    refine ⟨⟨ih.waits.pend, fun corr k hk => ?_, ih.waits.bound⟩, fun ms' id now hm hne => ?_, fun data ms' id hm hne => ?_⟩
    · obtain ⟨o, y1, y2⟩ := ih.waits.out corr k hk
      refine ⟨o, ?_, y2⟩
      rcases y1 with y1 | ⟨a, outs, b, z1, z2, z3⟩
      · exact .inr ⟨evs, c.out, [], rfl, y1, by simp⟩
      · refine .inr ⟨a, outs, b ++ [.take c.out], by simp [z1], z2, fun x hx => z3 x (by simpa using hx)⟩
    · exact ih.loads ms' id now (by simpa using hm) hne
    · exact ih.stores data ms' id (by simpa using hm) hne

/-- After progress was made, the batches wait only for requests the storage has not answered. -/
theorem progress_answered {env : DataEnv α} {evs : List (Event α)} {c c' : DataCache α} {policy : AMap String (Entry α) → List String}
    (h : History env evs c) (hp : ∀ es, ∀ k ∈ policy es, ∀ e, AMap.get es k = some e → e.ready = true)
    (hs : c.makeProgress policy = .ok c') {id : Nat} {k : String} (hk : k ∈ waitingKeys c'.entries id) :
    ∃ r, Outstanding (evs ++ [.progress]) c' r ∧ r.uri = k := by
  have hinv := history_inv (History.progress h hp hs)
  have hlive := history_live (History.progress h hp hs)
  obtain ⟨e, h1, h2⟩ := mem_waitingKeys.mp hk
  have hr : e.ready = false := by
    cases hr : e.ready with
    | false => rfl
    | true =>
      unfold DataCache.makeProgress at hs
      obtain ⟨⟨es1, bs1, cells1⟩, x1, x2⟩ := Run.bind_eq_ok.mp hs
      simp only [Run.ok.injEq] at x2
      obtain ⟨n1, n2, n3, n4, n5⟩ := notifyEntries_ok (X := []) (history_inv h).base.core x1
      rw [foldl_erase] at x2
      rw [← x2] at h1
      have hm := (List.mem_filter.mp (List.mem_filter.mp h1).1).1
      rw [n2] at hm
      obtain ⟨⟨k0, e0⟩, _, h4⟩ := List.mem_map.mp hm
      simp only [Prod.mk.injEq] at h4
      rw [← h4.2] at hr h2
      unfold settled at hr h2
      split at hr
      · rw [if_pos (by assumption)] at h2; simp at h2
      · contradiction
  obtain ⟨corr, hc⟩ := hlive.waits.pend k e (AMap.get_of_mem hinv.base.wfE h1) hr
  obtain ⟨r, y1, _, y3⟩ := hlive.waits.out corr k hc
  exact ⟨r, y1, y3⟩

/-! ## No panics -/

theorem resolveEntry_total {id : Nat} {b : Batch α} (e : Entry α) {cells : Cells α} (h0 : 0 < b.remaining)
    (hl : ∀ l, b.state = .load l → cells.loads.get id = none) (hs : b.state = .store → cells.stores.get id = none) :
    ∃ x, resolveEntry id b e cells = .ok x := by
  unfold resolveEntry
  rw [if_neg (by omega)]
  cases hst : e.state <;> cases hb : b.state <;> dsimp only
  all_goals first
    | exact ⟨_, rfl⟩
    | (split
       · simp [Cells.setLoad, hl _ hb, Run.bind]
       · exact ⟨_, rfl⟩)
    | (split
       · simp [Cells.setStore, hs hb, Run.bind]
       · exact ⟨_, rfl⟩)
    | simp [Cells.setLoad, hl _ hb, Run.bind]
    | simp [Cells.setStore, hs hb, Run.bind]

theorem notifyBatches_total {F : Facts α} {X Y : AMap String (Entry α)} {k : String} {e : Entry α} (hr : e.ready = true) :
    ∀ {w : List Nat} {bs : AMap Nat (Batch α)} {cells : Cells α}, Core F (X ++ (k, { e with waiting := w }) :: Y) bs cells →
    ∃ x, notifyBatches e w bs cells = .ok x := by
  intro w
  induction w with
  | nil => intro bs cells _; exact ⟨_, rfl⟩
  | cons id rest ih =>
    intro bs cells hc
    unfold notifyBatches
    have hmem : (k, { e with waiting := id :: rest }) ∈ X ++ (k, { e with waiting := id :: rest }) :: Y := by simp
    obtain ⟨b, hg⟩ := Option.isSome_iff_exists.mp (hc.closed _ _ hmem id (by simp))
    have hB := hc.batches id b hg
    have hpos : 0 < b.remaining := by
      have : k ∈ waitingKeys (X ++ (k, { e with waiting := id :: rest }) :: Y) id := mem_waitingKeys.mpr ⟨_, hmem, by simp⟩
      rw [hB.rem]
      exact List.length_pos_of_mem this
    obtain ⟨⟨b', cells1⟩, h1⟩ := resolveEntry_total e hpos (fun l hl => (hB.load l hl).1) (fun hs => (hB.store hs).1)
    simp only [hg, Run.unwrap, Run.bind_ok, h1]
    obtain ⟨r1, r2⟩ := resolve_ok (hc.entries _ _ hmem) hr hc.batches hc.cells hg h1
    refine ih ⟨fun k' e' hm => ?_, r2, r1, fun k' e' hm i hi => ?_⟩
    · simp only [List.mem_append, List.mem_cons, Prod.mk.injEq] at hm
      rcases hm with hm | ⟨rfl, rfl⟩ | hm
      · exact hc.entries k' e' (by simp [hm])
      · exact (hc.entries _ _ hmem).tail
      · exact hc.entries k' e' (by simp [hm])
    · have : (bs.get i).isSome := by
        simp only [List.mem_append, List.mem_cons, Prod.mk.injEq] at hm
        rcases hm with hm | ⟨rfl, rfl⟩ | hm
        · exact hc.closed k' e' (by simp [hm]) i hi
        · exact hc.closed _ _ hmem i (List.mem_cons_of_mem _ hi)
        · exact hc.closed k' e' (by simp [hm]) i hi
      rw [AMap.get_set]
      split
      · rfl
      · exact this

theorem notifyEntries_total {F : Facts α} : ∀ {es : AMap String (Entry α)} {X : AMap String (Entry α)} {bs : AMap Nat (Batch α)}
    {cells : Cells α}, Core F (X ++ es) bs cells → ∃ x, notifyEntries es bs cells = .ok x := by
  intro es
  induction es with
  | nil => intro X bs cells _; exact ⟨_, rfl⟩
  | cons x rest ih =>
    obtain ⟨k, e⟩ := x
    intro X bs cells hc
    unfold notifyEntries
    split
    · rename_i hr
      obtain ⟨⟨bs1, cells1⟩, h1⟩ := notifyBatches_total (X := X) (Y := rest) (k := k) hr (w := e.waiting) hc
      obtain ⟨p1, _⟩ := notifyBatches_ok (X := X) (Y := rest) (k := k) hr (w := e.waiting) hc h1
      obtain ⟨y, hy⟩ := ih (X := X ++ [(k, { e with waiting := [] })]) (by simpa using p1)
      simp only [h1, Run.bind_ok, hy]
      exact ⟨_, rfl⟩
    · obtain ⟨y, hy⟩ := ih (X := X ++ [(k, e)]) (by simpa using hc)
      simp only [hy, Run.bind_ok]
      exact ⟨_, rfl⟩

theorem makeProgress_total {env : DataEnv α} {evs : List (Event α)} {c : DataCache α} (h : History env evs c)
    (policy : AMap String (Entry α) → List String) : ∃ c', c.makeProgress policy = .ok c' := by
  obtain ⟨x, hx⟩ := notifyEntries_total (X := []) (history_inv h).base.core
  unfold DataCache.makeProgress
  simp only [hx, Run.bind_ok]
  exact ⟨_, rfl⟩

theorem register_total {id : Nat} : ∀ {todo : List String} {es : AMap String (Entry α)} {b : Batch α} {cells : Cells α},
    (∀ l, b.state = .load l → cells.loads.get id = none) → b.state ≠ .store → ∃ x, registerAll id es b cells todo = .ok x := by
  intro todo
  induction todo with
  | nil => intro es b cells _ _; exact ⟨_, rfl⟩
  | cons k rest ih =>
    intro es b cells hl hs
    unfold registerAll
    cases hg : es.get k with
    | none => exact ih hl hs
    | some e =>
      simp only
      have key : ∃ b1 e1 cells1, addPending id b e cells = .ok (b1, e1, cells1) ∧
          (∀ l, b1.state = .load l → cells1.loads.get id = none) ∧ b1.state ≠ .store := by
        have hready : e.ready = true → ∃ b1 cells1, resolveEntry id { b with remaining := b.remaining + 1 } e cells = .ok (b1, cells1) ∧
            (∀ l, b1.state = .load l → cells1.loads.get id = none) ∧ b1.state ≠ .store := by
          intro hr
          obtain ⟨⟨b1, cells1⟩, h1⟩ := resolveEntry_total (id := id) (b := { b with remaining := b.remaining + 1 }) e (cells := cells)
            (Nat.succ_pos _) hl (fun h => absurd h hs)
          refine ⟨b1, cells1, h1, ?_⟩
          obtain ⟨_, _, hcase⟩ := resolveEntry_cases hr h1
          rcases hcase with ⟨v, l', e1, e2, e3, e4, e5, rfl⟩ | ⟨v, l', e1, e2, e3, e4, rfl⟩ | ⟨l', e1, e2, e3, e4, rfl⟩ |
            ⟨v, e1, e2, e3, e4, e5, rfl⟩ | ⟨v, e1, e2, e3, e4, rfl⟩ | ⟨e1, e2, e3, e4, rfl⟩ | ⟨e1, e2, rfl⟩
          · rw [e5]; exact ⟨by simp, by simp⟩
          · rw [e4]; exact ⟨fun _ _ => hl _ e2, by simp⟩
          · rw [e4]; exact ⟨by simp, by simp⟩
          · exact absurd e2 hs
          · exact absurd e2 hs
          · exact absurd e2 hs
          · rw [e2]; exact ⟨hl, hs⟩
        unfold addPending
        cases hst : e.state with
        | load => exact ⟨_, _, _, rfl, hl, hs⟩
        | store v => exact ⟨_, _, _, rfl, hl, hs⟩
        | cache v =>
          obtain ⟨b1, cells1, h1, h2⟩ := hready (by simp [Entry.ready, hst])
          simp only [h1, Run.bind_ok]
          exact ⟨b1, e, cells1, rfl, h2⟩
        | error =>
          obtain ⟨b1, cells1, h1, h2⟩ := hready (by simp [Entry.ready, hst])
          simp only [h1, Run.bind_ok]
          exact ⟨b1, e, cells1, rfl, h2⟩
      obtain ⟨b1, e1, cells1, h1, h2, h3⟩ := key
      simp only [h1, Run.bind_ok]
      exact ih h2 h3

theorem load_total {env : DataEnv α} {evs : List (Event α)} {c : DataCache α} (h : History env evs c) (ms : List Metadata) :
    ∃ c', c.load ms = .ok c' := by
  have hinv := history_inv h
  obtain ⟨_, _, l3, _, _⟩ := loadEntries_ok ms hinv.base hinv.reqs
  unfold DataCache.load DataCache.batch
  obtain ⟨x, hx⟩ := register_total (id := (c.loadEntries ms).batchCounter + 1) (todo := ms.map Metadata.uri) (es := (c.loadEntries ms).entries)
    (b := ⟨.load [], 0⟩) (cells := (c.loadEntries ms).cells)
    (fun l _ => by rw [l3.cells, l3.counter]; exact (fresh_cells hinv.base hinv.ids).1) (by simp)
  simp only [hx, Run.bind_ok]
  exact ⟨_, rfl⟩

/-! ## What a store writes -/

theorem prepareWrites_shape {env : DataEnv α} : ∀ {data : List (Metadata × α)} {ms : List Metadata} {bs : List Bytes},
    prepareWrites env data = .ok (ms, some bs) → ∀ p ∈ data.zip ms, ∃ b, env.ser p.1.2 = some b ∧
      p.2 = { p.1.1 with version := p.1.1.version + 1, size := UInt32.ofNat b.length, hash := env.hash b,
                         uri := env.uri p.1.1.tabletId (p.1.1.version + 1) (env.hash b) } ∧
      (p.2, p.1.2, b) ∈ ms.zip ((data.map Prod.snd).zip bs) := by
  intro data
  induction data with
  | nil => intro ms bs _ p hp; simp at hp
  | cons d rest ih =>
    obtain ⟨m, v⟩ := d
    intro ms bs h
    unfold prepareWrites at h
    obtain ⟨x, h1, h2⟩ := Run.bind_eq_ok.mp h
    cases x with
    | none => simp at h2
    | some x =>
      obtain ⟨m', b⟩ := x
      simp only at h2
      obtain ⟨⟨ms', o⟩, h3, h4⟩ := Run.bind_eq_ok.mp h2
      simp only [Run.ok.injEq, Prod.mk.injEq] at h4
      obtain ⟨rfl, h5⟩ := h4
      cases o with
      | none => simp at h5
      | some bs' =>
        simp only [Option.map_some, Option.some.injEq] at h5
        subst h5
        intro p hp
        simp only [List.zip_cons_cons, List.mem_cons] at hp
        rcases hp with rfl | hp
        · unfold prepareWrite at h1
          cases hs : env.ser v with
          | none => simp [hs] at h1
          | some b0 =>
            simp only [hs] at h1
            split at h1
            · cases h1
            · simp only [Run.ok.injEq, Option.some.injEq, Prod.mk.injEq] at h1
              obtain ⟨rfl, rfl⟩ := h1
              exact ⟨b0, rfl, rfl, by simp⟩
        · obtain ⟨b', i1, i2, i3⟩ := ih h3 p hp
          exact ⟨b', i1, i2, by simp [i3]⟩

theorem storeEntries_out : ∀ (xs : List (Metadata × α × Bytes)) {c c' : DataCache α}, c.storeEntries xs = .ok c' →
    (∀ r ∈ c.out, r ∈ c'.out) ∧ ∀ x ∈ xs, ∃ corr, .store corr x.1.uri x.2.2 ∈ c'.out := by
  intro xs
  induction xs with
  | nil => intro c c' h; simp only [DataCache.storeEntries, Run.ok.injEq] at h; subst h; exact ⟨fun _ h => h, by simp⟩
  | cons x rest ih =>
    obtain ⟨m, v, b⟩ := x
    intro c c' h
    unfold DataCache.storeEntries at h
    cases hg : c.entries.get m.uri with
    | some e => simp [hg] at h
    | none =>
      simp only [hg] at h
      obtain ⟨i1, i2⟩ := ih h
      refine ⟨fun r hr => i1 r (by simp [hr]), ?_⟩
      intro x hx
      rcases List.mem_cons.mp hx with rfl | hx
      · exact ⟨c.correlation + 1, i1 _ (by simp)⟩
      · exact i2 x hx

theorem batch_out {c c' : DataCache α} {s : BatchState α} {keys : List String} (h : c.batch s keys = .ok c') : c'.out = c.out := by
  unfold DataCache.batch at h
  obtain ⟨x, _, h2⟩ := Run.bind_eq_ok.mp h
  simp only [Run.ok.injEq] at h2
  rw [← h2]

end TCP.Cache
