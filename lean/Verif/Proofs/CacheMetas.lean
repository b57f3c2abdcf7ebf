import Verif.Proofs.CacheCover
import Verif.Proofs.CacheDataLive
import Verif.Proofs.CacheResolve
import Verif.Spec.CacheTxn

/-! # Which metadata the data cache holds, and what a load that completes at once yields -/

namespace TCP.Cache

open TCP TCP.TabletStore TCP.Cache.Spec

variable {α η ω : Type}

/-! ## A property of all the metadata in a data cache -/

def LoadP (P : Metadata → Prop) (s : BatchState α) : Prop := ∀ l, s = .load l → ∀ p ∈ l, P p.1

def CellsP (P : Metadata → Prop) (c : Cells α) : Prop := ∀ x ∈ c.loads, ∀ l, x.2 = some l → ∀ p ∈ l, P p.1

structure AllMeta (P : Metadata → Prop) (d : DataCache α) : Prop where
  entries : ∀ e ∈ d.entries, P e.2.metadata
  batches : ∀ b ∈ d.batches, LoadP P b.2.state
  cells : CellsP P d.cells

theorem AllMeta.mono {P Q : Metadata → Prop} {d : DataCache α} (h : AllMeta P d) (hpq : ∀ m, P m → Q m) : AllMeta Q d :=
  ⟨fun e he => hpq _ (h.entries e he), fun b hb l hl p hp => hpq _ (h.batches b hb l hl p hp), fun x hx l hl p hp => hpq _ (h.cells x hx l hl p hp)⟩

theorem allMeta_create {P : Metadata → Prop} {n : Nat} : AllMeta P (DataCache.create n : DataCache α) :=
  ⟨by simp [DataCache.create], by simp [DataCache.create], by simp [CellsP, DataCache.create]⟩

theorem setLoad_meta {P : Metadata → Prop} {cells cells' : Cells α} {id : Nat} {x : Option (List (Metadata × α))} (h : cells.setLoad id x = .ok cells')
    (hc : CellsP P cells) (hx : ∀ l, x = some l → ∀ p ∈ l, P p.1) : CellsP P cells' := by
  obtain ⟨_, rfl⟩ := setLoad_ok h
  intro y hy l hl
  rcases mem_set hy with rfl | hy
  · exact hx l hl
  · exact hc y hy l hl

theorem resolveEntry_meta {P : Metadata → Prop} {id : Nat} {b b' : Batch α} {e : Entry α} {cells cells' : Cells α}
    (h : resolveEntry id b e cells = .ok (b', cells')) (he : P e.metadata) (hb : LoadP P b.state) (hc : CellsP P cells) :
    LoadP P b'.state ∧ CellsP P cells' := by
  have happ : ∀ l v, b.state = .load l → ∀ p ∈ l ++ [(e.metadata, v)], P p.1 := by
    intro l v hl p hp
    rcases List.mem_append.mp hp with hp | hp
    · exact hb l hl p hp
    · rw [List.mem_singleton.mp hp]; exact he
  unfold resolveEntry at h
  by_cases h0 : b.remaining = 0
  · simp [h0] at h
  · simp only [h0, if_false] at h
    cases hes : e.state with
    | load =>
      simp only [hes, Run.ok.injEq, Prod.mk.injEq] at h
      obtain ⟨rfl, rfl⟩ := h
      exact ⟨hb, hc⟩
    | store v =>
      simp only [hes, Run.ok.injEq, Prod.mk.injEq] at h
      obtain ⟨rfl, rfl⟩ := h
      exact ⟨hb, hc⟩
    | cache v =>
      cases hbs : b.state with
      | load l =>
        simp only [hes, hbs] at h
        by_cases h1 : b.remaining - 1 = 0
        · simp only [h1, if_true] at h
          obtain ⟨c1, h2, h3⟩ := Run.bind_eq_ok.mp h
          simp only [Run.ok.injEq, Prod.mk.injEq] at h3
          obtain ⟨rfl, rfl⟩ := h3
          exact ⟨by simp [LoadP], setLoad_meta h2 hc (fun l' hl' => by cases hl'; exact happ l v hbs)⟩
        · simp only [h1, if_false, Run.ok.injEq, Prod.mk.injEq] at h
          obtain ⟨rfl, rfl⟩ := h
          exact ⟨fun l' hl' => by cases hl'; exact happ l v hbs, hc⟩
      | store =>
        simp only [hes, hbs] at h
        by_cases h1 : b.remaining - 1 = 0
        · simp only [h1, if_true] at h
          obtain ⟨c1, h2, h3⟩ := Run.bind_eq_ok.mp h
          simp only [Run.ok.injEq, Prod.mk.injEq] at h3
          obtain ⟨rfl, rfl⟩ := h3
          obtain ⟨_, rfl⟩ := setStore_ok h2
          exact ⟨by simp [LoadP], hc⟩
        · simp only [h1, if_false, Run.ok.injEq, Prod.mk.injEq] at h
          obtain ⟨rfl, rfl⟩ := h
          exact ⟨by simp [LoadP], hc⟩
      | error =>
        simp only [hes, hbs, Run.ok.injEq, Prod.mk.injEq] at h
        obtain ⟨rfl, rfl⟩ := h
        exact ⟨by simp [LoadP], hc⟩
      | completed =>
        simp only [hes, hbs, Run.ok.injEq, Prod.mk.injEq] at h
        obtain ⟨rfl, rfl⟩ := h
        exact ⟨by simp [LoadP], hc⟩
    | error =>
      cases hbs : b.state with
      | load l =>
        simp only [hes, hbs] at h
        obtain ⟨c1, h2, h3⟩ := Run.bind_eq_ok.mp h
        simp only [Run.ok.injEq, Prod.mk.injEq] at h3
        obtain ⟨rfl, rfl⟩ := h3
        exact ⟨by simp [LoadP], setLoad_meta h2 hc (by simp)⟩
      | store =>
        simp only [hes, hbs] at h
        obtain ⟨c1, h2, h3⟩ := Run.bind_eq_ok.mp h
        simp only [Run.ok.injEq, Prod.mk.injEq] at h3
        obtain ⟨rfl, rfl⟩ := h3
        obtain ⟨_, rfl⟩ := setStore_ok h2
        exact ⟨by simp [LoadP], hc⟩
      | error =>
        simp only [hes, hbs, Run.ok.injEq, Prod.mk.injEq] at h
        obtain ⟨rfl, rfl⟩ := h
        exact ⟨by simp [LoadP], hc⟩
      | completed =>
        simp only [hes, hbs, Run.ok.injEq, Prod.mk.injEq] at h
        obtain ⟨rfl, rfl⟩ := h
        exact ⟨by simp [LoadP], hc⟩

theorem addPending_meta {P : Metadata → Prop} {id : Nat} {b b' : Batch α} {e e' : Entry α} {cells cells' : Cells α}
    (h : addPending id b e cells = .ok (b', e', cells')) (he : P e.metadata) (hb : LoadP P b.state) (hc : CellsP P cells) :
    LoadP P b'.state ∧ P e'.metadata ∧ CellsP P cells' := by
  unfold addPending at h
  cases hes : e.state with
  | load =>
    simp only [hes, Run.ok.injEq, Prod.mk.injEq] at h
    obtain ⟨rfl, rfl, rfl⟩ := h
    exact ⟨hb, he, hc⟩
  | store v =>
    simp only [hes, Run.ok.injEq, Prod.mk.injEq] at h
    obtain ⟨rfl, rfl, rfl⟩ := h
    exact ⟨hb, he, hc⟩
  | cache v =>
    simp only [hes] at h
    obtain ⟨⟨b1, c1⟩, h1, h2⟩ := Run.bind_eq_ok.mp h
    simp only [Run.ok.injEq, Prod.mk.injEq] at h2
    obtain ⟨rfl, rfl, rfl⟩ := h2
    obtain ⟨k1, k2⟩ := resolveEntry_meta h1 he hb hc
    exact ⟨k1, he, k2⟩
  | error =>
    simp only [hes] at h
    obtain ⟨⟨b1, c1⟩, h1, h2⟩ := Run.bind_eq_ok.mp h
    simp only [Run.ok.injEq, Prod.mk.injEq] at h2
    obtain ⟨rfl, rfl, rfl⟩ := h2
    obtain ⟨k1, k2⟩ := resolveEntry_meta h1 he hb hc
    exact ⟨k1, he, k2⟩

theorem registerAll_meta {P : Metadata → Prop} {id : Nat} : ∀ {ks : List String} {es es' : AMap String (Entry α)} {b b' : Batch α} {cells cells' : Cells α},
    registerAll id es b cells ks = .ok (es', b', cells') → (∀ e ∈ es, P e.2.metadata) → LoadP P b.state → CellsP P cells →
    (∀ e ∈ es', P e.2.metadata) ∧ LoadP P b'.state ∧ CellsP P cells' := by
  intro ks
  induction ks with
  | nil =>
    intro es es' b b' cells cells' h he hb hc
    simp only [registerAll, Run.ok.injEq, Prod.mk.injEq] at h
    obtain ⟨rfl, rfl, rfl⟩ := h
    exact ⟨he, hb, hc⟩
  | cons k rest ih =>
    intro es es' b b' cells cells' h he hb hc
    unfold registerAll at h
    cases hg : es.get k with
    | none => simp only [hg] at h; exact ih h he hb hc
    | some e =>
      simp only [hg] at h
      obtain ⟨⟨b1, e1, c1⟩, h1, h2⟩ := Run.bind_eq_ok.mp h
      obtain ⟨k1, k2, k3⟩ := addPending_meta h1 (he _ (AMap.mem_of_get hg)) hb hc
      refine ih h2 (fun x hx => ?_) k1 k3
      rcases mem_set hx with rfl | hx
      · exact k2
      · exact he x hx

theorem batch_meta {P : Metadata → Prop} {c c' : DataCache α} {s : BatchState α} {ks : List String} (h : c.batch s ks = .ok c') (hc : AllMeta P c)
    (hs : LoadP P s) : AllMeta P c' := by
  unfold DataCache.batch at h
  obtain ⟨⟨es, b, cells⟩, h1, h2⟩ := Run.bind_eq_ok.mp h
  simp only [Run.ok.injEq] at h2
  subst h2
  obtain ⟨k1, k2, k3⟩ := registerAll_meta h1 hc.entries hs hc.cells
  refine ⟨k1, fun x hx => ?_, k3⟩
  simp only at hx
  split at hx
  · exact hc.batches x hx
  · rcases mem_set hx with rfl | hx
    · exact k2
    · exact hc.batches x hx

theorem loadEntries_meta {P : Metadata → Prop} : ∀ {ms : List Metadata} {c : DataCache α}, AllMeta P c → (∀ m ∈ ms, P m) → AllMeta P (c.loadEntries ms) := by
  intro ms
  induction ms with
  | nil => intro c h _; exact h
  | cons m rest ih =>
    intro c h hm
    unfold DataCache.loadEntries
    split
    · exact ih h (fun x hx => hm x (by simp [hx]))
    · refine ih ⟨fun x hx => ?_, h.batches, h.cells⟩ (fun x hx => hm x (by simp [hx]))
      rcases mem_set hx with rfl | hx
      · exact hm m (by simp)
      · exact h.entries x hx

theorem load_meta {P : Metadata → Prop} {c c' : DataCache α} {ms : List Metadata} (h : c.load ms = .ok c') (hc : AllMeta P c) (hm : ∀ m ∈ ms, P m) :
    AllMeta P c' := batch_meta h (loadEntries_meta hc hm) (by simp [LoadP])

theorem storeEntries_meta {P : Metadata → Prop} : ∀ {xs : List (Metadata × α × Bytes)} {c c' : DataCache α}, c.storeEntries xs = .ok c' → AllMeta P c →
    (∀ x ∈ xs, P x.1) → AllMeta P c' := by
  intro xs
  induction xs with
  | nil => intro c c' h hc _; simp only [DataCache.storeEntries, Run.ok.injEq] at h; subst h; exact hc
  | cons x rest ih =>
    obtain ⟨m, v, b⟩ := x
    intro c c' h hc hx
    unfold DataCache.storeEntries at h
    split at h
    · simp at h
    · refine ih h ⟨fun y hy => ?_, hc.batches, hc.cells⟩ (fun y hy => hx y (by simp [hy]))
      rcases mem_set hy with rfl | hy
      · exact hx _ (List.mem_cons_self ..)
      · exact hc.entries y hy

theorem mem_zip_right {β γ : Type} : ∀ {l : List β} {l' : List γ} {y : γ}, l'.length = l.length → y ∈ l' → ∃ x, (x, y) ∈ l.zip l' := by
  intro l
  induction l with
  | nil => intro l' y h hy; have := List.eq_nil_of_length_eq_zero h; subst this; simp at hy
  | cons x rest ih =>
    intro l' y h hy
    cases l' with
    | nil => simp at hy
    | cons z zs =>
      rcases List.mem_cons.mp hy with rfl | hy
      · exact ⟨x, by simp⟩
      · obtain ⟨x', hx'⟩ := ih (by simpa using h) hy
        exact ⟨x', by simp [hx']⟩

theorem store_meta {P : Metadata → Prop} {env : DataEnv α} {c c' : DataCache α} {data : List (Metadata × α)} {ms : List Metadata} {b : Bool}
    (h : c.store env data = .ok (c', ms, b)) (hc : AllMeta P c) (hP : ∀ m, Named env m → P m) : AllMeta P c' := by
  unfold DataCache.store at h
  obtain ⟨⟨ms0, o⟩, h1, h2⟩ := Run.bind_eq_ok.mp h
  cases o with
  | none =>
    simp only [Run.ok.injEq, Prod.mk.injEq] at h2
    rw [← h2.1]; exact hc
  | some bs =>
    simp only at h2
    obtain ⟨c1, h3, h4⟩ := Run.bind_eq_ok.mp h2
    obtain ⟨c2, h5, h6⟩ := Run.bind_eq_ok.mp h4
    simp only [Run.ok.injEq, Prod.mk.injEq] at h6
    rw [← h6.1]
    refine batch_meta h5 (storeEntries_meta h3 hc (fun x hx => ?_)) (by simp [LoadP])
    obtain ⟨p, hp⟩ := mem_zip_right (prepareWrites_length' h1) (List.of_mem_zip hx).1
    obtain ⟨b, _, e⟩ := prepareWrites_meta h1 _ hp
    refine hP _ ?_
    simp only at e
    rw [e]
    rfl

theorem notifyBatches_meta {P : Metadata → Prop} {e : Entry α} (he : P e.metadata) : ∀ {ids : List Nat} {bs bs' : AMap Nat (Batch α)} {cells cells' : Cells α},
    notifyBatches e ids bs cells = .ok (bs', cells') → (∀ b ∈ bs, LoadP P b.2.state) → CellsP P cells →
    (∀ b ∈ bs', LoadP P b.2.state) ∧ CellsP P cells' := by
  intro ids
  induction ids with
  | nil =>
    intro bs bs' cells cells' h hb hc
    simp only [notifyBatches, Run.ok.injEq, Prod.mk.injEq] at h
    obtain ⟨rfl, rfl⟩ := h
    exact ⟨hb, hc⟩
  | cons id rest ih =>
    intro bs bs' cells cells' h hb hc
    unfold notifyBatches at h
    cases hg : bs.get id with
    | none => simp [hg, Run.unwrap, Run.bind] at h
    | some b =>
      simp only [hg, Run.unwrap, Run.bind_ok] at h
      obtain ⟨⟨b1, c1⟩, h1, h2⟩ := Run.bind_eq_ok.mp h
      obtain ⟨k1, k2⟩ := resolveEntry_meta h1 he (hb _ (AMap.mem_of_get hg)) hc
      refine ih h2 (fun x hx => ?_) k2
      rcases mem_set hx with rfl | hx
      · exact k1
      · exact hb x hx

theorem notifyEntries_meta {P : Metadata → Prop} : ∀ {es es' : AMap String (Entry α)} {bs bs' : AMap Nat (Batch α)} {cells cells' : Cells α},
    notifyEntries es bs cells = .ok (es', bs', cells') → (∀ e ∈ es, P e.2.metadata) → (∀ b ∈ bs, LoadP P b.2.state) → CellsP P cells →
    (∀ e ∈ es', P e.2.metadata) ∧ (∀ b ∈ bs', LoadP P b.2.state) ∧ CellsP P cells' := by
  intro es
  induction es with
  | nil =>
    intro es' bs bs' cells cells' h he hb hc
    simp only [notifyEntries, Run.ok.injEq, Prod.mk.injEq] at h
    obtain ⟨rfl, rfl, rfl⟩ := h
    exact ⟨he, hb, hc⟩
  | cons x rest ih =>
    obtain ⟨k, e⟩ := x
    intro es' bs bs' cells cells' h he hb hc
    have hrest : ∀ e ∈ rest, P e.2.metadata := fun y hy => he y (List.mem_cons_of_mem _ hy)
    unfold notifyEntries at h
    split at h
    · obtain ⟨⟨bs1, c1⟩, h1, h2⟩ := Run.bind_eq_ok.mp h
      obtain ⟨⟨es2, bs2, c2⟩, h3, h4⟩ := Run.bind_eq_ok.mp h2
      simp only [Run.ok.injEq, Prod.mk.injEq] at h4
      obtain ⟨rfl, rfl, rfl⟩ := h4
      obtain ⟨k1, k2⟩ := notifyBatches_meta (he (k, e) (by simp)) h1 hb hc
      obtain ⟨l1, l2, l3⟩ := ih h3 hrest k1 k2
      refine ⟨fun y hy => ?_, l2, l3⟩
      rcases List.mem_cons.mp hy with rfl | hy
      · exact he (k, e) (List.mem_cons_self ..)
      · exact l1 y hy
    · obtain ⟨⟨es2, bs2, c2⟩, h3, h4⟩ := Run.bind_eq_ok.mp h
      simp only [Run.ok.injEq, Prod.mk.injEq] at h4
      obtain ⟨rfl, rfl, rfl⟩ := h4
      obtain ⟨l1, l2, l3⟩ := ih h3 hrest hb hc
      refine ⟨fun y hy => ?_, l2, l3⟩
      rcases List.mem_cons.mp hy with rfl | hy
      · exact he (k, e) (List.mem_cons_self ..)
      · exact l1 y hy

theorem foldl_erase_mem {ν : Type} : ∀ {ks : List String} {m : AMap String ν} {e : String × ν}, e ∈ ks.foldl AMap.erase m → e ∈ m := by
  intro ks
  induction ks with
  | nil => intro m e h; exact h
  | cons k rest ih => intro m e h; exact mem_erase (ih h)

theorem makeProgress_meta {P : Metadata → Prop} {c c' : DataCache α} {policy : AMap String (Entry α) → List String} (h : c.makeProgress policy = .ok c')
    (hc : AllMeta P c) : AllMeta P c' := by
  unfold DataCache.makeProgress at h
  obtain ⟨⟨es, bs, cells⟩, h1, h2⟩ := Run.bind_eq_ok.mp h
  simp only [Run.ok.injEq] at h2
  subst h2
  obtain ⟨k1, k2, k3⟩ := notifyEntries_meta h1 hc.entries hc.batches hc.cells
  exact ⟨fun x hx => k1 x (List.mem_filter.mp (foldl_erase_mem hx)).1, fun x hx => k2 x (List.mem_filter.mp hx).1, k3⟩

theorem loadResponse_meta {e e' : Entry α} {st : StorageStatus} {v : Option α} (h : e.loadResponse st v = .ok e') : e'.metadata = e.metadata := by
  unfold Entry.loadResponse at h
  cases hes : e.state with
  | load =>
    simp only [hes] at h
    cases st with
    | succeeded =>
      cases v <;> (simp only [Run.ok.injEq] at h; rw [← h])
    | failed => simp only [Run.ok.injEq] at h; rw [← h]
    | other => simp at h
  | _ => simp [hes] at h

theorem storeResponse_meta {e e' : Entry α} {st : StorageStatus} (h : e.storeResponse st = .ok e') : e'.metadata = e.metadata := by
  unfold Entry.storeResponse at h
  cases hes : e.state with
  | store v =>
    simp only [hes] at h
    cases st with
    | succeeded => simp only [Run.ok.injEq] at h; rw [← h]
    | failed => simp only [Run.ok.injEq] at h; rw [← h]
    | other => simp at h
  | _ => simp [hes] at h

theorem processIn_meta {P : Metadata → Prop} {env : DataEnv α} {c c' : DataCache α} {r : DataIn} (h : c.processIn env r = .ok c') (hc : AllMeta P c) :
    AllMeta P c' := by
  cases r with
  | load corr st b =>
    simp only [DataCache.processIn] at h
    cases ho : c.ops.get corr with
    | none => simp only [ho, Run.ok.injEq] at h; rw [← h]; exact hc
    | some k =>
      simp only [ho] at h
      obtain ⟨e, h1, h2⟩ := Run.bind_eq_ok.mp h
      obtain ⟨e', h3, h4⟩ := Run.bind_eq_ok.mp h2
      simp only [Run.ok.injEq] at h4
      subst h4
      cases hg : c.entries.get k with
      | none => simp [hg] at h1
      | some e0 =>
        simp only [hg, Run.unwrap_some, Run.ok.injEq] at h1
        subst h1
        refine ⟨fun x hx => ?_, hc.batches, hc.cells⟩
        rcases mem_set hx with rfl | hx
        · simp only [loadResponse_meta h3]; exact hc.entries _ (AMap.mem_of_get hg)
        · exact hc.entries x hx
  | store corr st =>
    simp only [DataCache.processIn] at h
    cases ho : c.ops.get corr with
    | none => simp only [ho, Run.ok.injEq] at h; rw [← h]; exact hc
    | some k =>
      simp only [ho] at h
      obtain ⟨e, h1, h2⟩ := Run.bind_eq_ok.mp h
      obtain ⟨e', h3, h4⟩ := Run.bind_eq_ok.mp h2
      simp only [Run.ok.injEq] at h4
      subst h4
      cases hg : c.entries.get k with
      | none => simp [hg] at h1
      | some e0 =>
        simp only [hg, Run.unwrap_some, Run.ok.injEq] at h1
        subst h1
        refine ⟨fun x hx => ?_, hc.batches, hc.cells⟩
        rcases mem_set hx with rfl | hx
        · simp only [storeResponse_meta h3]; exact hc.entries _ (AMap.mem_of_get hg)
        · exact hc.entries x hx

/-- A load whose first tablet is ready is done at once, with that tablet alone or as a failure. -/
theorem load_first {env : DataEnv α} {devs : List (Event α)} {c c' : DataCache α} (h : History env devs c) {ms : List Metadata} (hl : c.load ms = .ok c')
    (hf : firstReady c ms = true) : ∃ x, c'.cells.loads.get c'.batchCounter = some x ∧
      ∀ l, x = some l → ∃ p, l = [p] ∧ ms.head?.map Metadata.uri = some p.1.uri := by
  cases ms with
  | nil => simp [firstReady] at hf
  | cons m rest =>
    unfold firstReady at hf
    cases he : c.entries.get m.uri with
    | none => simp [he] at hf
    | some e =>
      simp only [he] at hf
      have hinv := history_inv h
      have hu := (hinv.base.core.entries _ _ (AMap.mem_of_get he)).uri
      obtain ⟨_, _, l3, _, _⟩ := loadEntries_ok (m :: rest) hinv.base hinv.reqs
      have hg := l3.old _ _ he
      have hn := (fresh_cells hinv.base hinv.ids).1
      rw [← l3.counter, ← l3.cells] at hn
      unfold DataCache.load DataCache.batch at hl
      obtain ⟨⟨es', b', cells'⟩, h1, h2⟩ := Run.bind_eq_ok.mp hl
      simp only [Run.ok.injEq] at h2
      subst h2
      rw [List.map_cons] at h1
      unfold registerAll at h1
      cases hs : e.state with
      | load => simp [Entry.ready, hs] at hf
      | store v => simp [Entry.ready, hs] at hf
      | cache v =>
        simp only [hg, addPending, hs, resolveEntry, Cells.setLoad, hn] at h1
        simp [Run.bind] at h1
        refine ⟨_, (register_live h1).1.1 _ _ (AMap.get_set_self _ _ _), fun l hl => ?_⟩
        cases hl
        exact ⟨_, rfl, by simp [hu]⟩
      | error =>
        simp only [hg, addPending, hs, resolveEntry, Cells.setLoad, hn] at h1
        simp [Run.bind] at h1
        exact ⟨_, (register_live h1).1.1 _ _ (AMap.get_set_self _ _ _), fun l hl => by cases hl⟩

end TCP.Cache
