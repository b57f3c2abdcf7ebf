import Verif.Spec.TabletStore

/-! # Proofs about the tablet store -/

namespace TCP.TabletStore
open TCP ActorSpec Spec

variable {env : Env}

/-! ## Listing -/

/-- A table whose tablets are in order and stored under their ids. -/
def Good (m : Tablets) : Prop := SMap.Sorted m ∧ ∀ e ∈ m, e.2.tabletId = e.1

/-- The entries the loop visits. -/
def visited (to : UInt32) : Tablets → Tablets
  | [] => []
  | e :: rest => if to ≤ e.1 then [e] else e :: visited to rest

/-- All entries one interval visits. -/
def intervalVisits (m : Tablets) (a b : UInt32) : Tablets :=
  let l := m.filter fun e => decide (a ≤ e.1)
  visited b l ++ (if (scanLoop b l ([], [])).2 then [] else m.take 1)

theorem scanLoop_found (to : UInt32) (l : Tablets) (acc acc' : List UInt32 × List Metadata) :
    (scanLoop to l acc).2 = (scanLoop to l acc').2 := by
  induction l generalizing acc acc' with
  | nil => rfl
  | cons e l ih => simp only [scanLoop]; split
                   · rfl
                   · exact ih _ _

theorem scanLoop_acc (to : UInt32) (l : Tablets) (acc : List UInt32 × List Metadata) :
    (scanLoop to l acc).1 = (visited to l).foldl pushUnseen acc := by
  induction l generalizing acc with
  | nil => rfl
  | cons e l ih => simp only [scanLoop, visited]; split
                   · rfl
                   · exact ih _

theorem scanInterval_eq (m : Tablets) (acc : List UInt32 × List Metadata) (a b : UInt32) :
    scanInterval m acc a b = (intervalVisits m a b).foldl pushUnseen acc := by
  unfold scanInterval intervalVisits
  simp only
  rw [scanLoop_acc, scanLoop_found b _ acc ([], []), List.foldl_append]
  split
  · rfl
  · cases m <;> rfl

theorem found_iff (to : UInt32) (l : Tablets) (acc : List UInt32 × List Metadata) :
    (scanLoop to l acc).2 = true ↔ ∃ e ∈ l, to ≤ e.1 := by
  induction l generalizing acc with
  | nil => simp [scanLoop]
  | cons e l ih =>
    simp only [scanLoop]
    split
    · rename_i h; simp [h]
    · rename_i h; rw [ih]; simp [h]

theorem mem_visited {to : UInt32} {l : Tablets} (hs : SMap.Sorted l) {e : UInt32 × Metadata} :
    e ∈ visited to l ↔ e ∈ l ∧ ∀ e' ∈ l, e'.1 < e.1 → e'.1 < to := by
  induction l with
  | nil => simp [visited]
  | cons x l ih =>
    simp only [SMap.Sorted, List.pairwise_cons] at hs
    have hlt : ∀ a' ∈ l, x.1 < a'.1 := fun a ha => by have := hs.1 a ha; simpa [KeyOrd.lt] using this
    simp only [visited]
    split
    · rename_i hto
      constructor
      · intro h
        simp at h
        subst h
        refine ⟨by simp, fun e' he' hl => ?_⟩
        rcases List.mem_cons.mp he' with rfl | he'
        · simp only [UInt32.lt_iff_toNat_lt] at hl; omega
        · have := hlt e' he'; simp only [UInt32.lt_iff_toNat_lt] at *; omega
      · rintro ⟨h, hall⟩
        rcases List.mem_cons.mp h with rfl | h
        · simp
        · have h1 := hall x (by simp) (hlt e h)
          simp only [UInt32.lt_iff_toNat_lt, UInt32.le_iff_toNat_le] at *; omega
    · rename_i hto
      simp only [List.mem_cons]
      constructor
      · rintro (rfl | h)
        · refine ⟨Or.inl rfl, fun e' he' hl => ?_⟩
          rcases he' with rfl | he'
          · simp only [UInt32.lt_iff_toNat_lt] at hl; omega
          · have := hlt e' he'; simp only [UInt32.lt_iff_toNat_lt] at *; omega
        · have h := (ih hs.2).mp h
          refine ⟨Or.inr h.1, fun e' he' hl => ?_⟩
          rcases he' with rfl | he'
          · simp only [UInt32.lt_iff_toNat_lt, UInt32.le_iff_toNat_le] at *; omega
          · exact h.2 e' he' hl
      · rintro ⟨rfl | h, hall⟩
        · exact Or.inl rfl
        · exact Or.inr ((ih hs.2).mpr ⟨h, fun e' he' hl => hall e' (Or.inr he') hl⟩)

theorem pushAll_spec (l : Tablets) (acc : List UInt32 × List Metadata) (m : Tablets) (hm : Good m) (hl : ∀ e ∈ l, e ∈ m)
    (h1 : ∀ i, i ∈ acc.1 ↔ i ∈ acc.2.map Metadata.tabletId) (h2 : (acc.2.map Metadata.tabletId).Nodup)
    (h3 : ∀ t ∈ acc.2, (t.tabletId, t) ∈ m) :
    let r := l.foldl pushUnseen acc
    (∀ i, i ∈ r.1 ↔ i ∈ r.2.map Metadata.tabletId) ∧ (r.2.map Metadata.tabletId).Nodup ∧ (∀ t ∈ r.2, (t.tabletId, t) ∈ m) ∧
    ∀ t, t ∈ r.2 ↔ t ∈ acc.2 ∨ (t.tabletId, t) ∈ l := by
  induction l generalizing acc with
  | nil => exact ⟨h1, h2, h3, by simp⟩
  | cons e l ih =>
    have he : e ∈ m := hl e (by simp)
    have hid : e.2.tabletId = e.1 := hm.2 e he
    have hpair : e = (e.2.tabletId, e.2) := by rw [hid]
    have hl' : ∀ x ∈ l, x ∈ m := fun x hx => hl x (List.mem_cons_of_mem _ hx)
    simp only [List.foldl_cons]
    by_cases hin : e.1 ∈ acc.1
    · have hp : pushUnseen acc e = acc := by simp [pushUnseen, hin]
      rw [hp]
      obtain ⟨a, b, c, d⟩ := ih acc hl' h1 h2 h3
      refine ⟨a, b, c, fun t => ?_⟩
      rw [d t]
      constructor
      · rintro (h | h)
        · exact Or.inl h
        · exact Or.inr (List.mem_cons_of_mem _ h)
      · rintro (h | h)
        · exact Or.inl h
        · rcases List.mem_cons.mp h with h | h
          · left
            obtain ⟨t', ht', hidt⟩ := List.mem_map.mp ((h1 _).mp hin)
            have hm1 := h3 t' ht'
            have g1 := SMap.get_of_mem hm.1 hm1
            have g2 := SMap.get_of_mem hm.1 (show (e.1, e.2) ∈ m from he)
            rw [hidt] at g1
            rw [g1] at g2
            cases g2
            rw [← h] at ht'
            exact ht'
          · exact Or.inr h
    · have hp : pushUnseen acc e = (e.1 :: acc.1, acc.2 ++ [e.2]) := by simp [pushUnseen, hin]
      rw [hp]
      have := ih (e.1 :: acc.1, acc.2 ++ [e.2]) hl' (fun i => by
          simp only [List.mem_cons, List.map_append, List.mem_append, List.map_cons, List.map_nil, List.not_mem_nil, or_false, hid]
          rw [h1 i]; exact ⟨Or.symm, Or.symm⟩)
        (by
          simp only [List.map_append, List.map_cons, List.map_nil, hid]
          rw [List.nodup_append]
          refine ⟨h2, by simp, fun x hx y hy => ?_⟩
          simp at hy; subst hy
          intro hxy
          rw [hxy] at hx
          exact hin ((h1 _).mpr hx))
        (fun t ht => by
          rcases List.mem_append.mp ht with ht | ht
          · exact h3 t ht
          · simp at ht; subst ht; rw [← hpair]; exact he)
      obtain ⟨a, b, c, d⟩ := this
      refine ⟨a, b, c, fun t => ?_⟩
      rw [d t]
      simp only [List.mem_append, List.mem_cons, or_assoc, List.not_mem_nil, false_or]
      constructor
      · rintro (h | h | h)
        · exact Or.inl h
        · subst h; exact Or.inr (Or.inl hpair.symm)
        · exact Or.inr (Or.inr h)
      · rintro (h | h | h)
        · exact Or.inl h
        · rw [← h]; exact Or.inr (Or.inl rfl)
        · exact Or.inr (Or.inr h)

theorem mem_take_one {m : Tablets} (hs : SMap.Sorted m) {e : UInt32 × Metadata} :
    e ∈ m.take 1 ↔ e ∈ m ∧ ∀ e' ∈ m, e.1 ≤ e'.1 := by
  cases m with
  | nil => simp
  | cons x m =>
    simp only [SMap.Sorted, List.pairwise_cons] at hs
    have hlt : ∀ a' ∈ m, x.1 < a'.1 := fun a ha => by have := hs.1 a ha; simpa [KeyOrd.lt] using this
    simp only [List.take_succ_cons, List.take_zero, List.mem_cons, List.not_mem_nil, or_false]
    constructor
    · rintro rfl
      refine ⟨Or.inl rfl, ?_⟩
      rintro e' (rfl | he')
      · simp [UInt32.le_iff_toNat_le]
      · have := hlt e' he'; simp only [UInt32.lt_iff_toNat_lt, UInt32.le_iff_toNat_le] at *; omega
    · rintro ⟨rfl | h, hall⟩
      · rfl
      · have h1 := hall x (Or.inl rfl); have h2 := hlt e h
        simp only [UInt32.lt_iff_toNat_lt, UInt32.le_iff_toNat_le] at *; omega

/-- Ownership in terms of the entries. -/
theorem owns_iff {m : Tablets} (hm : Good m) {t : Metadata} {h : UInt32} :
    Owns (fun i => SMap.get m i) t h ↔ (t.tabletId, t) ∈ m ∧
      ((h ≤ t.tabletId ∧ ∀ e ∈ m, h ≤ e.1 → t.tabletId ≤ e.1) ∨ ((∀ e ∈ m, e.1 < h) ∧ ∀ e ∈ m, t.tabletId ≤ e.1)) := by
  have hne : ∀ (P : UInt32 → Prop), (∀ i, SMap.get m i ≠ none → P i) ↔ ∀ e ∈ m, P e.1 := by
    intro P
    constructor
    · intro hp e he
      obtain ⟨i, v⟩ := e
      exact hp i (by rw [SMap.get_of_mem hm.1 he]; simp)
    · intro hp i hi
      cases hx : SMap.get m i with
      | none => exact absurd hx hi
      | some v => exact hp _ (SMap.mem_of_get hx)
  unfold Owns
  simp only [hne]
  constructor
  · rintro ⟨h1, h2⟩; exact ⟨SMap.mem_of_get h1, h2⟩
  · rintro ⟨h1, h2⟩; exact ⟨SMap.get_of_mem hm.1 h1, h2⟩

theorem sorted_filter {m : Tablets} (hs : SMap.Sorted m) (p : UInt32 × Metadata → Bool) : SMap.Sorted (m.filter p) :=
  List.Pairwise.sublist List.filter_sublist hs

theorem intervalVisits_mem {m : Tablets} {a b : UInt32} {e : UInt32 × Metadata} (h : e ∈ intervalVisits m a b) : e ∈ m := by
  unfold intervalVisits at h
  simp only [List.mem_append] at h
  rcases h with h | h
  · have hv : ∀ l : Tablets, e ∈ visited b l → e ∈ l := by
      intro l
      induction l with
      | nil => simp [visited]
      | cons x l ih =>
        simp only [visited]
        split
        · intro h; simp at h; simp [h]
        · intro h
          rcases List.mem_cons.mp h with h | h
          · simp [h]
          · exact List.mem_cons_of_mem _ (ih h)
    exact (List.mem_filter.mp (hv _ h)).1
  · split at h
    · simp at h
    · exact List.mem_of_mem_take h

theorem mem_intervalVisits {m : Tablets} (hm : Good m) {a b : UInt32} (hab : a ≤ b) {t : Metadata} :
    (t.tabletId, t) ∈ intervalVisits m a b ↔ ∃ h, (a ≤ h ∧ h ≤ b) ∧ Owns (fun i => SMap.get m i) t h := by
  unfold intervalVisits
  simp only [List.mem_append]
  rw [mem_visited (sorted_filter hm.1 _)]
  have hfound := found_iff b (m.filter fun e => decide (a ≤ e.1)) ([], [])
  simp only [List.mem_filter, decide_eq_true_eq] at hfound ⊢
  constructor
  · rintro (⟨⟨h1, h2⟩, h3⟩ | h)
    · by_cases hb : t.tabletId ≤ b
      · refine ⟨t.tabletId, ⟨h2, hb⟩, (owns_iff hm).mpr ⟨h1, Or.inl ⟨by simp [UInt32.le_iff_toNat_le], fun _ _ h => h⟩⟩⟩
      · refine ⟨b, ⟨hab, by simp [UInt32.le_iff_toNat_le]⟩, (owns_iff hm).mpr ⟨h1, Or.inl ⟨?_, fun e he hbe => ?_⟩⟩⟩
        · simp only [UInt32.le_iff_toNat_le] at *; omega
        · apply Classical.byContradiction
          intro hlt
          have := h3 e ⟨he, by simp only [UInt32.le_iff_toNat_le] at *; omega⟩ (by simp only [UInt32.lt_iff_toNat_lt, UInt32.le_iff_toNat_le] at *; omega)
          simp only [UInt32.lt_iff_toNat_lt, UInt32.le_iff_toNat_le] at *; omega
    · split at h
      · simp at h
      · rename_i hnf
        rw [hfound] at hnf
        rw [mem_take_one hm.1] at h
        refine ⟨b, ⟨hab, by simp [UInt32.le_iff_toNat_le]⟩, (owns_iff hm).mpr ⟨h.1, Or.inr ⟨fun e he => ?_, h.2⟩⟩⟩
        apply Classical.byContradiction
        intro hlt
        refine hnf ⟨e, ⟨he, ?_⟩, ?_⟩ <;> simp only [UInt32.lt_iff_toNat_lt, UInt32.le_iff_toNat_le] at * <;> omega
  · rintro ⟨h, ⟨hah, hhb⟩, ho⟩
    obtain ⟨h1, h2⟩ := (owns_iff hm).mp ho
    rcases h2 with ⟨h2, h3⟩ | ⟨h2, h3⟩
    · left
      refine ⟨⟨h1, by simp only [UInt32.le_iff_toNat_le] at *; omega⟩, fun e' he' hlt => ?_⟩
      apply Classical.byContradiction
      intro hge
      have := h3 e' he'.1 (by simp only [UInt32.lt_iff_toNat_lt, UInt32.le_iff_toNat_le] at *; omega)
      simp only [UInt32.lt_iff_toNat_lt, UInt32.le_iff_toNat_le] at *; omega
    · right
      rw [if_neg]
      · exact (mem_take_one hm.1).mpr ⟨h1, h3⟩
      · rw [hfound]
        rintro ⟨e, he, hbe⟩
        have := h2 e he.1
        simp only [UInt32.lt_iff_toNat_lt, UInt32.le_iff_toNat_le] at *; omega

theorem findTablets_spec {m : Tablets} (hm : Good m) (a b : UInt32) :
    ((findTablets m a b).map Metadata.tabletId).Nodup ∧
    ∀ t, t ∈ findTablets m a b ↔ ∃ h, InClosed a b h ∧ Owns (fun i => SMap.get m i) t h := by
  have base : ∀ l : Tablets, (∀ e ∈ l, e ∈ m) → _ := fun l hl =>
    pushAll_spec l ([], []) m hm hl (by simp) (by simp) (by simp)
  have hmax : ∀ x : UInt32, x ≤ 0xffffffff := fun x => by
    simp only [UInt32.le_iff_toNat_le]; have := x.toNat_lt; simp; omega
  have hzero : ∀ x : UInt32, (0 : UInt32) ≤ x := fun x => by simp [UInt32.le_iff_toNat_le]
  unfold findTablets InClosed
  split
  · rename_i hlt
    rw [scanInterval_eq]
    obtain ⟨_, h2, _, h4⟩ := base (intervalVisits m a b) (fun e he => intervalVisits_mem he)
    refine ⟨h2, fun t => ?_⟩
    rw [h4 t]
    simp only [List.not_mem_nil, false_or]
    exact mem_intervalVisits hm (by simp only [UInt32.lt_iff_toNat_lt, UInt32.le_iff_toNat_le] at *; omega)
  · rw [scanInterval_eq, scanInterval_eq, ← List.foldl_append]
    obtain ⟨_, h2, _, h4⟩ := base (intervalVisits m a 0xffffffff ++ intervalVisits m 0 b)
      (fun e he => (List.mem_append.mp he).elim intervalVisits_mem intervalVisits_mem)
    refine ⟨h2, fun t => ?_⟩
    rw [h4 t]
    simp only [List.not_mem_nil, false_or, List.mem_append]
    rw [mem_intervalVisits hm (hmax a), mem_intervalVisits hm (hzero b)]
    constructor
    · rintro (⟨h, ⟨h1, _⟩, ho⟩ | ⟨h, ⟨_, h1⟩, ho⟩)
      · exact ⟨h, Or.inl h1, ho⟩
      · exact ⟨h, Or.inr h1, ho⟩
    · rintro ⟨h, h1 | h1, ho⟩
      · exact Or.inl ⟨h, ⟨h1, hmax h⟩, ho⟩
      · exact Or.inr ⟨h, ⟨hzero h, h1⟩, ho⟩

/-! ## Good states -/

/-- Tables have one entry per name, and every table is good. -/
def WFTables (tables : AMap String Tablets) : Prop := AMap.WF tables ∧ ∀ n m, tables.get n = some m → Good m

theorem good_nil : Good [] := ⟨SMap.Sorted.nil, by simp⟩

theorem Good.insert {m : Tablets} (h : Good m) (u : Metadata) : Good (SMap.insert m u.tabletId u) := by
  refine ⟨h.1.insert _ _, fun e he => ?_⟩
  rcases SMap.mem_insert he with rfl | he
  · rfl
  · exact h.2 e he

theorem good_createTable (ids : List UInt32) : Good (createTable ids) := by
  unfold createTable
  suffices ∀ m, Good m → Good (ids.foldl (fun m i => SMap.insert m i (.new i)) m) from this [] good_nil
  induction ids with
  | nil => exact fun m h => h
  | cons i ids ih => exact fun m h => ih _ (h.insert (.new i))

theorem good_insertAll {m : Tablets} (h : Good m) (l : List Metadata) : Good (SMap.insertAll m (l.map fun t => (t.tabletId, t))) := by
  induction l generalizing m with
  | nil => exact h
  | cons t l ih => exact ih (h.insert t)

theorem good_loadTable (l : List Metadata) : Good (loadTable l) := good_insertAll good_nil l

theorem sortById_sorted {l : List Metadata} (h : l.Pairwise fun a b => a.tabletId ≤ b.tabletId) : sortById l = l := by
  induction l with
  | nil => rfl
  | cons t l ih =>
    rw [List.pairwise_cons] at h
    simp only [sortById, ih h.2]
    cases l with
    | nil => rfl
    | cons u l => simp [insertById, h.1 u (by simp)]

theorem load_save {m : Tablets} (h : Good m) : loadTable (saveTable m) = m := by
  have hsort : sortById (m.map Prod.snd) = m.map Prod.snd := by
    apply sortById_sorted
    rw [List.pairwise_map]
    refine List.Pairwise.imp_of_mem ?_ h.1
    intro a b ha hb hlt
    rw [h.2 a ha, h.2 b hb]
    have : a.1 < b.1 := by simpa [KeyOrd.lt] using hlt
    simp only [UInt32.lt_iff_toNat_lt, UInt32.le_iff_toNat_le] at *; omega
  unfold loadTable saveTable
  rw [hsort]
  have : (m.map Prod.snd).map (fun t => (t.tabletId, t)) = m := by
    rw [List.map_map]
    conv => rhs; rw [← List.map_id m]
    apply List.map_congr_left
    intro e he
    show (e.2.tabletId, e.2) = e
    rw [h.2 e he]
  rw [this]
  exact SMap.insertAll_self h.1

theorem WFTables.set {tables : AMap String Tablets} (h : WFTables tables) (n : String) {m : Tablets} (hm : Good m) :
    WFTables (tables.set n m) := by
  refine ⟨h.1.set n m, fun k x hx => ?_⟩
  rw [AMap.get_set] at hx
  split at hx
  · simp at hx; subst hx; exact hm
  · exact h.2 k x hx

theorem wf_initTables {s : State} (h : WFTables s.tables) (cs : List (String × Nat)) : WFTables (initTables env s cs).tables := by
  induction cs generalizing s with
  | nil => exact h
  | cons c cs ih =>
    obtain ⟨n, k⟩ := c
    exact ih (s := ⟨s.tables.set n (createTable (env.generate s.draws k)), s.draws + 1⟩) (h.set n (good_createTable _))

theorem wf_loadTables {tables : AMap String Tablets} (h : WFTables tables) (l : List (String × List Metadata)) :
    WFTables (loadTables tables l).1 := by
  induction l generalizing tables with
  | nil => exact h
  | cons e l ih =>
    obtain ⟨n, x⟩ := e
    simp only [loadTables]
    split
    · exact h
    · exact ih (h.set n (good_loadTable x))

theorem wf_commit {tables t' : AMap String Tablets} {o : TabletOp} (h : WFTables tables) (hc : commit tables o = .ok t') : WFTables t' := by
  unfold commit at hc
  rw [Run.bind_eq_ok] at hc
  obtain ⟨m, h1, hc⟩ := hc
  rw [Run.bind_eq_ok] at hc
  obtain ⟨op, h2, hc⟩ := hc
  have hg : tables.get o.table = some m := by
    cases hx : tables.get o.table with
    | none => rw [hx] at h1; simp at h1
    | some m' => rw [hx] at h1; simp at h1; rw [h1]
  split at hc
  · simp at hc; exact hc ▸ h
  · simp at hc; exact hc ▸ h
  · rw [Run.bind_eq_ok] at hc
    obtain ⟨u, _, hc⟩ := hc
    simp at hc
    subst hc
    exact h.set _ ((h.2 _ _ hg).insert u)
  · simp at hc
  · simp at hc

theorem wf_commitAll {tables t' : AMap String Tablets} {ops : List TabletOp} (h : WFTables tables)
    (hc : commitAll tables ops = .ok t') : WFTables t' := by
  induction ops generalizing tables with
  | nil => simp [commitAll] at hc; exact hc ▸ h
  | cons o ops ih =>
    simp only [commitAll] at hc
    rw [Run.bind_eq_ok] at hc
    obtain ⟨t1, h1, h2⟩ := hc
    exact ih (wf_commit h h1) h2

theorem applyRequest_cases {tables t' : AMap String Tablets} {ops : List TabletOp} {resp : Response}
    (h : applyRequest env tables ops = .ok (t', resp)) :
    ∃ rs, prepareAll env tables ops = .ok rs ∧ resp.results = rs ∧
      (resp.succeeded = true ↔ ∀ r ∈ rs, r.status = .succeeded) ∧
      ((resp.succeeded = true ∧ commitAll tables ops = .ok t') ∨ (resp.succeeded = false ∧ t' = tables)) := by
  unfold applyRequest at h
  rw [Run.bind_eq_ok] at h
  obtain ⟨rs, h1, h2⟩ := h
  refine ⟨rs, h1, ?_⟩
  split at h2
  · rename_i hall
    rw [Run.bind_eq_ok] at h2
    obtain ⟨t, h3, h4⟩ := h2
    simp at h4
    obtain ⟨rfl, rfl⟩ := h4
    refine ⟨rfl, ?_, Or.inl ⟨rfl, h3⟩⟩
    simp only [List.all_eq_true, beq_iff_eq] at hall
    exact ⟨fun _ => hall, fun _ => rfl⟩
  · rename_i hall
    simp at h2
    obtain ⟨rfl, rfl⟩ := h2
    refine ⟨rfl, ?_, Or.inr ⟨rfl, rfl⟩⟩
    simp only [List.all_eq_true, beq_iff_eq] at hall
    exact ⟨fun h => by simp at h, fun h => absurd h hall⟩

theorem wf_applyRequest {tables t' : AMap String Tablets} {ops : List TabletOp} {resp : Response} (hw : WFTables tables)
    (h : applyRequest env tables ops = .ok (t', resp)) : WFTables t' := by
  obtain ⟨_, _, _, _, h | h⟩ := applyRequest_cases h
  · exact wf_commitAll hw h.2
  · exact h.2 ▸ hw

theorem apply_cases {ctx : ActorCtx} {s s' : State} {ec : ActorEventCtx} {ev : ActorEvent} {res : Except ActorErr EventOutcome}
    (h : onApplyEvent env ctx s ec ev = .ok (s', res)) :
    (env.decReq ev.contents = none ∧ s' = s ∧ res = .error .internal) ∨
    ∃ ops resp, env.decReq ev.contents = some ops ∧ applyRequest env s.tables ops = .ok (s'.tables, resp) ∧ s'.draws = s.draws ∧
      res = .ok ⟨if ec.owned then [⟨ev.correlationId, env.encOut .response, env.encResp resp⟩] else []⟩ := by
  unfold onApplyEvent at h
  cases hd : env.decReq ev.contents with
  | none => rw [hd] at h; simp at h; exact Or.inl ⟨rfl, h.1.symm, h.2.symm⟩
  | some ops =>
    rw [hd] at h
    simp only at h
    rw [Run.bind_eq_ok] at h
    obtain ⟨⟨t, resp⟩, h1, h2⟩ := h
    simp at h2
    obtain ⟨rfl, rfl⟩ := h2
    exact Or.inr ⟨ops, resp, rfl, h1, rfl, rfl⟩

theorem command_state {ctx : ActorCtx} {s s' : State} {c : Option ActorCommand} {res : Except ActorErr CommandOutcome}
    (h : onProcessCommand env ctx s c = .ok (s', res)) : s' = s := by
  unfold onProcessCommand at h
  split at h
  · simp at h; exact h.1.symm
  · simp only at h
    split at h
    · simp at h; exact h.1.symm
    · split at h
      · split at h <;> (simp at h; exact h.1.symm)
      · simp at h; exact h.1.symm

theorem wf_step {s s' : State} {c : Call} (hw : WFTables s.tables) (h : Step (actor env) s c s') : WFTables s'.tables := by
  cases h with
  | @command ctx c _ res h => rw [command_state h]; exact hw
  | @apply ctx ec ev _ res h =>
    rcases apply_cases (ctx := ctx) h with ⟨_, rfl, _⟩ | ⟨ops, resp, _, h1, _⟩
    · exact hw
    · exact wf_applyRequest hw h1
  | @save ctx _ res h => simp [actor, onSaveSnapshot] at h; rw [← h.1]; exact hw
  | @load ctx b _ res h =>
    have h : onLoadSnapshot env ctx s b = .ok (s', res) := h
    unfold onLoadSnapshot at h
    split at h
    · simp at h; rw [← h.1]; exact hw
    · simp at h; rw [← h.1]; exact wf_loadTables hw _

theorem wf_steps {s s' : State} {cs : List Call} (hw : WFTables s.tables) (h : Steps (actor env) s cs s') : WFTables s'.tables := by
  induction h with
  | refl => exact hw
  | step h _ ih => exact ih (wf_step hw h)

theorem started_eq {s0 s : State} {ctx : ActorCtx} (h : Started (actor env) s0 ctx s) :
    ∃ cs, env.decConfig ctx.config = some cs ∧ s = initTables env s0 cs := by
  have h : onInit env ctx s0 = .ok (s, .ok ()) := h
  unfold onInit at h
  split at h
  · simp at h
  · rename_i cs hd
    simp at h
    exact ⟨cs, hd, h.symm⟩

theorem wf_nil : WFTables [] := ⟨AMap.WF.nil, by simp⟩

theorem reachable_wf {cfg : Bytes} {s : State} (h : Reachable env cfg s) : WFTables s.tables := by
  obtain ⟨s0, ctx, s1, cs, h0, _, hst, hs⟩ := h
  obtain ⟨c, _, rfl⟩ := started_eq hst
  exact wf_steps (wf_initTables (by rw [h0]; exact wf_nil) c) hs

theorem Spec.Reachable.step {cfg : Bytes} {s s' : State} {c : Call} (h : Reachable env cfg s) (hs : Step (actor env) s c s') :
    Reachable env cfg s' := by
  obtain ⟨s0, ctx, s1, cs, h0, hc, hst, hss⟩ := h
  exact ⟨s0, ctx, s1, cs ++ [c], h0, hc, hst, hss.snoc hs⟩

theorem Spec.Reachable.steps {cfg : Bytes} {s s' : State} {cs : List Call} (h : Reachable env cfg s) (hs : Steps (actor env) s cs s') :
    Reachable env cfg s' := by
  induction hs with
  | refl => exact h
  | step h1 _ ih => exact ih (h.step h1)

/-! ## The answers to single ops -/

theorem view_some {s : State} {n : String} {m : Tablets} (h : s.tables.get n = some m) : view s n = some fun i => SMap.get m i := by
  simp [view, h]

theorem view_none {s : State} {n : String} : view s n = none ↔ s.tables.get n = none := by
  simp [view]

theorem prepare_answer {s : State} (hw : WFTables s.tables) {o : TabletOp} {a : TabletOpResult} (h : prepare env s.tables o = .ok a) :
    OpAnswer (view s) o a := by
  unfold prepare at h
  unfold OpAnswer OpSucceeds
  cases hg : s.tables.get o.table with
  | none =>
    rw [hg] at h
    rw [view_none.mpr hg]
    simp at h
    subst h
    simp
  | some m =>
    rw [hg] at h
    rw [view_some hg]
    have hm := hw.2 _ _ hg
    cases ho : o.op with
    | none => rw [ho] at h; simp at h; subst h; simp
    | some op =>
      rw [ho] at h
      simp only at h
      cases op with
      | list x y =>
        simp [prepareOp] at h
        subst h
        have := findTablets_spec hm x y
        refine ⟨rfl, by simp, findTablets m x y, rfl, this.1, this.2⟩
      | check i v =>
        simp only [prepareOp] at h
        cases ht : SMap.get m i with
        | none => rw [ht] at h; simp at h; subst h; simp [ht]
        | some t =>
          rw [ht] at h
          by_cases hv : t.version = v
          · simp [hv] at h; subst h; simp [hv, ht]
          · simp [hv] at h; subst h; simp [hv, ht]
      | add u => simp [prepareOp] at h
      | remove i v => simp [prepareOp] at h
      | update u =>
        cases u with
        | none => simp [prepareOp] at h; subst h; simp
        | some u =>
          simp only [prepareOp] at h
          cases ht : SMap.get m u.tabletId with
          | none => rw [ht] at h; simp at h; subst h; simp [ht]
          | some t =>
            rw [ht] at h
            simp only at h
            rw [Run.bind_eq_ok] at h
            obtain ⟨v, h1, h2⟩ := h
            have hv : v = t.version + 1 := by
              unfold nextVersion at h1
              split at h1 <;> simp at h1
              exact h1.symm
            subst hv
            simp at h2
            subst h2
            by_cases he : u.version = t.version + 1 <;> simp [he, ht]

theorem prepareAll_answers {s : State} (hw : WFTables s.tables) {ops : List TabletOp} {rs : List TabletOpResult}
    (h : prepareAll env s.tables ops = .ok rs) : Matched (OpAnswer (view s)) ops rs := by
  induction ops generalizing rs with
  | nil => simp [prepareAll] at h; subst h; exact .nil
  | cons o ops ih =>
    simp only [prepareAll] at h
    rw [Run.bind_eq_ok] at h
    obtain ⟨r, h1, h⟩ := h
    rw [Run.bind_eq_ok] at h
    obtain ⟨rs', h2, h⟩ := h
    simp at h
    subst h
    exact .cons (prepare_answer hw h1) (ih h2)

theorem all_succeed {st : Store} {ops : List TabletOp} {rs : List TabletOpResult} (h : Matched (OpAnswer st) ops rs) :
    (∀ r ∈ rs, r.status = .succeeded) ↔ ∀ o ∈ ops, OpSucceeds st o := by
  induction h with
  | nil => simp
  | cons h _ ih =>
    simp only [List.mem_cons, forall_eq_or_imp]
    rw [ih, h.2.1]

/-! ## The effect -/

theorem view_commit {tables t' : AMap String Tablets} {o : TabletOp} (h : commit tables o = .ok t') (n : String) (i : UInt32) (d d' : Nat) :
    (view ⟨t', d⟩ n).map (fun r => r i) = (view ⟨tables, d'⟩ n).map (fun r => match lastUpdate n i [o] with | some u => some u | none => r i) := by
  obtain ⟨tn, op⟩ := o
  unfold commit at h
  rw [Run.bind_eq_ok] at h
  obtain ⟨m, h1, h⟩ := h
  rw [Run.bind_eq_ok] at h
  obtain ⟨op', h2, h⟩ := h
  have hg : tables.get tn = some m := by
    cases hx : tables.get tn with
    | none => simp [hx] at h1
    | some m' => simp [hx] at h1; rw [h1]
  cases op with
  | none => simp at h2
  | some op =>
    simp at h2
    subst h2
    cases op with
    | list a b => simp at h; subst h; simp [lastUpdate, view]
    | check a b => simp at h; subst h; simp [lastUpdate, view]
    | add u => simp at h
    | remove a b => simp at h
    | update u =>
      cases u with
      | none => simp at h
      | some u =>
        simp at h
        subst h
        simp only [lastUpdate, view, AMap.get_set]
        by_cases hn : tn = n
        · subst hn
          simp only [if_true, Option.map_some, hg, true_and, SMap.get_insert]
          by_cases hi : u.tabletId = i <;> simp [hi]
        · simp [hn]

theorem lastUpdate_cons (n : String) (i : UInt32) (o : TabletOp) (ops : List TabletOp) :
    lastUpdate n i (o :: ops) = match lastUpdate n i ops with | some x => some x | none => lastUpdate n i [o] := by
  obtain ⟨t, op⟩ := o
  rcases op with _ | (_ | _ | _ | (_ | u) | _) <;> simp only [lastUpdate] <;> cases lastUpdate n i ops <;> rfl

theorem view_commitAll {tables t' : AMap String Tablets} {ops : List TabletOp} (h : commitAll tables ops = .ok t') (n : String) (i : UInt32)
    (d d' : Nat) : (view ⟨t', d⟩ n).map (fun r => r i) = (view ⟨tables, d'⟩ n).map
      (fun r => match lastUpdate n i ops with | some u => some u | none => r i) := by
  induction ops generalizing tables with
  | nil => simp [commitAll] at h; subst h; simp [lastUpdate, view]
  | cons o ops ih =>
    simp only [commitAll] at h
    rw [Run.bind_eq_ok] at h
    obtain ⟨t1, h1, h2⟩ := h
    rw [ih h2]
    have hc := view_commit h1 n i d' d'
    rw [lastUpdate_cons]
    cases lastUpdate n i ops with
    | some x =>
      simp only
      cases hv : view ⟨t1, d'⟩ n <;> cases hv' : view ⟨tables, d'⟩ n <;> simp [hv, hv'] at hc ⊢
    | none => simp only; exact hc

theorem store_ext {a b : Store} (h : ∀ n i, (a n).map (fun r => r i) = (b n).map (fun r => r i)) : a = b := by
  funext n
  cases ha : a n with
  | none =>
    cases hb : b n with
    | none => rfl
    | some r => have := h n 0; simp [ha, hb] at this
  | some r =>
    cases hb : b n with
    | none => have := h n 0; simp [ha, hb] at this
    | some r' =>
      congr 1
      funext i
      have := h n i
      simpa [ha, hb] using this

theorem view_after {s s' : State} {ops : List TabletOp} (h : commitAll s.tables ops = .ok s'.tables) : view s' = (view s).after ops := by
  apply store_ext
  intro n i
  have := view_commitAll h n i s'.draws s.draws
  rw [show view s' = view ⟨s'.tables, s'.draws⟩ from rfl, this]
  unfold Store.after
  rw [show view s = view ⟨s.tables, s.draws⟩ from rfl]
  simp only [Option.map_map, Function.comp_def]
  cases hlu : lastUpdate n i ops <;> simp only [hlu]

theorem apply_effect {s s' : State} (hw : WFTables s.tables) {ops : List TabletOp} {resp : Response}
    (h : applyRequest env s.tables ops = .ok (s'.tables, resp)) :
    Matched (OpAnswer (view s)) ops resp.results ∧ (resp.succeeded = true ↔ ∀ o ∈ ops, OpSucceeds (view s) o) ∧
    view s' = if resp.succeeded then (view s).after ops else view s := by
  obtain ⟨rs, h1, rfl, h3, h4⟩ := applyRequest_cases h
  have hm := prepareAll_answers hw h1
  refine ⟨hm, h3.trans (all_succeed hm), ?_⟩
  rcases h4 with ⟨hs, h4⟩ | ⟨hs, h4⟩
  · rw [hs, if_pos rfl]; exact view_after h4
  · rw [hs]; simp only [Bool.false_eq_true, if_false]; unfold view; rw [h4]

theorem mem_of_lastUpdate {n : String} {i : UInt32} {ops : List TabletOp} {u : Metadata} (h : lastUpdate n i ops = some u) :
    ∃ o ∈ ops, Updates o n i u := by
  induction ops with
  | nil => simp [lastUpdate] at h
  | cons o ops ih =>
    rw [lastUpdate_cons] at h
    cases hx : lastUpdate n i ops with
    | some x =>
      rw [hx] at h
      cases h
      obtain ⟨o', ho', hu⟩ := ih hx
      exact ⟨o', List.mem_cons_of_mem _ ho', hu⟩
    | none =>
      rw [hx] at h
      obtain ⟨t, op⟩ := o
      rcases op with _ | (_ | _ | _ | (_ | v) | _) <;> simp [lastUpdate] at h
      obtain ⟨⟨rfl, rfl⟩, rfl⟩ := h
      exact ⟨⟨t, some (.update (some v))⟩, by simp, rfl, rfl, rfl⟩

theorem lastUpdate_none {n : String} {i : UInt32} {ops : List TabletOp} (h : lastUpdate n i ops = none) {o : TabletOp} (ho : o ∈ ops)
    {u : Metadata} : ¬ Updates o n i u := by
  induction ops with
  | nil => simp at ho
  | cons x ops ih =>
    rw [lastUpdate_cons] at h
    cases hx : lastUpdate n i ops with
    | some y => rw [hx] at h; simp at h
    | none =>
      rw [hx] at h
      rcases List.mem_cons.mp ho with rfl | ho
      · rintro ⟨h1, h2, h3⟩
        obtain ⟨t, op⟩ := o
        simp only at h1 h2
        subst h1 h2
        simp [lastUpdate, h3] at h
      · exact ih hx ho

theorem toNat_succ {v : UInt32} (h : v ≠ 0xffffffff) : (v + 1).toNat = v.toNat + 1 := by
  have h1 : v.toNat ≠ (0xffffffff : UInt32).toNat := fun e => h (UInt32.toNat_inj.mp e)
  have h2 := v.toNat_lt
  rw [UInt32.toNat_add]
  simp at h1 h2 ⊢
  omega

/-- With overflow checks, an update that was prepared has a version below the maximum. -/
theorem prepared_lt {tables : AMap String Tablets} {ops : List TabletOp} {rs : List TabletOpResult} (ho : env.overflowChecks = true)
    (h : prepareAll env tables ops = .ok rs) {o : TabletOp} (hm : o ∈ ops) {n : String} {i : UInt32} {u : Metadata} (hu : Updates o n i u)
    {m : Tablets} {t : Metadata} (hg : tables.get n = some m) (ht : SMap.get m i = some t) : t.version ≠ 0xffffffff := by
  induction ops generalizing rs with
  | nil => simp at hm
  | cons x ops ih =>
    simp only [prepareAll] at h
    rw [Run.bind_eq_ok] at h
    obtain ⟨r, h1, h⟩ := h
    rw [Run.bind_eq_ok] at h
    obtain ⟨rs', h2, h⟩ := h
    rcases List.mem_cons.mp hm with rfl | hm
    · obtain ⟨rfl, h3, rfl⟩ := hu
      unfold prepare at h1
      rw [hg, h3] at h1
      simp only [prepareOp, ht] at h1
      rw [Run.bind_eq_ok] at h1
      obtain ⟨v, h4, _⟩ := h1
      intro he
      simp [nextVersion, ho, he] at h4
    · exact ih h2 hm

/-! ## Histories -/

theorem apply_next {ctx : ActorCtx} {s s' : State} (hw : WFTables s.tables) {ec : ActorEventCtx} {ev : ActorEvent}
    {res : Except ActorErr EventOutcome} (h : onApplyEvent env ctx s ec ev = .ok (s', res)) : view s' = (view s).next env ev := by
  unfold Store.next
  rcases apply_cases h with ⟨hd, rfl, _⟩ | ⟨ops, resp, hd, h1, _⟩
  · rw [hd]
  · rw [hd]
    obtain ⟨_, h2, h3⟩ := apply_effect hw h1
    simp only
    rw [h3]
    by_cases hr : resp.succeeded = true
    · rw [if_pos hr, if_pos (h2.mp hr)]
    · rw [if_neg hr, if_neg (fun h => hr (h2.mpr h))]

/-- How one applied request changes one tablet, in builds with overflow checks. -/
theorem apply_tablet {s s' : State} (hw : WFTables s.tables) (ho : env.overflowChecks = true) {ops : List TabletOp} {resp : Response}
    (h : applyRequest env s.tables ops = .ok (s'.tables, resp)) (n : String) (i : UInt32) :
    (at_ (view s') n i = at_ (view s) n i ∧ (resp.succeeded = true → ∀ o ∈ ops, ∀ u, ¬ Updates o n i u)) ∨
    (resp.succeeded = true ∧ ∃ t u, at_ (view s) n i = some t ∧ at_ (view s') n i = some u ∧ (∃ o ∈ ops, Updates o n i u) ∧
      u.version.toNat = t.version.toNat + 1) := by
  obtain ⟨h1, h2, h3⟩ := apply_effect hw h
  cases hr : resp.succeeded with
  | false =>
    left
    rw [hr] at h3
    simp only [Bool.false_eq_true, if_false] at h3
    rw [h3]
    exact ⟨rfl, by simp⟩
  | true =>
    rw [hr, if_pos rfl] at h3
    have hall := h2.mp hr
    cases hlu : lastUpdate n i ops with
    | none =>
      left
      refine ⟨?_, fun _ o hm u => lastUpdate_none hlu hm⟩
      rw [h3]
      unfold at_ Store.after
      cases view s n with
      | none => rfl
      | some r => simp [hlu]
    | some u =>
      right
      refine ⟨rfl, ?_⟩
      obtain ⟨o, hm, hu⟩ := mem_of_lastUpdate hlu
      obtain ⟨rfl, hop, rfl⟩ := hu
      obtain ⟨r, hr1, hr2⟩ := hall o hm
      rw [hop] at hr2
      simp only at hr2
      obtain ⟨t, ht, hv⟩ := hr2
      refine ⟨t, u, by simp [at_, hr1, ht], ?_, ⟨o, hm, rfl, hop, rfl⟩, ?_⟩
      · rw [h3]; simp [at_, Store.after, hr1, hlu]
      · rw [hv]
        obtain ⟨rs, hp, _⟩ := applyRequest_cases h
        cases hg : s.tables.get o.table with
        | none => rw [view_none.mpr hg] at hr1; simp at hr1
        | some m =>
          rw [view_some hg] at hr1
          simp at hr1
          subst hr1
          exact toNat_succ (prepared_lt ho hp hm ⟨rfl, hop, rfl⟩ hg ht)

/-- One call other than a load keeps tablets and never lowers a version. -/
theorem step_tablet {s s' : State} {c : Call} (hw : WFTables s.tables) (ho : env.overflowChecks = true) (h : Step (actor env) s c s')
    (hn : ∀ ctx b r, c ≠ .load ctx b r) (n : String) (i : UInt32) :
    (at_ (view s) n i = none ↔ at_ (view s') n i = none) ∧
    ∀ t t', at_ (view s) n i = some t → at_ (view s') n i = some t' → t.version ≤ t'.version := by
  have same : s' = s → (at_ (view s) n i = none ↔ at_ (view s') n i = none) ∧
      ∀ t t', at_ (view s) n i = some t → at_ (view s') n i = some t' → t.version ≤ t'.version := by
    rintro rfl
    refine ⟨Iff.rfl, fun t t' h1 h2 => ?_⟩
    rw [h1] at h2; cases h2; simp
  cases h with
  | @command ctx c _ res h => exact same (command_state h)
  | @apply ctx ec ev _ res h =>
    rcases apply_cases (ctx := ctx) h with ⟨_, h, _⟩ | ⟨ops, resp, _, h1, _⟩
    · exact same h
    · rcases apply_tablet hw ho h1 n i with ⟨he, _⟩ | ⟨_, t, u, h2, h3, _, h4⟩
      · rw [he]
        refine ⟨Iff.rfl, fun t t' h1 h2 => ?_⟩
        rw [h1] at h2; cases h2; simp
      · rw [h2, h3]
        refine ⟨by simp, fun t1 t2 e1 e2 => ?_⟩
        cases e1; cases e2
        simp only [UInt32.le_iff_toNat_le]; omega
  | @save ctx _ res h => simp [actor, onSaveSnapshot] at h; exact same h.1.symm
  | @load ctx b _ res h => exact absurd rfl (hn ctx b res)

theorem steps_tablet {s s' : State} {cs : List Call} (hw : WFTables s.tables) (ho : env.overflowChecks = true)
    (h : Steps (actor env) s cs s') (hn : NoLoad cs) (n : String) (i : UInt32) :
    (at_ (view s) n i = none ↔ at_ (view s') n i = none) ∧
    ∀ t t', at_ (view s) n i = some t → at_ (view s') n i = some t' → t.version ≤ t'.version := by
  induction h with
  | refl =>
    refine ⟨Iff.rfl, fun t t' h1 h2 => ?_⟩
    rw [h1] at h2; cases h2; simp
  | @step s c s1 cs s' h hs ih =>
    obtain ⟨a1, b1⟩ := step_tablet hw ho h (fun ctx b r e => hn ctx b r (by simp [e])) n i
    obtain ⟨a2, b2⟩ := ih (wf_step hw h) (fun ctx b r hm => hn ctx b r (List.mem_cons_of_mem _ hm))
    refine ⟨a1.trans a2, fun t t' h1 h2 => ?_⟩
    cases hx : at_ (view s1) n i with
    | none => rw [a1.mpr hx] at h1; simp at h1
    | some t1 =>
      have := b1 t t1 h1 hx
      have := b2 t1 t' hx h2
      simp only [UInt32.le_iff_toNat_le] at *; omega

/-! ## Snapshots -/

theorem loadTables_ok {tables : AMap String Tablets} {l : List (String × List Metadata)} (hl : AMap.WF l)
    (hk : ∀ e ∈ l, tables.get e.1 ≠ none) :
    (loadTables tables l).2 = .ok () ∧ ∀ n, (loadTables tables l).1.get n =
      match AMap.get l n with | some x => some (loadTable x) | none => tables.get n := by
  induction l generalizing tables with
  | nil => exact ⟨rfl, fun n => rfl⟩
  | cons e l ih =>
    obtain ⟨k, x⟩ := e
    have hwf : AMap.WF l ∧ k ∉ AMap.keys l := by
      unfold AMap.WF at hl ⊢
      rw [AMap.keys_cons] at hl
      exact ⟨(List.nodup_cons.mp hl).2, (List.nodup_cons.mp hl).1⟩
    simp only [loadTables]
    cases hg : tables.get k with
    | none => exact absurd hg (hk (k, x) (by simp))
    | some m =>
      simp only
      obtain ⟨h1, h2⟩ := ih (tables := tables.set k (loadTable x)) hwf.1 (fun e he => by
        rw [AMap.get_set]
        split
        · simp
        · exact hk e (List.mem_cons_of_mem _ he))
      refine ⟨h1, fun n => ?_⟩
      rw [h2 n, AMap.get_cons]
      by_cases hn : k = n
      · subst hn
        rw [(AMap.get_eq_none_iff l k).mpr hwf.2]
        simp
      · rw [if_neg hn]
        cases AMap.get l n with
        | some y => rfl
        | none => simp only; rw [AMap.get_set_ne _ _ hn]

theorem loadTables_err {tables : AMap String Tablets} {l : List (String × List Metadata)} {e : String × List Metadata} (he : e ∈ l)
    (hk : tables.get e.1 = none) : (loadTables tables l).2 = .error .snapshotLoading := by
  induction l generalizing tables with
  | nil => simp at he
  | cons x l ih =>
    obtain ⟨k, y⟩ := x
    simp only [loadTables]
    cases hg : tables.get k with
    | none => rfl
    | some m =>
      simp only
      rcases List.mem_cons.mp he with rfl | he
      · simp only at hk; rw [hk] at hg; simp at hg
      · refine ih he ?_
        rw [AMap.get_set_ne]
        · exact hk
        · rintro rfl; rw [hk] at hg; simp at hg

theorem get_loadTables_none {tables : AMap String Tablets} (l : List (String × List Metadata)) (n : String) :
    (loadTables tables l).1.get n = none ↔ tables.get n = none := by
  induction l generalizing tables with
  | nil => rfl
  | cons x l ih =>
    obtain ⟨k, y⟩ := x
    simp only [loadTables]
    cases hg : tables.get k with
    | none => rfl
    | some m =>
      simp only
      rw [ih, AMap.get_set]
      by_cases hn : k = n
      · subst hn; simp [hg]
      · simp [hn]

theorem restore {s t t' : State} (hw : WFTables s.tables) (hl : Lawful env) (hnames : ∀ n, view t n = none ↔ view s n = none)
    {ctx : ActorCtx} {res : Except ActorErr Unit}
    (h : onLoadSnapshot env ctx t (env.encSnap (s.tables.map fun e => (e.1, saveTable e.2))) = .ok (t', res)) :
    res = .ok () ∧ (∀ n, t'.tables.get n = s.tables.get n) := by
  unfold onLoadSnapshot at h
  rw [hl.snap] at h
  simp at h
  obtain ⟨rfl, rfl⟩ := h
  have hmv : (s.tables.map fun e => (e.1, saveTable e.2)) = AMap.mapVals s.tables (fun _ m => saveTable m) := rfl
  rw [hmv]
  obtain ⟨h1, h2⟩ := loadTables_ok (tables := t.tables) (l := AMap.mapVals s.tables (fun _ m => saveTable m)) (hw.1.mapVals _) (by
    intro e he hn
    have := (hnames e.1).mp (view_none.mpr hn)
    rw [view_none, AMap.get_eq_none_iff] at this
    apply this
    rw [← AMap.keys_mapVals s.tables (fun _ m => saveTable m)]
    exact List.mem_map.mpr ⟨e, he, rfl⟩)
  refine ⟨h1, fun n => ?_⟩
  show (loadTables t.tables _).1.get n = _
  rw [h2 n, AMap.get_mapVals]
  cases hg : s.tables.get n with
  | none =>
    simp only [Option.map_none]
    exact view_none.mp ((hnames n).mpr (view_none.mpr hg))
  | some m =>
    simp only [Option.map_some]
    rw [load_save (hw.2 n m hg)]

/-! ## Table names -/

theorem names_commit {tables t' : AMap String Tablets} {o : TabletOp} (h : commit tables o = .ok t') (n : String) :
    t'.get n = none ↔ tables.get n = none := by
  have := view_commit h n 0 0 0
  constructor
  · intro hn
    cases hx : tables.get n with
    | none => rfl
    | some m => simp [view, hn, hx] at this
  · intro hn
    cases hx : t'.get n with
    | none => rfl
    | some m => simp [view, hn, hx] at this

theorem names_step {s s' : State} {c : Call} (hw : WFTables s.tables) (h : Step (actor env) s c s') (n : String) : view s' n = none ↔ view s n = none := by
  cases h with
  | @command ctx c _ res h => rw [command_state h]
  | @apply ctx ec ev _ res h =>
    rcases apply_cases (ctx := ctx) h with ⟨_, rfl, _⟩ | ⟨ops, resp, _, h1, _⟩
    · rfl
    · rw [(apply_effect hw h1).2.2]
      split
      · simp [Store.after]
      · rfl
  | @save ctx _ res h => simp [actor, onSaveSnapshot] at h; rw [h.1]
  | @load ctx b _ res h =>
    have h : onLoadSnapshot env ctx s b = .ok (s', res) := h
    unfold onLoadSnapshot at h
    split at h
    · simp at h; rw [h.1]
    · simp at h
      rw [← h.1, view_none, view_none]
      exact get_loadTables_none _ n

theorem names_steps {s s' : State} {cs : List Call} (hw : WFTables s.tables) (h : Steps (actor env) s cs s') (n : String) :
    view s' n = none ↔ view s n = none := by
  induction h with
  | refl => rfl
  | step h _ ih => exact (ih (wf_step hw h)).trans (names_step hw h n)

theorem names_init {s : State} (cs : List (String × Nat)) (n : String) :
    view (initTables env s cs) n = none ↔ view s n = none ∧ n ∉ cs.map Prod.fst := by
  induction cs generalizing s with
  | nil => simp [initTables]
  | cons c cs ih =>
    obtain ⟨k, x⟩ := c
    rw [initTables, ih]
    simp only [view_none, AMap.get_set, List.map_cons, List.mem_cons, not_or]
    by_cases hk : k = n
    · subst hk; simp
    · have : ¬ n = k := fun e => hk e.symm
      simp [hk, this]

theorem reachable_names {cfg : Bytes} {s t : State} (h : Reachable env cfg s) (g : Reachable env cfg t) (n : String) :
    view t n = none ↔ view s n = none := by
  obtain ⟨s0, ctx, s1, cs, h0, hc, hst, hs⟩ := h
  obtain ⟨t0, ctx', t1, cs', g0, gc, gst, gs⟩ := g
  obtain ⟨c, hd, rfl⟩ := started_eq hst
  obtain ⟨c', gd, rfl⟩ := started_eq gst
  rw [hc] at hd
  rw [gc, hd] at gd
  cases gd
  rw [names_steps (wf_initTables (by rw [h0]; exact wf_nil) c) hs, names_steps (wf_initTables (by rw [g0]; exact wf_nil) c) gs,
    names_init, names_init, view_none, view_none, h0, g0]

/-! ## Members -/

theorem view_of_get {s t : State} (h : ∀ n, s.tables.get n = t.tables.get n) : view s = view t := by
  funext n
  unfold view
  rw [h n]

theorem get_of_view {s t : State} (hs : WFTables s.tables) (ht : WFTables t.tables) (h : view s = view t) (n : String) :
    s.tables.get n = t.tables.get n := by
  have := congrFun h n
  cases h1 : s.tables.get n with
  | none =>
    rw [view_none.mpr h1] at this
    exact (view_none.mp this.symm).symm
  | some m =>
    cases h2 : t.tables.get n with
    | none => rw [view_none.mpr h2, view_some h1] at this; simp at this
    | some m' =>
      rw [view_some h1, view_some h2] at this
      simp at this
      rw [SMap.ext (hs.2 _ _ h1).1 (ht.2 _ _ h2).1 (fun k => congrFun this k)]

theorem prepareAll_congr {t1 t2 : AMap String Tablets} (h : ∀ n, t1.get n = t2.get n) (ops : List TabletOp) :
    prepareAll env t1 ops = prepareAll env t2 ops := by
  induction ops with
  | nil => rfl
  | cons o ops ih => simp only [prepareAll, ih, prepare, h]

theorem commit_congr {t1 t2 : AMap String Tablets} (h : ∀ n, t1.get n = t2.get n) (o : TabletOp) :
    (commit t1 o = .panic ∧ commit t2 o = .panic) ∨ ∃ u1 u2, commit t1 o = .ok u1 ∧ commit t2 o = .ok u2 ∧ ∀ n, u1.get n = u2.get n := by
  unfold commit
  rw [h o.table]
  cases t2.get o.table with
  | none => exact Or.inl ⟨rfl, rfl⟩
  | some m =>
    cases o.op with
    | none => exact Or.inl ⟨rfl, rfl⟩
    | some op =>
      cases op with
      | list a b => exact Or.inr ⟨_, _, rfl, rfl, h⟩
      | check a b => exact Or.inr ⟨_, _, rfl, rfl, h⟩
      | add u => exact Or.inl ⟨rfl, rfl⟩
      | remove a b => exact Or.inl ⟨rfl, rfl⟩
      | update u =>
        cases u with
        | none => exact Or.inl ⟨rfl, rfl⟩
        | some u =>
          refine Or.inr ⟨_, _, rfl, rfl, fun n => ?_⟩
          rw [AMap.get_set, AMap.get_set, h n]

theorem commitAll_congr {t1 t2 : AMap String Tablets} (h : ∀ n, t1.get n = t2.get n) (ops : List TabletOp) :
    (commitAll t1 ops = .panic ∧ commitAll t2 ops = .panic) ∨
    ∃ u1 u2, commitAll t1 ops = .ok u1 ∧ commitAll t2 ops = .ok u2 ∧ ∀ n, u1.get n = u2.get n := by
  induction ops generalizing t1 t2 with
  | nil => exact Or.inr ⟨_, _, rfl, rfl, h⟩
  | cons o ops ih =>
    simp only [commitAll]
    rcases commit_congr h o with ⟨h1, h2⟩ | ⟨u1, u2, h1, h2, h3⟩
    · exact Or.inl (by rw [h1, h2]; exact ⟨rfl, rfl⟩)
    · rw [h1, h2]; exact ih h3

theorem apply_congr {s t : State} (h : ∀ n, s.tables.get n = t.tables.get n) (ctx ctx' : ActorCtx) (ec : ActorEventCtx) (ev : ActorEvent) :
    (onApplyEvent env ctx s ec ev = .panic ∧ onApplyEvent env ctx' t ec ev = .panic) ∨
    ∃ s' t' res, onApplyEvent env ctx s ec ev = .ok (s', res) ∧ onApplyEvent env ctx' t ec ev = .ok (t', res) := by
  unfold onApplyEvent
  cases env.decReq ev.contents with
  | none => exact Or.inr ⟨_, _, _, rfl, rfl⟩
  | some ops =>
    simp only [applyRequest]
    rw [prepareAll_congr h ops]
    cases prepareAll env t.tables ops with
    | panic => exact Or.inl ⟨rfl, rfl⟩
    | ok rs =>
      simp only [Run.bind_ok]
      split
      · rcases commitAll_congr h ops with ⟨h1, h2⟩ | ⟨u1, u2, h1, h2, _⟩
        · rw [h1, h2]; exact Or.inl ⟨rfl, rfl⟩
        · rw [h1, h2]; exact Or.inr ⟨_, _, _, rfl, rfl⟩
      · exact Or.inr ⟨_, _, _, rfl, rfl⟩

theorem member_reachable {cfg : Bytes} {b : State} {evs : List ActorEvent} {s : State} (h : Member env cfg b evs s) : Reachable env cfg s := by
  induction h with
  | @boot ctx s0 h0 hc h => exact ⟨s0, ctx, b, [], h0, hc, h, .refl⟩
  | apply _ hs ih => exact ih.step hs
  | command _ hs ih => exact ih.step hs
  | save _ hs ih => exact ih.step hs
  | load h _ _ hs _ => exact h.step hs

theorem member_view (hl : Lawful env) {cfg : Bytes} {b : State} {evs : List ActorEvent} {s : State} (h : Member env cfg b evs s) :
    view s = evs.foldl (Store.next env) (view b) := by
  induction h with
  | boot _ _ _ => rfl
  | @apply evs s ctx ec ev res s' h hs ih =>
    cases hs with
    | apply h1 =>
      rw [apply_next (ctx := ctx) (reachable_wf (member_reachable h)) h1, ih]
      simp
  | command h hs ih =>
    cases hs with
    | command h1 => rw [command_state h1, ih]
  | save h hs ih =>
    cases hs with
    | save h1 => simp [actor, onSaveSnapshot] at h1; rw [← h1.1, ih]
  | @load evs s ctx1 t t' ctx x s' h g hsave hs ih =>
    cases hsave with
    | save h1 =>
      simp [actor, onSaveSnapshot] at h1
      cases hs with
      | load h2 =>
        rw [← h1.2] at h2
        have hr := member_reachable g
        have := restore (ctx := ctx) (reachable_wf hr) hl (reachable_names hr h) h2
        rw [view_of_get this.2, ih]

/-! ## One op at a time -/

theorem succeeds_after {st : Store} {a o : TabletOp} (h : OpSucceeds st o)
    (hd : ∀ n i u, Updates a n i u → (∀ u', ¬ Updates o n i u') ∧ ∀ v, ¬ Checks o n i v) : OpSucceeds (st.after [a]) o := by
  obtain ⟨r, hr, hm⟩ := h
  refine ⟨fun i => match lastUpdate o.table i [a] with | some u => some u | none => r i, ?_, ?_⟩
  · simp only [Store.after, hr, Option.map_some]
    congr 1
  · obtain ⟨t, op⟩ := o
    rcases op with _ | (⟨x, y⟩ | ⟨i, v⟩ | _ | (_ | u) | _) <;> simp only at hm ⊢
    · obtain ⟨t', h1, h2⟩ := hm
      refine ⟨t', ?_, h2⟩
      cases hlu : lastUpdate t i [a] with
      | none => exact h1
      | some u =>
        obtain ⟨o', ho', hu⟩ := mem_of_lastUpdate hlu
        simp at ho'; subst ho'
        exact absurd ⟨rfl, rfl⟩ ((hd _ _ _ hu).2 v)
    · obtain ⟨t', h1, h2⟩ := hm
      refine ⟨t', ?_, h2⟩
      cases hlu : lastUpdate t u.tabletId [a] with
      | none => exact h1
      | some w =>
        obtain ⟨o', ho', hu⟩ := mem_of_lastUpdate hlu
        simp at ho'; subst ho'
        exact absurd ⟨rfl, rfl, rfl⟩ ((hd _ _ _ hu).1 u)

theorem single_ok {s : State} {o : TabletOp} (h : OpSucceeds (view s) o)
    (hv : env.overflowChecks = true → ∀ n i u, Updates o n i u → u.version ≠ 0) :
    ∃ t r, applyRequest env s.tables [o] = .ok (t, ⟨true, [r]⟩) := by
  obtain ⟨r, hr, hm⟩ := h
  obtain ⟨n, op⟩ := o
  cases hg : s.tables.get n with
  | none => rw [view_none.mpr hg] at hr; simp at hr
  | some m =>
    rw [view_some hg] at hr
    simp at hr
    subst hr
    rcases op with _ | (⟨x, y⟩ | ⟨i, v⟩ | _ | (_ | u) | _) <;> simp only at hm
    · refine ⟨s.tables, ⟨n, .succeeded, some (.list x y (findTablets m x y))⟩, ?_⟩
      simp [applyRequest, prepareAll, prepare, hg, prepareOp, commitAll, commit]
    · obtain ⟨t, h1, h2⟩ := hm
      refine ⟨s.tables, ⟨n, .succeeded, some (.check none)⟩, ?_⟩
      simp [applyRequest, prepareAll, prepare, hg, prepareOp, commitAll, commit, h1, h2]
    · obtain ⟨t, h1, h2⟩ := hm
      refine ⟨s.tables.set n (SMap.insert m u.tabletId u), ⟨n, .succeeded, some (.update (some t))⟩, ?_⟩
      have hnext : nextVersion env t.version = .ok (t.version + 1) := by
        unfold nextVersion
        rw [if_neg]
        rintro ⟨ho, he⟩
        apply hv ho n u.tabletId u ⟨rfl, rfl, rfl⟩
        rw [h2, he]
        rfl
      simp [applyRequest, prepareAll, prepare, hg, prepareOp, commitAll, commit, h1, h2, hnext]

theorem after_cons (st : Store) (o : TabletOp) (ops : List TabletOp) : (st.after [o]).after ops = st.after (o :: ops) := by
  apply store_ext
  intro n i
  simp only [Store.after, Option.map_map, Function.comp_def]
  rw [lastUpdate_cons n i o ops]
  cases lastUpdate n i ops <;> rfl

/-! ## Absence of panics -/

theorem prepareAll_ok {s : State} {ops : List TabletOp}
    (hadd : ∀ o ∈ ops, view s o.table ≠ none → (∀ u, o.op ≠ some (.add u)) ∧ ∀ i v, o.op ≠ some (.remove i v))
    (hmax : env.overflowChecks = true → ∀ o ∈ ops, ∀ n i u t, Updates o n i u → at_ (view s) n i = some t → t.version ≠ 0xffffffff) :
    ∃ rs, prepareAll env s.tables ops = .ok rs := by
  induction ops with
  | nil => exact ⟨[], rfl⟩
  | cons o ops ih =>
    obtain ⟨rs, hrs⟩ := ih (fun o ho => hadd o (by simp [ho])) (fun h o ho => hmax h o (by simp [ho]))
    have : ∃ r, prepare env s.tables o = .ok r := by
      have ha := hadd o (by simp)
      have hx := fun h => hmax h o (by simp)
      obtain ⟨n, op⟩ := o
      unfold prepare
      cases hg : s.tables.get n with
      | none => exact ⟨_, rfl⟩
      | some m =>
        have ha := ha (by rw [view_some hg]; simp)
        rcases op with _ | (⟨x, y⟩ | ⟨i, v⟩ | u | (_ | u) | ⟨i, v⟩) <;> simp only
        · exact ⟨_, rfl⟩
        · exact ⟨_, rfl⟩
        · simp only [prepareOp]; cases SMap.get m i <;> exact ⟨_, rfl⟩
        · exact absurd rfl (ha.1 u)
        · exact ⟨_, rfl⟩
        · simp only [prepareOp]
          cases hi : SMap.get m u.tabletId with
          | none => exact ⟨_, rfl⟩
          | some t =>
            simp only [nextVersion]
            rw [if_neg]
            · exact ⟨_, rfl⟩
            · rintro ⟨h1, h2⟩
              exact hx h1 n u.tabletId u t ⟨rfl, rfl, rfl⟩ (by simp [at_, view_some hg, hi]) h2
        · exact absurd rfl (ha.2 i v)
    obtain ⟨r, hr⟩ := this
    exact ⟨r :: rs, by simp [prepareAll, hr, hrs]⟩

theorem commitAll_ok {s : State} {ops : List TabletOp} (h : ∀ o ∈ ops, OpSucceeds (view s) o) : ∃ t, commitAll s.tables ops = .ok t := by
  suffices ∀ tables : AMap String Tablets, (∀ n, s.tables.get n ≠ none → tables.get n ≠ none) → ∃ t, commitAll tables ops = .ok t from
    this s.tables fun _ h => h
  induction ops with
  | nil => exact fun tables _ => ⟨tables, rfl⟩
  | cons o ops ih =>
    intro tables ht
    obtain ⟨r, hr, hm⟩ := h o (by simp)
    have hne : tables.get o.table ≠ none := ht _ (fun e => by rw [view_none.mpr e] at hr; simp at hr)
    have : ∃ t, commit tables o = .ok t := by
      obtain ⟨n, op⟩ := o
      unfold commit
      cases hg : tables.get n with
      | none => exact absurd hg hne
      | some m =>
        rcases op with _ | (⟨x, y⟩ | ⟨i, v⟩ | _ | (_ | u) | _) <;> simp only at hm <;> exact ⟨_, rfl⟩
    obtain ⟨t, hc⟩ := this
    obtain ⟨t', ht'⟩ := ih (fun o ho => h o (by simp [ho])) t (fun n hn he => ht n hn ((names_commit hc n).mp he))
    exact ⟨t', by simp [commitAll, hc, ht']⟩

theorem owner_exists {m : Tablets} (hm : Good m) {i : UInt32} (hi : SMap.get m i ≠ none) (k : UInt32) :
    ∃ t, Owns (fun i => SMap.get m i) t k := by
  -- the least id at or above a bound, among the ids present
  have least : ∀ (p : UInt32 → Prop), (∃ j, SMap.get m j ≠ none ∧ p j) →
      ∃ j, SMap.get m j ≠ none ∧ p j ∧ ∀ x, SMap.get m x ≠ none → p x → j ≤ x := by
    intro p hp
    have key : ∀ n : Nat, ∀ j : UInt32, j.toNat < n → SMap.get m j ≠ none → p j →
        ∃ j, SMap.get m j ≠ none ∧ p j ∧ ∀ x, SMap.get m x ≠ none → p x → j ≤ x := by
      intro n
      induction n with
      | zero => intro j hj; omega
      | succ n ih =>
        intro j hj h1 h2
        by_cases hx : ∃ x, SMap.get m x ≠ none ∧ p x ∧ x < j
        · obtain ⟨x, a, b, c⟩ := hx
          rw [UInt32.lt_iff_toNat_lt] at c
          exact ih x (by omega) a b
        · refine ⟨j, h1, h2, fun x a b => ?_⟩
          rw [UInt32.le_iff_toNat_le]
          have : ¬ x < j := fun c => hx ⟨x, a, b, c⟩
          rw [UInt32.lt_iff_toNat_lt] at this
          omega
    obtain ⟨j, h1, h2⟩ := hp
    exact key (j.toNat + 1) j (by omega) h1 h2
  have tab : ∀ j, SMap.get m j ≠ none → ∃ t, SMap.get m j = some t ∧ t.tabletId = j := by
    intro j hj
    cases hx : SMap.get m j with
    | none => exact absurd hx hj
    | some t => exact ⟨t, rfl, hm.2 _ (SMap.mem_of_get hx)⟩
  by_cases h : ∃ j, SMap.get m j ≠ none ∧ k ≤ j
  · obtain ⟨j, h1, h2, h3⟩ := least (fun j => k ≤ j) h
    obtain ⟨t, ht, rfl⟩ := tab j h1
    exact ⟨t, ht, Or.inl ⟨h2, h3⟩⟩
  · obtain ⟨j, h1, _, h3⟩ := least (fun _ => True) ⟨i, hi, trivial⟩
    obtain ⟨t, ht, rfl⟩ := tab j h1
    refine ⟨t, ht, Or.inr ⟨fun x hx => ?_, fun x hx => h3 x hx trivial⟩⟩
    have : ¬ k ≤ x := fun c => h ⟨x, hx, c⟩
    rw [UInt32.le_iff_toNat_le] at this
    rw [UInt32.lt_iff_toNat_lt]
    omega

end TCP.TabletStore
