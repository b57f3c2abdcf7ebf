import Verif.Proofs.KvMap
import Verif.Proofs.KvOwn

/-!
# Dictionaries of tablets and one map for all of them
-/

namespace TCP.Cache

open TCP TCP.TabletStore TCP.Cache.Spec

/-! ## What a handler sets -/

theorem processTablets_wrote {A : KvRequest → Prop} {env : KvEnv} {txn : Nat} : ∀ {vs : List (Query × UInt32 × Option Bytes)} {c c' : KvCore} {ws : List (Option Bytes)},
    c.processTablets env txn vs = .ok (c', ws) → AllFrom A c → ∀ (j : Nat) (w : Bytes), ws[j]? = some (some w) →
      ∃ q id b d batch, vs[j]? = some (q, id, some b) ∧ env.dec b = some d ∧ (∀ x ∈ batch, A x ∧ env.hash x.key ∈ q.hashes) ∧ writes env d.get batch (some w) ∧
        ∃ x', c'.txns.get txn = some x' ∧ ∀ q', batch.count q' ≤ x'.requests.count q' := by
  intro vs
  induction vs with
  | nil =>
    intro c c' ws h hf j w hj
    simp only [KvCore.processTablets, Run.ok.injEq, Prod.mk.injEq] at h
    rw [← h.2] at hj; simp at hj
  | cons v rest ih =>
    obtain ⟨q, t, b⟩ := v
    intro c c' ws h hf j w hj
    have skip : ((c.processTablets env txn rest).bind fun z => Run.ok (z.1, none :: z.2)) = .ok (c', ws) →
        ∃ q' id b' d batch, ((q, t, b) :: rest)[j]? = some (q', id, some b') ∧ env.dec b' = some d ∧ (∀ x ∈ batch, A x ∧ env.hash x.key ∈ q'.hashes) ∧
          writes env d.get batch (some w) ∧ ∃ x', c'.txns.get txn = some x' ∧ ∀ q', batch.count q' ≤ x'.requests.count q' := by
      intro h
      obtain ⟨⟨c1, ws1⟩, h1, h2⟩ := Run.bind_eq_ok.mp h
      simp only [Run.ok.injEq, Prod.mk.injEq] at h2
      rw [← h2.2] at hj
      rw [← h2.1]
      cases j with
      | zero => simp at hj
      | succ j => simpa using ih h1 hf j w (by simpa using hj)
    cases hx : c.txns.get txn with
    | none => simp only [KvCore.processTablets, hx] at h; exact skip h
    | some x =>
      cases ht : c.tablets.get t with
      | none => simp only [KvCore.processTablets, hx, ht] at h; exact skip h
      | some tr =>
        simp only [KvCore.processTablets, hx, ht] at h
        obtain ⟨y, h1, h2⟩ := Run.bind_eq_ok.mp h
        obtain ⟨⟨c1, ws1⟩, h3, h4⟩ := Run.bind_eq_ok.mp h2
        simp only [Run.ok.injEq, Prod.mk.injEq] at h4
        rw [← h4.2] at hj
        rw [← h4.1]
        obtain ⟨k1, b', d, batch, rfl, k2, k3, k4, k5, k6⟩ := processQuery_served h1 (hf.tablets _ (AMap.mem_of_get ht))
        cases j with
        | zero =>
          simp only [List.getElem?_cons_zero, Option.some.injEq] at hj
          rw [hj] at k4
          refine ⟨q, t, b', d, batch, by simp, k2, k3, k4, ?_⟩
          obtain ⟨⟨l1, l2⟩, _⟩ := processTablets_load h3
          cases hx' : c1.txns.get txn with
          | none => have := (l1 txn).mpr hx'; simp [AMap.get_set_self] at this
          | some x' =>
            refine ⟨x', rfl, fun q' => ?_⟩
            have := l2 txn q'
            simp only [KvCore.carried, hx', AMap.get_set_self, Option.map_some, Option.getD_some, List.count_append, k6] at this
            omega
        | succ j =>
          have := ih h3 ⟨hf.pending, hf.resolving, fun e he => by
            rcases mem_set he with rfl | he
            · exact k1
            · exact hf.tablets e he⟩ j w (by simpa using hj)
          simpa using this

/-! ## Requests and keys -/

theorem execReq_other {d : Dict} {q : KvRequest} {k : String} (h : q.key ≠ k) : (execReq d q).1 k = d k := by
  cases q with
  | put c key v => simp only [execReq]; exact if_neg fun e => h e.symm
  | get c key => rfl

theorem execReq_congr {d d' : Dict} {q : KvRequest} {k : String} (h : d k = d' k) : (execReq d q).1 k = (execReq d' q).1 k := by
  cases q with
  | put c key v => simp only [execReq]; split <;> simp_all
  | get c key => exact h

theorem execReq_answer {d d' : Dict} {q : KvRequest} (h : d q.key = d' q.key) : (execReq d q).2 = (execReq d' q).2 := by
  cases q with
  | put c key v => simp only [execReq]; rw [show d key = d' key from h]
  | get c key => simp only [execReq]; rw [show d key = d' key from h]

theorem execReqs_other {rs : List KvRequest} {k : String} : ∀ {d : Dict}, (∀ q ∈ rs, q.key ≠ k) → (execReqs d rs).1 k = d k := by
  induction rs with
  | nil => intro d _; rfl
  | cons r rest ih => intro d h; exact (ih fun q hq => h q (by simp [hq])).trans (execReq_other (h r (by simp)))

theorem execReqs_congr {rs : List KvRequest} {k : String} : ∀ {d d' : Dict}, d k = d' k → (execReqs d rs).1 k = (execReqs d' rs).1 k := by
  induction rs with
  | nil => intro d d' h; exact h
  | cons r rest ih => intro d d' h; exact ih (execReq_congr h)

theorem execReqs_answers {rs : List KvRequest} : ∀ {d d' : Dict}, (∀ q ∈ rs, d q.key = d' q.key) → (execReqs d rs).2 = (execReqs d' rs).2 := by
  induction rs with
  | nil => intro d d' _; rfl
  | cons r rest ih =>
    intro d d' h
    simp only [execReqs]
    rw [execReq_answer (h r (by simp)), ih fun q hq => execReq_congr (h q (by simp [hq]))]

/-! ## One map -/

theorem responsible_unique {t : Tables} {n : String} {h i j : UInt32} (h1 : Responsible t n h i) (h2 : Responsible t n h j) : i = j := by
  obtain ⟨m, rfl, a1, a2⟩ := h1
  obtain ⟨m', rfl, b1, b2⟩ := h2
  have ha : stored t n m.tabletId ≠ none := by rw [a1]; simp
  have hb : stored t n m'.tabletId ≠ none := by rw [b1]; simp
  apply UInt32.le_antisymm
  · rcases a2 with ⟨a3, a4⟩ | ⟨a3, a4⟩
    · rcases b2 with ⟨b3, b4⟩ | ⟨b3, b4⟩
      · exact a4 _ hb b3
      · exact absurd a3 (UInt32.not_le.mpr (b3 _ ha))
    · exact a4 _ hb
  · rcases b2 with ⟨b3, b4⟩ | ⟨b3, b4⟩
    · rcases a2 with ⟨a3, a4⟩ | ⟨a3, a4⟩
      · exact b4 _ ha a3
      · exact absurd b3 (UInt32.not_le.mpr (a3 _ hb))
    · exact b4 _ ha

open Classical in
/-- The map that the dictionaries of all tablets of a table make up. -/
noncomputable def wholeMap (hash : String → UInt32) (value : Metadata → Option Dict) (t : Tables) (table : String) : Dict := fun k =>
  if h : ∃ i, Responsible t table (hash k) i then ((stored t table h.choose).bind value).bind fun d => d k else none

theorem wholeMap_eq {hash : String → UInt32} {value : Metadata → Option Dict} {t : Tables} {table k : String} {i : UInt32} (h : Responsible t table (hash k) i) :
    wholeMap hash value t table k = ((stored t table i).bind value).bind fun d => d k := by
  unfold wholeMap
  have hx : ∃ i, Responsible t table (hash k) i := ⟨i, h⟩
  rw [dif_pos hx, responsible_unique hx.choose_spec h]

theorem wholeMap_none {hash : String → UInt32} {value : Metadata → Option Dict} {t : Tables} {table k : String} (h : ¬ ∃ i, Responsible t table (hash k) i) :
    wholeMap hash value t table k = none := by
  unfold wholeMap
  rw [dif_neg h]

/-- If every tablet stays as it is or has requests carried out on it, then so does the map. -/
theorem wholeMap_step {hash : String → UInt32} {value : Metadata → Option Dict} {before after : Tables} {table : String} {Q : KvRequest → Prop} {n : KvRequest → Nat}
    (hs : ∀ h i, Responsible before table h i ↔ Responsible after table h i) {ids : List UInt32} (hfin : ∀ i, i ∉ ids → stored after table i = stored before table i)
    (hb : ∀ i, stored after table i = stored before table i ∨ ∃ d batch, (stored before table i).bind value = some d ∧
      (∀ q ∈ batch, Q q ∧ Responsible before table (hash q.key) i) ∧ (stored after table i).bind value = some (execReqs d batch).1 ∧ ∀ q, batch.count q ≤ n q) :
    ∃ done, (∀ q ∈ done, Q q) ∧ (∀ q, done.count q ≤ n q) ∧ wholeMap hash value after table = (execReqs (wholeMap hash value before table) done).1 := by
  -- the tablets one after the other
  have key : ∀ l : List UInt32, ∃ done, (∀ q, done.count q ≤ n q) ∧ (∀ q ∈ done, Q q ∧ ∃ i ∈ l, Responsible before table (hash q.key) i) ∧
      ∀ k i, Responsible before table (hash k) i → i ∈ l →
        wholeMap hash value after table k = (execReqs (wholeMap hash value before table) done).1 k := by
    intro l
    induction l with
    | nil => exact ⟨[], by simp, by simp, fun _ _ _ h => by simp at h⟩
    | cons j rest ih =>
      obtain ⟨done, h0, h1, h2⟩ := ih
      by_cases hj : j ∈ rest
      · refine ⟨done, h0, fun q hq => ⟨(h1 q hq).1, ?_⟩, fun k i hr hi => ?_⟩
        · obtain ⟨i, g1, g2⟩ := (h1 q hq).2; exact ⟨i, by simp [g1], g2⟩
        · rcases List.mem_cons.mp hi with rfl | hi
          · exact h2 k _ hr hj
          · exact h2 k i hr hi
      · have hno : ∀ k, Responsible before table (hash k) j → ∀ q ∈ done, q.key ≠ k := by
          rintro k hr q hq rfl
          obtain ⟨_, i, g1, g2⟩ := h1 q hq
          rw [responsible_unique hr g2] at hj
          exact hj g1
        rcases hb j with he | ⟨d, batch, g1, g2, g3, g0⟩
        · refine ⟨done, h0, fun q hq => ⟨(h1 q hq).1, ?_⟩, fun k i hr hi => ?_⟩
          · obtain ⟨i, g1, g2⟩ := (h1 q hq).2; exact ⟨i, by simp [g1], g2⟩
          · rcases List.mem_cons.mp hi with rfl | hi
            · rw [execReqs_other (hno k hr), wholeMap_eq hr, wholeMap_eq ((hs _ _).mp hr), he]
            · exact h2 k i hr hi
        · refine ⟨batch ++ done, fun q => ?_, fun q hq => ?_, fun k i hr hi => ?_⟩
          · rw [List.count_append]
            by_cases hq : q ∈ batch
            · have := g0 q
              rw [List.count_eq_zero.mpr fun hq' => hno q.key (g2 q hq).2 q hq' rfl]
              omega
            · have := h0 q
              rw [List.count_eq_zero.mpr hq]
              omega
          · rcases List.mem_append.mp hq with hq | hq
            · exact ⟨(g2 q hq).1, j, by simp, (g2 q hq).2⟩
            · obtain ⟨i, l1, l2⟩ := (h1 q hq).2; exact ⟨(h1 q hq).1, i, by simp [l1], l2⟩
          · rw [execReqs_append]
            rcases List.mem_cons.mp hi with rfl | hi
            · rw [execReqs_other (hno k hr), wholeMap_eq ((hs _ _).mp hr), g3]
              exact execReqs_congr (by rw [wholeMap_eq hr, g1]; rfl)
            · rw [h2 k i hr hi]
              refine execReqs_congr (execReqs_other fun q hq => ?_).symm
              rintro rfl
              rw [responsible_unique hr (g2 q hq).2] at hi
              exact hj hi
  obtain ⟨done, h0, h1, h2⟩ := key ids
  refine ⟨done, fun q hq => (h1 q hq).1, h0, funext fun k => ?_⟩
  by_cases hr : ∃ i, Responsible before table (hash k) i
  · obtain ⟨i, hr⟩ := hr
    by_cases hi : i ∈ ids
    · exact h2 k i hr hi
    · rw [execReqs_other, wholeMap_eq hr, wholeMap_eq ((hs _ _).mp hr), hfin i hi]
      rintro q hq rfl
      obtain ⟨_, j, g1, g2⟩ := h1 q hq
      rw [responsible_unique hr g2] at hi
      exact hi g1
  · rw [execReqs_other, wholeMap_none hr, wholeMap_none fun ⟨i, h⟩ => hr ⟨i, (hs _ _).mpr h⟩]
    rintro q hq rfl
    obtain ⟨_, j, _, g2⟩ := h1 q hq
    exact hr ⟨j, g2⟩

end TCP.Cache
