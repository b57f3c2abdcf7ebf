import Verif.Lib.AMap

/-! # Small list facts used by several proofs -/

namespace TCP

/-- Pigeonhole: a duplicate-free list contained in another is not longer. -/
theorem length_le_of_nodup_subset {α : Type} [DecidableEq α] {xs ys : List α} (hn : xs.Nodup)
    (hs : ∀ x ∈ xs, x ∈ ys) : xs.length ≤ ys.length := by
  induction xs generalizing ys with
  | nil => simp
  | cons x xs ih =>
    have hx : x ∈ ys := hs x (by simp)
    have hnd := List.nodup_cons.mp hn
    have := @ih (ys.erase x) hnd.2 (by
      intro y hy
      have hne : y ≠ x := fun e => hnd.1 (e ▸ hy)
      exact (List.mem_erase_of_ne hne).mpr (hs y (by simp [hy])))
    rw [List.length_erase_of_mem hx] at this
    have hpos : 0 < ys.length := List.length_pos_of_mem hx
    simp only [List.length_cons]; omega

/-- A duplicate-free list of naturals below its length contains all of them. -/
theorem mem_of_nodup_lt_length {xs : List Nat} (hn : xs.Nodup) (hlt : ∀ x ∈ xs, x < xs.length)
    {k : Nat} (hk : k < xs.length) : k ∈ xs := by
  by_cases h : k ∈ xs
  · exact h
  · exfalso
    have hn' : (k :: xs).Nodup := List.nodup_cons.mpr ⟨h, hn⟩
    have := length_le_of_nodup_subset (ys := List.range xs.length) hn' (by
      intro x hx
      rw [List.mem_range]
      rcases List.mem_cons.mp hx with rfl | hx
      · exact hk
      · exact hlt x hx)
    simp only [List.length_cons, List.length_range] at this
    omega

/-- Two lists agree element by element under `R` (and have the same length). -/
inductive Matched {α β : Type} (R : α → β → Prop) : List α → List β → Prop
  | nil : Matched R [] []
  | cons {a b as bs} (h : R a b) (hs : Matched R as bs) : Matched R (a :: as) (b :: bs)

theorem Matched.append {α β : Type} {R : α → β → Prop} {as as' : List α} {bs bs' : List β}
    (h : Matched R as bs) (h' : Matched R as' bs') : Matched R (as ++ as') (bs ++ bs') := by
  induction h with
  | nil => exact h'
  | cons h _ ih => exact .cons h ih

theorem Matched.imp {α β : Type} {R Q : α → β → Prop} {as : List α} {bs : List β}
    (h : Matched R as bs) (hi : ∀ a b, R a b → Q a b) : Matched Q as bs := by
  induction h with
  | nil => exact .nil
  | cons h _ ih => exact .cons (hi _ _ h) ih

theorem Matched.mem_left {α β : Type} {R : α → β → Prop} {as : List α} {bs : List β}
    (h : Matched R as bs) {a : α} (ha : a ∈ as) : ∃ b ∈ bs, R a b := by
  induction h with
  | nil => simp at ha
  | cons h _ ih =>
    rcases List.mem_cons.mp ha with rfl | ha
    · exact ⟨_, by simp, h⟩
    · obtain ⟨b, hb, hr⟩ := ih ha
      exact ⟨b, List.mem_cons_of_mem _ hb, hr⟩

namespace AMap

variable {κ ν : Type} [DecidableEq κ]

theorem length_keys (m : AMap κ ν) : (keys m).length = m.length := by simp [keys]

theorem set_of_not_mem {m : AMap κ ν} {k : κ} {v : ν} (h : get m k = none) : set m k v = m ++ [(k, v)] := by
  induction m with
  | nil => rfl
  | cons e m ih =>
    obtain ⟨k', v'⟩ := e
    simp only [get_cons] at h
    by_cases hk : k' = k
    · simp [hk] at h
    · simp only [hk, if_false] at h
      simp [set, hk, ih h]

theorem erase_perm {m : AMap κ ν} (wf : WF m) {k : κ} {v : ν} (h : get m k = some v) :
    ((k, v) :: erase m k).Perm m := by
  induction m with
  | nil => simp at h
  | cons e m ih =>
    obtain ⟨k', v'⟩ := e
    simp only [WF, keys_cons, List.nodup_cons] at wf
    simp only [get_cons] at h
    by_cases hk : k' = k
    · subst hk
      simp at h; subst h
      have : erase ((k', v') :: m) k' = m := by
        unfold erase
        simp only [List.filter_cons, decide_true, Bool.not_true, Bool.false_eq_true, if_false]
        rw [List.filter_eq_self]
        intro x hx
        simp only [Bool.not_eq_eq_eq_not, Bool.not_true, decide_eq_false_iff_not]
        intro e
        exact wf.1 (by rw [← e]; exact List.mem_map_of_mem hx)
      rw [this]
    · simp only [hk, if_false] at h
      have : erase ((k', v') :: m) k = (k', v') :: erase m k := by
        unfold erase; simp [List.filter_cons, hk]
      rw [this]
      exact (List.Perm.swap _ _ _).trans ((ih wf.2 h).cons _)

theorem set_perm_erase (m : AMap κ ν) (wf : WF m) (k : κ) (v : ν) :
    (set m k v).Perm ((k, v) :: erase m k) := by
  have := erase_perm (wf.set k v) (get_set_self m k v)
  refine this.symm.trans (List.Perm.cons _ ?_)
  have : erase (set m k v) k = erase m k := by
    induction m with
    | nil => simp [set, erase]
    | cons e m ih =>
      obtain ⟨k', v'⟩ := e
      simp only [set]
      by_cases hk : k' = k
      · subst hk; simp [erase]
      · simp only [hk, if_false]
        have ih := ih (by simp only [WF, keys_cons, List.nodup_cons] at wf; exact wf.2)
          (erase_perm (WF.set (by simp only [WF, keys_cons, List.nodup_cons] at wf; exact wf.2) k v)
            (get_set_self m k v))
        unfold erase at ih ⊢
        simp only [List.filter_cons, hk, decide_false, Bool.not_false, if_true, ih]
  rw [this]

theorem get_perm {m n : AMap κ ν} (wf : WF m) (h : m.Perm n) (k : κ) : get n k = get m k := by
  have wf' : WF n := (h.map Prod.fst).nodup_iff.mp wf
  cases hg : get m k with
  | none =>
    rw [get_eq_none_iff] at hg ⊢
    intro hm; exact hg ((h.map Prod.fst).mem_iff.mpr hm)
  | some v =>
    exact get_of_mem wf' (h.mem_iff.mp (mem_of_get hg))

theorem WF.perm {m n : AMap κ ν} (wf : WF m) (h : m.Perm n) : WF n :=
  (h.map Prod.fst).nodup_iff.mp wf

theorem mem_set {m : AMap κ ν} (wf : WF m) {k : κ} {v : ν} {e : κ × ν} :
    e ∈ set m k v ↔ e = (k, v) ∨ (e ∈ m ∧ e.1 ≠ k) := by
  obtain ⟨j, w⟩ := e
  rw [mem_iff_get (wf.set k v), get_set, mem_iff_get wf]
  by_cases h : k = j
  · subst h; simp [eq_comm]
  · have h' : ¬ j = k := fun e => h e.symm
    simp [h, h']

/-- Erasing an absent key changes nothing. -/
theorem erase_of_get_none {m : AMap κ ν} {k : κ} (h : get m k = none) : erase m k = m := by
  unfold erase
  rw [List.filter_eq_self]
  intro x hx
  simp only [Bool.not_eq_eq_eq_not, Bool.not_true, decide_eq_false_iff_not]
  intro e
  rw [get_eq_none_iff] at h
  exact h (by rw [← e]; exact List.mem_map_of_mem hx)

/-- Sum of a measure over all values. -/
def total (f : ν → Nat) (m : AMap κ ν) : Nat := (m.map (fun e => f e.2)).sum

theorem total_perm (f : ν → Nat) {m n : AMap κ ν} (h : m.Perm n) : total f m = total f n :=
  (h.map _).sum_nat

theorem total_erase (f : ν → Nat) {m : AMap κ ν} (wf : WF m) {k : κ} {v : ν} (h : get m k = some v) :
    total f m = f v + total f (erase m k) := by
  rw [← total_perm f (erase_perm wf h)]; simp [total]

theorem total_erase_le (f : ν → Nat) {m : AMap κ ν} (wf : WF m) (k : κ) :
    total f (erase m k) ≤ total f m := by
  cases h : get m k with
  | none => rw [erase_of_get_none h]; exact Nat.le_refl _
  | some v => rw [total_erase f wf h]; omega

theorem total_set (f : ν → Nat) {m : AMap κ ν} (wf : WF m) (k : κ) (v : ν) :
    total f (set m k v) = f v + total f (erase m k) := by
  rw [total_perm f (set_perm_erase m wf k v)]; simp [total]

end AMap
end TCP
