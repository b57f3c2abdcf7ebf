import Verif.Lib.Run

/-!
# SMap: strictly sorted association lists standing for Rust `BTreeMap`s
-/

set_option linter.unusedSectionVars false

namespace TCP

/-- A strict linear order (`Ord` of the key type). -/
class KeyOrd (κ : Type) where
  lt : κ → κ → Bool
  irrefl : ∀ a, lt a a = false
  trans : ∀ {a b c}, lt a b = true → lt b c = true → lt a c = true
  tri : ∀ {a b}, lt a b = false → lt b a = false → a = b

namespace KeyOrd

variable {κ : Type} [KeyOrd κ]

theorem ne_of_lt {a b : κ} (h : lt a b = true) : a ≠ b := by
  rintro rfl; rw [irrefl] at h; cases h

theorem asymm {a b : κ} (h : lt a b = true) : lt b a = false := by
  cases h' : lt b a with
  | false => rfl
  | true => have := trans h h'; rw [irrefl] at this; cases this

end KeyOrd

instance : KeyOrd Nat where
  lt a b := decide (a < b)
  irrefl := by simp
  trans := by simp only [decide_eq_true_eq]; omega
  tri := by simp only [decide_eq_false_iff_not]; omega

instance : KeyOrd UInt32 where
  lt a b := decide (a < b)
  irrefl a := by simp
  trans {a b c} h1 h2 := by simp only [decide_eq_true_eq] at *; exact UInt32.lt_trans h1 h2
  tri {a b} h1 h2 := by
    simp only [decide_eq_false_iff_not, UInt32.lt_iff_toNat_lt] at h1 h2
    exact UInt32.toNat_inj.mp (by omega)

/-- Lexicographic order on byte strings. -/
def bytesLt : Bytes → Bytes → Bool
  | _, [] => false
  | [], _ :: _ => true
  | a :: as, b :: bs => decide (a < b) || (decide (a = b) && bytesLt as bs)

instance : KeyOrd Bytes where
  lt := bytesLt
  irrefl := by
    intro a
    induction a with
    | nil => rfl
    | cons x a ih => simp [bytesLt, ih]
  trans := by
    intro a
    induction a with
    | nil =>
      intro b c h1 h2
      cases c with
      | nil => cases b <;> simp [bytesLt] at h2
      | cons _ _ => rfl
    | cons x a ih =>
      intro b c h1 h2
      cases b with
      | nil => simp [bytesLt] at h1
      | cons y b =>
        cases c with
        | nil => simp [bytesLt] at h2
        | cons z c =>
          simp only [bytesLt, Bool.or_eq_true, Bool.and_eq_true, decide_eq_true_eq] at h1 h2 ⊢
          rcases h1 with h1 | ⟨rfl, h1⟩
          · rcases h2 with h2 | ⟨rfl, _⟩
            · exact Or.inl (UInt8.lt_trans h1 h2)
            · exact Or.inl h1
          · rcases h2 with h2 | ⟨rfl, h2⟩
            · exact Or.inl h2
            · exact Or.inr ⟨rfl, ih h1 h2⟩
  tri := by
    intro a
    induction a with
    | nil =>
      intro b h1 h2
      cases b with
      | nil => rfl
      | cons _ _ => simp [bytesLt] at h1
    | cons x a ih =>
      intro b h1 h2
      cases b with
      | nil => simp [bytesLt] at h2
      | cons y b =>
        simp only [bytesLt, Bool.or_eq_false_iff, Bool.and_eq_false_iff, decide_eq_false_iff_not] at h1 h2
        have : x = y := by
          have h1 := h1.1; have h2 := h2.1
          simp only [UInt8.lt_iff_toNat_lt] at h1 h2
          exact UInt8.toNat_inj.mp (by omega)
        subst this
        have e : a = b := ih (b := b) (by rcases h1.2 with h | h <;> simp_all) (by rcases h2.2 with h | h <;> simp_all)
        rw [e]

/-- A finite sorted map: the list of its entries in key order. -/
abbrev SMap (κ ν : Type) := List (κ × ν)

namespace SMap

variable {κ ν : Type} [KeyOrd κ] [DecidableEq κ]

open KeyOrd

/-- Keys strictly increase. -/
def Sorted (m : SMap κ ν) : Prop := m.Pairwise fun a b => lt a.1 b.1 = true

/-- `BTreeMap::get`. -/
def get : SMap κ ν → κ → Option ν
  | [], _ => none
  | (k', v) :: rest, k => if k' = k then some v else get rest k

/-- `BTreeMap::insert`. -/
def insert : SMap κ ν → κ → ν → SMap κ ν
  | [], k, v => [(k, v)]
  | (k', v') :: rest, k, v =>
    if k' = k then (k, v) :: rest
    else if lt k k' then (k, v) :: (k', v') :: rest
    else (k', v') :: insert rest k v

/-- `BTreeMap::remove`. -/
def remove (m : SMap κ ν) (k : κ) : SMap κ ν := m.filter fun e => !decide (e.1 = k)

/-- Inserting entries one by one. -/
def insertAll (m : SMap κ ν) : List (κ × ν) → SMap κ ν
  | [] => m
  | (k, v) :: rest => insertAll (insert m k v) rest

@[simp] theorem get_nil (k : κ) : get ([] : SMap κ ν) k = none := rfl

@[simp] theorem get_cons (k' : κ) (v : ν) (m : SMap κ ν) (k : κ) :
    get ((k', v) :: m) k = if k' = k then some v else get m k := rfl

theorem get_insert (m : SMap κ ν) (k : κ) (v : ν) (j : κ) :
    get (insert m k v) j = if k = j then some v else get m j := by
  induction m with
  | nil => simp [insert]
  | cons e m ih =>
    obtain ⟨k', v'⟩ := e
    simp only [insert]
    by_cases h : k' = k
    · subst h; simp only [if_true, get_cons]; by_cases hj : k' = j <;> simp [hj]
    · simp only [h, if_false]
      by_cases hl : lt k k' = true
      · simp only [hl, if_true, get_cons]
      · simp only [hl, get_cons]
        rw [if_neg (by simp)]
        simp only [get_cons, ih]
        by_cases hj : k' = j
        · subst hj
          have h' : ¬ k = k' := fun e => h e.symm
          simp [h']
        · simp [hj]

theorem get_remove (m : SMap κ ν) (k j : κ) : get (remove m k) j = if k = j then none else get m j := by
  induction m with
  | nil => simp [remove]
  | cons e m ih =>
    obtain ⟨k', v'⟩ := e
    unfold remove at ih ⊢
    by_cases h : k' = k
    · subst h
      simp only [List.filter, decide_true, Bool.not_true, ih, get_cons]
      by_cases hj : k' = j <;> simp [hj]
    · simp only [List.filter, h, decide_false, Bool.not_false, get_cons, ih]
      by_cases hj : k' = j
      · subst hj
        have h' : ¬ k = k' := fun e => h e.symm
        simp [h']
      · simp [hj]

theorem mem_of_get {m : SMap κ ν} {k : κ} {v : ν} (h : get m k = some v) : (k, v) ∈ m := by
  induction m with
  | nil => simp at h
  | cons e m ih =>
    obtain ⟨k', v'⟩ := e
    simp only [get_cons] at h
    by_cases hk : k' = k
    · subst hk; simp at h; subst h; simp
    · simp [hk] at h; exact List.mem_cons_of_mem _ (ih h)

theorem get_of_mem {m : SMap κ ν} (hs : Sorted m) {k : κ} {v : ν} (h : (k, v) ∈ m) : get m k = some v := by
  induction m with
  | nil => simp at h
  | cons e m ih =>
    obtain ⟨k', v'⟩ := e
    simp only [Sorted, List.pairwise_cons] at hs
    simp only [List.mem_cons] at h
    rcases h with h | h
    · cases h; simp
    · have : k' ≠ k := ne_of_lt (hs.1 _ h)
      simp [this, ih hs.2 h]

theorem mem_insert {m : SMap κ ν} {k : κ} {v : ν} {e : κ × ν} (h : e ∈ insert m k v) : e = (k, v) ∨ e ∈ m := by
  induction m with
  | nil => simp [insert] at h; exact Or.inl h
  | cons x m ih =>
    obtain ⟨k', v'⟩ := x
    simp only [insert] at h
    by_cases hk : k' = k
    · simp only [hk, if_true, List.mem_cons] at h; rcases h with h | h
      · exact Or.inl h
      · exact Or.inr (by simp [h])
    · simp only [hk, if_false] at h
      by_cases hl : lt k k' = true
      · simp only [hl, if_true, List.mem_cons] at h
        rcases h with h | h | h
        · exact Or.inl h
        · exact Or.inr (by simp [h])
        · exact Or.inr (by simp [h])
      · rw [if_neg hl] at h
        simp only [List.mem_cons] at h
        rcases h with h | h
        · exact Or.inr (by simp [h])
        · rcases ih h with h | h
          · exact Or.inl h
          · exact Or.inr (by simp [h])

theorem Sorted.nil : Sorted ([] : SMap κ ν) := List.Pairwise.nil

theorem Sorted.insert {m : SMap κ ν} (h : Sorted m) (k : κ) (v : ν) : Sorted (insert m k v) := by
  induction m with
  | nil => simp [SMap.insert, Sorted]
  | cons e m ih =>
    obtain ⟨k', v'⟩ := e
    simp only [Sorted, List.pairwise_cons] at h
    simp only [SMap.insert]
    by_cases hk : k' = k
    · subst hk; simp only [if_true, Sorted, List.pairwise_cons]; exact h
    · simp only [hk, if_false]
      by_cases hl : lt k k' = true
      · simp only [hl, if_true, Sorted, List.pairwise_cons]
        refine ⟨?_, h⟩
        intro a ha
        rcases List.mem_cons.mp ha with rfl | ha
        · exact hl
        · exact trans hl (h.1 a ha)
      · rw [if_neg hl]
        simp only [Sorted, List.pairwise_cons]
        refine ⟨?_, ih h.2⟩
        intro a ha
        rcases mem_insert ha with rfl | ha
        · have hl : lt k k' = false := by simpa using hl
          cases hl' : lt k' k with
          | true => rfl
          | false => exact absurd (tri hl' hl) hk
        · exact h.1 a ha

theorem Sorted.remove {m : SMap κ ν} (h : Sorted m) (k : κ) : Sorted (remove m k) :=
  List.Pairwise.sublist List.filter_sublist h

theorem Sorted.insertAll {m : SMap κ ν} (h : Sorted m) (l : List (κ × ν)) : Sorted (insertAll m l) := by
  induction l generalizing m with
  | nil => exact h
  | cons e l ih => exact ih (h.insert _ _)

/-- Two sorted maps with the same lookups are the same list. -/
theorem ext {m n : SMap κ ν} (hm : Sorted m) (hn : Sorted n) (h : ∀ k, get m k = get n k) : m = n := by
  induction m generalizing n with
  | nil =>
    cases n with
    | nil => rfl
    | cons e n => obtain ⟨k, v⟩ := e; have := h k; simp at this
  | cons e m ih =>
    obtain ⟨k, v⟩ := e
    cases n with
    | nil => have := h k; simp at this
    | cons f n =>
      obtain ⟨k', v'⟩ := f
      simp only [Sorted, List.pairwise_cons] at hm hn
      have hkk : k = k' := by
        apply Classical.byContradiction
        intro hne
        have h1 := h k
        have h2 := h k'
        have hne' : ¬ k' = k := fun e => hne e.symm
        simp only [get_cons, if_true, hne', if_false, hne] at h1 h2
        have l1 := hn.1 _ (mem_of_get h1.symm)
        have l2 := hm.1 _ (mem_of_get h2)
        have := asymm l1
        rw [l2] at this; cases this
      subst hkk
      have hv := h k
      simp only [get_cons, if_true, Option.some.injEq] at hv
      subst hv
      have : m = n := by
        apply ih hm.2 hn.2
        intro j
        have := h j
        simp only [get_cons] at this
        by_cases hj : k = j
        · subst hj
          have e1 : get m k = none := by
            cases hx : get m k with
            | none => rfl
            | some x => exact absurd rfl (ne_of_lt (hm.1 _ (mem_of_get hx)))
          have e2 : get n k = none := by
            cases hx : get n k with
            | none => rfl
            | some x => exact absurd rfl (ne_of_lt (hn.1 _ (mem_of_get hx)))
          rw [e1, e2]
        · simpa [hj] using this
      rw [this]

theorem length_insert {m : SMap κ ν} (hs : Sorted m) (k : κ) (v : ν) :
    (insert m k v).length = if (get m k).isSome then m.length else m.length + 1 := by
  induction m with
  | nil => simp [insert]
  | cons e m ih =>
    obtain ⟨k', v'⟩ := e
    simp only [Sorted, List.pairwise_cons] at hs
    simp only [insert, get_cons]
    by_cases hk : k' = k
    · simp [hk]
    · simp only [hk, if_false]
      by_cases hl : lt k k' = true
      · simp only [hl, if_true]
        cases hg : get m k with
        | none => simp
        | some x =>
          have := hs.1 _ (mem_of_get hg)
          rw [asymm hl] at this; cases this
      · rw [if_neg hl]
        simp only [List.length_cons, ih hs.2]
        split <;> rfl

theorem length_insert_le (m : SMap κ ν) (k : κ) (v : ν) : (insert m k v).length ≤ m.length + 1 := by
  induction m with
  | nil => simp [insert]
  | cons e m ih =>
    obtain ⟨k', v'⟩ := e
    simp only [insert]
    split
    · simp
    · split
      · simp
      · simpa using ih

theorem length_remove_le (m : SMap κ ν) (k : κ) : (remove m k).length ≤ m.length := List.length_filter_le _ _

theorem length_remove_lt {m : SMap κ ν} {k : κ} {v : ν} (h : get m k = some v) : (remove m k).length < m.length := by
  have hm := mem_of_get h
  have : (remove m k).length ≠ m.length := by
    intro he
    have := List.filter_eq_self.mp (List.filter_sublist.eq_of_length he) _ hm
    simp at this
  have := length_remove_le m k
  omega

/-- Reinserting the entries of a sorted map gives it back. -/
theorem get_insertAll {l : List (κ × ν)} (hs : Sorted l) (m : SMap κ ν) (k : κ) :
    get (insertAll m l) k = (match get l k with | some v => some v | none => get m k) := by
  induction l generalizing m with
  | nil => rfl
  | cons e l ih =>
    obtain ⟨k', v⟩ := e
    simp only [Sorted, List.pairwise_cons] at hs
    simp only [insertAll, get_cons, ih hs.2, get_insert]
    by_cases hk : k' = k
    · subst hk
      have : get l k' = none := by
        cases hx : get l k' with
        | none => rfl
        | some x => exact absurd rfl (ne_of_lt (hs.1 _ (mem_of_get hx)))
      simp [this]
    · simp [hk]

theorem insertAll_self {l : List (κ × ν)} (hs : Sorted l) : insertAll ([] : SMap κ ν) l = l := by
  refine ext (Sorted.nil.insertAll l) hs fun k => ?_
  rw [get_insertAll hs]
  cases get l k <;> rfl

end SMap
end TCP
