/-!
# AMap: association lists standing for Rust `HashMap`s

The list order plays the role of the (unspecified) `HashMap` iteration order; theorems that
iterate quantify over every list.  `set` replaces in place or appends, `erase` removes.
-/

set_option linter.unusedSectionVars false
set_option linter.unusedSimpArgs false

namespace TCP

/-- A finite map represented by the list of its entries in iteration order. -/
abbrev AMap (κ ν : Type) := List (κ × ν)

namespace AMap

variable {κ ν : Type} [DecidableEq κ]

/-- `HashMap::get`. -/
def get (m : AMap κ ν) (k : κ) : Option ν :=
  match m with
  | [] => none
  | (k', v) :: rest => if k' = k then some v else get rest k

/-- `HashMap::insert`. -/
def set (m : AMap κ ν) (k : κ) (v : ν) : AMap κ ν :=
  match m with
  | [] => [(k, v)]
  | (k', v') :: rest => if k' = k then (k, v) :: rest else (k', v') :: set rest k v

/-- `HashMap::remove`. -/
def erase (m : AMap κ ν) (k : κ) : AMap κ ν :=
  m.filter (fun e => !decide (e.1 = k))

/-- The keys in iteration order. -/
def keys (m : AMap κ ν) : List κ := m.map Prod.fst

/-- `HashMap::values_mut` with an update of every value. -/
def mapVals {μ : Type} (m : AMap κ ν) (f : κ → ν → μ) : AMap κ μ := m.map (fun e => (e.1, f e.1 e.2))

/-- `HashMap::contains_key`. -/
def contains (m : AMap κ ν) (k : κ) : Bool := (get m k).isSome

/-- Keys are unique. Holds of every map built by the operations. -/
def WF (m : AMap κ ν) : Prop := (keys m).Nodup

@[simp] theorem get_nil (k : κ) : get ([] : AMap κ ν) k = none := rfl

@[simp] theorem get_cons (k' : κ) (v : ν) (m : AMap κ ν) (k : κ) :
    get ((k', v) :: m) k = if k' = k then some v else get m k := rfl

theorem get_set (m : AMap κ ν) (k : κ) (v : ν) (j : κ) :
    get (set m k v) j = if k = j then some v else get m j := by
  induction m with
  | nil => simp [set]
  | cons e m ih =>
    obtain ⟨k', v'⟩ := e
    simp only [set]
    by_cases h : k' = k
    · subst h; simp only [if_true, get_cons]; by_cases hj : k' = j <;> simp [hj]
    · simp only [h, if_false, get_cons, ih]
      by_cases hj : k' = j
      · subst hj
        have h' : ¬ k = k' := fun e => h e.symm
        simp [h']
      · simp [hj]

@[simp] theorem get_set_self (m : AMap κ ν) (k : κ) (v : ν) : get (set m k v) k = some v := by
  simp [get_set]

theorem get_set_ne (m : AMap κ ν) {k j : κ} (v : ν) (h : k ≠ j) : get (set m k v) j = get m j := by
  simp [get_set, h]

theorem get_erase (m : AMap κ ν) (k j : κ) :
    get (erase m k) j = if k = j then none else get m j := by
  induction m with
  | nil => simp [erase]
  | cons e m ih =>
    obtain ⟨k', v'⟩ := e
    unfold erase at ih ⊢
    by_cases h : k' = k
    · subst h
      simp only [List.filter, decide_true, Bool.not_true, ih, get_cons]
      by_cases hj : k' = j <;> simp [hj]
    · simp only [List.filter, h, decide_false, Bool.not_false, get_cons, ih]
      by_cases hj : k' = j
      · subst hj
        have h' : ¬ k = k' := fun e => h e.symm
        simp [h']
      · simp [hj]

@[simp] theorem get_erase_self (m : AMap κ ν) (k : κ) : get (erase m k) k = none := by
  simp [get_erase]

theorem get_erase_ne (m : AMap κ ν) {k j : κ} (h : k ≠ j) : get (erase m k) j = get m j := by
  simp [get_erase, h]

theorem keys_nil : keys ([] : AMap κ ν) = [] := rfl

theorem keys_cons (e : κ × ν) (m : AMap κ ν) : keys (e :: m) = e.1 :: keys m := rfl

theorem get_eq_none_iff (m : AMap κ ν) (k : κ) : get m k = none ↔ k ∉ keys m := by
  induction m with
  | nil => simp [keys]
  | cons e m ih =>
    obtain ⟨k', v'⟩ := e
    simp only [get_cons, keys_cons, List.mem_cons]
    by_cases h : k' = k
    · subst h; simp
    · have h' : ¬ k = k' := fun e => h e.symm
      simp [h, ih, h']

theorem get_isSome_iff (m : AMap κ ν) (k : κ) : (get m k).isSome ↔ k ∈ keys m := by
  cases h : get m k with
  | none => simp [(get_eq_none_iff m k).1 h]
  | some v =>
    simp only [Option.isSome_some, true_iff]
    exact Classical.byContradiction fun hn => by simp [(get_eq_none_iff m k).2 hn] at h

theorem mem_of_get {m : AMap κ ν} {k : κ} {v : ν} (h : get m k = some v) : (k, v) ∈ m := by
  induction m with
  | nil => simp at h
  | cons e m ih =>
    obtain ⟨k', v'⟩ := e
    simp only [get_cons] at h
    by_cases hk : k' = k
    · subst hk; simp at h; subst h; simp
    · simp [hk] at h; exact List.mem_cons_of_mem _ (ih h)

theorem get_of_mem {m : AMap κ ν} (wf : WF m) {k : κ} {v : ν} (h : (k, v) ∈ m) :
    get m k = some v := by
  induction m with
  | nil => simp at h
  | cons e m ih =>
    obtain ⟨k', v'⟩ := e
    simp only [WF, keys_cons, List.nodup_cons] at wf
    simp only [List.mem_cons] at h
    rcases h with h | h
    · cases h; simp
    · have : k' ≠ k := by
        rintro rfl; exact wf.1 (List.mem_map.2 ⟨_, h, rfl⟩)
      simp [this, ih wf.2 h]

theorem mem_iff_get {m : AMap κ ν} (wf : WF m) {k : κ} {v : ν} :
    (k, v) ∈ m ↔ get m k = some v := ⟨get_of_mem wf, mem_of_get⟩

theorem mem_keys_set (m : AMap κ ν) (k : κ) (v : ν) (j : κ) :
    j ∈ keys (set m k v) ↔ j = k ∨ j ∈ keys m := by
  rw [← get_isSome_iff, ← get_isSome_iff, get_set]
  by_cases h : k = j
  · simp [h]
  · have h' : ¬ j = k := fun e => h e.symm
    simp [h, h']

theorem mem_keys_erase (m : AMap κ ν) (k j : κ) :
    j ∈ keys (erase m k) ↔ j ≠ k ∧ j ∈ keys m := by
  rw [← get_isSome_iff, ← get_isSome_iff, get_erase]
  by_cases h : k = j
  · simp [h]
  · have h' : ¬ j = k := fun e => h e.symm
    simp [h, h']

theorem WF.nil : WF ([] : AMap κ ν) := by simp [WF, keys]

theorem WF.set {m : AMap κ ν} (h : WF m) (k : κ) (v : ν) : WF (set m k v) := by
  induction m with
  | nil => simp [AMap.set, WF, keys]
  | cons e m ih =>
    obtain ⟨k', v'⟩ := e
    simp only [WF, keys_cons, List.nodup_cons] at h
    simp only [AMap.set]
    by_cases hk : k' = k
    · subst hk; simp only [if_true, WF, keys_cons, List.nodup_cons]; exact h
    · simp only [hk, if_false, WF, keys_cons, List.nodup_cons]
      refine ⟨?_, ih h.2⟩
      rw [mem_keys_set]
      rintro (rfl | h')
      · exact hk rfl
      · exact h.1 h'

theorem WF.filter {m : AMap κ ν} (h : WF m) (p : κ × ν → Bool) : WF (m.filter p) := by
  unfold WF keys at *
  exact h.sublist (List.filter_sublist.map _)

theorem WF.erase {m : AMap κ ν} (h : WF m) (k : κ) : WF (erase m k) := h.filter _

theorem get_filter {m : AMap κ ν} (wf : WF m) (p : κ × ν → Bool) (k : κ) :
    get (m.filter p) k = (get m k).filter (fun v => p (k, v)) := by
  induction m with
  | nil => simp
  | cons e m ih =>
    obtain ⟨k', v'⟩ := e
    simp only [WF, keys_cons, List.nodup_cons] at wf
    have ih := ih wf.2
    by_cases hk : k' = k
    · subst hk
      have hn : get m k' = none := (get_eq_none_iff m k').2 wf.1
      rw [hn] at ih
      by_cases hp : p (k', v')
      · simp [List.filter, hp, Option.filter]
      · simp [List.filter, hp, Option.filter, ih]
    · by_cases hp : p (k', v')
      · simp [List.filter, hp, hk, ih]
      · simp [List.filter, hp, hk, ih]

theorem keys_mapVals {μ : Type} (m : AMap κ ν) (f : κ → ν → μ) : keys (mapVals m f) = keys m := by
  simp [keys, mapVals]

theorem get_mapVals {μ : Type} (m : AMap κ ν) (f : κ → ν → μ) (k : κ) :
    get (mapVals m f) k = (get m k).map (f k) := by
  induction m with
  | nil => simp [mapVals]
  | cons e m ih =>
    obtain ⟨k', v'⟩ := e
    unfold mapVals at ih ⊢
    simp only [List.map_cons, get_cons, ih]
    by_cases h : k' = k
    · subst h; simp
    · simp [h]

theorem WF.mapVals {μ : Type} {m : AMap κ ν} (h : WF m) (f : κ → ν → μ) : WF (mapVals m f) := by
  unfold WF at *; rw [keys_mapVals]; exact h

/-- Two maps with unique keys and the same lookups hold the same entries. -/
theorem mem_congr {m n : AMap κ ν} (hm : WF m) (hn : WF n) (h : ∀ k, get m k = get n k)
    (e : κ × ν) : e ∈ m ↔ e ∈ n := by
  obtain ⟨k, v⟩ := e
  rw [mem_iff_get hm, mem_iff_get hn, h]

end AMap
end TCP
