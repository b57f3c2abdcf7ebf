import Verif.Spec.EventualResult

/-!
# C115: an eventual result is what its source set, once and for all
-/

namespace TCP.Eventual.Props

open TCP TCP.Eventual TCP.Eventual.Spec

variable {α ε : Type}

structure Inv (cs : List (Call α ε)) (m : Cells α ε) : Prop where
  made : cs.filterMap Call.made = (List.range m.length).map Handle.mk
  pair : ∀ {x s}, Call.create x s ∈ cs → x.cell = s.cell
  full : ∀ {c s}, c ∈ cs → Sets c s → ∃ k, m[s.cell]? = some k ∧ (k.result.isSome ∨ k.error.isSome)
  value : ∀ {x s}, Call.create x s ∈ cs → ∃ k, m[s.cell]? = some k ∧ (∀ v, k.result = some v ↔ .setResult s v ∈ cs) ∧
    (∀ e, k.error = some e ↔ .setError s e ∈ cs) ∧ (k.result = none ∨ k.error = none)
  error : ∀ {x e}, Call.fromError e x ∈ cs → m[x.cell]? = some ⟨none, some e⟩
  once : cs.Pairwise fun a b => ∀ s, Sets a s → ¬ Sets b s

theorem get_old {m : Cells α ε} {k c : ResultCore α ε} {n : Nat} (h : m[n]? = some k) : (m ++ [c])[n]? = some k := by
  rw [List.getElem?_append_left]
  · exact h
  · exact (List.getElem?_eq_some_iff.1 h).1

theorem set_ok {m m' : Cells α ε} {s : Source} {f : ResultCore α ε → ResultCore α ε}
    (h : (match m[s.cell]? with
      | none => Run.panic
      | some k => if k.error.isNone && k.result.isNone then .ok (m.set s.cell (f k)) else .panic) = .ok m') :
    m[s.cell]? = some ⟨none, none⟩ ∧ m' = m.set s.cell (f ⟨none, none⟩) := by
  split at h
  · cases h
  · rename_i k hk
    split at h
    · rename_i hc
      cases h
      obtain ⟨r, e⟩ := k
      simp only [Bool.and_eq_true, Option.isNone_iff_eq_none] at hc
      obtain ⟨rfl, rfl⟩ := hc
      exact ⟨hk, rfl⟩
    · cases h

theorem source_ne {s t : Source} (h : s ≠ t) : s.cell ≠ t.cell := fun e => h (by cases s; cases t; simp_all)

theorem inv_new {cs : List (Call α ε)} {m : Cells α ε} (I : Inv cs m) {c : Call α ε} {k : ResultCore α ε} (hm : c.made = some ⟨m.length⟩)
    (hv : (∃ x s, c = .create x s ∧ x.cell = m.length ∧ s.cell = m.length ∧ k = ⟨none, none⟩) ∨ ∃ e, c = .fromError e ⟨m.length⟩ ∧ k = ⟨none, some e⟩) :
    Inv (cs ++ [c]) (m ++ [k]) := by
  have hs : ∀ s, ¬ Sets c s := by
    rintro s (⟨v, rfl⟩ | ⟨e, rfl⟩) <;> cases hm
  refine ⟨?_, ?_, ?_, ?_, ?_, ?_⟩
  · rw [List.filterMap_append, I.made]
    simp [hm, List.range_succ]
  · intro x s h
    rcases List.mem_append.1 h with h | h
    · exact I.pair h
    · simp only [List.mem_singleton] at h
      subst h
      rcases hv with ⟨x', s', h, h1, h2, _⟩ | ⟨e, h, _⟩
      · cases h; omega
      · cases h
  · intro c' s h hs'
    rcases List.mem_append.1 h with h | h
    · obtain ⟨k', h1, h2⟩ := I.full h hs'
      exact ⟨k', get_old h1, h2⟩
    · simp only [List.mem_singleton] at h
      subst h
      exact absurd hs' (hs s)
  · intro x s h
    have hr : ∀ v, Call.setResult s v ∈ cs ++ [c] ↔ Call.setResult s v ∈ cs := by
      intro v
      simp only [List.mem_append, List.mem_singleton, or_iff_left_iff_imp]
      rintro rfl
      exact absurd (.inl ⟨v, rfl⟩) (hs s)
    have he : ∀ v, Call.setError s v ∈ cs ++ [c] ↔ Call.setError s v ∈ cs := by
      intro v
      simp only [List.mem_append, List.mem_singleton, or_iff_left_iff_imp]
      rintro rfl
      exact absurd (.inr ⟨v, rfl⟩) (hs s)
    simp only [hr, he]
    rcases List.mem_append.1 h with h | h
    · obtain ⟨k', h1, h2⟩ := I.value h
      exact ⟨k', get_old h1, h2⟩
    · simp only [List.mem_singleton] at h
      subst h
      rcases hv with ⟨x', s', h, h1, h2, rfl⟩ | ⟨e, h, _⟩
      · cases h
        have hno : ∀ c ∈ cs, ¬ Sets c s := by
          intro c hc hs
          obtain ⟨k, hk, _⟩ := I.full hc hs
          have := (List.getElem?_eq_some_iff.1 hk).1
          omega
        refine ⟨⟨none, none⟩, by simp [h2], fun v => ⟨by simp, fun h => absurd (.inl ⟨v, rfl⟩) (hno _ h)⟩,
          fun e => ⟨by simp, fun h => absurd (.inr ⟨e, rfl⟩) (hno _ h)⟩, .inl rfl⟩
      · cases h
  · intro x e h
    rcases List.mem_append.1 h with h | h
    · exact get_old (I.error h)
    · simp only [List.mem_singleton] at h
      subst h
      rcases hv with ⟨x', s', h, _⟩ | ⟨e, h, rfl⟩
      · cases h
      · cases h
        simp
  · refine List.pairwise_append.2 ⟨I.once, by simp, fun a _ b hb s _ => ?_⟩
    simp only [List.mem_singleton] at hb
    subst hb
    exact hs s

theorem inv_set {cs : List (Call α ε)} {m : Cells α ε} (I : Inv cs m) {t : Source} {c : Call α ε} {k : ResultCore α ε}
    (he : m[t.cell]? = some ⟨none, none⟩)
    (hv : (∃ v, c = .setResult t v ∧ k = ⟨some v, none⟩) ∨ ∃ e, c = .setError t e ∧ k = ⟨none, some e⟩) :
    Inv (cs ++ [c]) (m.set t.cell k) := by
  have hlt := (List.getElem?_eq_some_iff.1 he).1
  have hnew : (m.set t.cell k)[t.cell]? = some k := by simp [hlt]
  have hold : ∀ n, n ≠ t.cell → (m.set t.cell k)[n]? = m[n]? := fun n hn => List.getElem?_set_ne (Ne.symm hn)
  have hno : ∀ c ∈ cs, ¬ Sets c t := by
    intro c hc hs
    obtain ⟨k, hk, h⟩ := I.full hc hs
    rw [he] at hk
    cases hk
    simp at h
  have hsc : ∀ s, Sets c s → s = t := by
    rintro s (⟨v, rfl⟩ | ⟨e, rfl⟩)
    · rcases hv with ⟨_, h, _⟩ | ⟨_, h, _⟩ <;> cases h
      rfl
    · rcases hv with ⟨_, h, _⟩ | ⟨_, h, _⟩ <;> cases h
      rfl
  have hct : ∀ x s, c ≠ .create x s := by rcases hv with ⟨_, rfl, _⟩ | ⟨_, rfl, _⟩ <;> simp
  have hcf : ∀ e x, c ≠ .fromError e x := by rcases hv with ⟨_, rfl, _⟩ | ⟨_, rfl, _⟩ <;> simp
  refine ⟨?_, ?_, ?_, ?_, ?_, ?_⟩
  · have : c.made = none := by rcases hv with ⟨_, rfl, _⟩ | ⟨_, rfl, _⟩ <;> rfl
    rw [List.filterMap_append, I.made]
    simp [this]
  · intro x s h
    rcases List.mem_append.1 h with h | h
    · exact I.pair h
    · simp only [List.mem_singleton] at h
      exact absurd h.symm (hct x s)
  · intro c' s h hs'
    by_cases hst : s = t
    · subst hst
      exact ⟨k, hnew, by rcases hv with ⟨_, _, rfl⟩ | ⟨_, _, rfl⟩ <;> simp⟩
    · rcases List.mem_append.1 h with h | h
      · rw [hold _ (source_ne hst)]
        exact I.full h hs'
      · simp only [List.mem_singleton] at h
        subst h
        exact absurd (hsc s hs') hst
  · intro x s h
    rcases List.mem_append.1 h with h | h
    · by_cases hst : s = t
      · subst hst
        refine ⟨k, hnew, fun v => ?_, fun e => ?_, by rcases hv with ⟨_, _, rfl⟩ | ⟨_, _, rfl⟩ <;> simp⟩
        · have : Call.setResult s v ∉ cs := fun h => hno _ h (.inl ⟨v, rfl⟩)
          rcases hv with ⟨_, rfl, rfl⟩ | ⟨_, rfl, rfl⟩ <;> simp [this, eq_comm]
        · have : Call.setError s e ∉ cs := fun h => hno _ h (.inr ⟨e, rfl⟩)
          rcases hv with ⟨_, rfl, rfl⟩ | ⟨_, rfl, rfl⟩ <;> simp [this, eq_comm]
      · have hr : ∀ v, Call.setResult s v ∈ cs ++ [c] ↔ Call.setResult s v ∈ cs := by
          intro v
          simp only [List.mem_append, List.mem_singleton, or_iff_left_iff_imp]
          rintro rfl
          exact absurd (hsc s (.inl ⟨v, rfl⟩)) hst
        have he : ∀ v, Call.setError s v ∈ cs ++ [c] ↔ Call.setError s v ∈ cs := by
          intro v
          simp only [List.mem_append, List.mem_singleton, or_iff_left_iff_imp]
          rintro rfl
          exact absurd (hsc s (.inr ⟨v, rfl⟩)) hst
        simp only [hr, he]
        rw [hold _ (source_ne hst)]
        exact I.value h
    · simp only [List.mem_singleton] at h
      exact absurd h.symm (hct x s)
  · intro x e h
    rcases List.mem_append.1 h with h | h
    · have := I.error h
      rw [hold _ (fun hx => by rw [hx, he] at this; cases this)]
      exact this
    · simp only [List.mem_singleton] at h
      exact absurd h.symm (hcf e x)
  · refine List.pairwise_append.2 ⟨I.once, by simp, fun a ha b hb s hs hs' => ?_⟩
    simp only [List.mem_singleton] at hb
    subst hb
    obtain rfl := hsc s hs'
    exact hno a ha hs

theorem inv_history {cs : List (Call α ε)} {m : Cells α ε} (h : History cs m) : Inv cs m := by
  induction h with
  | init => exact ⟨rfl, by simp, by simp, by simp, by simp, .nil⟩
  | create h hc ih =>
    simp only [Eventual.create, Prod.mk.injEq] at hc
    obtain ⟨rfl, rfl, rfl⟩ := hc
    exact inv_new ih rfl (.inl ⟨_, _, rfl, rfl, rfl, rfl⟩)
  | fromError h hc ih =>
    simp only [Eventual.fromError, Prod.mk.injEq] at hc
    obtain ⟨rfl, rfl⟩ := hc
    exact inv_new ih rfl (.inr ⟨_, rfl, rfl⟩)
  | @setResult cs m s v m' h hc ih =>
    obtain ⟨he, rfl⟩ := set_ok (f := fun k => { k with result := some v }) hc
    exact inv_set ih he (.inl ⟨_, rfl, rfl⟩)
  | @setError cs m s e m' h hc ih =>
    obtain ⟨he, rfl⟩ := set_ok (f := fun k => { k with error := some e }) hc
    exact inv_set ih he (.inr ⟨_, rfl, rfl⟩)

/-- C115: a handle tells exactly what its own source was set to, a value or an error, and nothing until then. -/
theorem C115_told {cs : List (Call α ε)} {m : Cells α ε} (h : History cs m) {x : Handle} {s : Source} (hx : .create x s ∈ cs) :
    (∀ v, checkResult m x = .ok (some (.ok v)) ↔ .setResult s v ∈ cs) ∧ (∀ e, checkResult m x = .ok (some (.error e)) ↔ .setError s e ∈ cs) ∧
    (checkResult m x = .ok none ↔ ∀ c ∈ cs, ¬ Sets c s) := by
  have I := inv_history h
  obtain ⟨k, hk, hr, he, hb⟩ := I.value hx
  have hk' : m[x.cell]? = some k := by rw [I.pair hx]; exact hk
  obtain ⟨r, e⟩ := k
  refine ⟨fun v => ?_, fun e' => ?_, ?_, ?_⟩
  · rw [← hr v]
    cases r <;> cases e <;> simp [checkResult, hk']
  · rw [← he e']
    cases r <;> cases e <;> simp_all [checkResult]
  · rintro hn c hc (⟨v, rfl⟩ | ⟨e', rfl⟩)
    · have := (hr v).2 hc
      simp only at this
      subst this
      simp [checkResult, hk'] at hn
    · have := (he e').2 hc
      simp only at this
      subst this
      cases r <;> simp [checkResult, hk'] at hn
  · intro hn
    cases r with
    | some v => exact absurd (.inl ⟨v, rfl⟩) (hn _ ((hr v).1 rfl))
    | none =>
      cases e with
      | some e => exact absurd (.inr ⟨e, rfl⟩) (hn _ ((he e).1 rfl))
      | none => simp [checkResult, hk']

/-- C115: a handle created from an error tells that error, always. -/
theorem C115_error {cs : List (Call α ε)} {m : Cells α ε} (h : History cs m) {x : Handle} {e : ε} (hx : .fromError e x ∈ cs) :
    checkResult m x = .ok (some (.error e)) := by
  simp [checkResult, (inv_history h).error hx]

/-- C115: every source is set at most once; the attempt to set one again ends the process, and the first attempt does not. -/
theorem C115_once {cs : List (Call α ε)} {m : Cells α ε} (h : History cs m) :
    (cs.Pairwise fun a b => ∀ s, Sets a s → ¬ Sets b s) ∧
    ∀ x s, .create x s ∈ cs → (∀ v, setResult m s v = .panic ↔ ∃ c ∈ cs, Sets c s) ∧ ∀ e, setError m s e = .panic ↔ ∃ c ∈ cs, Sets c s := by
  have I := inv_history h
  refine ⟨I.once, fun x s hx => ?_⟩
  obtain ⟨k, hk, hr, he, _⟩ := I.value hx
  have hs : (k.error.isNone && k.result.isNone) = false ↔ ∃ c ∈ cs, Sets c s := by
    constructor
    · intro hf
      obtain ⟨r, e⟩ := k
      cases r with
      | some v => exact ⟨_, (hr v).1 rfl, .inl ⟨v, rfl⟩⟩
      | none =>
        cases e with
        | some e => exact ⟨_, (he e).1 rfl, .inr ⟨e, rfl⟩⟩
        | none => cases hf
    · rintro ⟨c, hc, ⟨v, rfl⟩ | ⟨e, rfl⟩⟩
      · simp [(hr v).2 hc]
      · simp [(he e).2 hc]
  constructor
  · intro v
    rw [← hs]
    simp only [setResult, hk]
    cases k.error.isNone && k.result.isNone <;> simp
  · intro v
    rw [← hs]
    simp only [setError, hk]
    cases k.error.isNone && k.result.isNone <;> simp

/-- C115: what a handle told it tells ever after. -/
theorem C115_stable {cs cs' : List (Call α ε)} {m m' : Cells α ε} (h : History cs m) (h' : History (cs ++ cs') m') {x : Handle}
    (hx : x ∈ cs.filterMap Call.made) {r : Except ε α} (hr : checkResult m x = .ok (some r)) : checkResult m' x = .ok (some r) := by
  obtain ⟨c, hc, hm⟩ := List.mem_filterMap.1 hx
  have hc' : c ∈ cs ++ cs' := List.mem_append_left _ hc
  cases c with
  | create y s =>
    cases hm
    obtain ⟨a1, a2, _⟩ := C115_told h hc
    obtain ⟨b1, b2, _⟩ := C115_told h' hc'
    cases r with
    | ok v => exact (b1 v).2 (List.mem_append_left _ ((a1 v).1 hr))
    | error e => exact (b2 e).2 (List.mem_append_left _ ((a2 e).1 hr))
  | fromError e y =>
    cases hm
    rw [C115_error h hc] at hr
    rw [C115_error h' hc']
    exact hr
  | setResult => cases hm
  | setError => cases hm

/-- C115: no two calls return the same handle, nor the same source. -/
theorem C115_distinct {cs : List (Call α ε)} {m : Cells α ε} (h : History cs m) :
    (cs.filterMap Call.made).Nodup ∧ ∀ x y s, .create x s ∈ cs → .create y s ∈ cs → x = y := by
  have I := inv_history h
  refine ⟨?_, fun x y s hx hy => ?_⟩
  · rw [I.made]
    refine List.Pairwise.map _ (fun a b hab => ?_) List.nodup_range
    simpa using hab
  · have h1 := I.pair hx
    have h2 := I.pair hy
    cases x; cases y; simp_all

/-- The theorems are not vacuous: three results, of which the second is set to a value, the third is an error from the start, and the first is
still open. -/
example : ∃ m : Cells Nat String,
    History [.create ⟨0⟩ ⟨0⟩, .create ⟨1⟩ ⟨1⟩, .fromError "no" ⟨2⟩, .setResult ⟨1⟩ 5] m ∧ checkResult m ⟨0⟩ = .ok none ∧
      checkResult m ⟨1⟩ = .ok (some (.ok 5)) ∧ checkResult m ⟨2⟩ = .ok (some (.error "no")) ∧ setError m ⟨1⟩ "late" = .panic ∧
      ∃ m', History ([.create ⟨0⟩ ⟨0⟩, .create ⟨1⟩ ⟨1⟩, .fromError "no" ⟨2⟩, .setResult ⟨1⟩ 5] ++ [.setError ⟨0⟩ "failed"]) m' ∧
        checkResult m' ⟨0⟩ = .ok (some (.error "failed")) := by
  have h1 : History (α := Nat) (ε := String) ([] ++ [.create ⟨0⟩ ⟨0⟩]) _ := .create .init rfl
  have h2 : History _ _ := h1.create (x := ⟨1⟩) (s := ⟨1⟩) rfl
  have h3 : History _ _ := h2.fromError (e := "no") (x := ⟨2⟩) rfl
  have h4 : History _ _ := h3.setResult (s := ⟨1⟩) (v := 5) rfl
  have h5 : History _ _ := h4.setError (s := ⟨0⟩) (e := "failed") rfl
  exact ⟨_, h4, rfl, rfl, rfl, rfl, _, h5, rfl⟩

end TCP.Eventual.Props
