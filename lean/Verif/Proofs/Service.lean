import Verif.Spec.Service

/-! # Invariants of the concurrent service -/

namespace TCP.Service

open TCP TCP.ServiceSpec

variable {δ Q A : Type} {handle : Q → δ → Run (δ × A)} {d0 : δ}

def pending (s : State δ Q A) : List (Q × Nat) := s.busy.toList ++ s.queue

def Unhandled (h : List (Event Q A)) (i : Nat) : Prop := ∀ q a, Event.handled i q a ∉ h

structure Inv (handle : Q → δ → Run (δ × A)) (d0 : δ) (s : State δ Q A) : Prop where
  hist : History s.history
  seq : Sequential handle d0 (s.history.filterMap handled?) s.driver
  bound : ∀ {i q}, Event.invoke i q ∈ s.history → i < s.calls.length
  sending : ∀ {i q}, s.calls[i]? = some (.sending q) → Event.invoke i q ∈ s.history ∧ Unhandled s.history i ∧ ∀ p ∈ pending s, p.2 ≠ i
  waiting : ∀ {i q}, s.calls[i]? = some (.waiting q) → Event.invoke i q ∈ s.history ∧ Unhandled s.history i ∧ (s.alive = true → (q, i) ∈ pending s)
  answered : ∀ {i a}, s.calls[i]? = some (.answered a) → ∃ q, Event.handled i q a ∈ s.history
  queued : ∀ {i q}, (q, i) ∈ pending s → Event.invoke i q ∈ s.history ∧ Unhandled s.history i ∧
    (s.calls[i]? = some (.waiting q) ∨ s.calls[i]? = some .cancelled)
  distinct : ((pending s).map (·.2)).Nodup
  returned : ∀ {i a}, Event.return i a ∈ s.history → s.calls[i]? = some (.returned a)
  refused : ∀ {i}, Event.refuse i ∈ s.history → s.calls[i]? = some .refused
  unheard : ∀ {i}, s.calls[i]? = some .refused → Unhandled s.history i
  dead : s.alive = false → pending s = []

theorem Inv.new : Inv handle d0 (.new d0 : State δ Q A) where
  hist := .nil
  seq := .nil
  bound h := by cases h
  sending h := by simp [State.new] at h
  waiting h := by simp [State.new] at h
  answered h := by simp [State.new] at h
  queued h := by simp [pending, State.new] at h
  distinct := by simp [pending, State.new]
  returned h := by cases h
  refused h := by cases h
  unheard h := by simp [State.new] at h
  dead h := by cases h

/-- An invoked call exists. -/
theorem handled_invoked {h : List (Event Q A)} (hh : History h) {i q a} (hm : Event.handled i q a ∈ h) : Event.invoke i q ∈ h := by
  induction hh with
  | nil => cases hm
  | handled _ hi _ _ ih =>
    simp only [List.mem_append, List.mem_singleton] at hm ⊢
    rcases hm with hm | hm
    · exact .inl (ih hm)
    · cases hm; exact .inl hi
  | _ =>
    rename_i ih
    simp only [List.mem_append, List.mem_singleton, reduceCtorEq, or_false] at hm ⊢
    first | exact .inl (ih hm) | exact ih hm

theorem getElem?_set_same {l : List α} {i : Nat} {x y : α} (h : l[i]? = some y) : (l.set i x)[i]? = some x := by
  have : i < l.length := (List.getElem?_eq_some_iff.1 h).1
  simp [this]

theorem getElem?_set_cases {l : List α} {i j : Nat} {x y : α} (h : (l.set i x)[j]? = some y) : (j = i ∧ y = x) ∨ (j ≠ i ∧ l[j]? = some y) := by
  by_cases hj : j = i
  · subst hj
    left
    rw [List.getElem?_set] at h
    simp only [↓reduceIte] at h
    split at h
    · exact ⟨rfl, (Option.some.inj h).symm⟩
    · cases h
  · right
    rw [List.getElem?_set_ne (Ne.symm hj)] at h
    exact ⟨hj, h⟩

theorem getElem?_concat_cases {l : List α} {j : Nat} {x y : α} (h : (l ++ [x])[j]? = some y) : (j = l.length ∧ y = x) ∨ l[j]? = some y := by
  by_cases hj : j < l.length
  · right; rwa [List.getElem?_append_left hj] at h
  · left
    rw [List.getElem?_append_right (by omega)] at h
    have : j - l.length = 0 := by
      have := (List.getElem?_eq_some_iff.1 h).1
      simp at this; omega
    rw [this] at h
    exact ⟨by omega, (Option.some.inj h).symm⟩

theorem getElem?_concat_left {l : List α} {j : Nat} {x y : α} (h : l[j]? = some y) : (l ++ [x])[j]? = some y := by
  rw [List.getElem?_append_left (List.getElem?_eq_some_iff.1 h).1]; exact h

theorem not_return_of {s : State δ Q A} (hi : Inv handle d0 s) {i : Nat} {c : Call Q A} (h : s.calls[i]? = some c) (hc : ∀ a, c ≠ .returned a) :
    ∀ a, Event.return i a ∉ s.history := by
  intro a ha
  have := hi.returned ha
  rw [h] at this
  exact hc a (Option.some.inj this)

theorem not_refuse_of {s : State δ Q A} (hi : Inv handle d0 s) {i : Nat} {c : Call Q A} (h : s.calls[i]? = some c) (hc : c ≠ .refused) :
    Event.refuse i ∉ s.history := by
  intro ha
  have := hi.refused ha
  rw [h] at this
  exact hc (Option.some.inj this)

theorem Inv.call {s : State δ Q A} (hi : Inv handle d0 s) (q : Q) : Inv handle d0 (s.call q) where
  hist := .invoke hi.hist fun q' hq => Nat.lt_irrefl _ (hi.bound hq)
  seq := by
    show Sequential handle d0 ((s.history ++ [Event.invoke s.calls.length q]).filterMap handled?) s.driver
    rw [List.filterMap_append]
    simpa [List.filterMap_cons, handled?] using hi.seq
  bound {i q'} h := by
    simp only [State.call, List.mem_append, List.mem_singleton, Event.invoke.injEq, List.length_append, List.length_singleton] at h ⊢
    rcases h with h | ⟨rfl, _⟩
    · exact Nat.lt_succ_of_lt (hi.bound h)
    · exact Nat.lt_succ_self _
  sending {i q'} h := by
    rcases getElem?_concat_cases h with ⟨rfl, hx⟩ | h
    · cases hx
      refine ⟨List.mem_append_right _ (List.mem_singleton_self _), fun q' a ha => ?_, fun p hp he => ?_⟩
      · simp only [State.call, List.mem_append, List.mem_singleton, reduceCtorEq, or_false] at ha
        exact Nat.lt_irrefl _ (hi.bound (handled_invoked hi.hist ha))
      · have := hi.bound (hi.queued (q := p.1) (i := p.2) hp).1
        rw [he] at this
        exact Nat.lt_irrefl _ this
    · obtain ⟨h1, h2, h3⟩ := hi.sending h
      refine ⟨List.mem_append_left _ h1, fun q' a ha => ?_, h3⟩
      simp only [State.call, List.mem_append, List.mem_singleton, reduceCtorEq, or_false] at ha
      exact h2 _ _ ha
  waiting {i q'} h := by
    rcases getElem?_concat_cases h with ⟨rfl, hx⟩ | h
    · cases hx
    · obtain ⟨h1, h2, h3⟩ := hi.waiting h
      refine ⟨List.mem_append_left _ h1, fun q' a ha => ?_, h3⟩
      simp only [State.call, List.mem_append, List.mem_singleton, reduceCtorEq, or_false] at ha
      exact h2 _ _ ha
  answered {i a} h := by
    rcases getElem?_concat_cases h with ⟨rfl, hx⟩ | h
    · cases hx
    · obtain ⟨q, h⟩ := hi.answered h
      exact ⟨q, List.mem_append_left _ h⟩
  queued {i q'} h := by
    obtain ⟨h1, h2, h3⟩ := hi.queued h
    refine ⟨List.mem_append_left _ h1, fun q' a ha => ?_, ?_⟩
    · simp only [State.call, List.mem_append, List.mem_singleton, reduceCtorEq, or_false] at ha
      exact h2 _ _ ha
    · exact h3.imp getElem?_concat_left getElem?_concat_left
  distinct := hi.distinct
  returned {i a} h := by
    simp only [State.call, List.mem_append, List.mem_singleton, reduceCtorEq, or_false] at h
    exact getElem?_concat_left (hi.returned h)
  refused {i} h := by
    simp only [State.call, List.mem_append, List.mem_singleton, reduceCtorEq, or_false] at h
    exact getElem?_concat_left (hi.refused h)
  unheard {i} h := by
    rcases getElem?_concat_cases h with ⟨rfl, hx⟩ | h
    · cases hx
    · intro q' a ha
      simp only [State.call, List.mem_append, List.mem_singleton, reduceCtorEq, or_false] at ha
      exact hi.unheard h _ _ ha
  dead := hi.dead

/-- A call whose state changes, with an event that is not the handling of a request. -/
theorem Inv.change {s : State δ Q A} (hi : Inv handle d0 s) {i : Nat} {c c' : Call Q A} (hc : s.calls[i]? = some c) {es : List (Event Q A)}
    (hh : History (s.history ++ es)) (he : es.filterMap handled? = []) (hn : ∀ j q, Event.invoke j q ∉ es)
    (hs : ∀ q, c' ≠ .sending q) (hw : ∀ q, c' ≠ .waiting q) (ha : ∀ a, c' ≠ .answered a)
    (hc1 : ∀ a, c ≠ .returned a) (hc2 : c ≠ .refused)
    (hp : c' = .cancelled ∨ s.alive = false ∨ ∀ p ∈ pending s, p.2 ≠ i)
    (hr : ∀ j a, Event.return j a ∈ es → j = i ∧ c' = .returned a) (hf : ∀ j, Event.refuse j ∈ es → j = i ∧ c' = .refused)
    (hu : c' = .refused → Unhandled s.history i) :
    Inv handle d0 { s with calls := s.calls.set i c', history := s.history ++ es } := by
  have hno : ∀ j q a, Event.handled j q a ∈ s.history ++ es → Event.handled j q a ∈ s.history := by
    intro j q a h
    rcases List.mem_append.1 h with h | h
    · exact h
    · have : (j, q, a) ∈ es.filterMap handled? := List.mem_filterMap.2 ⟨_, h, rfl⟩
      rw [he] at this; cases this
  refine ⟨hh, ?_, ?_, ?_, ?_, ?_, ?_, hi.distinct, ?_, ?_, ?_, hi.dead⟩
  · simp only [List.filterMap_append, he, List.append_nil]; exact hi.seq
  · intro j q h
    simp only [List.length_set]
    rcases List.mem_append.1 h with h | h
    · exact hi.bound h
    · exact absurd h (hn _ _)
  · intro j q h
    rcases getElem?_set_cases h with ⟨_, h⟩ | ⟨_, h⟩
    · exact absurd h.symm (hs _)
    · obtain ⟨h1, h2, h3⟩ := hi.sending h
      exact ⟨List.mem_append_left _ h1, fun q a h => h2 _ _ (hno _ _ _ h), h3⟩
  · intro j q h
    rcases getElem?_set_cases h with ⟨_, h⟩ | ⟨_, h⟩
    · exact absurd h.symm (hw _)
    · obtain ⟨h1, h2, h3⟩ := hi.waiting h
      exact ⟨List.mem_append_left _ h1, fun q a h => h2 _ _ (hno _ _ _ h), h3⟩
  · intro j a h
    rcases getElem?_set_cases h with ⟨_, h⟩ | ⟨_, h⟩
    · exact absurd h.symm (ha _)
    · obtain ⟨q, h⟩ := hi.answered h
      exact ⟨q, List.mem_append_left _ h⟩
  · intro j q h
    obtain ⟨h1, h2, h3⟩ := hi.queued h
    refine ⟨List.mem_append_left _ h1, fun q a h => h2 _ _ (hno _ _ _ h), ?_⟩
    by_cases hj : j = i
    · subst hj
      rcases hp with rfl | hp | hp
      · exact .inr (getElem?_set_same hc)
      · have hd := hi.dead hp
        have h' : (q, j) ∈ pending s := h
        rw [hd] at h'; cases h'
      · exact absurd rfl (hp _ h)
    · show (s.calls.set i c')[j]? = _ ∨ (s.calls.set i c')[j]? = _
      rw [List.getElem?_set_ne (Ne.symm hj)]
      exact h3
  · intro j a h
    show (s.calls.set i c')[j]? = _
    by_cases hj : j = i
    · subst hj
      rw [getElem?_set_same hc]
      rcases List.mem_append.1 h with h | h
      · have := hi.returned h
        rw [hc] at this
        exact absurd (Option.some.inj this) (hc1 _)
      · rw [(hr _ _ h).2]
    · rw [List.getElem?_set_ne (Ne.symm hj)]
      rcases List.mem_append.1 h with h | h
      · exact hi.returned h
      · exact absurd (hr _ _ h).1 hj
  · intro j h
    show (s.calls.set i c')[j]? = _
    by_cases hj : j = i
    · subst hj
      rw [getElem?_set_same hc]
      rcases List.mem_append.1 h with h | h
      · have := hi.refused h
        rw [hc] at this
        exact absurd (Option.some.inj this) hc2
      · rw [(hf _ h).2]
    · rw [List.getElem?_set_ne (Ne.symm hj)]
      rcases List.mem_append.1 h with h | h
      · exact hi.refused h
      · exact absurd (hf _ h).1 hj
  · intro j h q a hm
    rcases getElem?_set_cases h with ⟨rfl, hx⟩ | ⟨_, h⟩
    · exact hu hx.symm _ _ (hno _ _ _ hm)
    · exact hi.unheard h _ _ (hno _ _ _ hm)

theorem Inv.client {s s' : State δ Q A} (hi : Inv handle d0 s) (h : Client s s') : Inv handle d0 s' := by
  cases h with
  | call q => exact hi.call q
  | @cancel i h =>
    have : ∃ c : Call Q A, s.calls[i]? = some c ∧ (∀ a, c ≠ .returned a) ∧ c ≠ .refused := by
      obtain ⟨q, h | h | ⟨a, h⟩⟩ := h <;> exact ⟨_, h, (by simp), (by simp)⟩
    obtain ⟨c, hc, h1, h2⟩ := this
    exact hi.change hc (.cancel hi.hist) rfl (by simp) (by simp) (by simp) (by simp) h1 h2 (.inl rfl) (by simp) (by simp) (by simp)

theorem Inv.refuse {s : State δ Q A} (hi : Inv handle d0 s) {i : Nat} {c : Call Q A} (hc : s.calls[i]? = some c) (ha : s.alive = false)
    (h1 : ∀ a, c ≠ .returned a) (h2 : c ≠ .refused) (hu : Unhandled s.history i) : Inv handle d0 (s.refuse i) :=
  hi.change hc (.refuse hi.hist hu) rfl (by simp) (by simp) (by simp) (by simp) h1 h2 (.inr (.inl ha)) (by simp) (by simp) (fun _ => hu)

theorem Inv.server {s s' : State δ Q A} (hi : Inv handle d0 s) (h : Server handle s s') : Inv handle d0 s' := by
  cases h with
  | @unsent i q h ha => exact hi.refuse h ha (by intro a h; cases h) (by intro h; cases h) (hi.sending h).2.1
  | @unanswered i q h ha => exact hi.refuse h ha (by intro a h; cases h) (by intro h; cases h) (hi.waiting h).2.1
  | @«return» i a h =>
    obtain ⟨q, hd⟩ := hi.answered h
    refine hi.change h (.return hi.hist hd (not_return_of hi h (by intro a h; cases h))) rfl (by simp) (by simp) (by simp) (by simp)
      (by intro a h; cases h) (by intro h; cases h) ?_ (by simp) (by simp) (by simp)
    right; right
    intro p hp he
    have := (hi.queued (q := p.1) (i := p.2) hp).2.1
    rw [he] at this
    exact this _ _ hd
  | @send i q h ha hq =>
    obtain ⟨h1, h2, h3⟩ := hi.sending h
    have hp : pending (s.send i q) = pending s ++ [(q, i)] := by simp [pending, State.send]
    refine ⟨hi.hist, hi.seq, ?_, ?_, ?_, ?_, ?_, ?_, ?_, ?_, ?_, ?_⟩
    · intro j q' hj
      simp only [State.send, List.length_set]
      exact hi.bound hj
    · intro j q' hj
      rcases getElem?_set_cases hj with ⟨_, hj⟩ | ⟨hne, hj⟩
      · cases hj
      · obtain ⟨g1, g2, g3⟩ := hi.sending hj
        refine ⟨g1, g2, ?_⟩
        rw [hp]
        intro p hm
        rcases List.mem_append.1 hm with hm | hm
        · exact g3 p hm
        · rw [List.mem_singleton] at hm; subst hm; exact Ne.symm hne
    · intro j q' hj
      rw [hp]
      rcases getElem?_set_cases hj with ⟨rfl, hx⟩ | ⟨hne, hj⟩
      · cases hx
        exact ⟨h1, h2, fun _ => by simp⟩
      · obtain ⟨g1, g2, g3⟩ := hi.waiting hj
        exact ⟨g1, g2, fun h => List.mem_append_left _ (g3 h)⟩
    · intro j a hj
      rcases getElem?_set_cases hj with ⟨_, hj⟩ | ⟨hne, hj⟩
      · cases hj
      · exact hi.answered hj
    · intro j q' hj
      rw [hp] at hj
      rcases List.mem_append.1 hj with hj | hj
      · obtain ⟨g1, g2, g3⟩ := hi.queued hj
        refine ⟨g1, g2, ?_⟩
        show (s.calls.set i _)[j]? = _ ∨ (s.calls.set i _)[j]? = _
        rw [List.getElem?_set_ne (Ne.symm (h3 _ hj))]
        exact g3
      · simp only [List.mem_singleton, Prod.mk.injEq] at hj
        obtain ⟨rfl, rfl⟩ := hj
        exact ⟨h1, h2, .inl (getElem?_set_same h)⟩
    · rw [hp, List.map_append, List.map_singleton, List.nodup_append]
      refine ⟨hi.distinct, by simp, ?_⟩
      intro a hm b hb
      simp only [List.mem_singleton] at hb
      subst hb
      obtain ⟨p, hp, rfl⟩ := List.mem_map.1 hm
      exact h3 p hp
    · intro j a hj
      have := hi.returned hj
      show (s.calls.set i _)[j]? = _
      by_cases hji : j = i
      · subst hji; rw [h] at this; cases this
      · rw [List.getElem?_set_ne (Ne.symm hji)]; exact this
    · intro j hj
      have := hi.refused hj
      show (s.calls.set i _)[j]? = _
      by_cases hji : j = i
      · subst hji; rw [h] at this; cases this
      · rw [List.getElem?_set_ne (Ne.symm hji)]; exact this
    · intro j hj
      rcases getElem?_set_cases hj with ⟨_, hj⟩ | ⟨hne, hj⟩
      · cases hj
      · exact hi.unheard hj
    · intro hd
      exact absurd (ha.symm.trans hd) (by simp)
  | @receive q i rest ha hb hq =>
    have hp : pending (s.receive q i rest) = pending s := by simp [pending, State.receive, hb, hq]
    refine ⟨hi.hist, hi.seq, hi.bound, ?_, ?_, hi.answered, ?_, ?_, hi.returned, hi.refused, hi.unheard, ?_⟩
    · rw [hp]; exact hi.sending
    · rw [hp]; exact hi.waiting
    · rw [hp]; exact hi.queued
    · rw [hp]; exact hi.distinct
    · rw [hp]; exact hi.dead
  | @work q i hb =>
    have hin : (q, i) ∈ pending s := by simp [pending, hb]
    obtain ⟨h1, h2, h3⟩ := hi.queued hin
    have hpd : pending s.die = [] := rfl
    unfold State.work
    split
    · refine ⟨hi.hist, hi.seq, hi.bound, ?_, ?_, hi.answered, ?_, ?_, hi.returned, hi.refused, hi.unheard, fun _ => rfl⟩
      · intro j q' hj
        obtain ⟨g1, g2, g3⟩ := hi.sending hj
        exact ⟨g1, g2, by rw [hpd]; simp⟩
      · intro j q' hj
        obtain ⟨g1, g2, g3⟩ := hi.waiting hj
        exact ⟨g1, g2, by intro h; cases h⟩
      · intro j q' hj; rw [hpd] at hj; cases hj
      · rw [hpd]; exact List.nodup_nil
    · rename_i d' a hh
      have hne : Event.refuse i ∉ s.history := by
        rcases h3 with h3 | h3
        · exact not_refuse_of hi h3 (by intro h; cases h)
        · exact not_refuse_of hi h3 (by intro h; cases h)
      have hhist : History (s.history ++ [.handled i q a]) := .handled hi.hist h1 h2 hne
      have hseq : Sequential handle d0 ((s.history ++ [Event.handled i q a]).filterMap handled?) d' := by
        rw [List.filterMap_append]
        exact hi.seq.snoc hh
      have hno : ∀ j q' a', Event.handled j q' a' ∈ s.history ++ [.handled i q a] → j ≠ i → Event.handled j q' a' ∈ s.history := by
        intro j q' a' hm hji
        rcases List.mem_append.1 hm with hm | hm
        · exact hm
        · simp only [List.mem_singleton, Event.handled.injEq] at hm
          exact absurd hm.1 hji
      split
      · rename_i q0 hw
        rw [hw] at h3
        have hqq : q0 = q := by
          rcases h3 with h3 | h3 <;> cases h3
          rfl
        subst hqq
        have hps : pending s = (q0, i) :: s.queue := by simp [pending, hb]
        have hdist : (i :: s.queue.map (·.2)).Nodup := by
          have := hi.distinct
          rwa [hps] at this
        refine ⟨hhist, hseq, ?_, ?_, ?_, ?_, ?_, ?_, ?_, ?_, ?_, ?_⟩
        · intro j q' hj
          simp only [List.mem_append, List.mem_singleton, reduceCtorEq, or_false, List.length_set] at hj ⊢
          exact hi.bound hj
        · intro j q' hj
          rcases getElem?_set_cases hj with ⟨_, hj⟩ | ⟨hji, hj⟩
          · cases hj
          · obtain ⟨g1, g2, g3⟩ := hi.sending hj
            refine ⟨List.mem_append_left _ g1, fun q' a' hm => g2 _ _ (hno _ _ _ hm hji), ?_⟩
            intro p hp
            refine g3 p ?_
            rw [hps]
            exact List.mem_cons_of_mem _ hp
        · intro j q' hj
          rcases getElem?_set_cases hj with ⟨_, hj⟩ | ⟨hji, hj⟩
          · cases hj
          · obtain ⟨g1, g2, g3⟩ := hi.waiting hj
            refine ⟨List.mem_append_left _ g1, fun q' a' hm => g2 _ _ (hno _ _ _ hm hji), ?_⟩
            intro hal
            have := g3 hal
            rw [hps] at this
            rcases List.mem_cons.1 this with h | h
            · simp only [Prod.mk.injEq] at h; exact absurd h.2 hji
            · exact h
        · intro j a' hj
          rcases getElem?_set_cases hj with ⟨rfl, hx⟩ | ⟨_, hj⟩
          · cases hx
            exact ⟨_, List.mem_append_right _ (List.mem_singleton_self _)⟩
          · obtain ⟨q', h⟩ := hi.answered hj
            exact ⟨q', List.mem_append_left _ h⟩
        · intro j q' hj
          have hjq : (q', j) ∈ s.queue := hj
          have hji : j ≠ i := by
            rintro rfl
            exact (List.nodup_cons.1 hdist).1 (List.mem_map.2 ⟨_, hjq, rfl⟩)
          obtain ⟨g1, g2, g3⟩ := hi.queued (by rw [hps]; exact List.mem_cons_of_mem _ hjq)
          refine ⟨List.mem_append_left _ g1, fun q' a' hm => g2 _ _ (hno _ _ _ hm hji), ?_⟩
          show (s.calls.set i _)[j]? = _ ∨ (s.calls.set i _)[j]? = _
          rw [List.getElem?_set_ne (Ne.symm hji)]
          exact g3
        · exact (List.nodup_cons.1 hdist).2
        · intro j a' hj
          simp only [List.mem_append, List.mem_singleton, reduceCtorEq, or_false] at hj
          have := hi.returned hj
          show (s.calls.set i _)[j]? = _
          by_cases hji : j = i
          · subst hji; rw [hw] at this; cases this
          · rw [List.getElem?_set_ne (Ne.symm hji)]; exact this
        · intro j hj
          simp only [List.mem_append, List.mem_singleton, reduceCtorEq, or_false] at hj
          have := hi.refused hj
          show (s.calls.set i _)[j]? = _
          by_cases hji : j = i
          · subst hji; rw [hw] at this; cases this
          · rw [List.getElem?_set_ne (Ne.symm hji)]; exact this
        · intro j hj q' a' hm
          rcases getElem?_set_cases hj with ⟨_, hj⟩ | ⟨hji, hj⟩
          · cases hj
          · exact hi.unheard hj _ _ (hno _ _ _ hm hji)
        · intro hal
          have := hi.dead hal
          rw [hps] at this; cases this
      · rename_i hw
        have hc : s.calls[i]? = some .cancelled := h3.resolve_left fun h => hw _ h
        have hother : ∀ {j c}, s.calls[j]? = some c → c ≠ .cancelled → j ≠ i := by
          rintro j c hj hcc rfl
          rw [hc] at hj
          exact hcc (Option.some.inj hj).symm
        refine ⟨hhist, hseq, ?_, ?_, ?_, ?_, ?_, ?_, ?_, ?_, ?_, fun _ => rfl⟩
        · intro j q' hj
          simp only [List.mem_append, List.mem_singleton, reduceCtorEq, or_false] at hj
          exact hi.bound hj
        · intro j q' hj
          obtain ⟨g1, g2, g3⟩ := hi.sending hj
          have hji := hother hj (by intro h; cases h)
          exact ⟨List.mem_append_left _ g1, fun q' a' hm => g2 _ _ (hno _ _ _ hm hji), by intro p hp; cases hp⟩
        · intro j q' hj
          obtain ⟨g1, g2, g3⟩ := hi.waiting hj
          have hji := hother hj (by intro h; cases h)
          exact ⟨List.mem_append_left _ g1, fun q' a' hm => g2 _ _ (hno _ _ _ hm hji), by intro h; cases h⟩
        · intro j a' hj
          obtain ⟨q', h⟩ := hi.answered hj
          exact ⟨q', List.mem_append_left _ h⟩
        · intro j q' hj; cases hj
        · exact List.nodup_nil
        · intro j a' hj
          simp only [List.mem_append, List.mem_singleton, reduceCtorEq, or_false] at hj
          exact hi.returned hj
        · intro j hj
          simp only [List.mem_append, List.mem_singleton, reduceCtorEq, or_false] at hj
          exact hi.refused hj
        · intro j hj q' a' hm
          have hji := hother hj (by intro h; cases h)
          exact hi.unheard hj _ _ (hno _ _ _ hm hji)

theorem reachable_inv {s : State δ Q A} (h : Reachable handle d0 s) : Inv handle d0 s := by
  induction h with
  | new => exact .new
  | client _ hs ih => exact ih.client hs
  | server _ hs ih => exact ih.server hs

end TCP.Service

namespace TCP.Service

open TCP TCP.ServiceSpec

variable {δ Q A : Type} {handle : Q → δ → Run (δ × A)} {d0 : δ}

/-- What holds when an event happens. -/
def At (h : List (Event Q A)) : Event Q A → Prop
  | .invoke i _ => ∀ q', Event.invoke i q' ∉ h
  | .handled i q _ => Event.invoke i q ∈ h ∧ (∀ q' a', Event.handled i q' a' ∉ h) ∧ Event.refuse i ∉ h
  | .return i a => (∃ q, Event.handled i q a ∈ h) ∧ ∀ a', Event.return i a' ∉ h
  | .refuse i => ∀ q' a', Event.handled i q' a' ∉ h
  | .cancel _ => True

theorem concat_eq_split {l1 l2 h : List α} {e e' : α} (he : h ++ [e'] = l1 ++ e :: l2) :
    (l1 = h ∧ e = e') ∨ ∃ l2', l2 = l2' ++ [e'] ∧ h = l1 ++ e :: l2' := by
  rcases List.eq_nil_or_concat l2 with rfl | ⟨l2', x, rfl⟩
  · left
    have := List.append_inj' he rfl
    exact ⟨this.1.symm, (List.cons.inj this.2).1.symm⟩
  · right
    have he' : h ++ [e'] = (l1 ++ e :: l2') ++ [x] := by simpa using he
    have := List.append_inj' he' rfl
    obtain ⟨h1, h2⟩ := this
    cases h2
    exact ⟨l2', by simp, h1⟩

theorem history_at {h h1 h2 : List (Event Q A)} {e : Event Q A} (hh : History h) (he : h = h1 ++ e :: h2) : At h1 e := by
  induction hh generalizing h2 with
  | nil => simp at he
  | invoke hh hn ih =>
    rcases concat_eq_split he with ⟨rfl, rfl⟩ | ⟨l, _, h⟩
    · exact hn
    · exact ih h
  | handled hh hi hn hr ih =>
    rcases concat_eq_split he with ⟨rfl, rfl⟩ | ⟨l, _, h⟩
    · exact ⟨hi, hn, hr⟩
    · exact ih h
  | «return» hh hd hn ih =>
    rcases concat_eq_split he with ⟨rfl, rfl⟩ | ⟨l, _, h⟩
    · exact ⟨⟨_, hd⟩, hn⟩
    · exact ih h
  | refuse hh hn ih =>
    rcases concat_eq_split he with ⟨rfl, rfl⟩ | ⟨l, _, h⟩
    · exact hn
    · exact ih h
  | cancel hh ih =>
    rcases concat_eq_split he with ⟨rfl, rfl⟩ | ⟨l, _, h⟩
    · trivial
    · exact ih h

theorem handled_once {h : List (Event Q A)} (hh : History h) : ((h.filterMap handled?).map (·.1)).Nodup := by
  induction hh with
  | nil => exact List.nodup_nil
  | @handled h i q a hh hi hn hr ih =>
    rw [List.filterMap_append, List.map_append]
    refine List.nodup_append.2 ⟨ih, by simp [handled?], ?_⟩
    intro j hj k hk
    simp only [List.filterMap_cons, handled?, List.filterMap_nil, List.map_cons, List.map_nil, List.mem_singleton] at hk
    subst hk
    rintro rfl
    obtain ⟨⟨j, q', a'⟩, hx, rfl⟩ := List.mem_map.1 hj
    obtain ⟨e, he, hs⟩ := List.mem_filterMap.1 hx
    cases e with
    | handled i' q'' a'' => cases hs; exact hn _ _ he
    | _ => cases hs
  | _ => rename_i ih; simpa [List.filterMap_append, List.filterMap_cons, handled?] using ih

/-- The service has not been refusing while the thread runs. -/
theorem alive_not_refused {s : State δ Q A} (h : Reachable handle d0 s) (ha : s.alive = true) {i : Nat} : s.calls[i]? ≠ some .refused := by
  induction h generalizing i with
  | new => simp [State.new]
  | client h hs ih =>
    cases hs with
    | call q =>
      intro hc
      rcases getElem?_concat_cases hc with ⟨_, hx⟩ | hc
      · cases hx
      · exact ih ha hc
    | cancel hx =>
      intro hc
      rcases getElem?_set_cases hc with ⟨_, hx⟩ | ⟨_, hc⟩
      · cases hx
      · exact ih ha hc
  | server h hs ih =>
    cases hs with
    | unsent _ hd => exact absurd (ha.symm.trans hd) (by simp)
    | unanswered _ hd => exact absurd (ha.symm.trans hd) (by simp)
    | receive => exact ih ha
    | work hb =>
      unfold State.work at ha ⊢
      split at ha
      · cases ha
      · split at ha
        · rename_i hw
          intro hc
          rcases getElem?_set_cases hc with ⟨_, hx⟩ | ⟨_, hc⟩
          · cases hx
          · exact ih ha hc
        · cases ha
    | _ =>
      intro hc
      rcases getElem?_set_cases hc with ⟨_, hx⟩ | ⟨_, hc⟩
      · cases hx
      · exact ih ha hc

/-! ## Progress -/

def weight : Call Q A → Nat
  | .sending _ => 6
  | .waiting _ => 2
  | .answered _ => 1
  | _ => 0

/-- An upper bound on the steps the service can still make without new calls. -/
def work (s : State δ Q A) : Nat := (s.calls.map weight).sum + 2 * s.queue.length + s.busy.toList.length

theorem sum_set {l : List (Call Q A)} {i : Nat} {c c' : Call Q A} (h : l[i]? = some c) :
    ((l.set i c').map weight).sum + weight c = (l.map weight).sum + weight c' := by
  induction l generalizing i with
  | nil => simp at h
  | cons x l ih =>
    cases i with
    | zero =>
      simp only [List.getElem?_cons_zero, Option.some.injEq] at h
      subst h
      simp only [List.set_cons_zero, List.map_cons, List.sum_cons]
      omega
    | succ i =>
      have := ih (i := i) (by simpa using h)
      simp only [List.set_cons_succ, List.map_cons, List.sum_cons]
      omega

theorem server_work {s s' : State δ Q A} (h : Server handle s s') : work s' < work s := by
  cases h with
  | @send i q h _ hq =>
    have := sum_set (c' := .waiting q) h
    simp only [weight] at this
    simp only [work, State.send, List.length_append, List.length_singleton]
    omega
  | @unsent i q h _ =>
    have := sum_set (c' := .refused) h
    simp only [weight] at this
    simp only [work, State.refuse]
    omega
  | @unanswered i q h _ =>
    have := sum_set (c' := .refused) h
    simp only [weight] at this
    simp only [work, State.refuse]
    omega
  | @«return» i a h =>
    have := sum_set (c' := .returned a) h
    simp only [weight] at this
    simp only [work, State.return]
    omega
  | @receive q i rest _ hb hq =>
    simp only [work, State.receive, hb, hq, List.length_cons, Option.toList_some, Option.toList_none, List.length_nil]
    omega
  | @work q i hb =>
    unfold State.work
    split
    · simp only [work, State.die, hb, Option.toList_some, List.length_cons, Option.toList_none, List.length_nil]; omega
    · rename_i d' a hh
      split
      · rename_i q0 hw
        have := sum_set (c' := .answered a) hw
        simp only [weight] at this
        simp only [work, hb, Option.toList_some, List.length_cons, Option.toList_none, List.length_nil]
        omega
      · simp only [work, State.die, hb, Option.toList_some, List.length_cons, Option.toList_none, List.length_nil]; omega

theorem works_reachable {n : Nat} {s s' : State δ Q A} (h : Reachable handle d0 s) (hw : Works handle n s s') : Reachable handle d0 s' := by
  induction hw with
  | nil => exact h
  | snoc _ hs ih => exact (ih h).server hs

theorem works_bound {n : Nat} {s s' : State δ Q A} (hw : Works handle n s s') : n + work s' ≤ work s := by
  induction hw with
  | nil => omega
  | snoc _ hs ih => have := server_work hs; omega

theorem stuck_done {s : State δ Q A} (h : Reachable handle d0 s) (hs : ∀ s', ¬ Server handle s s') {i : Nat} {c : Call Q A}
    (hc : s.calls[i]? = some c) : Done c := by
  have hi := reachable_inv h
  have hb : s.busy = none := by
    cases hb : s.busy with
    | none => rfl
    | some p => exact absurd (.work (q := p.1) (i := p.2) hb) (hs _)
  cases ha : s.alive with
  | false =>
    cases c with
    | sending q => exact absurd (.unsent hc ha) (hs _)
    | waiting q => exact absurd (.unanswered hc ha) (hs _)
    | answered a => exact absurd (.return hc) (hs _)
    | _ => trivial
  | true =>
    have hq : s.queue = [] := by
      cases hq : s.queue with
      | nil => rfl
      | cons p rest => exact absurd (.receive (q := p.1) (i := p.2) (rest := rest) ha hb hq) (hs _)
    cases c with
    | sending q => exact absurd (.send hc ha (by simp [hq])) (hs _)
    | waiting q =>
      have := (hi.waiting hc).2.2 ha
      simp [pending, hb, hq] at this
    | answered a => exact absurd (.return hc) (hs _)
    | _ => trivial

/-! ## A thread that ended -/

/-- While the thread is gone nothing is answered. -/
structure Gone (n : Nat) (s : State δ Q A) : Prop where
  dead : s.alive = false
  busy : s.busy = none
  len : n ≤ s.calls.length
  silent : ∀ i a, n ≤ i → Event.return i a ∉ s.history
  none : ∀ i a, n ≤ i → s.calls[i]? ≠ some (.answered a)

theorem Gone.later {n : Nat} {s s' : State δ Q A} (h : Gone n s) (hl : Later handle s s') : Gone n s' := by
  induction hl with
  | nil => exact h
  | client _ hs ih =>
    cases hs with
    | call q =>
      refine ⟨ih.dead, ih.busy, ?_, ?_, ?_⟩
      · simp only [State.call, List.length_append]; have := ih.len; omega
      · intro i a hn hm
        simp only [State.call, List.mem_append, List.mem_singleton, reduceCtorEq, or_false] at hm
        exact ih.silent i a hn hm
      · intro i a hn hm
        rcases getElem?_concat_cases hm with ⟨_, hx⟩ | hm
        · cases hx
        · exact ih.none i a hn hm
    | cancel hx =>
      refine ⟨ih.dead, ih.busy, ?_, ?_, ?_⟩
      · simp only [State.cancel, List.length_set]; exact ih.len
      · intro i a hn hm
        simp only [State.cancel, List.mem_append, List.mem_singleton, reduceCtorEq, or_false] at hm
        exact ih.silent i a hn hm
      · intro i a hn hm
        rcases getElem?_set_cases hm with ⟨_, hx⟩ | ⟨_, hm⟩
        · cases hx
        · exact ih.none i a hn hm
  | server _ hs ih =>
    cases hs with
    | send _ ha _ => exact absurd (ha.symm.trans ih.dead) (by simp)
    | receive ha _ _ => exact absurd (ha.symm.trans ih.dead) (by simp)
    | work hb => rw [ih.busy] at hb; cases hb
    | «return» hx =>
      refine ⟨ih.dead, ih.busy, ?_, ?_, ?_⟩
      · simp only [State.return, List.length_set]; exact ih.len
      · intro i a hn hm
        simp only [State.return, List.mem_append, List.mem_singleton, Event.return.injEq] at hm
        rcases hm with hm | ⟨rfl, rfl⟩
        · exact ih.silent i a hn hm
        · exact ih.none _ _ hn hx
      · intro i a hn hm
        rcases getElem?_set_cases hm with ⟨_, hx⟩ | ⟨_, hm⟩
        · cases hx
        · exact ih.none i a hn hm
    | _ =>
      refine ⟨ih.dead, ih.busy, ?_, ?_, ?_⟩
      · simp only [State.refuse, List.length_set]; exact ih.len
      · intro i a hn hm
        simp only [State.refuse, List.mem_append, List.mem_singleton, reduceCtorEq, or_false] at hm
        exact ih.silent i a hn hm
      · intro i a hn hm
        rcases getElem?_set_cases hm with ⟨_, hx⟩ | ⟨_, hm⟩
        · cases hx
        · exact ih.none i a hn hm

end TCP.Service
