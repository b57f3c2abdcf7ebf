import Verif.Spec.Storage

/-! # Lemmas about the Raft log store model -/

namespace TCP.Storage
open Spec

theorem consecutive_get {a : Nat} {es : List Entry} (h : ConsecutiveFrom a es) {k : Nat} {e : Entry}
    (hk : es[k]? = some e) : e.index = a + k := by
  induction es generalizing a k with
  | nil => simp at hk
  | cons x xs ih =>
    obtain ⟨h1, h2⟩ := h
    cases k with
    | zero => simp at hk; subst hk; simpa using h1
    | succ k =>
      simp at hk
      have := ih h2 hk
      omega

theorem consecutive_append {a : Nat} {xs ys : List Entry} (hx : ConsecutiveFrom a xs)
    (hy : ConsecutiveFrom (a + xs.length) ys) : ConsecutiveFrom a (xs ++ ys) := by
  induction xs generalizing a with
  | nil => simpa using hy
  | cons x xs ih =>
    refine ⟨hx.1, ih hx.2 ?_⟩
    have : a + (x :: xs).length = a + 1 + xs.length := by simp; omega
    rwa [this] at hy

theorem consecutive_take {a : Nat} {xs : List Entry} (hx : ConsecutiveFrom a xs) (n : Nat) :
    ConsecutiveFrom a (xs.take n) := by
  induction xs generalizing a n with
  | nil => simp [ConsecutiveFrom]
  | cons x xs ih =>
    cases n with
    | zero => simp [ConsecutiveFrom]
    | succ n => exact ⟨hx.1, ih hx.2 n⟩

theorem consecutive_drop {a : Nat} {xs : List Entry} (hx : ConsecutiveFrom a xs) (n : Nat)
    (hn : n ≤ xs.length) : ConsecutiveFrom (a + n) (xs.drop n) := by
  induction xs generalizing a n with
  | nil => simp [ConsecutiveFrom]
  | cons x xs ih =>
    cases n with
    | zero => simpa using hx
    | succ n =>
      simp at hn
      have := ih hx.2 n hn
      have e : a + (n + 1) = a + 1 + n := by omega
      rw [e]; simpa using this

/-- The invariant of every state reachable through the API. -/
structure Inv (s : Store) : Prop where
  cons : ConsecutiveFrom (firstIndex s) s.entries
  lo : s.snap.index ≤ firstIndex s
  hi : firstIndex s ≤ s.snap.index + 1
  wf : AMap.WF s.requests
  pend : ∀ p i, s.requests.get p = some i → satisfies s.snap.index s.snap.conf p i = false

theorem firstIndex_nil {s : Store} (h : s.entries = []) : firstIndex s = s.snap.index + 1 := by
  simp [firstIndex, h]

theorem firstIndex_cons {s : Store} {e : Entry} {es : List Entry} (h : s.entries = e :: es) :
    firstIndex s = e.index := by
  simp [firstIndex, h]

theorem lastIndex_eq {s : Store} (h : Inv s) : lastIndex s + 1 = firstIndex s + s.entries.length := by
  cases he : s.entries with
  | nil => simp [firstIndex_nil he, lastIndex, he]
  | cons e es =>
    have hne : s.entries ≠ [] := by simp [he]
    have hl : s.entries[s.entries.length - 1]? = some (s.entries.getLast hne) := by
      rw [List.getLast_eq_getElem, List.getElem?_eq_getElem]
    have := consecutive_get h.cons hl
    simp only [lastIndex, List.getLast?_eq_some_getLast hne]
    have hlen : 0 < s.entries.length := by simp [he]
    rw [← he]
    omega

theorem inv_new (d : Nat) : Inv (new d) := by
  constructor
  · simp [new, ConsecutiveFrom]
  · simp [new, firstIndex]
  · simp [new, firstIndex]
  · simp [new, AMap.WF, AMap.keys]
  · simp [new]

theorem appendEntries_cases (s : Store) (e : Entry) (es : List Entry) (h : Inv s) :
    appendEntries s (e :: es) =
      if e.index < firstIndex s ∨ lastIndex s + 1 < e.index then .panic
      else .ok ({ s with entries := s.entries.take (e.index - firstIndex s) ++ (e :: es) }, .ok ()) := by
  have hl := lastIndex_eq h
  unfold appendEntries
  by_cases h1 : e.index < firstIndex s
  · simp [h1]
  · by_cases h2 : lastIndex s + 1 < e.index
    · simp [h1, h2]
    · have h3 : ¬ (e.index - firstIndex s > s.entries.length) := by omega
      simp [h1, h2, h3]

theorem firstIndex_append {s : Store} (h : Inv s) {e : Entry} {es : List Entry}
    (h1 : ¬ e.index < firstIndex s) (h2 : ¬ lastIndex s + 1 < e.index) :
    firstIndex { s with entries := s.entries.take (e.index - firstIndex s) ++ (e :: es) }
      = firstIndex s := by
  have hl := lastIndex_eq h
  cases he : s.entries with
  | nil =>
    simp only [he, List.length_nil, Nat.add_zero] at hl
    have : firstIndex s = e.index := by omega
    rw [this]
    simp [firstIndex]
  | cons x xs =>
    have hx := firstIndex_cons he
    rw [hx] at h1 ⊢
    by_cases h0 : e.index - x.index = 0
    · have : e.index = x.index := by omega
      rw [h0]
      simpa [firstIndex] using this
    · obtain ⟨n, hn⟩ : ∃ n, e.index - x.index = n + 1 := ⟨e.index - x.index - 1, by omega⟩
      rw [hn]; simp [firstIndex]

theorem inv_append {s s' : Store} {b : List Entry} {r : Except Err Unit} (h : Inv s) (hb : Batch b)
    (hs : appendEntries s b = .ok (s', r)) : Inv s' := by
  cases b with
  | nil => simp [appendEntries] at hs; rw [← hs.1]; exact h
  | cons e es =>
    rw [appendEntries_cases s e es h] at hs
    split at hs
    · simp at hs
    · rename_i hn
      simp only [not_or] at hn
      simp only [Run.ok.injEq, Prod.mk.injEq] at hs
      have hf := firstIndex_append (es := es) h hn.1 hn.2
      have hl := lastIndex_eq h
      rw [← hs.1]
      constructor
      · rw [hf]
        refine consecutive_append (consecutive_take h.cons _) ?_
        have : firstIndex s + (s.entries.take (e.index - firstIndex s)).length = e.index := by
          rw [List.length_take]; omega
        rw [this]; exact hb
      · rw [hf]; exact h.lo
      · rw [hf]; exact h.hi
      · exact h.wf
      · exact h.pend

theorem pend_setSnapshot {s : Store} (h : AMap.WF s.requests) (sn : Snapshot) (p i : Nat)
    (hg : (setSnapshot s sn).requests.get p = some i) :
    satisfies sn.index sn.conf p i = false ∧ s.requests.get p = some i := by
  simp only [setSnapshot] at hg
  rw [AMap.get_filter h] at hg
  cases hr : AMap.get s.requests p with
  | none => simp [hr] at hg
  | some v =>
    simp only [hr, Option.filter_some] at hg
    split at hg
    · rename_i hc
      simp at hg; subst hg
      simpa using hc
    · simp at hg

theorem inv_apply {s : Store} (h : Inv s) (sn : Snapshot) : Inv (applySnapshot s sn).1 := by
  unfold applySnapshot
  split
  · exact h
  · constructor
    · simp [setSnapshot, ConsecutiveFrom]
    · simp [setSnapshot, firstIndex]
    · simp [setSnapshot, firstIndex]
    · exact h.wf.filter _
    · intro p i hg
      exact (pend_setSnapshot (s := { s with
        state := { s.state with commit := sn.index, term := max s.state.term sn.term }, entries := [] })
        h.wf sn p i hg).1

/-- `entry_term` in closed form. -/
theorem entryTerm_eq {s : Store} (h : Inv s) (i : Nat) :
    entryTerm s i =
      .ok (if i = s.snap.index then .ok s.snap.term
      else if i < firstIndex s then .error .compacted
      else match s.entries[i - firstIndex s]? with
        | some e => .ok e.term
        | none => .error .unavailable) := by
  have hl := lastIndex_eq h
  unfold entryTerm
  dsimp only
  by_cases h1 : i = s.snap.index
  · simp only [h1, if_true]
  · by_cases h2 : i < firstIndex s
    · simp only [h1, h2, if_true, if_false]
    · by_cases h3 : i > lastIndex s
      · have : s.entries[i - firstIndex s]? = none := by
          rw [List.getElem?_eq_none_iff]; omega
        simp only [h1, h2, h3, if_true, if_false, this]
      · have hlt : i - firstIndex s < s.entries.length := by omega
        simp only [h1, h2, h3, if_false, List.getElem?_eq_getElem hlt]

/-- `create_snapshot` in closed form. -/
theorem createSnapshot_eq {s : Store} (h : Inv s) (a : Nat) (c : ConfState) (d : Bytes) :
    createSnapshot s a c d =
      if a > lastIndex s then .panic
      else if a < firstIndex s then .ok (s, .error .snapshotOutOfDate)
      else match entryTerm s a with
        | .ok (.ok t) => .ok ({ setSnapshot s ⟨a, t, c, d⟩ with
            entries := s.entries.drop (a - firstIndex s) }, .ok ())
        | _ => .panic := by
  have hl := lastIndex_eq h
  unfold createSnapshot
  split
  · rfl
  · split
    · rename_i h2
      have : a < firstIndex s := h2
      simp [this]
    · rename_i h1 h2
      have h2' : ¬ a < firstIndex s := h2
      simp only [h2', if_false]
      rw [entryTerm_eq h]
      have hlen : a - firstIndex s < s.entries.length := by omega
      have hne : s.entries ≠ [] := by intro h0; simp [h0] at hlen
      obtain ⟨x, xs, hx⟩ := List.exists_cons_of_ne_nil hne
      have hterm : ∃ t, (if a = s.snap.index then Except.ok s.snap.term
          else if a < firstIndex s then .error .compacted
          else match s.entries[a - firstIndex s]? with
            | some e => .ok e.term
            | none => .error .unavailable : Except Err Nat) = .ok t := by
        by_cases ha : a = s.snap.index
        · exact ⟨s.snap.term, by simp [ha]⟩
        · exact ⟨(s.entries[a - firstIndex s]).term, by simp only [ha, h2', if_false]; rw [List.getElem?_eq_getElem hlen]⟩
      obtain ⟨t, ht⟩ := hterm
      rw [ht]
      simp only
      have hff : firstIndex (setSnapshot s ⟨a, t, c, d⟩) = firstIndex s := by
        simp [firstIndex, setSnapshot, hx]
      have hll : lastIndex (setSnapshot s ⟨a, t, c, d⟩) = lastIndex s := by
        simp only [lastIndex, setSnapshot, List.getLast?_eq_some_getLast hne]
      unfold compactEntries
      rw [hff, hll]
      by_cases hle : a ≤ firstIndex s
      · have h0 : a - firstIndex s = 0 := by omega
        simp [hle, h0, setSnapshot]
      · have h3 : ¬ a > lastIndex s + 1 := by omega
        have hfx := firstIndex_cons hx
        have h4 : ¬ (a - x.index > (x :: xs).length) := by
          rw [← hx]; rw [← hfx]; omega
        simp only [hle, h3, if_false, setSnapshot, hx, List.head?_cons]
        rw [if_neg h4, ← hfx]

theorem firstIndex_create {s : Store} (h : Inv s) {a : Nat} (sn : Snapshot) (rq : AMap Nat Nat)
    (h1 : ¬ a > lastIndex s) (h2 : ¬ a < firstIndex s) :
    firstIndex { s with snap := sn, requests := rq, entries := s.entries.drop (a - firstIndex s) } = a := by
  have hl := lastIndex_eq h
  have hlen : a - firstIndex s < s.entries.length := by omega
  have hh : (s.entries.drop (a - firstIndex s)).head? = some (s.entries[a - firstIndex s]) := by
    rw [List.head?_drop, List.getElem?_eq_getElem hlen]
  unfold firstIndex at *
  simp only [hh]
  have := consecutive_get h.cons (List.getElem?_eq_getElem hlen)
  unfold firstIndex at this
  omega

theorem inv_create {s s' : Store} {r : Except Err Unit} (h : Inv s) {a : Nat} {c : ConfState} {d : Bytes}
    (hs : createSnapshot s a c d = .ok (s', r)) : Inv s' := by
  have hl := lastIndex_eq h
  rw [createSnapshot_eq h] at hs
  split at hs
  · simp at hs
  · split at hs
    · simp at hs; rw [← hs.1]; exact h
    · rename_i h1 h2
      split at hs
      · rename_i t ht
        simp only [Run.ok.injEq, Prod.mk.injEq] at hs
        have hff : firstIndex s' = a := by
          rw [← hs.1]; exact firstIndex_create h _ _ h1 h2
        constructor
        · rw [hff, ← hs.1]
          have := consecutive_drop h.cons (a - firstIndex s) (by omega)
          have e : firstIndex s + (a - firstIndex s) = a := by omega
          rwa [e] at this
        · rw [hff, ← hs.1]; simp [setSnapshot]
        · rw [hff, ← hs.1]; simp [setSnapshot]
        · rw [← hs.1]; exact h.wf.filter _
        · intro p i hg
          rw [← hs.1] at hg ⊢
          exact (pend_setSnapshot h.wf ⟨a, t, c, d⟩ p i hg).1
      · simp at hs

theorem inv_request {s : Store} (h : Inv s) (i p : Nat) : Inv (snapshot s i p).1 := by
  unfold snapshot
  split
  · exact h
  · rename_i hn
    refine ⟨h.cons, h.lo, h.hi, h.wf.set _ _, ?_⟩
    intro q j hg
    simp only [AMap.get_set] at hg
    split at hg
    · rename_i e; subst e; simp at hg; subst hg; simpa using hn
    · exact h.pend q j hg

theorem inv_step {s s' : Store} {op : Op} (h : Inv s) (hb : ∀ b, op = .append b → Batch b)
    (hs : step s op = .ok s') : Inv s' := by
  cases op with
  | setHardState hd => simp [step, setHardState] at hs; rw [← hs]; exact ⟨h.cons, h.lo, h.hi, h.wf, h.pend⟩
  | append b =>
    simp only [step, Run.bind_eq_ok] at hs
    obtain ⟨⟨s1, r⟩, h1, h2⟩ := hs
    simp at h2; subst h2
    exact inv_append h (hb b rfl) h1
  | apply sn => simp [step] at hs; rw [← hs]; exact inv_apply h sn
  | create a c d =>
    simp only [step, Run.bind_eq_ok] at hs
    obtain ⟨⟨s1, r⟩, h1, h2⟩ := hs
    simp at h2; subst h2
    exact inv_create h h1
  | request i p => simp [step] at hs; rw [← hs]; exact inv_request h i p

theorem inv_run {s s' : Store} {ops : List Op} (h : Inv s) (hb : RaftHistory ops)
    (hs : run s ops = .ok s') : Inv s' := by
  induction ops generalizing s with
  | nil => simp [run] at hs; rw [← hs]; exact h
  | cons op ops ih =>
    simp only [run, Run.bind_eq_ok] at hs
    obtain ⟨s1, h1, h2⟩ := hs
    exact ih (inv_step h (fun b e => hb b (by simp [e])) h1)
      (fun b hm => hb b (List.mem_cons_of_mem _ hm)) h2

theorem inv_reachable {s : Store} (h : Reachable s) : Inv s := by
  obtain ⟨d, ops, hb, hs⟩ := h
  exact inv_run (inv_new d) hb hs

/-- What a reader sees, in closed form. -/
theorem read_eq {s : Store} (h : Inv s) (i : Nat) :
    Spec.read s i = if firstIndex s ≤ i then s.entries[i - firstIndex s]? else none := by
  have hl := lastIndex_eq h
  unfold Spec.read entries
  by_cases h0 : s.entries.isEmpty
  · simp only [h0, if_true]
    simp at h0; simp [h0]
  · simp only [h0]
    by_cases h1 : i < firstIndex s
    · have : ¬ firstIndex s ≤ i := by omega
      simp [h1, this]
    · have h1' : firstIndex s ≤ i := by omega
      simp only [h1, h1', if_true, if_false]
      by_cases h2 : i + 1 > lastIndex s + 1
      · have : s.entries[i - firstIndex s]? = none := by rw [List.getElem?_eq_none_iff]; omega
        simp [h2, this]
      · have h3 : ¬ (i + 1 < i) := by omega
        have h4 : ¬ (i + 1 - firstIndex s > s.entries.length) := by omega
        have hlt : i - firstIndex s < s.entries.length := by omega
        simp only [h2, h3, h4, if_false, Bool.false_eq_true]
        have e1 : i + 1 - firstIndex s = (i - firstIndex s) + 1 := by omega
        rw [e1, List.drop_take, List.getElem?_eq_getElem hlt]
        have : i - firstIndex s + 1 - (i - firstIndex s) = 1 := by omega
        rw [this, List.drop_eq_getElem_cons hlt]
        simp only [List.take_succ_cons, List.take_zero]

theorem run_append_inv {s s' : Store} {ops : List Op} (h : run s ops = .ok s') (op : Op) :
    run s (ops ++ [op]) = step s' op := by
  induction ops generalizing s with
  | nil => simp [run] at h; subst h; simp only [List.nil_append, run]; cases step s op <;> rfl
  | cons o ops ih =>
    simp only [run, Run.bind_eq_ok] at h
    obtain ⟨s1, h1, h2⟩ := h
    simp only [List.cons_append, run, h1, Run.bind_ok]
    exact ih h2

theorem run_append {s : Store} {xs ys : List Op} :
    run s (xs ++ ys) = (run s xs).bind (fun s1 => run s1 ys) := by
  induction xs generalizing s with
  | nil => rfl
  | cons o xs ih =>
    simp only [List.cons_append, run]
    cases step s o with
    | panic => rfl
    | ok s1 => simp only [Run.bind_ok]; exact ih

theorem satisfies_iff {i : Nat} {c : ConfState} {p r : Nat} :
    satisfies i c p r = true ↔ r ≤ i ∧ (p ∈ c.voters ∨ p ∈ c.learners ∨ p ∈ c.votersOutgoing) := by
  simp only [satisfies, ConfState.containsNode, Bool.and_eq_true, decide_eq_true_eq, List.any_eq_true,
    List.mem_append, beq_iff_eq, ge_iff_le]
  constructor
  · rintro ⟨h, x, hx, rfl⟩; exact ⟨h, by simpa [or_assoc] using hx⟩
  · rintro ⟨h, hx⟩; exact ⟨h, p, by simpa [or_assoc] using hx, rfl⟩

/-- The snapshot index never decreases in one call. -/
theorem snap_step_mono {s s' : Store} {op : Op} (h : Inv s) (hs : step s op = .ok s') :
    s.snap.index ≤ s'.snap.index := by
  have hl := lastIndex_eq h
  cases op with
  | setHardState hd => simp [step, setHardState] at hs; rw [← hs]; exact Nat.le_refl _
  | append b =>
    simp only [step, Run.bind_eq_ok] at hs
    obtain ⟨⟨s1, r⟩, h1, h2⟩ := hs
    simp at h2; subst h2
    cases b with
    | nil => simp [appendEntries] at h1; rw [← h1.1]; exact Nat.le_refl _
    | cons e es =>
      rw [appendEntries_cases s e es h] at h1
      split at h1
      · simp at h1
      · simp at h1; rw [← h1.1]; exact Nat.le_refl _
  | apply sn =>
    simp [step] at hs; rw [← hs]
    unfold applySnapshot
    split
    · exact Nat.le_refl _
    · rename_i hn
      have := h.lo
      simp only [setSnapshot]; omega
  | create a c d =>
    simp only [step, Run.bind_eq_ok] at hs
    obtain ⟨⟨s1, r⟩, h1, h2⟩ := hs
    simp at h2; subst h2
    rw [createSnapshot_eq h] at h1
    have := h.lo
    split at h1
    · simp at h1
    · split at h1
      · simp at h1; rw [← h1.1]; exact Nat.le_refl _
      · split at h1
        · simp only [Run.ok.injEq, Prod.mk.injEq] at h1
          rw [← h1.1]; simp only [setSnapshot]; omega
        · simp at h1
  | request i p =>
    simp [step] at hs; rw [← hs]
    unfold snapshot; split <;> exact Nat.le_refl _

end TCP.Storage
