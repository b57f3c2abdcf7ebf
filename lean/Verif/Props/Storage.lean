import Verif.Proofs.Storage

/-!
# C01–C07: the Raft log store

Every theorem quantifies over all states reachable through the API (`Spec.Reachable`: a fresh store
followed by any history of calls whose append batches are contiguous).
-/

namespace TCP.Storage
open Spec

/-- A concrete history used by the non-vacuity examples: four entries, a snapshot request from an
unknown peer, a snapshot at 2, a conflicting append at 4 and a hard state. -/
def exOps : List Op :=
  [.append [⟨1, 1, [1]⟩, ⟨2, 1, [2]⟩, ⟨3, 1, [3]⟩, ⟨4, 1, [4]⟩], .request 2 9,
   .create 2 ⟨[1, 2], [], []⟩ [7, 7], .append [⟨4, 2, [5]⟩, ⟨5, 2, [6]⟩], .setHardState ⟨2, 1, 3⟩]

/-- The state `exOps` leads to. -/
def exStore : Store :=
  ⟨⟨2, 1, 3⟩, [⟨2, 1, [2]⟩, ⟨3, 1, [3]⟩, ⟨4, 2, [5]⟩, ⟨5, 2, [6]⟩], 10,
   ⟨2, 1, ⟨[1, 2], [], []⟩, [7, 7]⟩, [(9, 2)]⟩

theorem exReachable : Reachable exStore := by
  refine ⟨10, exOps, ?_, by decide⟩
  intro b hb
  simp [exOps] at hb
  rcases hb with h | h <;> subst h <;> simp [Batch, ConsecutiveFrom]

/-! ## C01 -/

/-- C01: after every history, the indices that can be read are exactly `first_index ..= last_index`,
each readable entry carries its own index, and the window is anchored at the snapshot:
`snapshot ≤ first_index ≤ snapshot + 1` and `snapshot ≤ last_index`. -/
theorem C01_log_contiguous_and_anchored {s : Store} (h : Reachable s) :
    s.snap.index ≤ firstIndex s ∧ firstIndex s ≤ s.snap.index + 1 ∧
    s.snap.index ≤ lastIndex s ∧ firstIndex s ≤ lastIndex s + 1 ∧
    (∀ i, (∃ e, Spec.read s i = some e) ↔ firstIndex s ≤ i ∧ i ≤ lastIndex s) ∧
    (∀ i e, Spec.read s i = some e → e.index = i) := by
  have hi := inv_reachable h
  have hl := lastIndex_eq hi
  have := hi.lo
  have := hi.hi
  have hne : s.entries = [] → firstIndex s = s.snap.index + 1 := firstIndex_nil
  have hlast : s.snap.index ≤ lastIndex s := by
    cases he : s.entries with
    | nil => simp [lastIndex, he]
    | cons x xs => have : 0 < s.entries.length := by simp [he]
                   omega
  refine ⟨by omega, by omega, hlast, by omega, fun i => ?_, fun i e hr => ?_⟩
  · rw [read_eq hi]
    by_cases h1 : firstIndex s ≤ i
    · simp only [h1, if_true, true_and]
      constructor
      · rintro ⟨e, he⟩
        have := (List.getElem?_eq_some_iff.mp he).1
        omega
      · intro h2
        exact ⟨_, List.getElem?_eq_getElem (by omega)⟩
    · simp [h1]
  · rw [read_eq hi] at hr
    split at hr
    · have := consecutive_get hi.cons hr
      omega
    · simp at hr

example : Reachable exStore ∧ firstIndex exStore = 2 ∧ lastIndex exStore = 5 ∧
    Spec.read exStore 4 = some ⟨4, 2, [5]⟩ := ⟨exReachable, by decide, by decide, by decide⟩

/-! ## C02 -/

/-- C02: an append of a contiguous non-empty batch either panics — exactly when it would start
below the retained log or leave a gap — or yields a log that reads as the old one below the batch's
first index and as exactly the batch from there on; snapshot, hard state and requests are untouched. -/
theorem C02_append_overwrites_exact_suffix {s : Store} (h : Reachable s) (e : Entry) (es : List Entry)
    (hb : Batch (e :: es)) :
    (appendEntries s (e :: es) = .panic ↔ e.index < firstIndex s ∨ lastIndex s + 1 < e.index) ∧
    (∀ s' r, appendEntries s (e :: es) = .ok (s', r) →
      r = .ok () ∧
      (∀ i, i < e.index → Spec.read s' i = Spec.read s i) ∧
      (∀ i, e.index ≤ i → Spec.read s' i = (e :: es)[i - e.index]?) ∧
      lastIndex s' = e.index + es.length ∧ firstIndex s' = firstIndex s ∧
      s'.snap = s.snap ∧ s'.state = s.state ∧ s'.requests = s.requests) := by
  have hi := inv_reachable h
  have hl := lastIndex_eq hi
  rw [appendEntries_cases s e es hi]
  refine ⟨?_, fun s' r hs => ?_⟩
  · split
    · rename_i hc; exact ⟨fun _ => hc, fun _ => rfl⟩
    · rename_i hc; exact ⟨fun hp => by simp at hp, fun hp => absurd hp hc⟩
  split at hs
  · simp at hs
  · rename_i hn
    simp only [not_or] at hn
    have hi' : Inv s' := inv_append hi hb (by
      rw [appendEntries_cases s e es hi, if_neg (by simp only [not_or]; exact hn)]; exact hs)
    simp only [Run.ok.injEq, Prod.mk.injEq] at hs
    have hf : firstIndex s' = firstIndex s := by
      rw [← hs.1]; exact firstIndex_append hi hn.1 hn.2
    have hent : s'.entries = s.entries.take (e.index - firstIndex s) ++ (e :: es) := by rw [← hs.1]
    have htl : (s.entries.take (e.index - firstIndex s)).length = e.index - firstIndex s := by
      rw [List.length_take]; omega
    refine ⟨hs.2.symm, fun i hlt => ?_, fun i hge => ?_, ?_, hf, by rw [← hs.1], by rw [← hs.1],
      by rw [← hs.1]⟩
    · rw [read_eq hi, read_eq hi', hf, hent]
      split
      · rw [List.getElem?_append_left (by omega), List.getElem?_take_of_lt (by omega)]
      · rfl
    · rw [read_eq hi', hf, hent, if_pos (by omega), List.getElem?_append_right (by omega), htl]
      congr 1; omega
    · have := lastIndex_eq hi'
      rw [hf, hent, List.length_append, htl] at this
      simp only [List.length_cons] at this
      omega

/-- C02, empty batch: nothing changes. -/
theorem C02_append_empty (s : Store) : appendEntries s [] = .ok (s, .ok ()) := rfl

example : Batch [⟨4, 3, [9]⟩, ⟨5, 3, []⟩] ∧
    ∃ s', appendEntries exStore [⟨4, 3, [9]⟩, ⟨5, 3, []⟩] = .ok (s', .ok ()) ∧
      Spec.read s' 3 = some ⟨3, 1, [3]⟩ ∧ Spec.read s' 4 = some ⟨4, 3, [9]⟩ :=
  ⟨by simp [Batch, ConsecutiveFrom], _, rfl, by decide, by decide⟩

/-! ## C03 -/

/-- C03: what `entries(low, high, max)` returns, for every raft-rs `limit_size` meeting its
contract.  Never wrong data: a returned list is `low, low+1, …` as individually readable. -/
theorem C03_range_reads_faithful {limit : List Entry → Option Nat → List Entry}
    (hlim : LimitContract limit) {s : Store} (h : Reachable s) (low high : Nat) (max : Option Nat) :
    -- an accepted read
    (∀ es, entries limit s low high max = .ok (.ok es) →
      (∀ k, k < es.length → es[k]? = Spec.read s (low + k)) ∧
      low + es.length ≤ high ∧ (low < high → es ≠ []) ∧
      (max = none → low + es.length = high)) ∧
    -- when it is accepted, and what is reported otherwise
    (firstIndex s ≤ low → low ≤ high → high ≤ lastIndex s + 1 → firstIndex s ≤ lastIndex s →
      ∃ es, entries limit s low high max = .ok (.ok es)) ∧
    (lastIndex s < firstIndex s → entries limit s low high max = .ok (.error .unavailable)) ∧
    (firstIndex s ≤ lastIndex s → low < firstIndex s →
      entries limit s low high max = .ok (.error .compacted)) ∧
    (firstIndex s ≤ low → firstIndex s ≤ lastIndex s → (lastIndex s + 1 < high ∨ high < low) →
      entries limit s low high max = .panic) := by
  have hi := inv_reachable h
  have hl := lastIndex_eq hi
  have hemp : s.entries.isEmpty = true ↔ lastIndex s < firstIndex s := by
    rw [List.isEmpty_iff, ← List.length_eq_zero_iff]; omega
  refine ⟨fun es hes => ?_, fun h1 h2 h3 h4 => ?_, fun h1 => ?_, fun h1 h2 => ?_, fun h1 h2 h3 => ?_⟩
  · unfold entries at hes
    split at hes
    · simp at hes
    · split at hes
      · simp at hes
      · split at hes
        · simp at hes
        · dsimp only at hes
          split at hes
          · simp at hes
          · split at hes
            · simp at hes
            · rename_i h0 h1 h2 h3 h4
              simp only [Run.ok.injEq, Except.ok.injEq] at hes
              have hlen : ((s.entries.take (high - firstIndex s)).drop (low - firstIndex s)).length
                  = high - low := by
                rw [List.length_drop, List.length_take]; omega
              have hp := hlim.prefix_ ((s.entries.take (high - firstIndex s)).drop (low - firstIndex s)) max
              rw [hes] at hp
              have hple := hp.length_le
              refine ⟨fun k hk => ?_, by omega, fun hlt => ?_, fun hm => ?_⟩
              · obtain ⟨tl, htl⟩ := hp
                have : es[k]? = (es ++ tl)[k]? := by rw [List.getElem?_append_left hk]
                rw [this, htl, List.getElem?_drop, List.getElem?_take_of_lt (by omega), read_eq hi,
                  if_pos (by omega)]
                congr 1; omega
              · rw [← hes]
                apply hlim.nonempty
                intro hnil
                rw [hnil] at hlen; simp at hlen; omega
              · subst hm
                rw [hlim.noLimit] at hes
                rw [← hes, hlen]; omega
  · refine ⟨?_, ?_⟩
    · exact limit ((s.entries.take (high - firstIndex s)).drop (low - firstIndex s)) max
    · unfold entries
      have h0 : ¬ s.entries.isEmpty = true := by rw [hemp]; omega
      rw [if_neg h0, if_neg (by omega), if_neg (by omega)]
      dsimp only
      rw [if_neg (by omega), if_neg (by omega)]
  · unfold entries; rw [if_pos (hemp.mpr h1)]
  · unfold entries
    have h0 : ¬ s.entries.isEmpty = true := by rw [hemp]; omega
    rw [if_neg h0, if_pos h2]
  · unfold entries
    have h0 : ¬ s.entries.isEmpty = true := by rw [hemp]; omega
    rw [if_neg h0, if_neg (by omega)]
    by_cases h4 : high > lastIndex s + 1
    · rw [if_pos h4]
    · rw [if_neg h4]; dsimp only; rw [if_pos (by omega)]

/-- A limiter that keeps at most `n+1` entries meets the contract, so C03 is not vacuous. -/
example : LimitContract (fun es m => match m with | none => es | some n => es.take (n + 1)) := by
  constructor
  · intro es m; cases m with
    | none => exact List.prefix_refl _
    | some n => exact List.take_prefix _ _
  · intro es m h; cases m with
    | none => exact h
    | some n => cases es with
      | nil => exact absurd rfl h
      | cons x xs => simp
  · intro es; rfl

example : entries (fun es _ => es) exStore 3 5 none = .ok (.ok [⟨3, 1, [3]⟩, ⟨4, 2, [5]⟩]) := by decide

/-! ## C04 -/

/-- The retained entry at the snapshot index (if any) has the snapshot's term. -/
private def HeadTerm (s : Store) : Prop :=
  ∀ e, s.entries.head? = some e → e.index = s.snap.index → e.term = s.snap.term

private theorem headTerm_step {s s' : Store} {op : Op} (hi : Inv s) (hh : HeadTerm s)
    (ha : ∀ b e, op = .append b → b.head? = some e → s.snap.index < e.index)
    (hs : step s op = .ok s') : HeadTerm s' := by
  have hl := lastIndex_eq hi
  cases op with
  | setHardState hd => simp [step, setHardState] at hs; rw [← hs]; exact hh
  | append b =>
    simp only [step, Run.bind_eq_ok] at hs
    obtain ⟨⟨s1, r⟩, h1, h2⟩ := hs
    simp at h2; subst h2
    cases b with
    | nil => simp [appendEntries] at h1; rw [← h1.1]; exact hh
    | cons e es =>
      rw [appendEntries_cases s e es hi] at h1
      split at h1
      · simp at h1
      · rename_i hn
        simp only [not_or] at hn
        simp only [Run.ok.injEq, Prod.mk.injEq] at h1
        have hlt := ha _ e rfl rfl
        rw [← h1.1]
        intro x hx hxi
        simp only at hx hxi ⊢
        cases he : s.entries with
        | nil => simp [he] at hx; subst hx; omega
        | cons y ys =>
          have hf := firstIndex_cons he
          by_cases h0 : e.index - firstIndex s = 0
          · simp [h0] at hx; subst hx; omega
          · obtain ⟨n, hnn⟩ : ∃ n, e.index - firstIndex s = n + 1 :=
              ⟨e.index - firstIndex s - 1, by omega⟩
            rw [hnn, he] at hx; simp at hx; subst hx
            exact hh _ (by rw [he]; rfl) hxi
  | apply sn =>
    simp [step] at hs; rw [← hs]
    unfold applySnapshot
    split
    · exact hh
    · intro e he; simp [setSnapshot] at he
  | create a c d =>
    simp only [step, Run.bind_eq_ok] at hs
    obtain ⟨⟨s1, r⟩, h1, h2⟩ := hs
    simp at h2; subst h2
    rw [createSnapshot_eq hi] at h1
    split at h1
    · simp at h1
    · split at h1
      · simp at h1; rw [← h1.1]; exact hh
      · rename_i g1 g2
        split at h1
        · rename_i t ht
          simp only [Run.ok.injEq, Prod.mk.injEq] at h1
          rw [← h1.1]
          intro e he hei
          simp only [setSnapshot, List.head?_drop] at he hei ⊢
          rw [entryTerm_eq hi] at ht
          simp only [Run.ok.injEq] at ht
          by_cases hsn : a = s.snap.index
          · simp only [hsn, if_true, Except.ok.injEq] at ht
            rw [← ht]
            have := hi.lo
            have h0 : a - firstIndex s = 0 := by omega
            rw [h0] at he
            refine hh e ?_ (by omega)
            rw [List.head?_eq_getElem?]; exact he
          · simp only [hsn, g2, if_false, he, Except.ok.injEq] at ht
            exact ht
        · simp at h1
  | request i p =>
    simp [step] at hs; rw [← hs]
    unfold snapshot; split <;> exact hh

private theorem headTerm_run {s s' : Store} {ops : List Op} (hi : Inv s) (hh : HeadTerm s)
    (hb : RaftHistory ops) (ha : AboveSnapshot s ops) (hs : run s ops = .ok s') : HeadTerm s' := by
  induction ops generalizing s with
  | nil => simp [run] at hs; rw [← hs]; exact hh
  | cons op ops ih =>
    simp only [run, Run.bind_eq_ok] at hs
    obtain ⟨s1, h1, h2⟩ := hs
    exact ih (inv_step hi (fun b e => hb b (by simp [e])) h1) (headTerm_step hi hh ha.1 h1)
      (fun b hm => hb b (List.mem_cons_of_mem _ hm)) (ha.2 _ h1) h2

/-- C04, for histories that obey Raft's rule of never rewriting what a snapshot covers:
`term(i)` is the term of the readable entry `i`, the snapshot's term at the snapshot index,
`Compacted` below and `Unavailable` above; it never panics.
Partial: for arbitrary histories the first clause can fail at the snapshot index, see
`C04_term_agrees_fails_for_rewritten_snapshot_entry`. -/
theorem C04_term_agrees_partial {s : Store} (h : ReachableRaft s) (i : Nat) :
    (∀ e, Spec.read s i = some e → entryTerm s i = .ok (.ok e.term)) ∧
    (i = s.snap.index → entryTerm s i = .ok (.ok s.snap.term)) ∧
    (i < s.snap.index → entryTerm s i = .ok (.error .compacted)) ∧
    (lastIndex s < i → entryTerm s i = .ok (.error .unavailable)) ∧
    (s.snap.index < i → i ≤ lastIndex s → ∃ e, Spec.read s i = some e) := by
  obtain ⟨d, ops, hb, ha, hs⟩ := h
  have hr : Reachable s := ⟨d, ops, hb, hs⟩
  have hi := inv_reachable hr
  have hl := lastIndex_eq hi
  have hh : HeadTerm s := headTerm_run (inv_new d) (by intro e he; simp [new] at he) hb ha hs
  have hc := C01_log_contiguous_and_anchored hr
  have := hi.lo
  have := hi.hi
  rw [entryTerm_eq hi]
  refine ⟨fun e he => ?_, fun h1 => by simp [h1], fun h1 => ?_, fun h1 => ?_, fun h1 h2 => ?_⟩
  · rw [read_eq hi] at he
    split at he
    · rename_i hge
      have hidx := consecutive_get hi.cons he
      by_cases h1 : i = s.snap.index
      · have h0 : i - firstIndex s = 0 := by omega
        rw [h0] at he
        have := hh e (by rw [List.head?_eq_getElem?]; exact he) (by omega)
        simp [h1, this]
      · rw [if_neg h1, if_neg (by omega), he]
    · simp at he
  · rw [if_neg (by omega), if_pos (by omega)]
  · have hsn := hc.2.2.1
    rw [if_neg (by omega), if_neg (by omega)]
    have : s.entries[i - firstIndex s]? = none := by rw [List.getElem?_eq_none_iff]; omega
    simp [this]
  · exact (hc.2.2.2.2.1 i).mpr ⟨by omega, h2⟩

/-- The full C04 is false for arbitrary histories: after a snapshot at the last index an append
at that very index is accepted, and then `term` reports the snapshot's term although the stored
entry has another one. -/
theorem C04_term_agrees_fails_for_rewritten_snapshot_entry :
    ∃ s e, Reachable s ∧ Spec.read s e.index = some e ∧ entryTerm s e.index ≠ .ok (.ok e.term) := by
  refine ⟨⟨⟨0, 0, 0⟩, [⟨1, 2, [8]⟩], 10, ⟨1, 1, ⟨[1], [], []⟩, []⟩, []⟩, ⟨1, 2, [8]⟩,
    ⟨10, [.append [⟨1, 1, [1]⟩], .create 1 ⟨[1], [], []⟩ [], .append [⟨1, 2, [8]⟩]], ?_, by decide⟩,
    by decide, by decide⟩
  intro b hb
  simp at hb
  rcases hb with h | h <;> subst h <;> simp [Batch, ConsecutiveFrom]

example : ReachableRaft exStore := by
  refine ⟨10, exOps, ?_, ?_, by decide⟩
  · intro b hb
    simp [exOps] at hb
    rcases hb with h | h <;> subst h <;> simp [Batch, ConsecutiveFrom]
  · refine ⟨?_, fun s1 h1 => ⟨?_, fun s2 h2 => ⟨?_, fun s3 h3 => ⟨?_, fun s4 h4 => ⟨?_, fun s5 h5 => trivial⟩⟩⟩⟩⟩
    · intro b e hb he; cases hb; cases he; decide
    · intro b e hb; cases hb
    · intro b e hb; cases hb
    · intro b e hb he; cases hb; cases he
      cases h1; cases h2; cases h3; decide
    · intro b e hb; cases hb

/-! ## C05 -/

/-- C05, monotonicity: along every history the snapshot index never decreases. -/
theorem C05_snapshot_index_monotone {s s' : Store} {ops : List Op} (h : Reachable s)
    (hb : RaftHistory ops) (hs : run s ops = .ok s') : s.snap.index ≤ s'.snap.index := by
  have hi := inv_reachable h
  clear h
  induction ops generalizing s with
  | nil => simp [run] at hs; rw [hs]; exact Nat.le_refl _
  | cons op ops ih =>
    simp only [run, Run.bind_eq_ok] at hs
    obtain ⟨s1, h1, h2⟩ := hs
    exact Nat.le_trans (snap_step_mono hi h1)
      (ih (fun b hm => hb b (List.mem_cons_of_mem _ hm)) h2
        (inv_step hi (fun b e => hb b (by simp [e])) h1))

/-- C05, creation: a snapshot beyond the log panics; below the retained log it is refused and
nothing changes; otherwise it records the index, the term `term(applied)` had, the given
configuration and data, keeps reading the same at and above `applied`, and leaves `last_index`
and the hard state alone. -/
theorem C05_create_snapshot {s : Store} (h : Reachable s) (a : Nat) (c : ConfState) (d : Bytes) :
    (lastIndex s < a → createSnapshot s a c d = .panic) ∧
    (a < firstIndex s → a ≤ lastIndex s → createSnapshot s a c d = .ok (s, .error .snapshotOutOfDate)) ∧
    (firstIndex s ≤ a → a ≤ lastIndex s →
      ∃ s' t, createSnapshot s a c d = .ok (s', .ok ()) ∧ entryTerm s a = .ok (.ok t) ∧
        s'.snap = ⟨a, t, c, d⟩ ∧ (∀ i, a ≤ i → Spec.read s' i = Spec.read s i) ∧
        lastIndex s' = lastIndex s ∧ s'.state = s.state) := by
  have hi := inv_reachable h
  have hl := lastIndex_eq hi
  have heq := createSnapshot_eq hi a c d
  refine ⟨fun h1 => by rw [heq, if_pos h1], fun h1 h2 => by rw [heq, if_neg (by omega), if_pos h1],
    fun h1 h2 => ?_⟩
  rw [if_neg (by omega), if_neg (by omega)] at heq
  have hlen : a - firstIndex s < s.entries.length := by omega
  have ht : ∃ t, entryTerm s a = .ok (.ok t) := by
    rw [entryTerm_eq hi]
    by_cases ha : a = s.snap.index
    · exact ⟨s.snap.term, by simp [ha]⟩
    · exact ⟨_, by rw [if_neg ha, if_neg (by omega), List.getElem?_eq_getElem hlen]⟩
  obtain ⟨t, ht⟩ := ht
  rw [ht] at heq
  simp only at heq
  have hi' := inv_create hi heq
  have hf := firstIndex_create hi ⟨a, t, c, d⟩ (setSnapshot s ⟨a, t, c, d⟩).requests
    (by omega : ¬ a > lastIndex s) (by omega)
  have hf' : firstIndex { setSnapshot s ⟨a, t, c, d⟩ with
      entries := s.entries.drop (a - firstIndex s) } = a := hf
  refine ⟨_, t, heq, ht, rfl, fun i hge => ?_, ?_, rfl⟩
  · rw [read_eq hi', read_eq hi, hf', if_pos hge, if_pos (by omega)]
    simp only [List.getElem?_drop]
    congr 1; omega
  · have := lastIndex_eq hi'
    rw [hf'] at this
    simp only [List.length_drop] at this
    omega

/-- C05, installation: an out-of-date snapshot is refused and nothing changes; otherwise the log is
emptied, the snapshot is exactly the given one, the commit index is the snapshot's, the term is
raised to at least the snapshot's, the vote is kept, and the next entry is expected right after. -/
theorem C05_install_snapshot (s : Store) (sn : Snapshot) :
    (sn.index < firstIndex s → applySnapshot s sn = (s, .error .snapshotOutOfDate)) ∧
    (firstIndex s ≤ sn.index →
      (applySnapshot s sn).2 = .ok () ∧ (applySnapshot s sn).1.snap = sn ∧
      (∀ i, Spec.read (applySnapshot s sn).1 i = none) ∧
      (applySnapshot s sn).1.state = ⟨max s.state.term sn.term, s.state.vote, sn.index⟩ ∧
      firstIndex (applySnapshot s sn).1 = sn.index + 1 ∧ lastIndex (applySnapshot s sn).1 = sn.index) := by
  constructor
  · intro h; simp [applySnapshot, h]
  · intro h
    have h' : ¬ firstIndex s > sn.index := by omega
    simp only [applySnapshot, h', if_false]
    refine ⟨trivial, rfl, fun i => ?_, rfl, by simp [firstIndex, setSnapshot], by simp [lastIndex, setSnapshot]⟩
    simp [Spec.read, entries, setSnapshot]

example : ∃ s', createSnapshot exStore 4 ⟨[1], [2], []⟩ [9] = .ok (s', .ok ()) ∧
    s'.snap = ⟨4, 2, ⟨[1], [2], []⟩, [9]⟩ ∧ Spec.read s' 5 = Spec.read exStore 5 ∧
    (applySnapshot exStore ⟨1, 1, ⟨[], [], []⟩, []⟩).2 = .error .snapshotOutOfDate :=
  ⟨_, rfl, by decide, by decide, by decide⟩

/-! ## C06 -/

/-- C06 is false: the entry at the snapshot index is retained and an append may replace it. -/
theorem C06_covered_entries_immutable_fails :
    ∃ s e s', Reachable s ∧ e.index ≤ s.snap.index ∧ Spec.read s e.index ≠ some e ∧
      appendEntries s [e] = .ok (s', .ok ()) ∧ Spec.read s' e.index = some e := by
  refine ⟨⟨⟨0, 0, 0⟩, [⟨1, 1, [1]⟩], 10, ⟨1, 1, ⟨[1], [], []⟩, []⟩, []⟩, ⟨1, 2, [8]⟩, _,
    ⟨10, [.append [⟨1, 1, [1]⟩], .create 1 ⟨[1], [], []⟩ []], ?_, by decide⟩,
    by decide, by decide, rfl, by decide⟩
  intro b hb
  simp at hb
  subst hb; simp [Batch, ConsecutiveFrom]

/-- C06, the part that holds: an append strictly below the snapshot index always panics, and one at
the snapshot index panics unless that entry is still retained in the log (the only gap). -/
theorem C06_covered_entries_immutable_partial {s : Store} (h : Reachable s) (e : Entry) (es : List Entry) :
    (e.index < s.snap.index → appendEntries s (e :: es) = .panic) ∧
    (e.index = s.snap.index → Spec.read s e.index = none → appendEntries s (e :: es) = .panic) := by
  have hi := inv_reachable h
  have hl := lastIndex_eq hi
  have := hi.lo
  have hc := C01_log_contiguous_and_anchored h
  rw [appendEntries_cases s e es hi]
  refine ⟨fun h1 => by rw [if_pos]; omega, fun h1 h2 => ?_⟩
  rw [if_pos]
  by_cases hf : e.index < firstIndex s
  · exact Or.inl hf
  · exfalso
    obtain ⟨x, hx⟩ := (hc.2.2.2.2.1 e.index).mpr ⟨by omega, by have := hc.2.2.1; omega⟩
    rw [hx] at h2; cases h2

example : appendEntries exStore [⟨1, 9, []⟩] = .panic := by decide

/-! ## C07 -/

/-- C07, answers: a request is answered with a snapshot iff the current one is at least as new as
requested and its configuration knows the peer; the answer is that snapshot and nothing changes.
Otherwise the caller is told to retry and only the peer's remembered request changes. -/
theorem C07_snapshot_answer (s : Store) (i p : Nat) :
    (i ≤ s.snap.index ∧ Knows s.snap.conf p → snapshot s i p = (s, .ok s.snap)) ∧
    (¬ (i ≤ s.snap.index ∧ Knows s.snap.conf p) →
      (snapshot s i p).2 = .error .snapshotTemporarilyUnavailable ∧
      (snapshot s i p).1 = { s with requests := (snapshot s i p).1.requests } ∧
      (snapshot s i p).1.requests.get p = some i ∧
      ∀ q, q ≠ p → (snapshot s i p).1.requests.get q = s.requests.get q) := by
  have hiff := @satisfies_iff s.snap.index s.snap.conf p i
  unfold Knows
  rw [← hiff]
  constructor
  · intro h; simp [snapshot, h]
  · intro h
    simp only [snapshot, h]
    exact ⟨rfl, rfl, by simp [AMap.get_set_self], fun q hq => by simp [AMap.get_set_ne _ _ (Ne.symm hq)]⟩

private theorem remembered_step {s s' : Store} {op : Op} {i p : Nat} (hi : Inv s)
    (hr : s.requests.get p = some i) (hop : ∀ j, op ≠ .request j p) (hs : step s op = .ok s') :
    s'.requests.get p = some i ∨ (i ≤ s'.snap.index ∧ Knows s'.snap.conf p) := by
  have key : ∀ (s0 : Store) (sn : Snapshot), s0.requests = s.requests →
      (setSnapshot s0 sn).requests.get p = some i ∨ (i ≤ sn.index ∧ Knows sn.conf p) := by
    intro s0 sn h0
    by_cases hsat : satisfies sn.index sn.conf p i = true
    · exact Or.inr (satisfies_iff.mp hsat)
    · left
      simp only [setSnapshot, h0]
      rw [AMap.get_filter hi.wf, hr]
      simp [hsat]
  cases op with
  | setHardState hd => simp [step, setHardState] at hs; rw [← hs]; exact Or.inl hr
  | append b =>
    simp only [step, Run.bind_eq_ok] at hs
    obtain ⟨⟨s1, r⟩, h1, h2⟩ := hs
    simp at h2; subst h2
    cases b with
    | nil => simp [appendEntries] at h1; rw [← h1.1]; exact Or.inl hr
    | cons e es =>
      rw [appendEntries_cases s e es hi] at h1
      split at h1
      · simp at h1
      · simp at h1; rw [← h1.1]; exact Or.inl hr
  | apply sn =>
    simp [step] at hs; rw [← hs]
    unfold applySnapshot
    split
    · exact Or.inl hr
    · exact key _ sn rfl
  | create a c d =>
    simp only [step, Run.bind_eq_ok] at hs
    obtain ⟨⟨s1, r⟩, h1, h2⟩ := hs
    simp at h2; subst h2
    rw [createSnapshot_eq hi] at h1
    split at h1
    · simp at h1
    · split at h1
      · simp at h1; rw [← h1.1]; exact Or.inl hr
      · split at h1
        · rename_i t ht
          simp only [Run.ok.injEq, Prod.mk.injEq] at h1
          rw [← h1.1]
          exact key s ⟨a, t, c, d⟩ rfl
        · simp at h1
  | request j q =>
    simp [step] at hs; rw [← hs]
    have hq : p ≠ q := fun e => hop j (by rw [e])
    unfold snapshot
    split
    · exact Or.inl hr
    · left; simp [AMap.get_set_ne _ _ (Ne.symm hq), hr]

/-- C07, memory: once a request of peer `p` for index `i` has been refused, then after any further
history (without another request of that same peer), either a snapshot that satisfies it was
created or installed on the way, or `should_snapshot` is true for every applied point and
configuration at which a snapshot would satisfy it. -/
theorem C07_refused_request_remembered {s s0 s' : Store} {i p : Nat} {er : Err} {ops : List Op}
    (h : Reachable s) (hreq : snapshot s i p = (s0, .error er)) (hb : RaftHistory ops)
    (hno : ∀ j, Op.request j p ∉ ops) (hs : run s0 ops = .ok s') :
    (∃ before after s1, ops = before ++ after ∧ run s0 before = .ok s1 ∧
        i ≤ s1.snap.index ∧ Knows s1.snap.conf p) ∨
    (∀ applied conf, i ≤ applied → Knows conf p → shouldSnapshot s' applied conf = true) := by
  have hi0 : Inv s0 := by have := inv_request (inv_reachable h) i p; rw [hreq] at this; exact this
  have hr0 : s0.requests.get p = some i := by
    unfold snapshot at hreq
    split at hreq
    · simp at hreq
    · simp at hreq; rw [← hreq.1]; simp [AMap.get_set_self]
  clear hreq h
  induction ops generalizing s0 with
  | nil =>
    simp [run] at hs; subst hs
    right
    intro a c h1 h2
    simp only [shouldSnapshot, Bool.or_eq_true, List.any_eq_true]
    right
    exact ⟨(p, i), AMap.mem_of_get hr0, satisfies_iff.mpr ⟨h1, h2⟩⟩
  | cons op ops ih =>
    simp only [run, Run.bind_eq_ok] at hs
    obtain ⟨s1, h1, h2⟩ := hs
    have hop : ∀ j, op ≠ .request j p := fun j e => hno j (by simp [e])
    rcases remembered_step hi0 hr0 hop h1 with hr | hsat
    · rcases ih (fun b hm => hb b (List.mem_cons_of_mem _ hm)) (fun j hm => hno j (List.mem_cons_of_mem _ hm))
        h2 (inv_step hi0 (fun b e => hb b (by simp [e])) h1) hr with ⟨b, a, s2, he, hr2, hk⟩ | hR
      · exact Or.inl ⟨op :: b, a, s2, by simp [he], by simp [run, h1, hr2], hk⟩
      · exact Or.inr hR
    · exact Or.inl ⟨[op], ops, s1, rfl, by simp [run, h1], hsat⟩

private theorem requests_origin {s s' : Store} {ops : List Op} (hi : Inv s) (hb : RaftHistory ops)
    (hs : run s ops = .ok s') {p i : Nat} (hg : s'.requests.get p = some i) :
    s.requests.get p = some i ∨ Op.request i p ∈ ops := by
  induction ops generalizing s with
  | nil => simp [run] at hs; subst hs; exact Or.inl hg
  | cons op ops ih =>
    simp only [run, Run.bind_eq_ok] at hs
    obtain ⟨s1, h1, h2⟩ := hs
    rcases ih (inv_step hi (fun b e => hb b (by simp [e])) h1)
      (fun b hm => hb b (List.mem_cons_of_mem _ hm)) h2 with hr | hm
    · have hset : ∀ s0 sn, s0.requests = s.requests → (setSnapshot s0 sn).requests.get p = some i →
          s.requests.get p = some i := by
        intro s0 sn h0 hq
        have := pend_setSnapshot (s := s0) (by rw [h0]; exact hi.wf) sn p i hq
        rw [h0] at this; exact this.2
      cases op with
      | setHardState hd => simp [step, setHardState] at h1; rw [← h1] at hr; exact Or.inl hr
      | append b =>
        simp only [step, Run.bind_eq_ok] at h1
        obtain ⟨⟨s2, r⟩, g1, g2⟩ := h1
        simp at g2; subst g2
        cases b with
        | nil => simp [appendEntries] at g1; rw [← g1.1] at hr; exact Or.inl hr
        | cons e es =>
          rw [appendEntries_cases s e es hi] at g1
          split at g1
          · simp at g1
          · simp at g1; rw [← g1.1] at hr; exact Or.inl hr
      | apply sn =>
        simp [step] at h1; rw [← h1] at hr
        unfold applySnapshot at hr
        split at hr
        · exact Or.inl hr
        · exact Or.inl (hset _ sn (by rfl) hr)
      | create a c d =>
        simp only [step, Run.bind_eq_ok] at h1
        obtain ⟨⟨s2, r⟩, g1, g2⟩ := h1
        simp at g2; subst g2
        rw [createSnapshot_eq hi] at g1
        split at g1
        · simp at g1
        · split at g1
          · simp at g1; rw [← g1.1] at hr; exact Or.inl hr
          · split at g1
            · rename_i t ht
              simp only [Run.ok.injEq, Prod.mk.injEq] at g1
              rw [← g1.1] at hr
              exact Or.inl (hset s ⟨a, t, c, d⟩ rfl hr)
            · simp at g1
      | request j q =>
        simp [step] at h1; rw [← h1] at hr
        unfold snapshot at hr
        split at hr
        · exact Or.inl hr
        · simp only [AMap.get_set] at hr
          split at hr
          · rename_i e; simp at hr; subst hr e; exact Or.inr (by simp)
          · exact Or.inl hr
    · exact Or.inr (List.mem_cons_of_mem _ hm)

/-- C07, `should_snapshot`: after any history from a fresh store with growth limit `d` it is true
when the applied index outgrew the limit, and it is true *only* for that reason or because some
request made in the history, not satisfied by the present snapshot, would be satisfied now. -/
theorem C07_should_snapshot {d : Nat} {ops : List Op} {s : Store} (hb : RaftHistory ops)
    (hs : run (new d) ops = .ok s) (applied : Nat) (conf : ConfState) :
    (s.snap.index + s.maxSnapshotDiff < applied → shouldSnapshot s applied conf = true) ∧
    (shouldSnapshot s applied conf = true →
      s.snap.index + s.maxSnapshotDiff < applied ∨
      ∃ i p, Op.request i p ∈ ops ∧ i ≤ applied ∧ Knows conf p ∧
        ¬ (i ≤ s.snap.index ∧ Knows s.snap.conf p)) := by
  have hi := inv_run (inv_new d) hb hs
  constructor
  · intro h; simp [shouldSnapshot, h]
  · intro h
    simp only [shouldSnapshot, Bool.or_eq_true, decide_eq_true_eq, List.any_eq_true] at h
    rcases h with h | ⟨⟨p, i⟩, hm, hsat⟩
    · exact Or.inl h
    · right
      have hg := AMap.get_of_mem hi.wf hm
      have hsat := satisfies_iff.mp hsat
      refine ⟨i, p, ?_, hsat.1, hsat.2, ?_⟩
      · rcases requests_origin (inv_new d) hb hs hg with h0 | h0
        · simp [new] at h0
        · exact h0
      · intro hc
        have := hi.pend p i hg
        rw [satisfies_iff.mpr hc] at this; cases this

/-- The growth limit is the one given at creation. -/
theorem C07_growth_limit_constant {d : Nat} {ops : List Op} {s : Store} (hb : RaftHistory ops)
    (hs : run (new d) ops = .ok s) : s.maxSnapshotDiff = d := by
  have : ∀ (s0 : Store), Inv s0 → RaftHistory ops → run s0 ops = .ok s → s.maxSnapshotDiff = s0.maxSnapshotDiff := by
    clear hb hs
    induction ops with
    | nil => intro s0 _ _ h; simp [run] at h; rw [h]
    | cons op ops ih =>
      intro s0 hi hb hs
      simp only [run, Run.bind_eq_ok] at hs
      obtain ⟨s1, h1, h2⟩ := hs
      rw [ih s1 (inv_step hi (fun b e => hb b (by simp [e])) h1) (fun b hm => hb b (List.mem_cons_of_mem _ hm)) h2]
      cases op with
      | setHardState hd => simp [step, setHardState] at h1; rw [← h1]
      | append b =>
        simp only [step, Run.bind_eq_ok] at h1
        obtain ⟨⟨s2, r⟩, g1, g2⟩ := h1
        simp at g2; subst g2
        cases b with
        | nil => simp [appendEntries] at g1; rw [← g1.1]
        | cons e es =>
          rw [appendEntries_cases s0 e es hi] at g1
          split at g1
          · simp at g1
          · simp at g1; rw [← g1.1]
      | apply sn =>
        simp [step] at h1; rw [← h1]
        unfold applySnapshot; split <;> rfl
      | create a c d =>
        simp only [step, Run.bind_eq_ok] at h1
        obtain ⟨⟨s2, r⟩, g1, g2⟩ := h1
        simp at g2; subst g2
        rw [createSnapshot_eq hi] at g1
        split at g1
        · simp at g1
        · split at g1
          · simp at g1; rw [← g1.1]
          · split at g1
            · simp only [Run.ok.injEq, Prod.mk.injEq] at g1
              rw [← g1.1]; rfl
            · simp at g1
      | request j q =>
        simp [step] at h1; rw [← h1]
        unfold snapshot; split <;> rfl
  simpa [new] using this _ (inv_new d) hb hs

example : (snapshot exStore 2 9).2 = .error .snapshotTemporarilyUnavailable ∧
    (snapshot exStore 2 1).2 = .ok exStore.snap ∧
    shouldSnapshot exStore 3 ⟨[1, 9], [], []⟩ = true ∧ shouldSnapshot exStore 3 ⟨[1], [], []⟩ = false := by
  decide

end TCP.Storage
