import Verif.Proofs.DriverCluster
import Verif.Proofs.DriverReplies

/-! # Who answers -/

namespace TCP.Drv

open TCP TCP.ActorSpec TCP.DrvSpec

variable {σ ρ κ H V : Type} {S : Sys σ ρ κ H}

/-! ## The calls in the trace were made -/

theorem runs_calls {d0 d : Driver σ ρ κ H} {outs} (h : Runs S d0 outs d) : Calls S d0 (outs.map .ok) d := by
  induction h with
  | nil => exact .nil
  | snoc _ hs ih => rw [List.map_append]; exact ih.snoc hs

theorem receive_acts {instant : Nat} {m : Option (Option (InMsg H))} {d d' : Driver σ ρ κ H} {r : Except PalErr (Option (List (OutMsg H)))}
    (h : receive S instant m d = .ok (d', r)) : ∃ new, d'.trace = d.trace ++ new ∧ Trail (Acts S.A) new d.actor d'.actor := by
  obtain ⟨d2, hs, hd⟩ := receive_star h
  obtain ⟨new, ht, ha⟩ := hs.acts
  rcases hd with rfl | ⟨c', outs, hx, hy, rfl⟩
  · exact ⟨new, ht, ha⟩
  · refine ⟨new ++ outs.map fun m => .out (.comm m), ?_, trail_append.2 ⟨_, ha, ?_⟩⟩
    · show d2.trace ++ _ = _
      rw [ht, List.append_assoc]; rfl
    · show Trail _ _ d2.actor d2.actor
      clear ht ha hs h hx hy
      generalize d2.actor = s
      induction outs with
      | nil => rfl
      | cons o outs ih => exact ⟨s, rfl, ih⟩

theorem calls_acts {d0 d : Driver σ ρ κ H} {rs} (h : Calls S d0 rs d) :
    ∃ new, d.trace = d0.trace ++ new ∧ Trail (Acts S.A) new d0.actor d.actor := by
  induction h with
  | nil => exact ⟨[], by simp, rfl⟩
  | snoc _ hs ih =>
    obtain ⟨n1, t1, a1⟩ := ih
    obtain ⟨n2, t2, a2⟩ := receive_acts hs
    exact ⟨n1 ++ n2, by rw [t2, t1, List.append_assoc], trail_append.2 ⟨_, a1, a2⟩⟩

theorem acts_mem {A : Actor σ} {t : List (Ev H)} {s s' : σ} (h : Trail (Acts A) t s s') {c : Call} (hc : .actor c ∈ t) :
    ∃ s1 s2, Step A s1 c s2 := by
  induction t generalizing s with
  | nil => simp at hc
  | cons e t ih =>
    obtain ⟨s1, h1, h2⟩ := h
    rcases List.mem_cons.1 hc with rfl | hc
    · exact ⟨s, s1, h1⟩
    · exact ih h2 hc

theorem calls_mem {d0 d : Driver σ ρ κ H} {rs} (h0 : Fresh d0) (h : Calls S d0 rs d) {c : Call} (hc : .actor c ∈ d.trace) :
    ∃ s1 s2, Step S.A s1 c s2 := by
  obtain ⟨a, r, k, rfl⟩ := h0
  obtain ⟨new, ht, ha⟩ := calls_acts h
  rw [ht] at hc
  exact acts_mem ha (by simpa [Driver.new] using hc)

/-! ## Where an observation comes from -/

/-- An observation stems from a delivered entry. -/
def Stems (dec : Bytes → Option LogEntry) (id : Nat) (es : List Entry) (o : Obs) : Prop :=
  match o with
  | .load _ => True
  | .apply i owned ev => ∃ e ∈ es, e.index = i ∧ e.data ≠ [] ∧ e.type ≠ .confChange ∧
      ∃ replica, dec e.data = some ⟨some (replica, ev.correlationId), ev.contents⟩ ∧ owned = decide (replica = id)

theorem Stems.mono {dec : Bytes → Option LogEntry} {id : Nat} {es es' : List Entry} {o : Obs} (h : Stems dec id es o)
    (hs : ∀ e ∈ es, e ∈ es') : Stems dec id es' o := by
  cases o with
  | load => trivial
  | apply i w ev =>
    obtain ⟨e, he, h⟩ := h
    exact ⟨e, hs e he, h⟩

theorem payload_stems {dec : Bytes → Option LogEntry} {id : Nat} {e : Entry} {ps : List Obs} (h : payload dec id e = some ps) :
    ∀ o ∈ ps, Stems dec id [e] o := by
  unfold payload at h
  by_cases h1 : e.data = []
  · rw [if_pos h1] at h; cases h; simp
  · rw [if_neg h1] at h
    by_cases h2 : e.type = .confChange
    · rw [if_pos h2] at h; cases h; simp
    · rw [if_neg h2] at h
      rcases h3 : dec e.data with _ | ⟨_ | ⟨r, c⟩, contents⟩ <;> rw [h3] at h <;> cases h
      intro o ho
      simp only [List.mem_singleton] at ho
      subst ho
      exact ⟨e, by simp, rfl, h1, h2, r, h3, rfl⟩

theorem payloads_stems {dec : Bytes → Option LogEntry} {id : Nat} {es : List Entry} {ps : List Obs} (h : payloads dec id es = some ps) :
    ∀ o ∈ ps, Stems dec id es o := by
  induction es generalizing ps with
  | nil => cases h; simp
  | cons e es ih =>
    unfold payloads at h
    rcases h1 : payload dec id e with _ | a <;> rw [h1] at h
    · cases h
    rcases h2 : payloads dec id es with _ | b <;> rw [h2] at h
    · cases h
    cases h
    intro o ho
    rcases List.mem_append.1 ho with ho | ho
    · exact (payload_stems h1 o ho).mono (by simp)
    · exact (ih h2 o ho).mono fun x hx => List.mem_cons_of_mem _ hx

theorem feed_step_stems {dec : Bytes → Option LogEntry} {id : Nat} {e : Ev H} {x y : List Obs × Nat} (h : Feed dec id e x y) :
    ∀ o ∈ y.1, o ∈ x.1 ∨ Stems dec id (delivered e) o := by
  intro o ho
  cases e with
  | ready r =>
    obtain ⟨es, ps, hi, hp, rfl⟩ := h
    rcases List.mem_append.1 ho with ho | ho
    · rcases List.mem_append.1 ho with ho | ho
      · exact .inl ho
      · right
        unfold loads at ho
        split at ho
        · simp at ho
        · simp only [List.mem_singleton] at ho; subst ho; trivial
    · exact .inr ((payloads_stems hp o ho).mono fun e he => hi.1.mem_iff.1 he)
  | light l =>
    obtain ⟨es, ps, hi, hp, rfl⟩ := h
    rcases List.mem_append.1 ho with ho | ho
    · exact .inl ho
    · exact .inr ((payloads_stems hp o ho).mono fun e he => hi.1.mem_iff.1 he)
  | raftInit id b l r =>
    cases l <;> cases r <;> (have h : y = _ := h; subst h; exact .inl ho)
  | _ => have h : y = _ := h; subst h; exact .inl ho

theorem feed_stems {dec : Bytes → Option LogEntry} {id : Nat} {t : List (Ev H)} {x y : List Obs × Nat} (h : Trail (Feed dec id) t x y) :
    ∀ o ∈ y.1, o ∈ x.1 ∨ Stems dec id (t.flatMap delivered) o := by
  induction t generalizing x with
  | nil => cases h; exact fun o ho => .inl ho
  | cons e t ih =>
    obtain ⟨z, h1, h2⟩ := h
    intro o ho
    rcases ih h2 o ho with ho | ho
    · rcases feed_step_stems h1 o ho with ho | ho
      · exact .inl ho
      · exact .inr (ho.mono fun e he => by simp [he])
    · refine .inr (ho.mono fun e he => ?_)
      rw [List.flatMap_cons]
      exact List.mem_append_right _ he

theorem runs_stems {d0 d : Driver σ ρ κ H} {outs} (h0 : Fresh d0) (h : Runs S d0 outs d) (he : d.ephemeral = false) :
    ∀ o ∈ observed d.trace, Stems S.E.decEntry d.id (d.trace.flatMap delivered) o := fun o ho =>
  (feed_stems ((runs_log h0 h).1.feed he) o ho).resolve_left (by simp)

/-- The delivered entries are entries of the log. -/
theorem follows_delivered {log : Nat → Entry} {t : List (Ev H)} {x y : Nat × Nat} (h : Trail (Follows log) t x y) :
    ∀ e ∈ t.flatMap delivered, ∃ i, e = log i := by
  induction t generalizing x with
  | nil => simp
  | cons ev t ih =>
    obtain ⟨z, h1, h2⟩ := h
    intro e he
    rw [List.flatMap_cons] at he
    rcases List.mem_append.1 he with he | he
    · have seg : ∀ {a k}, e ∈ segment log a k → ∃ i, e = log i := by
        intro a k hm
        simp only [segment, List.mem_map] at hm
        obtain ⟨i, _, rfl⟩ := hm
        exact ⟨_, rfl⟩
      cases ev with
      | ready r => obtain ⟨k, hp, _⟩ := h1; exact seg (hp.mem_iff.1 he)
      | light l => obtain ⟨k, hp, _⟩ := h1; exact seg (hp.mem_iff.1 he)
      | _ => simp [delivered] at he
    · exact ih h2 e he

/-- With a log, an observation stems from the entry at its index. -/
theorem runs_stems_log {log : Nat → Entry} (hl : ∀ i, (log i).index = i) {d0 d : Driver σ ρ κ H} {outs} (h0 : Fresh d0) (h : Runs S d0 outs d)
    (he : d.ephemeral = false) {y : Nat × Nat} (hg : Trail (Follows log) d.trace (0, 0) y) {i : Nat} {w : Bool} {ev : ActorEvent}
    (ho : .apply i w ev ∈ observed d.trace) :
    ∃ replica, S.E.decEntry (log i).data = some ⟨some (replica, ev.correlationId), ev.contents⟩ ∧ w = decide (replica = d.id) := by
  obtain ⟨e, hm, hi, _, _, r, hr⟩ := runs_stems h0 h he _ ho
  obtain ⟨j, rfl⟩ := follows_delivered hg e hm
  rw [hl] at hi
  subst hi
  exact ⟨r, hr⟩

/-- A proposal is the encoding of an event the actor asked for. -/
theorem runs_proposal {d0 d : Driver σ ρ κ H} {outs} (h0 : Fresh d0) (h : Runs S d0 outs d) (he : d.ephemeral = false) {b : Bytes}
    (hb : .propose b ∈ d.trace) : ∃ ev ∈ d.trace.filterMap requested, b = encode S d.id ev := by
  have hp := ((runs_log h0 h).1.proposals he).1
  have : b ∈ d.trace.filterMap proposal := List.mem_filterMap.2 ⟨_, hb, rfl⟩
  rw [← hp] at this
  obtain ⟨ev, h1, h2⟩ := List.mem_map.1 this
  exact ⟨ev, h1, h2.symm⟩

/-! ## Each entry at most once -/

theorem applyIndices_append (a b : List Obs) : applyIndices (a ++ b) = applyIndices a ++ applyIndices b := List.filterMap_append

theorem segment_first_cons (log : Nat → Entry) (a k : Nat) : segment log a (k + 1) = log (a + 1) :: segment log (a + 1) k := by
  simp only [segment, List.range_succ_eq_map, List.map_cons, List.map_map, Nat.add_zero, List.cons.injEq, true_and]
  apply List.map_congr_left
  intro i _
  simp only [Function.comp, Nat.succ_eq_add_one]
  congr 1
  omega

theorem payload_indices {dec : Bytes → Option LogEntry} {id : Nat} {e : Entry} {ps : List Obs} (h : payload dec id e = some ps) :
    applyIndices ps = [] ∨ applyIndices ps = [e.index] := by
  unfold payload at h
  by_cases h1 : e.data = []
  · rw [if_pos h1] at h; cases h; exact .inl rfl
  · rw [if_neg h1] at h
    by_cases h2 : e.type = .confChange
    · rw [if_pos h2] at h; cases h; exact .inl rfl
    · rw [if_neg h2] at h
      rcases h3 : dec e.data with _ | ⟨_ | ⟨r, c⟩, contents⟩ <;> rw [h3] at h <;> cases h
      exact .inr rfl

theorem segment_indices {dec : Bytes → Option LogEntry} {id : Nat} {log : Nat → Entry} (hl : ∀ i, (log i).index = i) {a k : Nat} {ps : List Obs}
    (h : payloads dec id (segment log a k) = some ps) :
    (applyIndices ps).Pairwise (· < ·) ∧ ∀ i ∈ applyIndices ps, a < i ∧ i ≤ a + k := by
  induction k generalizing a ps with
  | zero => cases h; simp [applyIndices]
  | succ k ih =>
    rw [segment_first_cons] at h
    unfold payloads at h
    rcases h1 : payload dec id (log (a + 1)) with _ | x <;> rw [h1] at h
    · cases h
    rcases h2 : payloads dec id (segment log (a + 1) k) with _ | y <;> rw [h2] at h
    · cases h
    cases h
    obtain ⟨ih1, ih2⟩ := ih h2
    have hx := payload_indices h1
    rw [hl] at hx
    rw [applyIndices_append]
    rcases hx with hx | hx <;> rw [hx]
    · exact ⟨ih1, fun i hi => by have := ih2 i (by simpa using hi); omega⟩
    · refine ⟨List.pairwise_cons.2 ⟨fun i hi => (ih2 i hi).1, ih1⟩, fun i hi => ?_⟩
      rcases List.mem_cons.1 hi with rfl | hi
      · omega
      · have := ih2 i hi; omega

/-- Strictly increasing, and nothing beyond the index reached. -/
structure Ascending (o : List Obs) (a : Nat) : Prop where
  sorted : (applyIndices o).Pairwise (· < ·)
  bound : ∀ i ∈ applyIndices o, i ≤ a

theorem Ascending.next {dec : Bytes → Option LogEntry} {id : Nat} {log : Nat → Entry} (hl : ∀ i, (log i).index = i) {o : List Obs} {a k : Nat}
    (h : Ascending o a) {ps : List Obs} (hp : payloads dec id (segment log a k) = some ps) : Ascending (o ++ ps) (a + k) := by
  obtain ⟨s1, s2⟩ := segment_indices hl hp
  refine ⟨?_, ?_⟩
  · rw [applyIndices_append]
    exact List.pairwise_append.2 ⟨h.sorted, s1, fun i hi j hj => Nat.lt_of_le_of_lt (h.bound i hi) (s2 j hj).1⟩
  · intro i hi
    rw [applyIndices_append] at hi
    rcases List.mem_append.1 hi with hi | hi
    · exact Nat.le_trans (h.bound i hi) (Nat.le_add_right _ _)
    · exact (s2 i hi).2

theorem loads_indices (sn : Snap.RaftSnapshot) : applyIndices (loads sn) = [] := by
  unfold loads; split <;> rfl

theorem Ascending.mono {o o' : List Obs} {a a' : Nat} (h : Ascending o a) (ho : applyIndices o' = applyIndices o) (ha : a ≤ a') : Ascending o' a' :=
  ⟨by rw [ho]; exact h.sorted, fun i hi => Nat.le_trans (h.bound i (by rw [← ho]; exact hi)) ha⟩

theorem advance_step {dec : Bytes → Option LogEntry} {id : Nat} {log : Nat → Entry} (hl : ∀ i, (log i).index = i) {e : Ev H} {o : List Obs} {a b : Nat}
    {x : List Obs × Nat} {y : Nat × Nat} (hf : Feed dec id e (o, a) x) (hg : Advances log e (b, a) y) (h : Ascending o a) :
    x.2 = y.2 ∧ Ascending x.1 x.2 := by
  obtain ⟨hg, hle⟩ := hg
  cases e with
  | ready r =>
    obtain ⟨es, ps, hi, hp, rfl⟩ := hf
    obtain ⟨k, hk, rfl⟩ := hg
    obtain rfl := inOrder_segment hl hi hk
    refine ⟨lastIndex_segment hl _ _, ?_⟩
    show Ascending _ (lastIndex _ _)
    rw [lastIndex_segment hl]
    exact (h.mono (o' := o ++ loads r.snapshot) (by rw [applyIndices_append, loads_indices, List.append_nil]) hle).next hl hp
  | light l =>
    obtain ⟨es, ps, hi, hp, rfl⟩ := hf
    obtain ⟨k, hk, rfl⟩ := hg
    obtain rfl := inOrder_segment hl hi hk
    refine ⟨lastIndex_segment hl _ _, ?_⟩
    show Ascending _ (lastIndex _ _)
    rw [lastIndex_segment hl]
    exact h.next hl hp
  | raftInit id b l r =>
    cases l <;> cases r <;> (have hf : x = _ := hf; have hg : y = _ := hg; subst hf; subst hg; exact ⟨rfl, h.mono rfl hle⟩)
  | _ => have hf : x = _ := hf; have hg : y = _ := hg; subst hf; subst hg; exact ⟨rfl, h⟩

theorem advance_ascending {dec : Bytes → Option LogEntry} {id : Nat} {log : Nat → Entry} (hl : ∀ i, (log i).index = i) {t : List (Ev H)}
    {o : List Obs} {a b : Nat} {x : List Obs × Nat} {y : Nat × Nat} (hf : Trail (Feed dec id) t (o, a) x) (hg : Trail (Advances log) t (b, a) y)
    (h : Ascending o a) : Ascending x.1 x.2 := by
  induction t generalizing o a b with
  | nil => cases hf; exact h
  | cons e t ih =>
    obtain ⟨⟨o1, a1⟩, f1, f2⟩ := hf
    obtain ⟨⟨b1, c1⟩, g1, g2⟩ := hg
    obtain ⟨h1, h2⟩ := advance_step hl f1 g1 h
    have h1 : a1 = c1 := h1
    subst h1
    exact ih f2 g2 h2

theorem runs_ascending {log : Nat → Entry} (hl : ∀ i, (log i).index = i) {d0 d : Driver σ ρ κ H} {outs} (h0 : Fresh d0) (h : Runs S d0 outs d)
    (he : d.ephemeral = false) {y : Nat × Nat} (hg : Trail (Advances log) d.trace (0, 0) y) : Ascending (observed d.trace) d.applied :=
  advance_ascending hl ((runs_log h0 h).1.feed he) hg ⟨by simp [applyIndices], by simp [applyIndices]⟩

end TCP.Drv
