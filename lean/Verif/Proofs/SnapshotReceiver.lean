import Verif.Proofs.SnapshotSender

/-! # Lemmas about the snapshot receiver model -/

namespace TCP.Snap
open Spec

/-- What a follower holds while it is receiving `snap` from `a`. -/
structure RInv (enc : Meta → Bytes) (a id cs n : Nat) (snap : RaftSnapshot) (st : Incoming) : Prop where
  sender : st.sender = a
  id : st.snapshotId = id
  size : st.size = snap.data.length
  md : st.metadata = enc snap.metadata
  count : st.chunkCount = n
  csize : 1 < n → st.chunkSize = cs
  wf : AMap.WF st.chunks
  ok : ∀ k c, st.chunks.get k = some c → k < n ∧ c = piece snap.data cs k
  first : st.chunks.get 0 ≠ none

theorem piece_zero_length {data : Bytes} {cs n : Nat} (h : IsPieceCount data.length cs n) (h1 : n = 1) :
    (piece data cs 0).length = data.length := by
  have := piece_length_last h
  subst h1; simpa using this

theorem isPieceCount_unique {len cs n m : Nat} (h : IsPieceCount len cs n) (h' : IsPieceCount len cs m) : n = m :=
  Nat.le_antisymm (h.2.2 m h'.1 h'.2.1) (h'.2.2 n h.1 h.2.1)

theorem chunkCount_of_isPieceCount {len cs n : Nat} (h : IsPieceCount len cs n) : chunkCount len cs = .ok n := by
  by_cases hcs : 0 < cs
  · obtain ⟨m, hm⟩ := chunkCount_ok (len := len) hcs
    rw [hm, isPieceCount_unique h (chunkCount_isPieceCount hm)]
  · have h0 : cs = 0 := by omega
    subst h0
    have hl := h.2.1
    simp at hl; subst hl
    have := h.2.2 1 (by omega) (by simp)
    have := h.1
    have : n = 1 := by omega
    subst this; rfl

/-- The receiver derives the same number of chunks from the header. -/
theorem header_count {data : Bytes} {cs n : Nat} (h : IsPieceCount data.length cs n) :
    chunkCount data.length (piece data cs 0).length = .ok n := by
  by_cases h1 : n = 1
  · rw [piece_zero_length h h1]
    apply chunkCount_of_isPieceCount
    subst h1
    exact ⟨by omega, by simp, fun m hm _ => hm⟩
  · have : 0 + 1 < n := by have := h.1; omega
    rw [piece_length_full h this]
    exact chunkCount_of_isPieceCount h

theorem assemble_eq {chunks : AMap Nat Bytes} {data : Bytes} {cs : Nat} (n : Nat)
    (h : ∀ k, k < n → chunks.get k = some (piece data cs k)) :
    assemble chunks n = .ok ((List.range n).flatMap (piece data cs)) := by
  induction n with
  | zero => rfl
  | succ n ih =>
    have := ih (fun k hk => h k (by omega))
    simp only [assemble, this, Run.bind_ok, h n (by omega), List.range_succ, List.flatMap_append,
      List.flatMap_cons, List.flatMap_nil, List.append_nil]

/-- A header of the transfer puts the receiver into a matching state, from any state. -/
theorem deliver_header {enc a id cs n snap} (hpc : IsPieceCount snap.data.length cs n)
    (r : Receiver) (to d : Nat) :
    ∃ st resp, r.processRequest ⟨to, a, d, some (some (expected enc id snap cs 0))⟩
        = .ok ({ r with state := some st }, resp) ∧ RInv enc a id cs n snap st ∧ st.chunks.keys = [0] := by
  have hc := header_count hpc
  refine ⟨⟨a, id, snap.data.length, enc snap.metadata, (piece snap.data cs 0).length, n,
    [(0, piece snap.data cs 0)]⟩, ⟨a, to, d, some (some ⟨id, 0, .accepted⟩)⟩, ?_, ?_, by simp [AMap.keys]⟩
  · simp [Receiver.processRequest, expected, Incoming.new, hc]
  · refine ⟨rfl, rfl, rfl, rfl, rfl, ?_, by simp [AMap.WF, AMap.keys], ?_, by simp⟩
    · intro h1; exact piece_length_full hpc (by omega : 0 + 1 < n)
    · intro k c hk
      simp at hk
      obtain ⟨rfl, rfl⟩ := hk
      exact ⟨hpc.1, rfl⟩

/-- Any other chunk of the transfer is accepted and stored. -/
theorem deliver_chunk {enc a id cs n snap st k} (hpc : IsPieceCount snap.data.length cs n)
    (h : RInv enc a id cs n snap st) (hk : k < n) (h0 : k ≠ 0) (rep to d : Nat) :
    ∃ st' resp, Receiver.processRequest ⟨rep, some st⟩ ⟨to, a, d, some (some (expected enc id snap cs k))⟩
        = .ok (⟨rep, some st'⟩, resp) ∧ RInv enc a id cs n snap st' ∧
      st'.chunks = st.chunks.set k (piece snap.data cs k) := by
  have hn : 1 < n := by omega
  have hcs := h.csize hn
  have hcond : ¬ (st.chunkCount ≤ k ∨ (k < st.chunkCount - 1 ∧ (piece snap.data cs k).length ≠ st.chunkSize)
      ∨ (k = st.chunkCount - 1 ∧
        (piece snap.data cs k).length ≠ st.size - (st.chunkCount - 1) * st.chunkSize)) := by
    rw [h.count, hcs, h.size]
    rintro (h1 | ⟨h1, h2⟩ | ⟨h1, h2⟩)
    · omega
    · exact h2 (piece_length_full hpc (by omega))
    · subst h1; exact h2 (piece_length_last hpc)
  refine ⟨{ st with chunks := st.chunks.set k (piece snap.data cs k) },
    ⟨a, to, d, some (some ⟨id, k, .accepted⟩)⟩, ?_, ?_, rfl⟩
  · simp only [Receiver.processRequest, expected, if_neg h0, Incoming.acceptChunk, h.sender]
    rw [if_neg (by simp), if_neg hcond]
    simp
  · refine ⟨h.sender, h.id, h.size, h.md, h.count, fun _ => hcs, h.wf.set _ _, ?_, ?_⟩
    · intro j c hj
      simp only [AMap.get_set] at hj
      split at hj
      · rename_i e; subst e; simp at hj; exact ⟨hk, hj.symm⟩
      · exact h.ok j c hj
    · simp only [AMap.get_set]
      split
      · simp
      · exact h.first

/-- Polling a matching state reports the snapshot exactly when all chunks are there. -/
theorem poll_spec {enc dec a id cs n snap st} (hpc : IsPieceCount snap.data.length cs n)
    (hdec : dec (enc snap.metadata) = some snap.metadata) (h : RInv enc a id cs n snap st) (rep : Nat) :
    ((∃ k, k < n ∧ st.chunks.get k = none) ∧
      Receiver.tryComplete dec ⟨rep, some st⟩ = .ok (⟨rep, some st⟩, none)) ∨
    ((∀ k, k < n → st.chunks.get k = some (piece snap.data cs k)) ∧
      Receiver.tryComplete dec ⟨rep, some st⟩ = .ok (⟨rep, none⟩, some (.ok (a, snap)))) := by
  have hkeys : ∀ k ∈ st.chunks.keys, k < n := by
    intro k hk
    have := (AMap.get_isSome_iff st.chunks k).mpr hk
    obtain ⟨c, hc⟩ := Option.isSome_iff_exists.mp this
    exact (h.ok k c hc).1
  by_cases hlen : st.chunks.length = n
  · right
    have hall : ∀ k, k < n → st.chunks.get k = some (piece snap.data cs k) := by
      intro k hk
      have hl : st.chunks.keys.length = n := by rw [AMap.length_keys]; exact hlen
      have hm : k ∈ st.chunks.keys :=
        mem_of_nodup_lt_length h.wf (by rw [hl]; exact hkeys) (by rw [hl]; exact hk)
      obtain ⟨c, hc⟩ := Option.isSome_iff_exists.mp ((AMap.get_isSome_iff st.chunks k).mpr hm)
      rw [hc, (h.ok k c hc).2]
    refine ⟨hall, ?_⟩
    simp only [Receiver.tryComplete, Incoming.tryComplete, h.count, hlen, h.md, hdec]
    rw [assemble_eq n hall, pieces_concat hpc]
    simp [Receiver.reset, h.sender]
  · left
    refine ⟨?_, ?_⟩
    · apply Classical.byContradiction
      intro hno
      have hall : ∀ k, k < n → k ∈ st.chunks.keys := by
        intro k hk
        rw [← AMap.get_isSome_iff]
        cases hg : st.chunks.get k with
        | some c => rfl
        | none => exact absurd ⟨k, hk, hg⟩ hno
      have h1 : n ≤ st.chunks.length := by
        have := length_le_of_nodup_subset (xs := List.range n) (ys := st.chunks.keys) List.nodup_range
          (fun x hx => hall x (List.mem_range.mp hx))
        rw [AMap.length_keys] at this; simpa using this
      have h2 : st.chunks.length ≤ n := by
        have := length_le_of_nodup_subset (xs := st.chunks.keys) (ys := List.range n) h.wf
          (fun x hx => List.mem_range.mpr (hkeys x hx))
        rw [AMap.length_keys] at this; simpa using this
      omega
    · simp [Receiver.tryComplete, Incoming.tryComplete, h.count, hlen]

end TCP.Snap
