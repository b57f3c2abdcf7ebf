import Verif.Proofs.TransferHeld

/-!
# What a replica assembles is what another one wanted to send
-/

namespace TCP.Replica

open TCP TCP.Drv TCP.Comm.Spec TCP.Replica.Spec TCP.Snap TCP.Snap.Spec

variable {ν Y P S E H σ : Type} {A : Actor σ} {N : NodeT ν Y} {ops : Comm.Ops S E H} {V : Env P S E H} {codecs : Codecs}

/-- A snapshot that is put together from unmixed pieces of transfers is the snapshot of one of the transfers. -/
theorem Assembled.shipped (hf : Faithful codecs) {cs : List Content} {n r : Nat} {F : Transfers} {s : RaftSnapshot} (h : Assembled codecs cs s)
    (hs : ∀ c ∈ cs, Shipped codecs.encMeta n F r c) (hu : Unmixed cs) (huniq : ∀ x ∈ F, ∀ y ∈ F, x.1 = y.1 → x = y) :
    ∃ id, (id, r, s) ∈ F := by
  obtain ⟨st, pre, ⟨t, rfl⟩, ⟨a, first, b, rfl, hb, hcount, hchunks⟩, hm, ha⟩ := h
  obtain ⟨id, s0, k, m, h1, h2, h3, h4⟩ := hs ⟨st.snapshotId, some (.header st.size st.metadata first)⟩ (by simp)
  unfold expected at h1
  by_cases hk : k = 0
  · rw [if_pos hk] at h1
    simp only [Content.mk.injEq, Option.some.injEq, It.header.injEq] at h1
    obtain ⟨e1, e2, e3, e4⟩ := h1
    rw [e2, e4, header_count h3, Run.ok.injEq] at hcount
    rw [e3, hf.metadata, Option.some.injEq] at hm
    obtain ⟨ps, hl, hd, hps⟩ := assemble_pieces ha
    have hall : ps = (List.range m).map (piece s0.data n) := by
      refine List.ext_getElem (by simp [hl, hcount]) fun i hi1 hi2 => ?_
      have hx := hps i ps[i] (by simp [hi1])
      rw [List.getElem_map, List.getElem_range]
      rcases hchunks i _ hx with ⟨rfl, hx⟩ | ⟨id', hmem⟩
      · rw [hx, e4]
      · obtain ⟨id2, s2, k2, m2, g1, g2, g3, g4⟩ := hs ⟨id', some (.chunk i ps[i])⟩ (by simp [hmem])
        unfold expected at g1
        by_cases hk2 : k2 = 0
        · simp [hk2] at g1
        · rw [if_neg hk2] at g1
          simp only [Content.mk.injEq, Option.some.injEq, It.chunk.injEq] at g1
          obtain ⟨f1, f2, f3⟩ := g1
          obtain ⟨b1, b2, rfl⟩ := List.append_of_mem hmem
          have := hu a ⟨st.snapshotId, some (.header st.size st.metadata first)⟩ b1 ⟨id', some (.chunk i ps[i])⟩ (b2 ++ t) (by simp) rfl
            (fun x hx => hb x (by
              rcases List.mem_append.1 hx with hx | hx
              · simp [hx]
              · rw [List.mem_singleton] at hx; simp [hx])) (by simp)
          simp only at this
          have := huniq _ h2 _ g2 (show id = id2 by rw [← e1, ← f1, this])
          simp only [Prod.mk.injEq] at this
          rw [f3, f2, this.2.2]
    refine ⟨id, ?_⟩
    have : s = s0 := by
      obtain ⟨sm, sd⟩ := s
      obtain ⟨sm0, sd0⟩ := s0
      simp only at hm hd hall
      rw [hall, ← List.flatMap_def, pieces_concat h3] at hd
      rw [hm, hd]
    rw [this]; exact h2
  · rw [if_neg hk] at h1
    simp at h1

/-- What is passed up about transfers was given by the other side. -/
theorem carried_pieces {q p : Nat} {logq logp : List (Comm.Spec.Ev S H)} (h : Carried q p logq logp) :
    ∀ c ∈ pieces codecs (received q logp), c ∈ pieces codecs (given p logq) := by
  intro c hc
  unfold Spec.pieces at hc ⊢
  rw [List.mem_filterMap] at hc ⊢
  obtain ⟨x, hx, hp⟩ := hc
  obtain ⟨y, hy, h1, h2⟩ := h x hx
  refine ⟨y, hy, ?_⟩
  rw [← hp]
  unfold pieceOf
  rw [h1, h2]

/-- A snapshot that was brought was offered. -/
theorem Brought.offered (hf : Faithful codecs) {log : List (Comm.Spec.Ev S H)} {m : RaftMsg} (h : Brought codecs log m) (hm : m.type = .snapshot)
    {p : Nat} {peers : Nat → Driver σ (Simple ν Y) (Channels P S E H) H} (hp : ∀ q, Ships codecs [] (peers q))
    (hc : ∀ q, Carried q p (peers q).comm.log log) (hu : ∀ q, Unmixed (pieces codecs (received q log))) :
    ∃ to q s, m = ⟨to, q, .snapshot, some s, []⟩ ∧ Offers (peers q).trace p s := by
  rcases h with ⟨to, q, s, h1, h2⟩ | ⟨q, x, hx, hk, b, hb, hd⟩
  · refine ⟨to, q, s, h1, ?_⟩
    rcases (hp q).sends with ⟨_, _, h3, _⟩ | ⟨_, cs, F, hF, ho, hs, _⟩
    · obtain ⟨st, pre, ⟨t, ht⟩, ⟨a, first, b, hpre, _⟩, _⟩ := h2
      have := carried_pieces (hc q) ⟨st.snapshotId, some (.header st.size st.metadata first)⟩ (by rw [← ht, hpre]; simp)
      rw [h3 p] at this
      simp at this
    · obtain ⟨id, hid⟩ := h2.shipped hf (fun c hc' => hs p c (carried_pieces (hc q) c hc')) (hu q) hF.unique
      exact ho _ hid
  · exfalso
    obtain ⟨y, hy, h1, h2⟩ := hc q x hx
    obtain ⟨m', hm', hp'⟩ := (hp q).plain p y hy (h1.trans hk)
    rw [hp'] at h2
    rw [hb] at h2
    simp only [Option.some.injEq] at h2
    rw [← h2] at hd
    rw [hf.raft, Option.some.injEq] at hd
    rw [hd] at hm'
    exact hm' hm

end TCP.Replica
