import Verif.Props.Snapshot

/-!
# C64, C65: acknowledgements of snapshot chunks

C64 — a positive acknowledgement means that the receiver holds the chunk, so a transfer reported as
finished has reached its receiver.  C65 — replies to one transfer never count for another.
-/

namespace TCP.Snap
open Spec

/-! ## C64 -/

/-- C64, one request: a receiver answers every request that decodes to a header or a chunk to its
sender under the same delivery id, naming the snapshot and index of the request.  A header with a
usable first piece is always accepted, and then exactly that piece is held.  A chunk is accepted
exactly when it fits the transfer under way, and then it is held and nothing else changes; otherwise
it is rejected and the receiver is unchanged. -/
theorem C64_ack_truthful (r r' : Receiver) (q : Request) (resp : Response) (sid : Nat)
    (h : r.processRequest q = .ok (r', resp)) :
    (∀ size md c, q.payload = some (some ⟨sid, some (.header size md c)⟩) →
      resp = ⟨q.sender, q.recipient, q.deliveryId, some (some ⟨sid, 0, .accepted⟩)⟩ ∧
      ∀ k b, Holds r' q.sender k b ↔ (k = 0 ∧ b = c)) ∧
    (∀ k c, q.payload = some (some ⟨sid, some (.chunk k c)⟩) →
      (Fits r q.sender k c ∧
        resp = ⟨q.sender, q.recipient, q.deliveryId, some (some ⟨sid, k, .accepted⟩)⟩ ∧
        ∀ j b, Holds r' q.sender j b ↔ if j = k then b = c else Holds r q.sender j b) ∨
      (¬ Fits r q.sender k c ∧ r' = r ∧
        resp = ⟨q.sender, q.recipient, q.deliveryId, some (some ⟨sid, k, .rejected⟩)⟩)) := by
  obtain ⟨to, frm, d, pl⟩ := q
  obtain ⟨rep, state⟩ := r
  constructor
  · intro size md c hp
    simp only at hp; subst hp
    simp only [Receiver.processRequest, Incoming.new, Run.bind_eq_ok] at h
    obtain ⟨st, ⟨n, _, hst⟩, h⟩ := h
    simp only [Run.ok.injEq, Prod.mk.injEq] at h hst
    obtain ⟨rfl, rfl⟩ := h
    subst hst
    refine ⟨rfl, fun k b => ?_⟩
    simp only [Holds, Option.some.injEq]
    constructor
    · rintro ⟨_, rfl, _, hg⟩
      simp only [AMap.get_cons, AMap.get_nil] at hg
      split at hg
      · rename_i e; simp at hg; exact ⟨e.symm, hg.symm⟩
      · cases hg
    · rintro ⟨rfl, rfl⟩
      exact ⟨_, rfl, rfl, by simp⟩
  · intro k c hp
    simp only at hp; subst hp
    cases state with
    | none =>
      right
      simp only [Receiver.processRequest, Run.ok.injEq, Prod.mk.injEq] at h
      refine ⟨?_, h.1.symm, h.2.symm⟩
      rintro ⟨_, he, _⟩; cases he
    | some st =>
      simp only [Receiver.processRequest, Incoming.acceptChunk] at h
      by_cases hs : frm = st.sender
      · subst hs
        by_cases hc : st.chunkCount ≤ k ∨ (k < st.chunkCount - 1 ∧ c.length ≠ st.chunkSize)
            ∨ (k = st.chunkCount - 1 ∧ c.length ≠ st.size - (st.chunkCount - 1) * st.chunkSize)
        · right
          simp only [ne_eq, not_true_eq_false, if_false] at h
          rw [if_pos hc] at h
          simp only [Run.ok.injEq, Prod.mk.injEq] at h
          refine ⟨?_, h.1.symm, h.2.symm⟩
          rintro ⟨_, he, _, hf⟩
          simp only [Option.some.injEq] at he; subst he
          rcases hf with ⟨h1, h2⟩ | ⟨h1, h2⟩
          · rcases hc with hc | ⟨_, hc⟩ | ⟨hc, _⟩
            · omega
            · exact hc h2
            · omega
          · rcases hc with hc | ⟨hc, _⟩ | ⟨hc, hc'⟩
            · omega
            · omega
            · exact hc' (by rw [h2, ← hc])
        · left
          simp only [ne_eq, not_true_eq_false, if_false] at h
          rw [if_neg hc] at h
          simp only [Run.ok.injEq, Prod.mk.injEq, if_true] at h
          obtain ⟨rfl, rfl⟩ := h
          refine ⟨⟨st, rfl, rfl, ?_⟩, rfl, fun j b => ?_⟩
          · by_cases hk : k + 1 < st.chunkCount
            · left
              refine ⟨hk, Classical.byContradiction fun hne => hc (Or.inr (Or.inl ⟨by omega, hne⟩))⟩
            · right
              have hk' : k + 1 = st.chunkCount := by
                have : ¬ st.chunkCount ≤ k := fun x => hc (Or.inl x)
                omega
              refine ⟨hk', Classical.byContradiction fun hne => hc (Or.inr (Or.inr ⟨by omega, ?_⟩))⟩
              have e : st.chunkCount - 1 = k := by omega
              rw [e]; exact hne
          · simp only [Holds, Option.some.injEq]
            constructor
            · rintro ⟨_, rfl, _, hg⟩
              simp only [AMap.get_set] at hg
              by_cases e : j = k
              · subst e; simp at hg; simp [hg]
              · rw [if_neg (fun x => e x.symm)] at hg
                rw [if_neg e]; exact ⟨st, rfl, rfl, hg⟩
            · intro hj
              refine ⟨_, rfl, rfl, ?_⟩
              simp only [AMap.get_set]
              by_cases e : j = k
              · rw [if_pos e] at hj; rw [if_pos e.symm, hj]
              · rw [if_neg e] at hj; rw [if_neg (fun x => e x.symm)]
                obtain ⟨_, rfl, _, hg⟩ := hj; exact hg
      · right
        simp only [ne_eq, hs, not_false_eq_true, if_true] at h
        simp only [Run.ok.injEq, Prod.mk.injEq] at h
        refine ⟨?_, h.1.symm, h.2.symm⟩
        rintro ⟨_, he, hx, _⟩
        simp only [Option.some.injEq] at he; subst he; exact hs hx.symm

/-- The header of the transfer starts it: the answer is positive. -/
private theorem ack_header {enc a id cs n snap} (hpc : IsPieceCount snap.data.length cs n)
    (r : Receiver) (to d : Nat) :
    ∃ st, r.processRequest ⟨to, a, d, some (some (expected enc id snap cs 0))⟩
      = .ok ({ r with state := some st }, ⟨a, to, d, some (some ⟨id, 0, .accepted⟩)⟩) ∧
      RInv enc a id cs n snap st ∧ st.chunks.keys = [0] := by
  obtain ⟨st, resp, h1, h2, h3⟩ := deliver_header (enc := enc) (a := a) (id := id) hpc r to d
  have := (C64_ack_truthful _ _ _ _ id h1).1 _ _ _ rfl
  exact ⟨st, by rw [h1, this.1], h2, h3⟩

private theorem receive_polls {dec rep} (ins : List RIn) (h : delivered ins = []) :
    receive dec ⟨rep, none⟩ (ins ++ [.poll]) = .ok (⟨rep, none⟩, []) := by
  induction ins with
  | nil => rfl
  | cons i ins ih =>
    cases i with
    | deliver q => simp [delivered] at h
    | poll =>
      have h' : delivered ins = [] := by simpa [delivered] using h
      simp [receive, Receiver.tryComplete, ih h']

/-- Once the header has arrived: if the requests still to come are the missing chunks, each once, the
snapshot is reported exactly once, polls in between or not. -/
private theorem receive_rest {enc dec a id cs n snap} (hpc : IsPieceCount snap.data.length cs n)
    (hdec : dec (enc snap.metadata) = some snap.metadata) (rep : Nat) (ins : List RIn) (st : Incoming)
    (hi : RInv enc a id cs n snap st)
    (hq : ∀ q ∈ delivered ins, q.sender = a ∧ ∃ k, k < n ∧ st.chunks.get k = none ∧
      q.payload = some (some (expected enc id snap cs k)))
    (hnd : ((delivered ins).map Request.payload).Nodup)
    (hall : ∀ k, k < n → st.chunks.get k = none →
      ∃ q ∈ delivered ins, q.payload = some (some (expected enc id snap cs k))) :
    receive dec ⟨rep, some st⟩ (ins ++ [.poll]) = .ok (⟨rep, none⟩, [.ok (a, snap)]) := by
  induction ins generalizing st with
  | nil =>
    rcases poll_spec hpc hdec hi rep with ⟨⟨k, hk, hn⟩, _⟩ | ⟨_, h1⟩
    · obtain ⟨q, hm, _⟩ := hall k hk hn
      simp [delivered] at hm
    · simp [receive, h1]
  | cons i ins ih =>
    cases i with
    | poll =>
      have hd : delivered (.poll :: ins) = delivered ins := by simp [delivered]
      rw [hd] at hq hnd hall
      rcases poll_spec hpc hdec hi rep with ⟨_, h1⟩ | ⟨hc, h1⟩
      · simp [receive, h1, ih st hi hq hnd hall]
      · have : delivered ins = [] := by
          apply List.eq_nil_iff_forall_not_mem.mpr
          intro q hm
          obtain ⟨_, k, hk, hn, _⟩ := hq q hm
          rw [hc k hk] at hn; cases hn
        simp [receive, h1, receive_polls ins this]
    | deliver q =>
      have hd : delivered (.deliver q :: ins) = q :: delivered ins := by simp [delivered]
      rw [hd] at hq hnd hall
      obtain ⟨hs, k, hk, hn, hp⟩ := hq q (by simp)
      obtain ⟨to, sn, d, pl⟩ := q
      simp only at hs hp; subst hs hp
      have h0 : k ≠ 0 := fun e => hi.first (e ▸ hn)
      obtain ⟨st', resp, h1, h2, h3⟩ := deliver_chunk hpc hi hk h0 rep to d
      simp only [List.map_cons, List.nodup_cons] at hnd
      have := ih st' h2 (by
          intro q hm
          obtain ⟨hs, j, hj, hjn, hjp⟩ := hq q (List.mem_cons_of_mem _ hm)
          refine ⟨hs, j, hj, ?_, hjp⟩
          rw [h3, AMap.get_set]
          split
          · rename_i e; subst e
            exact absurd (List.mem_map.mpr ⟨q, hm, hjp⟩) hnd.1
          · exact hjn) hnd.2 (by
          intro j hj hjn
          rw [h3, AMap.get_set] at hjn
          split at hjn
          · cases hjn
          · rename_i e
            obtain ⟨q, hm, hjp⟩ := hall j hj hjn
            rcases List.mem_cons.mp hm with rfl | hm
            · exfalso
              simp only [Option.some.injEq] at hjp
              apply e
              by_cases hj0 : j = 0
              · subst hj0; exact absurd hjn hi.first
              · simp only [expected, if_neg h0, if_neg hj0, Content.mk.injEq, Option.some.injEq,
                  It.chunk.injEq] at hjp
                exact hjp.2.1
            · exact ⟨q, hm, hjp⟩)
      simp [receive, h1, this]

/-- A receiver with nothing under way that answers every request of a transfer positively has been
given the header first. -/
private theorem receive_fresh {enc dec a id cs n snap} (hpc : IsPieceCount snap.data.length cs n)
    (hdec : dec (enc snap.metadata) = some snap.metadata) (rep : Nat) (ins : List RIn)
    (hq : ∀ q ∈ delivered ins, q.sender = a ∧ ∃ k, k < n ∧ q.payload = some (some (expected enc id snap cs k)))
    (hnd : ((delivered ins).map Request.payload).Nodup)
    (hacc : ∀ p ∈ answers dec ⟨rep, none⟩ ins, ∃ k, p.2.payload = some (some ⟨id, k, .accepted⟩))
    (hall : ∀ k, k < n → ∃ q ∈ delivered ins, q.payload = some (some (expected enc id snap cs k))) :
    receive dec ⟨rep, none⟩ (ins ++ [.poll]) = .ok (⟨rep, none⟩, [.ok (a, snap)]) := by
  induction ins with
  | nil => obtain ⟨q, hm, _⟩ := hall 0 hpc.1; simp [delivered] at hm
  | cons i ins ih =>
    cases i with
    | poll =>
      have hd : delivered (.poll :: ins) = delivered ins := by simp [delivered]
      rw [hd] at hq hnd hall
      have := ih hq hnd (by simpa [answers, Receiver.tryComplete] using hacc) hall
      simp [receive, Receiver.tryComplete, this]
    | deliver q =>
      have hd : delivered (.deliver q :: ins) = q :: delivered ins := by simp [delivered]
      rw [hd] at hq hnd hall
      obtain ⟨hs, k, hk, hp⟩ := hq q (by simp)
      obtain ⟨to, sn, d, pl⟩ := q
      simp only at hs hp; subst hs hp
      simp only [List.map_cons, List.nodup_cons] at hnd
      by_cases h0 : k = 0
      · subst h0
        obtain ⟨st, h1, h2, h3⟩ := ack_header (enc := enc) (a := sn) (id := id) hpc ⟨rep, none⟩ to d
        have hget : ∀ j, j ≠ 0 → st.chunks.get j = none := by
          intro j hj
          rw [AMap.get_eq_none_iff, h3]; simpa using hj
        have hne : ∀ q ∈ delivered ins, ∀ j, q.payload = some (some (expected enc id snap cs j)) → j ≠ 0 := by
          intro q hm j hj e
          subst e
          exact hnd.1 (List.mem_map.mpr ⟨q, hm, hj⟩)
        have := receive_rest hpc hdec rep ins st h2 (by
            intro q hm
            obtain ⟨hs, j, hj, hjp⟩ := hq q (List.mem_cons_of_mem _ hm)
            exact ⟨hs, j, hj, hget j (hne q hm j hjp), hjp⟩) hnd.2 (by
            intro j hj hjn
            obtain ⟨q, hm, hjp⟩ := hall j hj
            rcases List.mem_cons.mp hm with rfl | hm
            · have : j = 0 := by
                apply Classical.byContradiction
                intro hj0
                simp [expected, hj0] at hjp
              subst this; exact absurd hjn h2.first
            · exact ⟨q, hm, hjp⟩)
        simp [receive, h1, this]
      · exfalso
        have h1 : Receiver.processRequest ⟨rep, none⟩ ⟨to, sn, d, some (some (expected enc id snap cs k))⟩
            = .ok (⟨rep, none⟩, ⟨sn, to, d, some (some ⟨id, k, .rejected⟩)⟩) := by
          simp [Receiver.processRequest, expected, h0]
        obtain ⟨j, hj⟩ := hacc _ (by simp only [answers, h1]; exact List.mem_cons_self ..)
        simp at hj

private theorem answers_mem {dec r ins p} (h : p ∈ answers dec r ins) :
    p.1 ∈ delivered ins ∧ p.2.deliveryId = p.1.deliveryId := by
  induction ins generalizing r with
  | nil => simp [answers] at h
  | cons i ins ih =>
    cases i with
    | poll =>
      simp only [answers] at h
      split at h
      · simpa [delivered] using ih h
      · simp at h
    | deliver q =>
      simp only [answers] at h
      split at h
      · rename_i r' resp hr
        rcases List.mem_cons.mp h with rfl | h
        · refine ⟨by simp [delivered], ?_⟩
          unfold Receiver.processRequest at hr
          simp only at hr
          split at hr
          · cases hr
          · simp at hr; rw [← hr.2]
          · simp at hr; rw [← hr.2]
          · simp only [Run.bind_eq_ok] at hr; obtain ⟨_, _, hr⟩ := hr; simp at hr; rw [← hr.2]
          · split at hr
            · simp at hr; rw [← hr.2]
            · simp at hr; rw [← hr.2]
        · have := ih h
          exact ⟨by simp [delivered] at this ⊢; exact Or.inr this.1, this.2⟩
      · simp at h

private theorem answers_nodup {dec r ins} (h : ((delivered ins).map Request.deliveryId).Nodup) :
    ∀ p p', p ∈ answers dec r ins → p' ∈ answers dec r ins → p.1.deliveryId = p'.1.deliveryId → p = p' := by
  induction ins generalizing r with
  | nil => simp [answers]
  | cons i ins ih =>
    intro p p' hp hp' he
    cases i with
    | poll =>
      have hd : delivered (.poll :: ins) = delivered ins := by simp [delivered]
      rw [hd] at h
      simp only [answers] at hp hp'
      split at hp
      · rename_i hr; simp only [hr] at hp'; exact ih h p p' hp hp' he
      · simp at hp
    | deliver q =>
      have hd : delivered (.deliver q :: ins) = q :: delivered ins := by simp [delivered]
      rw [hd, List.map_cons, List.nodup_cons] at h
      simp only [answers] at hp hp'
      split at hp
      · rename_i hr
        simp only [hr] at hp'
        rcases List.mem_cons.mp hp with rfl | hp <;> rcases List.mem_cons.mp hp' with rfl | hp'
        · rfl
        · exact absurd (List.mem_map.mpr ⟨p'.1, (answers_mem hp').1, he.symm⟩) h.1
        · exact absurd (List.mem_map.mpr ⟨p.1, (answers_mem hp).1, he⟩) h.1
        · exact ih h.2 p p' hp hp' he
      · simp at hp

/-- C64 end to end, for a network that delivers each request at most once: when the sender reports a
transfer as finished, and the acknowledgements it was given are the answers of a receiver that had
nothing under way and was handed requests of this transfer in any order, some possibly never, with
polls anywhere, then that receiver has reported, or reports at the next poll, exactly the sender's
snapshot, once.  What is missing from the full property is shown by `C64_duplicate_fails`. -/
theorem C64_finish_means_received_partial {enc dec cs mp rep os w w' r} (h : History enc cs mp rep os w)
    (hs : SStep enc w (.completed r .finish) w') (l : Log) (hl : w.2.get r = some l)
    (hdec : dec (enc l.snap.metadata) = some l.snap.metadata)
    (a rrep : Nat) (ins : List RIn)
    (hins : ∀ q ∈ delivered ins, q.sender = a ∧ ∃ c, (q.deliveryId, c) ∈ sents l.evs ∧ q.payload = some (some c))
    (honce : ((delivered ins).map Request.deliveryId).Nodup)
    (hreply : ∀ p ∈ acks l.id l.evs, ∃ x ∈ answers dec ⟨rrep, none⟩ ins,
      x.1.deliveryId = p.1 ∧ x.2.payload = some (some p.2)) :
    receive dec ⟨rrep, none⟩ (ins ++ [.poll]) = .ok (⟨rrep, none⟩, [.ok (a, l.snap)]) := by
  obtain ⟨l', n, hl', hpc, hsent, hperm, hacc, _⟩ := C12_finish_only_if_all_acknowledged h hs
  rw [hl] at hl'; simp only [Option.some.injEq] at hl'; subst hl'
  have hw := WInv.history h
  have hrel := hw.rel r
  rw [hl] at hrel
  have hinc : ((sents l.evs).map Prod.fst).Pairwise (· < ·) := by
    cases hg : w.1.receivers.get r with
    | none => rw [hg] at hrel; exact absurd hrel (by simp [Rel])
    | some t => rw [hg] at hrel; have : TInv enc cs w.1.nextDeliveryId t l := hrel; exact this.inc
  -- a delivery id names one request
  have huniq : ∀ p ∈ sents l.evs, ∀ p' ∈ sents l.evs, p.1 = p'.1 → p = p' := by
    have hnd : ((sents l.evs).map Prod.fst).Nodup := hinc.imp (fun h => Nat.ne_of_lt h)
    generalize sents l.evs = ss at hnd
    induction ss with
    | nil => simp
    | cons x ss ih =>
      simp only [List.map_cons, List.nodup_cons] at hnd
      intro p hp p' hp' he
      rcases List.mem_cons.mp hp with rfl | h1 <;> rcases List.mem_cons.mp hp' with rfl | h2
      · rfl
      · exact absurd (List.mem_map.mpr ⟨p', h2, he.symm⟩) hnd.1
      · exact absurd (List.mem_map.mpr ⟨p, h1, he⟩) hnd.1
      · exact ih hnd.2 p h1 p' h2 he
  -- distinct requests have distinct contents
  have hcont : ∀ p ∈ sents l.evs, ∀ p' ∈ sents l.evs, p.2 = p'.2 → p = p' := by
    have hnd : ((sents l.evs).map Prod.snd).Nodup := by
      rw [hsent]
      refine List.Pairwise.map _ ?_ List.nodup_range
      intro i j hij he
      apply hij
      simp only [expected, Content.mk.injEq, Option.some.injEq, true_and] at he
      by_cases hi : i = 0 <;> by_cases hj : j = 0 <;> simp [hi, hj] at he ⊢
      exact he.1
    generalize sents l.evs = ss at hnd
    induction ss with
    | nil => simp
    | cons x ss ih =>
      simp only [List.map_cons, List.nodup_cons] at hnd
      intro p hp p' hp' he
      rcases List.mem_cons.mp hp with rfl | h1 <;> rcases List.mem_cons.mp hp' with rfl | h2
      · rfl
      · exact absurd (List.mem_map.mpr ⟨p', h2, he.symm⟩) hnd.1
      · exact absurd (List.mem_map.mpr ⟨p, h1, he⟩) hnd.1
      · exact ih hnd.2 p h1 p' h2 he
  -- every request handed out was answered positively by the receiver
  have hans : ∀ p ∈ sents l.evs, ∃ x ∈ answers dec ⟨rrep, none⟩ ins, x.1.deliveryId = p.1 ∧
      ∃ k, x.2.payload = some (some ⟨l.id, k, .accepted⟩) := by
    intro p hp
    have : (p.1, Spec.Content.index p.2) ∈ sentIdx l.evs := List.mem_map.mpr ⟨p, hp, rfl⟩
    obtain ⟨y, hy, hye⟩ := List.mem_map.mp (hperm.mem_iff.mpr this)
    obtain ⟨x, hx, hxd, hxp⟩ := hreply y hy
    refine ⟨x, hx, by rw [hxd]; exact congrArg Prod.fst hye, y.2.chunkIndex, ?_⟩
    have h1 := hacc y hy
    have h2 : y.2.snapshotId = l.id := by
      unfold acks at hy
      obtain ⟨e, _, he⟩ := List.mem_filterMap.mp hy
      split at he
      · split at he
        · rename_i hid; simp at he; subst he; exact hid
        · cases he
      · cases he
    rw [hxp]
    obtain ⟨_, ⟨si, ci, sta⟩⟩ := y
    simp only at h1 h2 ⊢
    rw [h1, h2]
  apply receive_fresh (id := l.id) (enc := enc) (cs := cs) hpc hdec rrep ins
  · intro q hq
    obtain ⟨hsn, c, hc, hp⟩ := hins q hq
    refine ⟨hsn, ?_⟩
    have : c ∈ (sents l.evs).map Prod.snd := List.mem_map.mpr ⟨_, hc, rfl⟩
    rw [hsent] at this
    obtain ⟨k, hk, hke⟩ := List.mem_map.mp this
    exact ⟨k, List.mem_range.mp hk, by rw [hp, hke]⟩
  · have key : ∀ qs : List Request, (∀ q ∈ qs, q ∈ delivered ins) → (qs.map Request.deliveryId).Nodup →
        (qs.map Request.payload).Nodup := by
      intro qs
      induction qs with
      | nil => simp
      | cons q qs ih =>
        intro hsub hnd
        simp only [List.map_cons, List.nodup_cons] at hnd ⊢
        refine ⟨?_, ih (fun q hq => hsub q (List.mem_cons_of_mem _ hq)) hnd.2⟩
        intro hm
        obtain ⟨q', hq', he⟩ := List.mem_map.mp hm
        obtain ⟨_, c, hc, hp⟩ := hins q (hsub q (by simp))
        obtain ⟨_, c', hc', hp'⟩ := hins q' (hsub q' (List.mem_cons_of_mem _ hq'))
        rw [hp, hp'] at he
        simp only [Option.some.injEq] at he
        have := hcont _ hc _ hc' he.symm
        simp only [Prod.mk.injEq] at this
        exact hnd.1 (List.mem_map.mpr ⟨q', hq', this.1.symm⟩)
    exact key _ (fun _ h => h) honce
  · intro p hp
    obtain ⟨hm, _⟩ := answers_mem hp
    obtain ⟨_, c, hc, _⟩ := hins _ hm
    obtain ⟨x, hx, hxd, k, hxp⟩ := hans _ hc
    have := answers_nodup honce x p hx hp hxd
    subst this
    exact ⟨k, hxp⟩
  · intro k hk
    have : expected enc l.id l.snap cs k ∈ (sents l.evs).map Prod.snd := by
      rw [hsent]; exact List.mem_map.mpr ⟨k, List.mem_range.mpr hk, rfl⟩
    obtain ⟨p, hp, hpe⟩ := List.mem_map.mp this
    obtain ⟨x, hx, hxd, _⟩ := hans p hp
    obtain ⟨hm, _⟩ := answers_mem hx
    refine ⟨x.1, hm, ?_⟩
    obtain ⟨_, c, hc, hpl⟩ := hins _ hm
    have := huniq _ hc _ hp hxd
    rw [hpl, ← hpe, ← this]

/-- The requests of a three-chunk transfer of `exSnap` by replica 1 to replica 5. -/
def exReq (k : Nat) : Request := ⟨5, 1, k + 1, some (some (expected exEnc 1 exSnap 2 k))⟩

/-- A history that ends with a three-chunk transfer to receiver 5 completely acknowledged. -/
theorem exFinished : ∃ os s L l, History exEnc 2 3 1 os (s, L) ∧ L.get 5 = some l ∧
    (∃ w', SStep exEnc (s, L) (.completed 5 .finish) w') ∧
    sents l.evs = [(1, expected exEnc 1 exSnap 2 0), (2, expected exEnc 1 exSnap 2 1), (3, expected exEnc 1 exSnap 2 2)] ∧
    acks l.id l.evs = [(1, ⟨1, 0, .accepted⟩), (2, ⟨1, 1, .accepted⟩), (3, ⟨1, 2, .accepted⟩)] ∧ l.snap = exSnap := by
  refine ⟨_, _, _, _, .step (.step (.step (.step (.step (.step (.step .init
    (.start (r := 5) (snap := exSnap) rfl))
    (.nextSome rfl)) (.nextSome rfl)) (.nextSome rfl))
    (.response (r := 5) (d := 1) (rep := .ack ⟨1, 0, .accepted⟩) rfl))
    (.response (r := 5) (d := 2) (rep := .ack ⟨1, 1, .accepted⟩) rfl))
    (.response (r := 5) (d := 3) (rep := .ack ⟨1, 2, .accepted⟩) rfl),
    rfl, ⟨_, .completeSome rfl⟩, rfl, rfl, rfl⟩

/-- Non-vacuity: with that history, a receiver that was handed the header, then chunk 2, a poll and
chunk 1 meets the remaining hypotheses. -/
example : ∀ l : Log, l.id = 1 → sents l.evs = [(1, expected exEnc 1 exSnap 2 0),
      (2, expected exEnc 1 exSnap 2 1), (3, expected exEnc 1 exSnap 2 2)] →
    acks l.id l.evs = [(1, ⟨1, 0, .accepted⟩), (2, ⟨1, 1, .accepted⟩), (3, ⟨1, 2, .accepted⟩)] →
    (∀ q ∈ delivered [.deliver (exReq 0), .deliver (exReq 2), .poll, .deliver (exReq 1)],
      q.sender = 1 ∧ ∃ c, (q.deliveryId, c) ∈ sents l.evs ∧ q.payload = some (some c)) ∧
    ((delivered [.deliver (exReq 0), .deliver (exReq 2), .poll, .deliver (exReq 1)]).map Request.deliveryId).Nodup ∧
    (∀ p ∈ acks l.id l.evs, ∃ x ∈ answers exDec ⟨5, none⟩
        [.deliver (exReq 0), .deliver (exReq 2), .poll, .deliver (exReq 1)],
      x.1.deliveryId = p.1 ∧ x.2.payload = some (some p.2)) := by
  intro l _ hs ha
  rw [hs, ha]
  refine ⟨?_, by decide, ?_⟩
  · intro q hq
    simp only [delivered, List.filterMap_cons, List.filterMap_nil, List.mem_cons, List.not_mem_nil, or_false] at hq
    rcases hq with rfl | rfl | rfl <;> exact ⟨rfl, _, by simp [exReq], rfl⟩
  · decide

/-- C64, what fails: if the network duplicates the header of the transfer, the sender can report the
transfer as finished — every request was acknowledged positively, with the very answers the receiver
gave — while the receiver never reports the snapshot: the repeated header discards the chunks that
were acknowledged before it. -/
theorem C64_duplicate_fails : ∃ os w w' l, History exEnc 2 3 1 os w ∧
    SStep exEnc w (.completed 5 .finish) w' ∧ w.2.get 5 = some l ∧
    exDec (exEnc l.snap.metadata) = some l.snap.metadata ∧
    ∃ ins : List RIn,
      (∀ q ∈ delivered ins, q.sender = 1 ∧ ∃ c, (q.deliveryId, c) ∈ sents l.evs ∧ q.payload = some (some c)) ∧
      (∀ p ∈ acks l.id l.evs, ∃ x ∈ answers exDec ⟨5, none⟩ ins,
        x.1.deliveryId = p.1 ∧ x.2.payload = some (some p.2)) ∧
      ∃ r', receive exDec ⟨5, none⟩ (ins ++ [.poll]) = .ok (r', []) := by
  obtain ⟨os, s, L, l, h, hl, ⟨w', hs⟩, hse, hac, hsn⟩ := exFinished
  refine ⟨os, (s, L), w', l, h, hs, hl, by rw [hsn]; decide,
    [.deliver (exReq 0), .deliver (exReq 1), .deliver (exReq 0), .deliver (exReq 2)], ?_, ?_, ?_⟩
  · rw [hse]
    intro q hq
    simp only [delivered, List.filterMap_cons, List.filterMap_nil, List.mem_cons, List.not_mem_nil, or_false] at hq
    rcases hq with rfl | rfl | rfl | rfl <;> exact ⟨rfl, _, by simp [exReq], rfl⟩
  · rw [hac]; decide
  · exact ⟨_, rfl⟩

/-! ## C65 -/

/-- The snapshot ids of everything started or handed out so far are below the next one, and no two
live transfers share one. -/
private structure Ids (os : List Obs) (w : World) : Prop where
  reqs : ∀ q c, .request q ∈ os → q.payload = some (some c) → c.snapshotId < w.1.nextSnapshotId
  live : ∀ r l, w.2.get r = some l → l.id < w.1.nextSnapshotId
  inj : ∀ r r' l l', w.2.get r = some l → w.2.get r' = some l' → l.id = l'.id → r = r'

private theorem note_get {L : AMap Nat Log} {r e r' l} (h : (note L r e).get r' = some l) :
    ∃ l0, L.get r' = some l0 ∧ l0.id = l.id := by
  unfold note at h
  split at h
  · rename_i l1 h1
    rw [AMap.get_set] at h
    split at h
    · rename_i e; subst e; simp only [Option.some.injEq] at h; subst h; exact ⟨l1, h1, rfl⟩
    · exact ⟨l, h, rfl⟩
  · exact ⟨l, h, rfl⟩

private theorem Ids.sub {os w o w'} (h : Ids os w) (hn : w'.1.nextSnapshotId = w.1.nextSnapshotId)
    (ho : ∀ q, o = .request q → ∃ c, q.payload = some (some c) ∧ c.snapshotId < w.1.nextSnapshotId)
    (hL : ∀ r l, w'.2.get r = some l → ∃ l0, w.2.get r = some l0 ∧ l0.id = l.id) : Ids (os ++ [o]) w' := by
  refine ⟨?_, ?_, ?_⟩
  · intro q c hq hc
    rw [hn]
    rcases List.mem_append.mp hq with hq | hq
    · exact h.reqs q c hq hc
    · simp only [List.mem_singleton] at hq
      obtain ⟨c', hc', hlt⟩ := ho q hq.symm
      rw [hc] at hc'; simp only [Option.some.injEq] at hc'; subst hc'; exact hlt
  · intro r l hl
    obtain ⟨l0, h0, e⟩ := hL r l hl
    rw [hn, ← e]; exact h.live r l0 h0
  · intro r r' l l' hl hl' he
    obtain ⟨l0, h0, e0⟩ := hL r l hl
    obtain ⟨l1, h1, e1⟩ := hL r' l' hl'
    exact h.inj r r' l0 l1 h0 h1 (by rw [e0, e1, he])

private theorem Ids.history {enc cs mp rep os w} (h : History enc cs mp rep os w) : Ids os w := by
  induction h with
  | init => exact ⟨by simp, by simp, by simp⟩
  | @step os w o w' hh hs ih =>
    have hw := WInv.history hh
    cases hs with
    | @start s s' L r snap hst =>
      simp only [Sender.start, Run.bind_eq_ok] at hst
      obtain ⟨t, _, hs'⟩ := hst
      simp at hs'; subst hs'
      have hl := ih.live
      refine ⟨?_, ?_, ?_⟩
      · intro q c hq hc
        rcases List.mem_append.mp hq with hq | hq
        · have := ih.reqs q c hq hc; simp only at this ⊢; omega
        · simp at hq
      · intro r' l hg
        simp only [AMap.get_set] at hg
        split at hg
        · simp only [Option.some.injEq] at hg; subst hg; simp only; omega
        · have := hl r' l hg; simp only at this ⊢; omega
      · intro r1 r2 l1 l2 h1 h2 he
        simp only [AMap.get_set] at h1 h2
        split at h1
        · split at h2
          · rename_i e1 e2; exact e1.symm.trans e2
          · simp only [Option.some.injEq] at h1; subst h1
            have := hl r2 l2 h2; simp only at this he; omega
        · split at h2
          · simp only [Option.some.injEq] at h2; subst h2
            have := hl r1 l1 h1; simp only at this he; omega
          · exact ih.inj r1 r2 l1 l2 h1 h2 he
    | nextNone hn =>
      rcases nextRequest_spec hw with ⟨he, _⟩ | ⟨r, t, l, _, _, _, _, _, _, _, he⟩
      · rw [he] at hn; simp at hn; subst hn
        exact ih.sub rfl (by simp) (fun r l h => ⟨l, h, rfl⟩)
      · rw [he] at hn; simp at hn
    | nextSome hn =>
      rcases nextRequest_spec hw with ⟨he, _⟩ | ⟨r, t, l, _, _, hl, _, _, _, _, he⟩
      · rw [he] at hn; simp at hn
      · rw [he] at hn
        simp only [Run.ok.injEq, Prod.mk.injEq, Option.some.injEq, Request.mk.injEq] at hn
        obtain ⟨hs', rfl, rfl, rfl, rfl⟩ := hn
        subst hs'
        refine ih.sub rfl ?_ (fun r' l' hl' => note_get hl')
        intro q hq
        simp only [Obs.request.injEq] at hq; subst hq
        exact ⟨_, rfl, ih.live _ _ hl⟩
    | response hr =>
      refine ih.sub ?_ (by simp) (fun r' l' hl' => note_get hl')
      unfold Sender.processResponse at hr
      split at hr <;> simp at hr <;> subst hr <;> rfl
    | completeNone hc =>
      refine ih.sub ?_ (by simp) (fun r l h => ⟨l, h, rfl⟩)
      unfold Sender.tryComplete at hc
      split at hc <;> simp at hc
      subst hc; rfl
    | @completeSome s s' L r st hc =>
      refine ih.sub ?_ (by simp) ?_
      · unfold Sender.tryComplete at hc
        split at hc
        · simp at hc
        · simp only [Prod.mk.injEq] at hc; rw [← hc.1]
      · intro r' l hg
        simp only [AMap.get_erase] at hg
        split at hg
        · cases hg
        · exact ⟨l, hg, rfl⟩
    | reset hr =>
      refine ih.sub ?_ (by simp) (by simp)
      simp only [Sender.reset, Prod.mk.injEq] at hr
      rw [← hr.1]
    | shuffle hp => exact ih.sub rfl (by simp) (fun r l h => ⟨l, h, rfl⟩)

/-- C65, snapshot ids are never reused: a transfer that is started carries an id above that of every
request handed out before, by this or any earlier transfer to whichever receiver. -/
theorem C65_ids_never_reused {enc cs mp rep os w r w'} (h : History enc cs mp rep os w)
    (hs : SStep enc w (.started r) w') :
    ∃ l, w'.2.get r = some l ∧ ∀ q c, .request q ∈ os → q.payload = some (some c) → c.snapshotId < l.id := by
  cases hs with
  | start hst => exact ⟨_, AMap.get_set_self _ _ _, fun q c hq hc => (Ids.history h).reqs q c hq hc⟩

/-- C65, live transfers: requests for different receivers with a live transfer carry different ids. -/
theorem C65_live_ids_distinct {enc cs mp rep os w r r' l l'} (h : History enc cs mp rep os w)
    (hl : w.2.get r = some l) (hl' : w.2.get r' = some l') (hne : r ≠ r') :
    ∀ p ∈ sents l.evs, ∀ p' ∈ sents l'.evs, p.2.snapshotId ≠ p'.2.snapshotId := by
  obtain ⟨w1, w2⟩ := w
  have hid : l.id ≠ l'.id := fun e => hne ((Ids.history h).inj r r' l l' hl hl' e)
  have key : ∀ r l, w2.get r = some l → ∀ p ∈ sents l.evs, p.2.snapshotId = l.id := by
    intro r l hl p hp
    obtain ⟨n, m, _, _, he⟩ := C08_sender_hands_out_expected h hl
    have : p.2 ∈ (sents l.evs).map Prod.snd := List.mem_map_of_mem hp
    rw [he] at this
    obtain ⟨k, _, hke⟩ := List.mem_map.mp this
    rw [← hke]; rfl
  intro p hp p' hp'
  rw [key r l hl p hp, key r' l' hl' p' hp']
  exact hid

/-- C65, late replies are harmless: once a new transfer has been started, an acknowledgement of any
request handed out before — positive or negative, in any number — neither fails nor advances it,
whatever happens in between. -/
theorem C65_late_replies_harmless {enc cs mp rep os w r w'} (h : History enc cs mp rep os w)
    (hs : SStep enc w (.started r) w') :
    ∃ l, w'.2.get r = some l ∧
      ∀ q c a, .request q ∈ os → q.payload = some (some c) → a.snapshotId = c.snapshotId →
        (∀ before d, Harmless l.id before d (.ack a)) ∧
        (∀ evs d, acks l.id (evs ++ [.reply d (.ack a)]) = acks l.id evs) := by
  obtain ⟨l, hl, hlt⟩ := C65_ids_never_reused h hs
  refine ⟨l, hl, fun q c a hq hc ha => ?_⟩
  have : a.snapshotId ≠ l.id := by have := hlt q c hq hc; omega
  refine ⟨fun _ _ => Or.inl this, fun evs d => ?_⟩
  simp [acks, List.filterMap_append, this]

/-- Non-vacuity: a transfer to receiver 5 is started twice, with a request handed out in between; the
second carries another id. -/
example : ∃ os w w', History exEnc 2 3 1 os w ∧ SStep exEnc w (.started 5) w' ∧
    .request (exReq 0) ∈ os ∧ (w'.2.get 5).map Log.id = some 2 := by
  refine ⟨_, _, _, .step (.step .init (.start (r := 5) (snap := exSnap) rfl)) (.nextSome rfl),
    .start (r := 5) (snap := exSnap) rfl, ?_, rfl⟩
  decide

end TCP.Snap
