import Verif.Proofs.SnapshotReceiver

/-!
# C08–C14: snapshot transfer

`enc`/`dec` are the protobuf encoder/decoder of the snapshot metadata (external); theorems about
reassembly assume only that decoding inverts encoding.
-/

namespace TCP.Snap
open Spec

/-- Concrete snapshot and codec for the non-vacuity examples: 5 bytes cut every 2 bytes. -/
def exSnap : RaftSnapshot := ⟨⟨7, 2, ⟨[1, 2], [], []⟩⟩, [1, 2, 3, 4, 5]⟩
def exEnc : Meta → Bytes := fun m => [m.index.toUInt8, m.term.toUInt8]
def exDec : Bytes → Option Meta := fun b => if b = [7, 2] then some exSnap.metadata else none

/-! ## C08 -/

/-- C08: for every snapshot and every non-zero chunk size there are `n ≥ 1` chunks; the contents of
the transfer's requests, in index order, concatenate to the snapshot; every chunk but the last has
exactly the configured size and the last holds the rest (1 to `size` bytes, 0 only if empty). -/
theorem C08_chunking_lossless (enc : Meta → Bytes) (id : Nat) (snap : RaftSnapshot) (size : Nat) (h : 0 < size) :
    ∃ n, IsPieceCount snap.data.length size n ∧
      ((List.range n).map (expected enc id snap size)).flatMap Spec.Content.bytes = snap.data ∧
      (∀ k, k + 1 < n → (Spec.Content.bytes (expected enc id snap size k)).length = size) ∧
      (Spec.Content.bytes (expected enc id snap size (n - 1))).length ≤ size ∧
      (snap.data ≠ [] → Spec.Content.bytes (expected enc id snap size (n - 1)) ≠ []) := by
  obtain ⟨n, hn⟩ := chunkCount_ok (len := snap.data.length) h
  have hpc := chunkCount_isPieceCount hn
  have hb : ∀ k, Spec.Content.bytes (expected enc id snap size k) = piece snap.data size k := by
    intro k
    unfold Spec.Content.bytes expected
    by_cases h0 : k = 0 <;> simp [h0]
  refine ⟨n, hpc, ?_, ?_, ?_, ?_⟩
  · rw [List.flatMap_map]
    have : (fun k => Spec.Content.bytes (expected enc id snap size k)) = piece snap.data size := funext hb
    rw [this]; exact pieces_concat hpc
  · intro k hk; rw [hb]; exact piece_length_full hpc hk
  · rw [hb, piece]; simp only [List.length_take]; omega
  · intro hne
    rw [hb]
    intro he
    have hl := piece_length_last hpc
    rw [he] at hl
    simp only [List.length_nil] at hl
    have hpos : 0 < snap.data.length := List.length_pos_iff.mpr hne
    by_cases h1 : n = 1
    · subst h1; simp at hl; omega
    · have := pieceCount_bound hpc (k := n - 2) (by have := hpc.1; omega)
      have e : n - 2 + 1 = n - 1 := by have := hpc.1; omega
      rw [e] at this; omega

/-- C08, what the sender really hands out: at every point of every history, the requests handed out
for a live transfer are the first `m ≤ n` expected ones, in order and each once. -/
theorem C08_sender_hands_out_expected {enc cs mp rep os s L r l}
    (h : History enc cs mp rep os (s, L)) (hl : L.get r = some l) :
    ∃ n m, IsPieceCount l.snap.data.length cs n ∧ m ≤ n ∧
      (sents l.evs).map Prod.snd = (List.range m).map (expected enc l.id l.snap cs) := by
  have hw := WInv.history h
  have := hw.rel r
  simp only [hl] at this
  cases ht : s.receivers.get r with
  | none => rw [ht] at this; exact absurd this (by simp [Rel])
  | some t =>
    rw [ht] at this
    exact ⟨t.chunkCount, t.nextIndex, chunkCount_isPieceCount this.cnt, this.nx, this.cont⟩

/-- C08: starting a transfer never fails for a non-zero chunk size. -/
theorem C08_start_never_panics (s : Sender) (h : 0 < s.chunkSize) (r : Nat) (snap : RaftSnapshot) :
    ∃ s', s.start r snap = .ok s' := by
  obtain ⟨n, hn⟩ := chunkCount_ok (len := snap.data.length) h
  simp only [Sender.start, Transfer.new, hn, Run.bind_ok]
  exact ⟨_, rfl⟩

/-- A history: two transfers started, three requests handed out, one acknowledged. -/
def exSender0 : Sender := Sender.new.init 1 (some (2, 3))

example : (do
    let s ← exSender0.start 5 exSnap
    let s ← s.start 6 exSnap
    let (s, a) ← s.nextRequest exEnc
    let (s, b) ← s.nextRequest exEnc
    let s ← s.processResponse 5 1 (some (.ack ⟨1, 0, .accepted⟩))
    let (_, c) ← s.nextRequest exEnc
    pure (a, b, c)) = Run.ok
    (some ⟨5, 1, 1, some (some (expected exEnc 1 exSnap 2 0))⟩,
     some ⟨6, 1, 2, some (some (expected exEnc 2 exSnap 2 0))⟩,
     some ⟨5, 1, 3, some (some (expected exEnc 1 exSnap 2 1))⟩) := by decide

/-! ## C09 -/

/-- Every delivered request belongs to the transfer of `snap` (id `id`, cut every `cs` bytes) by
sender `a`: any index, any number of times, in any order. -/
def OfTransfer (enc : Meta → Bytes) (a id cs n : Nat) (snap : RaftSnapshot) (ins : List RIn) : Prop :=
  ∀ q, .deliver q ∈ ins → q.sender = a ∧ ∃ k, k < n ∧ q.payload = some (some (expected enc id snap cs k))

private theorem receive_inv {enc dec a id cs n snap} (hpc : IsPieceCount snap.data.length cs n)
    (hdec : dec (enc snap.metadata) = some snap.metadata) (ins : List RIn)
    (hins : OfTransfer enc a id cs n snap ins) (r : Receiver)
    (hr : r.state = none ∨ ∃ st, r.state = some st ∧ RInv enc a id cs n snap st) :
    ∃ r' outs, receive dec r ins = .ok (r', outs) ∧
      (r'.state = none ∨ ∃ st, r'.state = some st ∧ RInv enc a id cs n snap st) ∧
      ∀ o ∈ outs, o = .ok (a, snap) := by
  induction ins generalizing r with
  | nil => exact ⟨r, [], rfl, hr, by simp⟩
  | cons i ins ih =>
    have hins' : OfTransfer enc a id cs n snap ins := fun q hq => hins q (List.mem_cons_of_mem _ hq)
    cases i with
    | deliver q =>
      obtain ⟨hs, k, hk, hp⟩ := hins q (by simp)
      obtain ⟨to, sn, d, pl⟩ := q
      simp only at hs hp
      subst hs hp
      have hstep : ∃ r1 resp, r.processRequest ⟨to, sn, d, some (some (expected enc id snap cs k))⟩
          = .ok (r1, resp) ∧ (r1.state = none ∨ ∃ st, r1.state = some st ∧ RInv enc sn id cs n snap st) := by
        by_cases h0 : k = 0
        · subst h0
          obtain ⟨st, resp, h1, h2, _⟩ := deliver_header (enc := enc) (a := sn) (id := id) hpc r to d
          exact ⟨_, resp, h1, Or.inr ⟨st, rfl, h2⟩⟩
        · obtain ⟨rep, state⟩ := r
          simp only at hr
          rcases hr with hr | ⟨st, hr, hi⟩
          · subst hr
            exact ⟨⟨rep, none⟩, _, by simp [Receiver.processRequest, expected, h0]; rfl, Or.inl rfl⟩
          · subst hr
            obtain ⟨st', resp, h1, h2, _⟩ := deliver_chunk hpc hi hk h0 rep to d
            exact ⟨_, resp, h1, Or.inr ⟨st', rfl, h2⟩⟩
      obtain ⟨r1, resp, h1, h2⟩ := hstep
      obtain ⟨r', outs, h3, h4⟩ := ih hins' r1 h2
      exact ⟨r', outs, by simp [receive, h1, h3], h4⟩
    | poll =>
      obtain ⟨rep, state⟩ := r
      simp only at hr
      rcases hr with hr | ⟨st, hr, hi⟩
      · subst hr
        obtain ⟨r', outs, h3, h4, h5⟩ := ih hins' ⟨rep, none⟩ (Or.inl rfl)
        exact ⟨r', outs, by simp [receive, Receiver.tryComplete, h3], h4, h5⟩
      · subst hr
        rcases poll_spec hpc hdec hi rep with ⟨_, h1⟩ | ⟨_, h1⟩
        · obtain ⟨r', outs, h3, h4, h5⟩ := ih hins' ⟨rep, some st⟩ (Or.inr ⟨st, rfl, hi⟩)
          exact ⟨r', outs, by simp [receive, h1, h3], h4, h5⟩
        · obtain ⟨r', outs, h3, h4, h5⟩ := ih hins' ⟨rep, none⟩ (Or.inl rfl)
          refine ⟨r', .ok (a, snap) :: outs, by simp [receive, h1, h3], h4, ?_⟩
          intro o ho
          rcases List.mem_cons.mp ho with rfl | ho
          · rfl
          · exact h5 o ho

/-- C09, safety: whatever the delivery order, duplication and loss, an idle receiver fed with
requests of one transfer never panics and every snapshot it reports is the sender's, bytes and
metadata, attributed to that sender. -/
theorem C09_reassembly_exact {enc dec a id cs n snap} (hpc : IsPieceCount snap.data.length cs n)
    (hdec : dec (enc snap.metadata) = some snap.metadata) (rep : Nat) (ins : List RIn)
    (hins : OfTransfer enc a id cs n snap ins) :
    ∃ r' outs, receive dec ⟨rep, none⟩ ins = .ok (r', outs) ∧ ∀ o ∈ outs, o = .ok (a, snap) := by
  obtain ⟨r', outs, h, _, ho⟩ := receive_inv hpc hdec ins hins ⟨rep, none⟩ (Or.inl rfl)
  exact ⟨r', outs, h, ho⟩

/-- C09, safety from any state: a receiver in the middle of anything else behaves the same once the
header of the transfer arrives (from then on everything it reports is the sender's snapshot). -/
theorem C09_reassembly_exact_after_header {enc dec a id cs n snap} (hpc : IsPieceCount snap.data.length cs n)
    (hdec : dec (enc snap.metadata) = some snap.metadata) (r : Receiver) (to d : Nat) (ins : List RIn)
    (hins : OfTransfer enc a id cs n snap ins) :
    ∃ r' outs, receive dec r (.deliver ⟨to, a, d, some (some (expected enc id snap cs 0))⟩ :: ins)
      = .ok (r', outs) ∧ ∀ o ∈ outs, o = .ok (a, snap) := by
  obtain ⟨st, resp, h1, h2, _⟩ := deliver_header (enc := enc) (a := a) (id := id) hpc r to d
  obtain ⟨r', outs, h3, _, h5⟩ := receive_inv hpc hdec ins hins { r with state := some st }
    (Or.inr ⟨st, rfl, h2⟩)
  exact ⟨r', outs, by simp [receive, h1, h3], h5⟩

private theorem receive_collect {enc dec a id cs n snap} (hpc : IsPieceCount snap.data.length cs n)
    (hdec : dec (enc snap.metadata) = some snap.metadata) (rep : Nat) (qs : List Request)
    (hq : ∀ q ∈ qs, q.sender = a ∧ ∃ k, 0 < k ∧ k < n ∧ q.payload = some (some (expected enc id snap cs k)))
    (st : Incoming) (hi : RInv enc a id cs n snap st)
    (hall : ∀ k, k < n → st.chunks.get k ≠ none ∨
      ∃ q ∈ qs, q.payload = some (some (expected enc id snap cs k))) :
    receive dec ⟨rep, some st⟩ (qs.map .deliver ++ [.poll]) = .ok (⟨rep, none⟩, [.ok (a, snap)]) := by
  induction qs generalizing st with
  | nil =>
    rcases poll_spec hpc hdec hi rep with ⟨⟨k, hk, hn⟩, _⟩ | ⟨_, h1⟩
    · rcases hall k hk with h | ⟨q, hq, _⟩
      · exact absurd hn h
      · simp at hq
    · simp [receive, h1]
  | cons q qs ih =>
    obtain ⟨hs, k, h0, hk, hp⟩ := hq q (by simp)
    obtain ⟨to, sn, d, pl⟩ := q
    simp only at hs hp
    subst hs hp
    obtain ⟨st', resp, h1, h2, h3⟩ := deliver_chunk hpc hi hk (by omega) rep to d
    have := ih (fun q hm => hq q (List.mem_cons_of_mem _ hm)) st' h2 (by
      intro j hj
      rw [h3, AMap.get_set]
      by_cases hjk : k = j
      · left; simp [hjk]
      · simp only [hjk, if_false]
        rcases hall j hj with h | ⟨q, hm, he⟩
        · exact Or.inl h
        · rcases List.mem_cons.mp hm with rfl | hm
          · exfalso
            simp only [Option.some.injEq] at he
            have := congrArg Spec.Content.index he
            rw [expected_index, expected_index] at this
            exact hjk this
          · exact Or.inr ⟨q, hm, he⟩)
    simp [receive, h1, this]

/-- C09, completeness: once the header has arrived and then each of the other chunks at least once,
in any order and with any duplicates, polling reports the sender's snapshot and the receiver is idle
again. -/
theorem C09_reassembly_completes {enc dec a id cs n snap} (hpc : IsPieceCount snap.data.length cs n)
    (hdec : dec (enc snap.metadata) = some snap.metadata) (r : Receiver) (to d : Nat) (qs : List Request)
    (hq : ∀ q ∈ qs, q.sender = a ∧ ∃ k, 0 < k ∧ k < n ∧ q.payload = some (some (expected enc id snap cs k)))
    (hall : ∀ k, 0 < k → k < n → ∃ q ∈ qs, q.payload = some (some (expected enc id snap cs k))) :
    receive dec r (.deliver ⟨to, a, d, some (some (expected enc id snap cs 0))⟩ :: (qs.map .deliver ++ [.poll]))
      = .ok ({ r with state := none }, [.ok (a, snap)]) := by
  obtain ⟨st, resp, h1, h2, hk⟩ := deliver_header (enc := enc) (a := a) (id := id) hpc r to d
  have := receive_collect hpc hdec r.replicaId qs hq st h2 (by
    intro k hk'
    by_cases h0 : k = 0
    · subst h0; exact Or.inl h2.first
    · exact Or.inr (hall k (by omega) hk'))
  simp only [receive, h1, Run.bind_ok]
  exact this

/-- C09 end to end: whatever requests a sender handed out for a live transfer, delivering any
sequence of them (any order, duplicates, losses) to an idle receiver makes it report nothing but the
snapshot the transfer was started with. -/
theorem C09_end_to_end {enc dec cs mp rep os s L r l} (h : History enc cs mp rep os (s, L))
    (hl : L.get r = some l) (hdec : dec (enc l.snap.metadata) = some l.snap.metadata)
    (a rrep : Nat) (ins : List RIn)
    (hins : ∀ q, .deliver q ∈ ins → q.sender = a ∧ ∃ p ∈ sents l.evs, q.payload = some (some p.2)) :
    ∃ r' outs, receive dec ⟨rrep, none⟩ ins = .ok (r', outs) ∧ ∀ o ∈ outs, o = .ok (a, l.snap) := by
  obtain ⟨n, m, hpc, hm, he⟩ := C08_sender_hands_out_expected h hl
  refine C09_reassembly_exact hpc hdec (id := l.id) rrep ins ?_
  intro q hq
  obtain ⟨hs, p, hp, hpl⟩ := hins q hq
  refine ⟨hs, ?_⟩
  have : p.2 ∈ (sents l.evs).map Prod.snd := List.mem_map_of_mem hp
  rw [he] at this
  obtain ⟨k, hk, hke⟩ := List.mem_map.mp this
  exact ⟨k, by have := List.mem_range.mp hk; omega, by rw [hpl, hke]⟩

/-- Non-vacuity: chunks delivered as 0, 2, 2, 1. -/
example : IsPieceCount exSnap.data.length 2 3 ∧ exDec (exEnc exSnap.metadata) = some exSnap.metadata ∧
    receive exDec ⟨9, none⟩
      (([0, 2, 2, 1].map fun k => RIn.deliver ⟨9, 1, k, some (some (expected exEnc 4 exSnap 2 k))⟩) ++ [.poll])
      = .ok (⟨9, none⟩, [.ok (1, exSnap)]) :=
  ⟨chunkCount_isPieceCount (by decide), by decide, by decide⟩

/-! ## C10 -/

/-- C10 is false: a late chunk of an older transfer (snapshot id 1, same sender) that arrives after
the header of a newer one (id 2) is accepted, acknowledged and ends up in the reported snapshot. -/
theorem C10_late_chunks_never_contaminate_fails :
    let old : RaftSnapshot := ⟨exSnap.metadata, [9, 9, 9, 9, 9]⟩
    receive exDec ⟨9, none⟩
      [.deliver ⟨9, 1, 1, some (some (expected exEnc 1 old 2 0))⟩,
       .deliver ⟨9, 1, 3, some (some (expected exEnc 2 exSnap 2 0))⟩,
       .deliver ⟨9, 1, 2, some (some (expected exEnc 1 old 2 1))⟩,
       .deliver ⟨9, 1, 5, some (some (expected exEnc 2 exSnap 2 2))⟩, .poll]
      = .ok (⟨9, none⟩, [.ok (1, ⟨exSnap.metadata, [1, 2, 9, 9, 5]⟩)]) := by decide

/-- C10, the part that holds: a chunk from another replica than the one that sent the header, with
an index outside the transfer, or with a length that does not fit its index is rejected and leaves
the snapshot being assembled untouched.  (Missing: chunks of another transfer *of the same sender*
whose length happens to fit are stored, see the counterexample.) -/
theorem C10_late_chunks_never_contaminate_partial (rep : Nat) (st : Incoming) (to frm d sid k : Nat) (b : Bytes)
    (hbad : frm ≠ st.sender ∨ st.chunkCount ≤ k ∨ (k + 1 < st.chunkCount ∧ b.length ≠ st.chunkSize) ∨
      (k + 1 = st.chunkCount ∧ b.length ≠ st.size - (st.chunkCount - 1) * st.chunkSize)) :
    Receiver.processRequest ⟨rep, some st⟩ ⟨to, frm, d, some (some ⟨sid, some (.chunk k b)⟩)⟩
      = .ok (⟨rep, some st⟩, ⟨frm, to, d, some (some ⟨sid, k, .rejected⟩)⟩) := by
  have hacc : st.acceptChunk frm k b = (st, false) := by
    unfold Incoming.acceptChunk
    by_cases h : frm ≠ st.sender
    · rw [if_pos h]
    · rw [if_neg h, if_pos]
      rcases hbad with h1 | h1 | h1 | h1
      · exact absurd h1 h
      · exact Or.inl h1
      · exact Or.inr (Or.inl ⟨by omega, h1.2⟩)
      · exact Or.inr (Or.inr ⟨by omega, h1.2⟩)
  simp [Receiver.processRequest, hacc]

/-! ## C11 -/

private theorem total_le_of_get {ν μ : Type} (f : ν → Nat) (g : μ → Nat) (m : AMap Nat ν) (n : AMap Nat μ)
    (wm : AMap.WF m) (wn : AMap.WF n)
    (h : ∀ k v, m.get k = some v → ∃ w, n.get k = some w ∧ f v ≤ g w) :
    AMap.total f m ≤ AMap.total g n := by
  induction m generalizing n with
  | nil => simp [AMap.total]
  | cons e m ih =>
    obtain ⟨k, v⟩ := e
    simp only [AMap.WF, AMap.keys_cons, List.nodup_cons] at wm
    obtain ⟨w, hw, hle⟩ := h k v (by simp)
    rw [AMap.total_erase g wn hw]
    have : AMap.total f ((k, v) :: m) = f v + AMap.total f m := by simp [AMap.total]
    rw [this]
    have := ih (AMap.erase n k) wm.2 (wn.erase _) (by
      intro j u hj
      have hne : k ≠ j := by
        rintro rfl
        exact wm.1 ((AMap.get_isSome_iff m k).mp (by rw [hj]; rfl))
      obtain ⟨w', hw', hle'⟩ := h j u (by simp [hne, hj])
      exact ⟨w', by rw [AMap.get_erase_ne _ hne]; exact hw', hle'⟩)
    omega

/-- C11, flow control: at every point of every history the chunk requests of live transfers for
which no reply has come back number at most the configured maximum, over all receivers together. -/
theorem C11_in_flight_bounded {enc cs mp rep os s L} (h : History enc cs mp rep os (s, L)) :
    AMap.total (fun l => (outstanding l.evs).length) L ≤ mp := by
  have hw := WInv.history h
  refine Nat.le_trans (total_le_of_get _ (fun t : Transfer => t.pending.length) L s.receivers hw.wfL hw.wf ?_) hw.bound
  intro r l hl
  have := hw.rel r
  simp only at this
  rw [hl] at this
  cases ht : s.receivers.get r with
  | none => rw [ht] at this; exact absurd this (by simp [Rel])
  | some t =>
    rw [ht] at this
    refine ⟨t, rfl, ?_⟩
    rw [← AMap.length_keys]
    refine length_le_of_nodup_subset ?_ this.out
    exact List.Pairwise.filter _ (this.inc.imp (fun hlt => Nat.ne_of_lt hlt))

/-- C11, delivery ids: over a whole history, including restarts of transfers and resets, delivery
ids are handed out in strictly increasing order, hence never reused. -/
theorem C11_delivery_ids_never_reused {enc cs mp rep os w} (h : History enc cs mp rep os w) :
    (deliveryIds os).Pairwise (· < ·) := by
  have : (deliveryIds os).Pairwise (· < ·) ∧ ∀ d ∈ deliveryIds os, d < w.1.nextDeliveryId := by
    induction h with
    | init => exact ⟨by simp [deliveryIds], by simp [deliveryIds]⟩
    | @step os w o w' hh hs ih =>
      have hw := WInv.history hh
      have happ : ∀ o, deliveryIds (os ++ [o]) = deliveryIds os ++ deliveryIds [o] := by
        intro o; simp [deliveryIds, List.filterMap_append]
      have hquiet : ∀ o, deliveryIds [o] = [] → w'.1.nextDeliveryId = w.1.nextDeliveryId →
          (deliveryIds (os ++ [o])).Pairwise (· < ·) ∧ ∀ d ∈ deliveryIds (os ++ [o]), d < w'.1.nextDeliveryId := by
        intro o ho hd
        rw [happ, ho, List.append_nil, hd]; exact ih
      cases hs with
      | start hst =>
        simp only [Sender.start, Run.bind_eq_ok] at hst
        obtain ⟨t, _, hs'⟩ := hst
        simp at hs'; subst hs'
        exact hquiet _ rfl rfl
      | nextNone hn =>
        rcases nextRequest_spec hw with ⟨he, _⟩ | ⟨r, t, l, _, _, _, _, _, _, _, he⟩
        · rw [he] at hn; simp at hn; subst hn; exact hquiet _ rfl rfl
        · rw [he] at hn; simp at hn
      | nextSome hn =>
        rcases nextRequest_spec hw with ⟨he, _⟩ | ⟨r, t, l, _, _, _, _, _, _, _, he⟩
        · rw [he] at hn; simp at hn
        · rw [he] at hn
          simp only [Run.ok.injEq, Prod.mk.injEq, Option.some.injEq, Request.mk.injEq] at hn
          obtain ⟨hs', rfl, rfl, rfl, rfl⟩ := hn
          subst hs'
          rw [happ]
          refine ⟨?_, ?_⟩
          · rw [List.pairwise_append]
            refine ⟨ih.1, by simp [deliveryIds], fun a ha b hb => ?_⟩
            simp [deliveryIds] at hb; subst hb; exact ih.2 a ha
          · intro d hd
            rcases List.mem_append.mp hd with hd | hd
            · have := ih.2 d hd; simp only at this ⊢; omega
            · simp [deliveryIds] at hd; simp only; omega
      | response hr =>
        refine hquiet _ rfl ?_
        unfold Sender.processResponse at hr
        split at hr <;> simp at hr <;> subst hr <;> rfl
      | completeNone hc =>
        refine hquiet _ rfl ?_
        unfold Sender.tryComplete at hc
        split at hc <;> simp at hc
        subst hc; rfl
      | completeSome hc =>
        refine hquiet _ rfl ?_
        unfold Sender.tryComplete at hc
        split at hc
        · simp at hc
        · simp only [Prod.mk.injEq] at hc; rw [← hc.1]
      | reset hr =>
        refine hquiet _ rfl ?_
        simp only [Sender.reset, Prod.mk.injEq] at hr
        rw [← hr.1]
      | shuffle hp => exact hquiet _ rfl rfl
  exact this.1

/-- Non-vacuity: with a maximum of 2, the third request is withheld although chunks are left. -/
example : (do
    let s ← (Sender.new.init 1 (some (2, 2))).start 5 exSnap
    let (s, _) ← s.nextRequest exEnc
    let (s, b) ← s.nextRequest exEnc
    let (_, c) ← s.nextRequest exEnc
    pure (b.isSome, c)) = Run.ok (true, none) := by decide

/-! ## C12 -/

private theorem completed_get {enc cs mp rep os w w' r st} (h : History enc cs mp rep os w)
    (hs : SStep enc w (.completed r st) w') :
    ∃ t l, w.1.receivers.get r = some t ∧ w.2.get r = some l ∧ TInv enc cs w.1.nextDeliveryId t l ∧
      t.tryComplete.2 = some st ∧ w'.2.get r = none := by
  have hw := WInv.history h
  cases hs with
  | completeSome hc =>
    unfold Sender.tryComplete at hc
    split at hc
    · simp at hc
    · rename_i r' st' hf
      simp only [Prod.mk.injEq, Option.some.injEq] at hc
      obtain ⟨_, rfl, rfl⟩ := hc
      obtain ⟨t, hm, ht⟩ := findComplete_spec hf
      obtain ⟨l, hl, hti⟩ := hw.rel_of_mem hm
      exact ⟨t, l, AMap.get_of_mem hw.wf hm, hl, hti, ht, by simp⟩

/-- C12, success: `Finish` is reported for a receiver only after every chunk `0 … n-1` of the
transfer was handed out and each of those requests was acknowledged positively exactly once, and no
reply disturbed the transfer. -/
theorem C12_finish_only_if_all_acknowledged {enc cs mp rep os w w' r} (h : History enc cs mp rep os w)
    (hs : SStep enc w (.completed r .finish) w') :
    ∃ l n, w.2.get r = some l ∧ IsPieceCount l.snap.data.length cs n ∧
      (sents l.evs).map Prod.snd = (List.range n).map (expected enc l.id l.snap cs) ∧
      ((acks l.id l.evs).map fun p => (p.1, p.2.chunkIndex)).Perm (sentIdx l.evs) ∧
      (∀ p ∈ acks l.id l.evs, p.2.status = .accepted) ∧ ¬ Disturbed l.id l.evs := by
  obtain ⟨t, l, _, hl, hti, ht, _⟩ := completed_get h hs
  have hnone : t.status = none := by
    cases hst : t.status with
    | none => rfl
    | some x => cases x with
      | finish => exact absurd hst hti.noFinish
      | failure => simp [Transfer.tryComplete, hst] at ht
  have hsent : t.sent = t.chunkCount := by
    apply Classical.byContradiction
    intro hne
    simp [Transfer.tryComplete, hnone, hne] at ht
  obtain ⟨hp, hsl, hacc⟩ := hti.live hnone
  have hll := hti.live_len hnone
  have hnx := hti.nx
  have hpe : t.pending = [] := List.length_eq_zero_iff.mp (by omega)
  refine ⟨l, t.chunkCount, hl, chunkCount_isPieceCount hti.cnt, ?_, ?_, hacc, ?_⟩
  · have : t.nextIndex = t.chunkCount := by omega
    rw [← this]; exact hti.cont
  · rw [hpe] at hp; exact hp
  · intro hd
    have := hti.st.mpr hd
    rw [hnone] at this; cases this

/-- C12, failure: a transfer is reported as failed exactly when some reply disturbed it: the delivery
failed, the reply did not decode, or it named this snapshot but was a rejection, a duplicate or did
not match a request handed out.  (Replies naming another snapshot are ignored.) -/
theorem C12_failure_iff_disturbed {enc cs mp rep os w w' r st} (h : History enc cs mp rep os w)
    (hs : SStep enc w (.completed r st) w') :
    ∃ l, w.2.get r = some l ∧ (st = .failure ↔ Disturbed l.id l.evs) := by
  obtain ⟨t, l, _, hl, hti, ht, _⟩ := completed_get h hs
  refine ⟨l, hl, ?_⟩
  rw [← hti.st]
  cases hst : t.status with
  | none =>
    by_cases hsent : t.sent = t.chunkCount
    · simp [Transfer.tryComplete, hst, hsent] at ht; subst ht; simp
    · simp [Transfer.tryComplete, hst, hsent] at ht
  | some x => cases x with
    | finish => exact absurd hst hti.noFinish
    | failure => simp [Transfer.tryComplete, hst] at ht; subst ht; simp

/-- C12, nothing is forgotten: as long as some live transfer is disturbed, or has had all its chunks
acknowledged, `try_complete` reports some transfer. -/
theorem C12_reports_when_possible {enc cs mp rep os w r l} (h : History enc cs mp rep os w)
    (hl : w.2.get r = some l)
    (hdone : Disturbed l.id l.evs ∨ IsPieceCount l.snap.data.length cs (acks l.id l.evs).length) :
    ∃ s' x, w.1.tryComplete = (s', some x) := by
  have hw := WInv.history h
  have hrel := hw.rel r
  rw [hl] at hrel
  cases hg : w.1.receivers.get r with
  | none => rw [hg] at hrel; exact absurd hrel (by simp [Rel])
  | some t =>
    rw [hg] at hrel
    have hti : TInv enc cs w.1.nextDeliveryId t l := hrel
    cases hf : findComplete w.1.receivers with
    | some x => exact ⟨_, x, by unfold Sender.tryComplete; rw [hf]⟩
    | none =>
      exfalso
      have hno := findComplete_none hf (r, t) (AMap.mem_of_get hg)
      simp only at hno
      rcases hdone with hd | hd
      · have := hti.st.mpr hd
        simp [Transfer.tryComplete, this] at hno
      · cases hst : t.status with
        | some x => simp [Transfer.tryComplete, hst] at hno
        | none =>
          have := isPieceCount_unique hd (chunkCount_isPieceCount hti.cnt)
          obtain ⟨_, hsl, _⟩ := hti.live hst
          simp [Transfer.tryComplete, hst, hsl, this] at hno

private theorem steps_no_complete {enc cs mp rep os w r} (h : History enc cs mp rep os w)
    {os' w'} (hs : Steps enc w os' w') (hn : w.2.get r = none) (hno : .started r ∉ os') :
    ∀ st, .completed r st ∉ os' := by
  induction hs generalizing os with
  | refl => simp
  | @step w o w1 os1 w2 h1 hs ih =>
    have hh := History.step h h1
    have hne : o ≠ .started r := fun e => hno (by simp [e])
    have hno1 : .started r ∉ os1 := fun hm => hno (List.mem_cons_of_mem _ hm)
    have hnote : ∀ (L : AMap Nat Log) j e, L.get r = none → (note L j e).get r = none := by
      intro L j e hL
      rw [get_note]
      by_cases hj : j = r
      · subst hj; simp [hL]
      · simp [hj, hL]
    have hn1 : w1.2.get r = none := by
      cases h1 with
      | @start s s' L r' snap _ =>
        have : r' ≠ r := fun e => hne (by rw [e])
        simp only [AMap.get_set_ne _ _ this]; exact hn
      | nextNone _ => exact hn
      | nextSome _ => exact hnote _ _ _ hn
      | response _ => exact hnote _ _ _ hn
      | completeNone _ => exact hn
      | @completeSome s s' L r' st _ =>
        simp only [AMap.get_erase]
        split
        · rfl
        · exact hn
      | reset _ => rfl
      | shuffle _ => exact hn
    intro st hm
    rcases List.mem_cons.mp hm with rfl | hm
    · obtain ⟨t, l, _, hl, _⟩ := completed_get h h1
      rw [hn] at hl; cases hl
    · exact ih hh hn1 hno1 st hm

/-- C12, at most once: after a transfer has been reported, the same receiver is not reported again
until a new transfer to it is started, whatever else happens. -/
theorem C12_reported_at_most_once {enc cs mp rep os w w1 w2 r st os'} (h : History enc cs mp rep os w)
    (hs : SStep enc w (.completed r st) w1) (hss : Steps enc w1 os' w2) (hno : .started r ∉ os') :
    ∀ st', .completed r st' ∉ os' := by
  obtain ⟨t, l, _, _, _, _, hn⟩ := completed_get h hs
  exact steps_no_complete (History.step h hs) hss hn hno

/-- Non-vacuity: a one-chunk transfer that is acknowledged, and one that is acknowledged twice. -/
example : (do
    let s ← (Sender.new.init 1 (some (8, 2))).start 5 exSnap
    let (s, _) ← s.nextRequest exEnc
    let s ← s.processResponse 5 1 (some (.ack ⟨1, 0, .accepted⟩))
    let s2 ← s.processResponse 5 1 (some (.ack ⟨1, 0, .accepted⟩))
    pure (s.tryComplete.2, s2.tryComplete.2)) = Run.ok (some (5, .finish), some (5, .failure)) := by decide

/-- A concrete history meeting the hypotheses of C08–C13: a transfer of three chunks to receiver 5,
two requests handed out, the first acknowledged; receiver 6 has a transfer with nothing sent. -/
theorem exHistory : ∃ os s L l, History exEnc 2 3 1 os (s, L) ∧ L.get 5 = some l ∧ L.get 0 = none ∧
    (sents l.evs).length = 2 ∧ (acks l.id l.evs).length = 1 ∧ (L.get 6).isSome := by
  refine ⟨_, _, _, _, .step (.step (.step (.step (.step .init (.start (r := 5) (snap := exSnap) rfl))
    (.nextSome rfl)) (.nextSome rfl)) (.response (r := 5) (d := 1) (rep := .ack ⟨1, 0, .accepted⟩) rfl))
    (.start (r := 6) (snap := exSnap) rfl), rfl, rfl, rfl, rfl, rfl⟩

/-- C12 is not vacuous: a transfer finishes, another one fails because the network reported a failure; afterwards a transfer to another
receiver is started and the same receiver is not reported again. -/
example : ∃ os w w' os' w2, History exEnc 8 2 1 os w ∧ SStep exEnc w (.completed 5 .finish) w' ∧ Steps exEnc w' os' w2 ∧ .started 5 ∉ os' ∧
    .started 6 ∈ os' :=
  ⟨_, _, _, _, _, .step (.step (.step .init (.start (r := 5) (snap := exSnap) rfl)) (.nextSome rfl))
      (.response (r := 5) (d := 1) (rep := .ack ⟨1, 0, .accepted⟩) rfl), .completeSome rfl,
    .step (.start (r := 6) (snap := exSnap) rfl) (.step (.nextSome rfl) .refl), by decide, by decide⟩

example : ∃ os w w', History exEnc 8 2 1 os w ∧ SStep exEnc w (.completed 5 .failure) w' :=
  ⟨_, _, _, .step (.step (.step .init (.start (r := 5) (snap := exSnap) rfl)) (.nextSome rfl))
      (.response (r := 5) (d := 1) (rep := .failed) rfl), .completeSome rfl⟩

/-! ## C13 -/

/-- C13, progress and fairness: when no live transfer is disturbed (failed transfers have been
collected), the budget is not used up and some transfer has chunks left, `next_request` yields the
next unsent chunk, in order, of a transfer with the least fraction of chunks handed out. -/
theorem C13_next_request_fair {enc cs mp rep os s L} (h : History enc cs mp rep os (s, L))
    (h0 : L.get 0 = none) (hclean : ∀ r l, L.get r = some l → ¬ Disturbed l.id l.evs)
    (hbudget : AMap.total (fun l : Log => (sents l.evs).length - (acks l.id l.evs).length) L < mp)
    {r0 : Nat} {l0 : Log} {n0 : Nat} (hr0 : L.get r0 = some l0)
    (hn0 : IsPieceCount l0.snap.data.length cs n0) (hleft : (sents l0.evs).length < n0) :
    ∃ s' r l n d, s.nextRequest enc = .ok (s', some ⟨r, rep, d,
        some (some (expected enc l.id l.snap cs (sents l.evs).length))⟩) ∧
      L.get r = some l ∧ IsPieceCount l.snap.data.length cs n ∧ (sents l.evs).length < n ∧
      ∀ r' l' n', L.get r' = some l' → IsPieceCount l'.snap.data.length cs n' →
        (sents l.evs).length * n' ≤ (sents l'.evs).length * n := by
  have hw := WInv.history h
  -- every live transfer is clean, so its internal state is determined by its log
  have hlive : ∀ r t, s.receivers.get r = some t → ∃ l, L.get r = some l ∧
      TInv enc cs s.nextDeliveryId t l ∧ t.status = none := by
    intro r t ht
    have := hw.rel r
    simp only at this
    rw [ht] at this
    cases hl : L.get r with
    | none => rw [hl] at this; exact absurd this (by simp [Rel])
    | some l =>
      rw [hl] at this
      have hti : TInv enc cs s.nextDeliveryId t l := this
      refine ⟨l, rfl, hti, ?_⟩
      cases hst : t.status with
      | none => rfl
      | some x => cases x with
        | finish => exact absurd hst hti.noFinish
        | failure => exact absurd (hti.st.mp hst) (hclean r l hl)
  have hback : ∀ r l, L.get r = some l → ∃ t, s.receivers.get r = some t ∧
      TInv enc cs s.nextDeliveryId t l ∧ t.status = none := by
    intro r l hl
    have := hw.rel r
    simp only at this
    rw [hl] at this
    cases ht : s.receivers.get r with
    | none => rw [ht] at this; exact absurd this (by simp [Rel])
    | some t =>
      obtain ⟨l', hl', hti, hst⟩ := hlive r t ht
      rw [hl] at hl'; cases hl'
      exact ⟨t, rfl, hti, hst⟩
  have hpend : AMap.total (fun t : Transfer => t.pending.length) s.receivers < mp := by
    refine Nat.lt_of_le_of_lt (total_le_of_get _ _ _ _ hw.wf hw.wfL ?_) hbudget
    intro r t ht
    obtain ⟨l, hl, hti, hst⟩ := hlive r t ht
    refine ⟨l, hl, ?_⟩
    have h1 := hti.live_len hst
    have h2 := hti.len
    obtain ⟨_, h3, _⟩ := hti.live hst
    omega
  rcases nextRequest_spec hw with ⟨_, hwhy⟩ | ⟨r, t, l, hr, hg, hl, _, hst, hix, hmin, he⟩
  · exfalso
    rcases hwhy with h1 | h1 | ⟨t, h1⟩
    · exact absurd hpend (by simp only at h1; omega)
    · obtain ⟨t, ht, hti, hst⟩ := hback r0 l0 hr0
      refine h1 (r0, t) (AMap.mem_of_get ht) ⟨hst, ?_⟩
      have := isPieceCount_unique hn0 (chunkCount_isPieceCount hti.cnt)
      have := hti.len
      simp only; omega
    · obtain ⟨l, hl, _⟩ := hlive 0 t h1
      rw [h0] at hl; cases hl
  · simp only at hg hl he hmin
    obtain ⟨l1, hl1, hti, _⟩ := hlive r t hg
    rw [hl] at hl1; cases hl1
    have hlen := hti.len
    have hrep : s.replicaId = rep := hw.hrep
    have he' := he
    rw [← hlen, hrep] at he'
    refine ⟨_, r, l, t.chunkCount, s.nextDeliveryId, he', hl, chunkCount_isPieceCount hti.cnt, by omega, ?_⟩
    · intro r' l' n' hl' hn'
      obtain ⟨t', ht', hti', hst'⟩ := hback r' l' hl'
      have hm := hmin (r', t') (AMap.mem_of_get ht')
      have hcnt := isPieceCount_unique hn' (chunkCount_isPieceCount hti'.cnt)
      have e1 := hti.live_len hst
      have e2 := hti'.live_len hst'
      have e3 := hti'.len
      simp only [fracGt, Transfer.progress, hst, hst', decide_eq_false_iff_not, Nat.not_lt] at hm
      rw [e1, e2] at hm
      rw [hlen, e3, hcnt]; exact hm

private theorem promptRound_step {enc cs mp rep s r t l} (hw : WInv enc cs mp rep (s, [(r, l)]))
    (hs : s.receivers = [(r, t)]) (hst : t.status = none) (hp : t.pending = []) (hr : r ≠ 0) (hmp : 0 < mp)
    (hlt : t.nextIndex < t.chunkCount) :
    ∃ s' t' l', promptRound enc s = .ok s' ∧ WInv enc cs mp rep (s', [(r, l')]) ∧ s'.receivers = [(r, t')] ∧
      t'.status = none ∧ t'.pending = [] ∧ t'.nextIndex = t.nextIndex + 1 ∧ t'.chunkCount = t.chunkCount := by
  rcases nextRequest_spec hw with ⟨_, hwhy⟩ | ⟨r1, t1, l1, _, hg, hl, _, _, _, _, he⟩
  · exfalso
    rcases hwhy with h1 | h1 | ⟨t0, h1⟩
    · simp [hs, AMap.total, hp] at h1; omega
    · exact h1 (r, t) (by simp [hs]) ⟨hst, hlt⟩
    · simp [hs, hr] at h1
  · simp only [hs, AMap.get_cons, AMap.get_nil] at hg hl
    have hrr : r = r1 := by
      apply Classical.byContradiction; intro hne; simp [hne] at hg
    subst hrr
    simp at hg hl
    subst hg hl
    have hti : TInv enc cs s.nextDeliveryId t l := by
      have := hw.rel r
      simp only [hs] at this
      simpa [Rel] using this
    simp only at he
    have step1 := hw.step (SStep.nextSome he)
    have hidx : Spec.Content.index (expected enc l.id l.snap cs t.nextIndex) = t.nextIndex := expected_index _ _ _ _ _
    have hsid : (expected enc l.id l.snap cs t.nextIndex).snapshotId = l.id := rfl
    let t' : Transfer := { t with sent := t.sent + 1, nextIndex := t.nextIndex + 1 }
    let s' : Sender := { s with nextDeliveryId := s.nextDeliveryId + 1, receivers := [(r, t')] }
    have hproc : Sender.processResponse
        { s with
          nextDeliveryId := s.nextDeliveryId + 1
          receivers := s.receivers.set r { t with
            pending := t.pending.set s.nextDeliveryId t.nextIndex, nextIndex := t.nextIndex + 1 } }
        r s.nextDeliveryId
        (some (.ack ⟨l.id, t.nextIndex, .accepted⟩)) = .ok s' := by
      have hcnt : ¬ t.chunkCount ≤ t.nextIndex := by omega
      simp only [Sender.processResponse, hs, AMap.set, if_true, AMap.get_cons]
      simp only [Transfer.processReply, hti.id, hcnt, hp, AMap.set, AMap.get_cons, if_true]
      simp [AMap.erase, s', t', hti.id, hp]
    have step2 := step1.step (SStep.response hproc)
    refine ⟨s', t', { l with evs := l.evs ++ [.sent s.nextDeliveryId (expected enc l.id l.snap cs t.nextIndex)] ++
        [.reply s.nextDeliveryId (.ack ⟨l.id, t.nextIndex, .accepted⟩)] }, ?_, ?_, rfl, hst, hp, rfl, rfl⟩
    · unfold promptRound
      rw [he]
      simp only [Run.bind_ok, hidx, hsid]
      exact hproc
    · have hnote : note (note [(r, l)] r (.sent s.nextDeliveryId (expected enc l.id l.snap cs t.nextIndex))) r
          (.reply s.nextDeliveryId (.ack ⟨l.id, t.nextIndex, .accepted⟩)) =
          [(r, { l with evs := l.evs ++ [.sent s.nextDeliveryId (expected enc l.id l.snap cs t.nextIndex)] ++
            [.reply s.nextDeliveryId (.ack ⟨l.id, t.nextIndex, .accepted⟩)] })] := by
        simp [note, AMap.set]
      rw [hnote] at step2; exact step2

private theorem promptRounds_steps {enc cs mp rep r} (hr : r ≠ 0) (hmp : 0 < mp) (k : Nat) :
    ∀ {s t l}, WInv enc cs mp rep (s, [(r, l)]) → s.receivers = [(r, t)] → t.status = none → t.pending = [] →
      t.nextIndex + k ≤ t.chunkCount →
      ∃ s' t' l', promptRounds enc k s = .ok s' ∧ WInv enc cs mp rep (s', [(r, l')]) ∧
        s'.receivers = [(r, t')] ∧ t'.status = none ∧ t'.pending = [] ∧ t'.nextIndex = t.nextIndex + k ∧
        t'.chunkCount = t.chunkCount := by
  induction k with
  | zero => intro s t l hw hs hst hp _; exact ⟨s, t, l, rfl, hw, hs, hst, hp, by omega, rfl⟩
  | succ k ih =>
    intro s t l hw hs hst hp hle
    obtain ⟨s1, t1, l1, h1, hw1, hs1, hst1, hp1, hx1, hc1⟩ := promptRound_step hw hs hst hp hr hmp (by omega)
    obtain ⟨s2, t2, l2, h2, hw2, hs2, hst2, hp2, hx2, hc2⟩ := ih hw1 hs1 hst1 hp1 (by omega)
    exact ⟨s2, t2, l2, by simp [promptRounds, h1, h2], hw2, hs2, hst2, hp2, by omega, by omega⟩

/-- C13, termination: with prompt positive acknowledgements a transfer is reported as finished after
exactly as many requests as it has chunks, and not earlier. -/
theorem C13_prompt_transfer_finishes (enc : Meta → Bytes) {cs mp rep r : Nat} (hcs : 0 < cs) (hmp : 0 < mp)
    (hr : r ≠ 0) (snap : RaftSnapshot) {n : Nat} (hn : IsPieceCount snap.data.length cs n) :
    ∃ s0, (Sender.new.init rep (some (cs, mp))).start r snap = .ok s0 ∧
      ∀ k, k ≤ n → ∃ s', promptRounds enc k s0 = .ok s' ∧
        s'.tryComplete.2 = if k = n then some (r, .finish) else none := by
  obtain ⟨s0, h0⟩ := C08_start_never_panics (Sender.new.init rep (some (cs, mp))) hcs r snap
  refine ⟨s0, h0, fun k hk => ?_⟩
  have hw := (WInv.init enc cs mp rep).step (SStep.start h0)
  simp only [Sender.start, Run.bind_eq_ok] at h0
  obtain ⟨t, ht, hs'⟩ := h0
  have hti : TInv enc cs 1 t ⟨1, snap, []⟩ := TInv.new ht rfl
  have htp : t.pending = [] ∧ t.nextIndex = 0 ∧ t.status = none := by
    simp only [Transfer.new, Run.bind_eq_ok] at ht
    obtain ⟨n, _, ht⟩ := ht
    simp at ht; subst ht; exact ⟨rfl, rfl, rfl⟩
  have hcnt := isPieceCount_unique hn (chunkCount_isPieceCount hti.cnt)
  simp at hs'
  obtain ⟨s1, t1, l1, h1, hw1, hs1, hst1, hp1, hx1, hc1⟩ :=
    promptRounds_steps hr hmp k hw (t := t) (by rw [← hs']; rfl) htp.2.2 htp.1 (by omega)
  refine ⟨s1, h1, ?_⟩
  have hti1 : TInv enc cs s1.nextDeliveryId t1 l1 := by
    have := hw1.rel r
    simp only [hs1] at this
    simpa [Rel] using this
  have hl := hti1.live_len hst1
  rw [hp1] at hl
  simp only [List.length_nil, Nat.add_zero] at hl
  unfold Sender.tryComplete
  rw [hs1]
  by_cases hkn : k = n
  · have : t1.sent = t1.chunkCount := by omega
    simp [findComplete, Transfer.tryComplete, hst1, this, hkn]
  · have : ¬ t1.sent = t1.chunkCount := by omega
    simp [findComplete, Transfer.tryComplete, hst1, this, hkn]

example : IsPieceCount exSnap.data.length 2 3 := chunkCount_isPieceCount (by decide)

/-- C13 is not vacuous: two transfers of three chunks, one request of the first is under way, three may be. -/
example : ∃ os s L l, History exEnc 2 3 1 os (s, L) ∧ L.get 0 = none ∧ (∀ r l, L.get r = some l → ¬ Disturbed l.id l.evs) ∧
    AMap.total (fun l : Log => (sents l.evs).length - (acks l.id l.evs).length) L < 3 ∧ L.get 5 = some l ∧
    IsPieceCount l.snap.data.length 2 3 ∧ (sents l.evs).length < 3 := by
  refine ⟨_, _, _, _, .step (.step (.step .init (.start (r := 5) (snap := exSnap) rfl)) (.start (r := 6) (snap := exSnap) rfl)) (.nextSome rfl),
    rfl, ?_, by decide, rfl, chunkCount_isPieceCount (by decide), by decide⟩
  rintro r l hl ⟨before, d, rep, after, he, _⟩
  have hno : ∀ e ∈ l.evs, ∃ d c, e = .sent d c := by
    have key : ∀ x ∈ note (AMap.set (AMap.set [] 5 ⟨1, exSnap, []⟩) 6 ⟨2, exSnap, []⟩) 5 (.sent 1 (expected exEnc 1 exSnap 2 0)),
        ∀ e ∈ x.2.evs, ∃ d c, e = .sent d c := by
      simp [note, AMap.get, AMap.set]
    exact key (r, l) (AMap.mem_of_get hl)
  obtain ⟨_, _, h⟩ := hno (.reply d rep) (by rw [he]; simp)
  cases h

/-! ## C14 -/

private theorem change_follower {p : Processor} (h : p.role = .follower) (l t : Nat) (rs : List Nat) :
    p.clusterChange l t rs = .ok ({ p with
      leaderId := l, leaderTerm := t
      receiver := if p.leaderId ≠ l ∨ p.leaderTerm ≠ t ∨ p.replicaId ∉ rs then p.receiver.reset else p.receiver
      role := if p.replicaId = l then .leader else .follower }, []) := by
  by_cases h1 : p.leaderId ≠ l ∨ p.leaderTerm ≠ t ∨ p.replicaId ∉ rs
  · by_cases h2 : p.replicaId = l
    · simp only [Processor.clusterChange, h, if_pos h1, if_pos h2]
    · simp only [Processor.clusterChange, h, if_pos h1, if_neg h2]
  · by_cases h2 : p.replicaId = l
    · simp only [Processor.clusterChange, h, if_neg h1, if_pos h2]
    · simp only [Processor.clusterChange, h, if_neg h1, if_neg h2]

private theorem change_leader {p : Processor} (h : p.role = .leader) (l t : Nat) (rs : List Nat) :
    p.clusterChange l t rs = .ok ({ p with
      leaderId := l, leaderTerm := t
      sender := if p.leaderId ≠ l ∨ p.leaderTerm ≠ t ∨ p.replicaId ∉ rs then p.sender.reset.1 else p.sender
      role := if p.replicaId = l then .leader else .follower },
      if p.leaderId ≠ l ∨ p.leaderTerm ≠ t ∨ p.replicaId ∉ rs then
        p.sender.receivers.keys.map (fun r => (r, Status.failure)) else []) := by
  by_cases h1 : p.leaderId ≠ l ∨ p.leaderTerm ≠ t ∨ p.replicaId ∉ rs
  · by_cases h2 : p.replicaId = l
    · have h2' : ¬ p.replicaId ≠ l := fun e => e h2
      simp only [Processor.clusterChange, h, if_pos h1, if_pos h2, if_neg h2', Sender.reset]
    · simp only [Processor.clusterChange, h, if_pos h1, if_neg h2, if_pos (show p.replicaId ≠ l from h2), Sender.reset]
  · by_cases h2 : p.replicaId = l
    · have h2' : ¬ p.replicaId ≠ l := fun e => e h2
      simp only [Processor.clusterChange, h, if_neg h1, if_pos h2, if_neg h2']
    · simp only [Processor.clusterChange, h, if_neg h1, if_neg h2, if_pos (show p.replicaId ≠ l from h2)]

private theorem preach_inv {enc : Meta → Bytes} {dec : Bytes → Option Meta} {rep : Nat} {p : Processor}
    (h : PReach enc dec rep p) :
    p.replicaId = rep ∧ p.role ≠ .unknown ∧
    (rep ≠ 0 → (p.role = .leader ↔ p.leaderId = rep) ∧
      (p.role = .follower → p.sender.receivers = []) ∧ (p.role = .leader → p.receiver.state = none)) := by
  induction h with
  | init hi =>
    simp [Processor.init, Processor.new] at hi
    subst hi
    refine ⟨rfl, by simp, fun hr => ⟨?_, ?_, by simp⟩⟩
    · simp [Ne.symm hr]
    · intro _; simp only [Sender.init, Sender.new]; split <;> rfl
  | @change p l t rs p' c _ hc ih =>
    obtain ⟨hrep, hunk, ih⟩ := ih
    have hrl : ∀ x : Nat, (p.replicaId = x) ↔ (x = rep) := fun x => by rw [hrep]; exact eq_comm
    cases hrole : p.role with
    | unknown => exact absurd hrole hunk
    | follower =>
      rw [change_follower hrole] at hc
      simp only [Run.ok.injEq, Prod.mk.injEq] at hc
      obtain ⟨rfl, _⟩ := hc
      refine ⟨hrep, by simp only; split <;> simp, fun hr => ?_⟩
      obtain ⟨h1, h2, h3⟩ := ih hr
      refine ⟨?_, fun _ => h2 hrole, ?_⟩
      · simp only [hrl]; split <;> simp_all
      · intro hl
        have hll : l = rep := by
          simp only [hrl] at hl
          apply Classical.byContradiction; intro hne; simp [hne] at hl
        have hne : p.leaderId ≠ l := by
          intro e; rw [h1.mpr (e.trans hll)] at hrole; cases hrole
        simp only [if_pos (Or.inl hne : p.leaderId ≠ l ∨ p.leaderTerm ≠ t ∨ p.replicaId ∉ rs)]
        rfl
    | leader =>
      rw [change_leader hrole] at hc
      simp only [Run.ok.injEq, Prod.mk.injEq] at hc
      obtain ⟨rfl, _⟩ := hc
      refine ⟨hrep, by simp only; split <;> simp, fun hr => ?_⟩
      obtain ⟨h1, h2, h3⟩ := ih hr
      refine ⟨?_, ?_, fun _ => h3 hrole⟩
      · simp only [hrl]; split <;> simp_all
      · intro hl
        have hll : l ≠ rep := by
          simp only [hrl] at hl
          intro e; simp [e] at hl
        have hne : p.leaderId ≠ l := by
          rw [h1.mp hrole]; exact fun e => hll e.symm
        simp only [if_pos (Or.inl hne : p.leaderId ≠ l ∨ p.leaderTerm ≠ t ∨ p.replicaId ∉ rs)]
        rfl
  | @sender p s' _ hr hs ih =>
    obtain ⟨hrep, hunk, ih⟩ := ih
    exact ⟨hrep, hunk, fun h0 => ⟨(ih h0).1, by simp [hr], (ih h0).2.2⟩⟩
  | @receiver p r' _ hr hs ih =>
    obtain ⟨hrep, hunk, ih⟩ := ih
    exact ⟨hrep, hunk, fun h0 => ⟨(ih h0).1, (ih h0).2.1, by simp [hr]⟩⟩

/-- C14, roles: at every point of its life an initialised processor hands out the sender exactly
when the replica is the leader last announced; while it is a follower it has no outgoing transfer
and while it is leader it holds no partially received snapshot.  (Raft replica ids are non-zero.) -/
theorem C14_role_separation {enc dec rep p} (h : PReach enc dec rep p) (hrep : rep ≠ 0) :
    (p.role = .leader ↔ p.leaderId = rep) ∧ (p.role = .leader ∨ p.role = .follower) ∧
    (p.role = .follower → p.sender.receivers = []) ∧ (p.role = .leader → p.receiver.state = none) := by
  obtain ⟨_, h1, h2⟩ := preach_inv h
  refine ⟨(h2 hrep).1, ?_, (h2 hrep).2⟩
  cases hr : p.role <;> simp_all

/-- C14, abort: a change of leader or term, or removal of this replica, leaves no transfer state in
either direction, and reports failure for exactly the receivers that had a transfer in flight. -/
theorem C14_change_aborts_transfers {enc dec rep p} (h : PReach enc dec rep p) (hrep : rep ≠ 0)
    (l t : Nat) (rs : List Nat) (hch : p.leaderId ≠ l ∨ p.leaderTerm ≠ t ∨ rep ∉ rs) :
    ∃ p' cancelled, p.clusterChange l t rs = .ok (p', cancelled) ∧
      p'.sender.receivers = [] ∧ p'.receiver.state = none ∧
      cancelled = p.sender.receivers.keys.map (fun r => (r, Status.failure)) ∧
      (p'.role = .leader ↔ l = rep) := by
  obtain ⟨hid, hunk, hinv⟩ := preach_inv h
  obtain ⟨h1, h2, h3⟩ := hinv hrep
  rw [← hid] at hch
  have hrl : (p.replicaId = l) ↔ (l = rep) := by rw [hid]; exact eq_comm
  cases hrole : p.role with
  | unknown => exact absurd hrole hunk
  | follower =>
    rw [change_follower hrole]
    refine ⟨_, _, rfl, h2 hrole, ?_, ?_, ?_⟩
    · simp only [if_pos hch]; rfl
    · rw [h2 hrole]; rfl
    · simp only [hrl]; split <;> simp_all
  | leader =>
    rw [change_leader hrole]
    refine ⟨_, _, rfl, ?_, h3 hrole, ?_, ?_⟩
    · simp only [if_pos hch]; rfl
    · rw [if_pos hch]
    · simp only [hrl]; split <;> simp_all

/-- C14, converse: if leader and term are the ones known and the replica is still a member, nothing
is aborted. -/
theorem C14_no_change_keeps_transfers {enc dec rep p} (h : PReach enc dec rep p) (hrep : rep ≠ 0)
    (rs : List Nat) (hm : rep ∈ rs) :
    p.clusterChange p.leaderId p.leaderTerm rs = .ok (p, []) := by
  obtain ⟨hid, hunk, hinv⟩ := preach_inv h
  obtain ⟨h1, h2, h3⟩ := hinv hrep
  have hno : ¬ (p.leaderId ≠ p.leaderId ∨ p.leaderTerm ≠ p.leaderTerm ∨ p.replicaId ∉ rs) := by
    rw [hid]; simp [hm]
  cases hrole : p.role with
  | unknown => exact absurd hrole hunk
  | follower =>
    have : ¬ p.replicaId = p.leaderId := by
      intro e; rw [hid] at e; rw [h1.mpr e.symm] at hrole; cases hrole
    rw [change_follower hrole, if_neg hno, if_neg this, ← hrole]
  | leader =>
    have : p.replicaId = p.leaderId := by rw [hid, h1.mp hrole]
    rw [change_leader hrole, if_neg hno, if_neg hno, if_pos this, ← hrole]

/-- Non-vacuity: a leader with a transfer in flight steps down. -/
example : (do
    let p ← (Processor.new Sender.new Receiver.new).init 1 (some (2, 2))
    let (p, _) ← p.clusterChange 1 3 [1, 2]
    let s ← p.sender.start 2 exSnap
    let (p, c) ← Processor.clusterChange { p with sender := s } 2 4 [1, 2]
    pure (p.role, c)) = Run.ok (.follower, [(2, .failure)]) := by decide

/-- C14 is not vacuous: a leader with a transfer under way, and what changes or does not change its role. -/
example : ∃ p, PReach exEnc exDec 1 p ∧ p.role = .leader ∧ p.sender.receivers.keys = [2] ∧ (p.leaderId ≠ 2 ∨ p.leaderTerm ≠ 4 ∨ 1 ∉ [1, 2]) ∧
    p.clusterChange p.leaderId p.leaderTerm [1, 2] = .ok (p, []) :=
  ⟨_, .sender (.change (.init (cfg := some (2, 2)) rfl) (l := 1) (t := 3) (rs := [1, 2]) rfl) rfl (.start (r := 2) (snap := exSnap) rfl), rfl, by decide,
    Or.inl (by decide), by decide⟩

end TCP.Snap
