import Verif.Spec.Snapshot

/-! # Lemmas about the snapshot sender model -/

namespace TCP.Snap
open Spec

/-! ## Cutting into pieces -/

theorem chunkCount_isPieceCount {len cs n : Nat} (h : chunkCount len cs = .ok n) : IsPieceCount len cs n := by
  unfold chunkCount at h
  split at h
  · rename_i hl
    split at h
    · simp at h
    · rename_i hc
      simp at h
      have hpos : 0 < cs := Nat.pos_of_ne_zero hc
      have hdm := Nat.div_add_mod (len - 1) cs
      have hmod := Nat.mod_lt (len - 1) hpos
      subst h
      generalize (len - 1) / cs = q at *
      refine ⟨by omega, ?_, fun m hm hle => ?_⟩
      · have : (q + 1) * cs = cs * q + cs := by rw [Nat.add_mul, Nat.mul_comm q cs]; omega
        omega
      · apply Nat.succ_le_of_lt
        apply Nat.lt_of_not_le
        intro hmq
        have : m * cs ≤ q * cs := Nat.mul_le_mul_right cs hmq
        rw [Nat.mul_comm q cs] at this
        omega
  · rename_i hl
    simp at h; subst h
    exact ⟨by omega, by omega, fun m hm _ => hm⟩

theorem chunkCount_ok {len cs : Nat} (h : 0 < cs) : ∃ n, chunkCount len cs = .ok n := by
  unfold chunkCount
  split
  · rw [if_neg (by omega)]; exact ⟨_, rfl⟩
  · exact ⟨_, rfl⟩

theorem pieces_prefix (data : Bytes) (cs n : Nat) :
    (List.range n).flatMap (piece data cs) = data.take (n * cs) := by
  induction n with
  | zero => simp
  | succ n ih =>
    rw [List.range_succ, List.flatMap_append, ih]
    simp only [List.flatMap_cons, List.flatMap_nil, List.append_nil, piece]
    rw [Nat.add_mul, Nat.one_mul, List.take_add]

theorem pieces_concat {data : Bytes} {cs n : Nat} (h : IsPieceCount data.length cs n) :
    (List.range n).flatMap (piece data cs) = data := by
  rw [pieces_prefix, List.take_of_length_le h.2.1]

/-- All complete pieces but the last end inside the data. -/
theorem pieceCount_bound {len cs n : Nat} (h : IsPieceCount len cs n) {k : Nat} (hk : k + 1 < n) :
    (k + 1) * cs < len := by
  apply Nat.lt_of_not_le
  intro hle
  have := h.2.2 (k + 1) (by omega) hle
  omega

theorem piece_start {len cs n : Nat} (h : IsPieceCount len cs n) {k : Nat} (hk : k < n) : k * cs ≤ len := by
  cases k with
  | zero => simp
  | succ k => exact Nat.le_of_lt (pieceCount_bound h hk)

theorem piece_length_full {data : Bytes} {cs n k : Nat} (h : IsPieceCount data.length cs n) (hk : k + 1 < n) :
    (piece data cs k).length = cs := by
  have := pieceCount_bound h hk
  rw [Nat.add_mul] at this
  simp only [piece, List.length_take, List.length_drop]
  omega

theorem piece_length_last {data : Bytes} {cs n : Nat} (h : IsPieceCount data.length cs n) :
    (piece data cs (n - 1)).length = data.length - (n - 1) * cs := by
  have h1 := h.2.1
  have h0 := h.1
  have : n * cs = (n - 1) * cs + cs := by
    have : n = (n - 1) + 1 := by omega
    rw [this, Nat.add_mul]; simp
  simp only [piece, List.length_take, List.length_drop]
  omega

theorem piece_of_slice (data : Bytes) (cs k : Nat) (h : k * cs ≤ data.length) :
    (data.take (min data.length (k * cs + cs))).drop (k * cs) = piece data cs k := by
  rw [List.drop_take, piece]
  rcases Nat.le_total data.length (k * cs + cs) with hle | hle
  · rw [Nat.min_eq_left hle, List.take_of_length_le (by rw [List.length_drop]; omega),
      List.take_of_length_le (by rw [List.length_drop]; omega)]
  · rw [Nat.min_eq_right hle]; congr 1; omega

/-! ## Logs -/

@[simp] theorem sents_append (a b : List Ev) : sents (a ++ b) = sents a ++ sents b := by
  simp [sents, List.filterMap_append]
@[simp] theorem sents_sent (d : Nat) (c : Content) : sents [Ev.sent d c] = [(d, c)] := rfl
@[simp] theorem sents_reply (d : Nat) (r : Reply) : sents [Ev.reply d r] = [] := rfl
@[simp] theorem sentIdx_append (a b : List Ev) : sentIdx (a ++ b) = sentIdx a ++ sentIdx b := by
  simp [sentIdx]
@[simp] theorem sentIdx_sent (d : Nat) (c : Content) :
    sentIdx [Ev.sent d c] = [(d, Spec.Content.index c)] := rfl
@[simp] theorem sentIdx_reply (d : Nat) (r : Reply) : sentIdx [Ev.reply d r] = [] := rfl
@[simp] theorem acks_append (i : Nat) (a b : List Ev) : acks i (a ++ b) = acks i a ++ acks i b := by
  simp [acks, List.filterMap_append]
@[simp] theorem acks_sent (i d : Nat) (c : Content) : acks i [Ev.sent d c] = [] := rfl
theorem acks_ack (i d : Nat) (a : Ack) :
    acks i [Ev.reply d (.ack a)] = if a.snapshotId = i then [(d, a)] else [] := by
  simp only [acks, List.filterMap_cons, List.filterMap_nil]
  split <;> split at * <;> simp_all

theorem disturbed_sent {id : Nat} {evs : List Ev} {d : Nat} {c : Content} :
    Disturbed id (evs ++ [.sent d c]) ↔ Disturbed id evs := by
  constructor
  · rintro ⟨b, d', r, a, he, hh⟩
    rcases List.eq_nil_or_concat a with rfl | ⟨a', x, rfl⟩
    · have := List.append_inj_right' (s₁ := evs) (s₂ := b) (t₁ := [.sent d c]) (t₂ := [.reply d' r]) he rfl
      simp at this
    · have h1 : evs ++ [Ev.sent d c] = (b ++ .reply d' r :: a') ++ [x] := by simpa using he
      have := List.append_inj_left' h1 rfl
      exact ⟨b, d', r, a', this, hh⟩
  · rintro ⟨b, d', r, a, he, hh⟩
    exact ⟨b, d', r, a ++ [.sent d c], by simp [he], hh⟩

theorem disturbed_reply {id : Nat} {evs : List Ev} {d : Nat} {r : Reply} :
    Disturbed id (evs ++ [.reply d r]) ↔ Disturbed id evs ∨ ¬ Harmless id evs d r := by
  constructor
  · rintro ⟨b, d', r', a, he, hh⟩
    rcases List.eq_nil_or_concat a with rfl | ⟨a', x, rfl⟩
    · have h1 : evs = b := List.append_inj_left' he rfl
      have h2 := List.append_inj_right' he rfl
      simp at h2
      obtain ⟨rfl, rfl⟩ := h2
      subst h1
      exact Or.inr hh
    · have h1 : evs ++ [Ev.reply d r] = (b ++ .reply d' r' :: a') ++ [x] := by simpa using he
      have := List.append_inj_left' h1 rfl
      exact Or.inl ⟨b, d', r', a', this, hh⟩
  · rintro (⟨b, d', r', a, he, hh⟩ | hh)
    · exact ⟨b, d', r', a ++ [.reply d r], by simp [he], hh⟩
    · exact ⟨evs, d, r, [], rfl, hh⟩

theorem not_disturbed_nil (id : Nat) : ¬ Disturbed id [] := by
  rintro ⟨b, d, r, a, he, _⟩
  simp at he

/-! ## The invariant of one transfer -/

structure TInv (enc : Meta → Bytes) (cs D : Nat) (t : Transfer) (l : Log) : Prop where
  id : t.snapshotId = l.id
  metadata : t.metadata = l.snap.metadata
  data : t.data = l.snap.data
  size : t.chunkSize = cs
  cnt : chunkCount l.snap.data.length cs = .ok t.chunkCount
  nx : t.nextIndex ≤ t.chunkCount
  cont : (sents l.evs).map Prod.snd = (List.range t.nextIndex).map (expected enc l.id l.snap cs)
  inc : ((sents l.evs).map Prod.fst).Pairwise (· < ·)
  lt : ∀ d ∈ (sents l.evs).map Prod.fst, d < D
  wf : AMap.WF t.pending
  keys : ∀ d ∈ t.pending.keys, d ∈ (sents l.evs).map Prod.fst
  out : ∀ d ∈ outstanding l.evs, d ∈ t.pending.keys
  noFinish : t.status ≠ some .finish
  st : t.status = some .failure ↔ Disturbed l.id l.evs
  live : t.status = none →
    (t.pending ++ (acks l.id l.evs).map (fun p => (p.1, p.2.chunkIndex))).Perm (sentIdx l.evs) ∧
    t.sent = (acks l.id l.evs).length ∧ ∀ p ∈ acks l.id l.evs, p.2.status = .accepted

theorem TInv.len {enc cs D t l} (h : TInv enc cs D t l) : (sents l.evs).length = t.nextIndex := by
  have := congrArg List.length h.cont
  simpa using this

theorem expected_index (enc : Meta → Bytes) (id : Nat) (snap : RaftSnapshot) (cs k : Nat) :
    Spec.Content.index (expected enc id snap cs k) = k := by
  unfold expected Spec.Content.index
  by_cases h : k = 0 <;> simp [h]

theorem TInv.idx {enc cs D t l} (h : TInv enc cs D t l) :
    (sentIdx l.evs).map Prod.snd = List.range t.nextIndex := by
  have : (sentIdx l.evs).map Prod.snd = ((sents l.evs).map Prod.snd).map Spec.Content.index := by
    simp [sentIdx, List.map_map, Function.comp_def]
  rw [this, h.cont, List.map_map]
  have : (Spec.Content.index ∘ expected enc l.id l.snap cs) = fun k => k := by
    funext k; exact expected_index _ _ _ _ _
  rw [this]; simp

theorem sentIdx_fst (evs : List Ev) : (sentIdx evs).map Prod.fst = (sents evs).map Prod.fst := by
  simp [sentIdx, List.map_map, Function.comp_def]

theorem TInv.live_len {enc cs D t l} (h : TInv enc cs D t l) (hn : t.status = none) :
    t.sent + t.pending.length = t.nextIndex := by
  obtain ⟨hp, hs, _⟩ := h.live hn
  have := hp.length_eq
  simp only [List.length_append, List.length_map, sentIdx] at this
  rw [h.len] at this
  omega

theorem TInv.nodup {enc cs D t l} (h : TInv enc cs D t l) : ((sentIdx l.evs).map Prod.fst).Nodup := by
  rw [sentIdx_fst]
  exact h.inc.imp (fun hlt => Nat.ne_of_lt hlt)

/-- Which (delivery id, index) pairs are pending, in terms of the log. -/
theorem TInv.pending_iff {enc cs D t l} (h : TInv enc cs D t l) (hn : t.status = none) (d k : Nat) :
    t.pending.get d = some k ↔ (d, k) ∈ sentIdx l.evs ∧ d ∉ (acks l.id l.evs).map Prod.fst := by
  obtain ⟨hp, hs, _⟩ := h.live hn
  have hnd : ((t.pending ++ (acks l.id l.evs).map (fun p => (p.1, p.2.chunkIndex))).map Prod.fst).Nodup :=
    (hp.map Prod.fst).nodup_iff.mpr h.nodup
  rw [List.map_append, List.nodup_append] at hnd
  rw [← AMap.mem_iff_get h.wf]
  constructor
  · intro hm
    refine ⟨hp.mem_iff.mp (by simp [hm]), fun hd => ?_⟩
    refine hnd.2.2 d (List.mem_map_of_mem hm) d ?_ rfl
    rw [List.map_map]; exact hd
  · rintro ⟨hm, hd⟩
    have := hp.mem_iff.mpr hm
    rcases List.mem_append.mp this with h1 | h1
    · exact h1
    · exfalso
      obtain ⟨p, hp1, hp2⟩ := List.mem_map.mp h1
      simp at hp2
      exact hd (by rw [← hp2.1]; exact List.mem_map_of_mem hp1)

/-- The next chunk of a live transfer with chunks left is the next expected one. -/
theorem nextChunk_eq {enc cs D t l} (h : TInv enc cs D t l) (hn : t.status = none)
    (hlt : t.nextIndex < t.chunkCount) (d : Nat) :
    t.nextChunk enc d = .ok ({ t with pending := t.pending.set d t.nextIndex, nextIndex := t.nextIndex + 1 },
      some (expected enc l.id l.snap cs t.nextIndex)) := by
  have hpc := chunkCount_isPieceCount h.cnt
  have hst := piece_start hpc hlt
  unfold Transfer.nextChunk
  simp only [hn, h.size, h.data, h.id, h.metadata]
  have : ¬ t.nextIndex * cs > min l.snap.data.length (t.nextIndex * cs + cs) := by omega
  rw [if_neg this, piece_of_slice _ _ _ hst]
  unfold expected
  by_cases h0 : t.nextIndex = 0
  · simp [h0]
  · simp [h0]

theorem get_none_of_fresh {enc cs D t l} (h : TInv enc cs D t l) : t.pending.get D = none := by
  rw [AMap.get_eq_none_iff]
  intro hm
  exact Nat.lt_irrefl _ (h.lt D (h.keys D hm))

theorem outstanding_sent {evs : List Ev} {d : Nat} {c : Content} {x : Nat}
    (hx : x ∈ outstanding (evs ++ [.sent d c])) : x ∈ outstanding evs ∨ x = d := by
  simp only [outstanding, sents_append, sents_sent, List.map_append, List.map_cons, List.map_nil,
    List.filter_append, List.mem_append, List.any_append] at hx ⊢
  rcases hx with hx | hx
  · left
    rw [List.mem_filter] at hx ⊢
    simpa using hx
  · right
    rw [List.mem_filter] at hx
    simpa using hx.1

theorem outstanding_reply {evs : List Ev} {d : Nat} {r : Reply} {x : Nat}
    (hx : x ∈ outstanding (evs ++ [.reply d r])) : x ∈ outstanding evs ∧ x ≠ d := by
  simp only [outstanding, sents_append, sents_reply, List.append_nil, List.any_append] at hx ⊢
  rw [List.mem_filter] at hx ⊢
  simp at hx ⊢
  exact ⟨⟨hx.1, hx.2.1⟩, fun e => hx.2.2 e.symm⟩

theorem TInv.next {enc cs D t l} (h : TInv enc cs D t l) (hn : t.status = none)
    (hlt : t.nextIndex < t.chunkCount) :
    TInv enc cs (D + 1)
      { t with pending := t.pending.set D t.nextIndex, nextIndex := t.nextIndex + 1 }
      { l with evs := l.evs ++ [.sent D (expected enc l.id l.snap cs t.nextIndex)] } := by
  have hfresh := get_none_of_fresh h
  have hset := AMap.set_of_not_mem (v := t.nextIndex) hfresh
  obtain ⟨hp, hs, ha⟩ := h.live hn
  refine ⟨h.id, h.metadata, h.data, h.size, h.cnt, hlt, ?_, ?_, ?_, h.wf.set _ _, ?_, ?_, ?_, ?_, ?_⟩
  · simp [h.cont, List.range_succ]
  · simp only [sents_append, sents_sent, List.map_append, List.map_cons, List.map_nil]
    rw [List.pairwise_append]
    refine ⟨h.inc, by simp, fun a ha b hb => ?_⟩
    simp at hb; subst hb; exact h.lt a ha
  · intro d hd
    simp only [sents_append, sents_sent, List.map_append, List.mem_append] at hd
    rcases hd with hd | hd
    · have := h.lt d hd; omega
    · simp at hd; omega
  · intro d hd
    simp only [sents_append, sents_sent, List.map_append, List.mem_append]
    rcases (AMap.mem_keys_set _ _ _ _).mp hd with rfl | hd
    · right; simp
    · left; exact h.keys d hd
  · intro d hd
    rw [AMap.mem_keys_set]
    rcases outstanding_sent hd with h1 | h1
    · exact Or.inr (h.out d h1)
    · exact Or.inl h1
  · exact h.noFinish
  · rw [disturbed_sent]; exact h.st
  · intro _
    simp only [hset, acks_append, acks_sent, List.append_nil, sentIdx_append, sentIdx_sent, expected_index]
    refine ⟨?_, hs, ha⟩
    refine List.Perm.trans ?_ (hp.append_right _)
    rw [List.append_assoc, List.append_assoc]
    exact List.Perm.append_left _ List.perm_append_comm

theorem TInv.mono {enc cs D D' t l} (h : TInv enc cs D t l) (hd : D ≤ D') : TInv enc cs D' t l :=
  { h with lt := fun d hm => Nat.lt_of_lt_of_le (h.lt d hm) hd }

/-- A reply handled in the failure branch. -/
theorem TInv.fail {enc cs D t l} (h : TInv enc cs D t l) (d : Nat) (r : Reply) (p : AMap Nat Nat)
    (hp : p = t.pending ∨ p = t.pending.erase d)
    (hbad : Disturbed l.id (l.evs ++ [.reply d r])) :
    TInv enc cs D { t with pending := p, status := some .failure } { l with evs := l.evs ++ [.reply d r] } := by
  have hwf : AMap.WF p := by
    rcases hp with rfl | rfl
    · exact h.wf
    · exact h.wf.erase _
  have hk : ∀ x ∈ p.keys, x ∈ t.pending.keys := by
    rcases hp with rfl | rfl
    · exact fun x hx => hx
    · exact fun x hx => ((AMap.mem_keys_erase _ _ _).mp hx).2
  have hk' : ∀ x ∈ t.pending.keys, x ≠ d → x ∈ p.keys := by
    rcases hp with rfl | rfl
    · exact fun x hx _ => hx
    · exact fun x hx hne => (AMap.mem_keys_erase _ _ _).mpr ⟨hne, hx⟩
  refine ⟨h.id, h.metadata, h.data, h.size, h.cnt, h.nx, ?_, ?_, ?_, hwf, ?_, ?_, by simp, ?_, by simp⟩
  · simpa using h.cont
  · simpa using h.inc
  · simpa using h.lt
  · intro x hx; simpa using h.keys x (hk x hx)
  · intro x hx
    have := outstanding_reply hx
    exact hk' x (h.out x this.1) this.2
  · simp [hbad]

theorem TInv.reply {enc cs D t l} (h : TInv enc cs D t l) (d : Nat) (r : Reply) :
    TInv enc cs D (t.processReply d r) { l with evs := l.evs ++ [.reply d r] } := by
  have hbadOf : ¬ Harmless l.id l.evs d r → Disturbed l.id (l.evs ++ [.reply d r]) :=
    fun hb => disturbed_reply.mpr (Or.inr hb)
  cases r with
  | failed => exact h.fail d _ _ (Or.inl rfl) (hbadOf (by simp [Harmless]))
  | undecodable => exact h.fail d _ _ (Or.inl rfl) (hbadOf (by simp [Harmless]))
  | ack a =>
    unfold Transfer.processReply
    simp only
    by_cases hid : t.snapshotId ≠ a.snapshotId
    · rw [if_pos hid]
      have hne : a.snapshotId ≠ l.id := by rw [← h.id]; exact fun e => hid e.symm
      have hharm : Harmless l.id l.evs d (.ack a) := Or.inl hne
      have hacks : acks l.id (l.evs ++ [.reply d (.ack a)]) = acks l.id l.evs := by
        rw [acks_append, acks_ack, if_neg hne, List.append_nil]
      refine ⟨h.id, h.metadata, h.data, h.size, h.cnt, h.nx, ?_, ?_, ?_, h.wf, ?_, ?_, h.noFinish, ?_, ?_⟩
      · simpa using h.cont
      · simpa using h.inc
      · simpa using h.lt
      · simpa using h.keys
      · intro x hx; exact h.out x (outstanding_reply hx).1
      · rw [disturbed_reply]
        simp only [hharm, not_true, or_false]; exact h.st
      · intro hn
        have := h.live hn
        rw [hacks]; simpa using this
    · rw [if_neg hid]
      have hid' : a.snapshotId = l.id := by rw [← h.id]; exact (Classical.not_not.mp hid).symm
      by_cases hcnt : t.chunkCount ≤ a.chunkIndex
      · rw [if_pos hcnt]
        refine h.fail d _ _ (Or.inl rfl) (hbadOf ?_)
        rintro (hc | ⟨_, hm, _⟩)
        · exact hc hid'
        · have : a.chunkIndex ∈ (sentIdx l.evs).map Prod.snd := List.mem_map_of_mem hm
          rw [h.idx, List.mem_range] at this
          have := h.nx
          omega
      · rw [if_neg hcnt]
        -- a failed transfer stays failed whatever arrives
        have hfailed : t.status ≠ none → Disturbed l.id (l.evs ++ [.reply d (.ack a)]) := by
          intro hs
          have : t.status = some .failure := by
            cases hst : t.status with
            | none => exact absurd hst hs
            | some x => cases x with
              | finish => exact absurd hst h.noFinish
              | failure => rfl
          exact disturbed_reply.mpr (Or.inl (h.st.mp this))
        by_cases hrem : t.pending.get d ≠ some a.chunkIndex
        · rw [if_pos hrem]
          refine h.fail d _ _ (Or.inr rfl) ?_
          by_cases hn : t.status = none
          · refine hbadOf ?_
            rintro (hc | ⟨_, hm, hd⟩)
            · exact hc hid'
            · exact hrem ((h.pending_iff hn d _).mpr ⟨hm, hd⟩)
          · exact hfailed hn
        · rw [if_neg hrem]
          have hrem' : t.pending.get d = some a.chunkIndex := Classical.not_not.mp hrem
          by_cases hacc : a.status = .accepted
          · rw [if_pos hacc]
            have hacks : acks l.id (l.evs ++ [.reply d (.ack a)]) = acks l.id l.evs ++ [(d, a)] := by
              rw [acks_append, acks_ack, if_pos hid']
            refine ⟨h.id, h.metadata, h.data, h.size, h.cnt, h.nx, ?_, ?_, ?_, h.wf.erase _, ?_, ?_,
              h.noFinish, ?_, ?_⟩
            · simpa using h.cont
            · simpa using h.inc
            · simpa using h.lt
            · intro x hx
              simpa using h.keys x ((AMap.mem_keys_erase _ _ _).mp hx).2
            · intro x hx
              have := outstanding_reply hx
              exact (AMap.mem_keys_erase _ _ _).mpr ⟨this.2, h.out x this.1⟩
            · rw [disturbed_reply]
              by_cases hn : t.status = none
              · have := (h.pending_iff hn d _).mp hrem'
                have hharm : Harmless l.id l.evs d (.ack a) := Or.inr ⟨hacc, this.1, this.2⟩
                simp only [hharm, not_true, or_false]; exact h.st
              · constructor
                · intro hf; exact Or.inl (h.st.mp hf)
                · intro _
                  show t.status = _
                  cases hst : t.status with
                  | none => exact absurd hst hn
                  | some x => cases x with
                    | finish => exact absurd hst h.noFinish
                    | failure => rfl
            · intro hn
              obtain ⟨hp, hs, ha⟩ := h.live hn
              rw [hacks]
              refine ⟨?_, by simp [hs], ?_⟩
              · simp only [sentIdx_append, sentIdx_reply, List.append_nil, List.map_append, List.map_cons,
                  List.map_nil]
                refine List.Perm.trans ?_ hp
                have hpe := AMap.erase_perm h.wf hrem'
                refine List.Perm.trans ?_ (hpe.append_right _)
                rw [← List.append_assoc]
                refine List.perm_append_comm.trans ?_
                simp
              · intro p hp
                rcases List.mem_append.mp hp with h1 | h1
                · exact ha p h1
                · simp at h1; subst h1; exact hacc
          · rw [if_neg hacc]
            refine h.fail d _ _ (Or.inr rfl) (hbadOf ?_)
            rintro (hc | ⟨hc, _⟩)
            · exact hc hid'
            · exact hacc hc

theorem TInv.new {enc cs D t l} {id : Nat} {snap : RaftSnapshot} (h : Transfer.new id snap cs = .ok t)
    (hl : l = ⟨id, snap, []⟩) : TInv enc cs D t l := by
  simp only [Transfer.new, Run.bind_eq_ok] at h
  obtain ⟨n, hn, ht⟩ := h
  simp at ht; subst ht; subst hl
  refine ⟨rfl, rfl, rfl, rfl, hn, Nat.zero_le _, rfl, by simp [sents], by simp [sents], AMap.WF.nil,
    by simp [AMap.keys], by simp [outstanding, sents], by simp, ?_, ?_⟩
  · simp [not_disturbed_nil]
  · intro _; simp [sentIdx, sents, acks]

/-! ## The invariant of the sender -/

/-- Receiver state and log agree: both absent, or both present and related. -/
def Rel (enc : Meta → Bytes) (cs D : Nat) : Option Transfer → Option Log → Prop
  | none, none => True
  | some t, some l => TInv enc cs D t l
  | _, _ => False

structure WInv (enc : Meta → Bytes) (cs mp rep : Nat) (w : World) : Prop where
  hcs : w.1.chunkSize = cs
  hmp : w.1.maxPending = mp
  hrep : w.1.replicaId = rep
  wf : AMap.WF w.1.receivers
  wfL : AMap.WF w.2
  rel : ∀ r, Rel enc cs w.1.nextDeliveryId (w.1.receivers.get r) (w.2.get r)
  bound : AMap.total (fun t => t.pending.length) w.1.receivers ≤ mp

theorem fracGt_trans {a b c : Nat × Nat} (hb : 0 < b.2) (h1 : fracGt a b = true) (h2 : fracGt b c = true) :
    fracGt a c = true := by
  unfold fracGt at *
  simp only [decide_eq_true_eq] at *
  apply Nat.lt_of_mul_lt_mul_right (a := b.2)
  by_cases ha : a.2 = 0
  · rw [ha] at h1; simp only [ha, Nat.mul_zero, Nat.zero_mul] at *
    have h3 : 0 < a.1 := Nat.pos_of_mul_pos_right h1
    by_cases hc : c.2 = 0
    · rw [hc] at h2; simp at h2
    · exact Nat.mul_pos (Nat.mul_pos h3 (Nat.pos_of_ne_zero hc)) hb
  · calc c.1 * a.2 * b.2 = (c.1 * b.2) * a.2 := by rw [Nat.mul_right_comm]
      _ < (b.1 * c.2) * a.2 := Nat.mul_lt_mul_of_pos_right h2 (Nat.pos_of_ne_zero ha)
      _ = (b.1 * a.2) * c.2 := by rw [Nat.mul_right_comm]
      _ ≤ (a.1 * b.2) * c.2 := Nat.mul_le_mul_right _ (Nat.le_of_lt h1)
      _ = a.1 * c.2 * b.2 := by rw [Nat.mul_right_comm]

/-- What the selection loop computes. -/
theorem selectLoop_spec (m : AMap Nat Transfer) (hpos : ∀ e ∈ m, 0 < e.2.progress.2)
    (sel : Nat) (best : Nat × Nat) (pend : Nat) :
    let r := selectLoop m (sel, best, pend)
    r.2.2 = pend + AMap.total (fun t => t.pending.length) m ∧
    ((r.1 = sel ∧ r.2.1 = best ∧ ∀ e ∈ m, fracGt best e.2.progress = false) ∨
     (∃ e ∈ m, r.1 = e.1 ∧ r.2.1 = e.2.progress ∧ fracGt best e.2.progress = true ∧
        ∀ e' ∈ m, fracGt e.2.progress e'.2.progress = false)) := by
  induction m generalizing sel best pend with
  | nil => simp [selectLoop, AMap.total]
  | cons x m ih =>
    obtain ⟨k, t⟩ := x
    have hpos' : ∀ e ∈ m, 0 < e.2.progress.2 := fun e he => hpos e (List.mem_cons_of_mem _ he)
    have ht : 0 < t.progress.2 := hpos (k, t) (by simp)
    simp only [selectLoop]
    by_cases hgt : fracGt best t.progress = true
    · rw [if_pos hgt]
      obtain ⟨h1, h2⟩ := ih hpos' k t.progress (pend + t.pending.length)
      refine ⟨by rw [h1]; simp [AMap.total]; omega, Or.inr ?_⟩
      rcases h2 with ⟨ha, hb, hc⟩ | ⟨e, he, ha, hb, hc, hd⟩
      · refine ⟨(k, t), by simp, ha, hb, hgt, fun e' he' => ?_⟩
        rcases List.mem_cons.mp he' with rfl | he'
        · unfold fracGt; simp
        · exact hc e' he'
      · refine ⟨e, List.mem_cons_of_mem _ he, ha, hb, fracGt_trans ht hgt hc, fun e' he' => ?_⟩
        rcases List.mem_cons.mp he' with rfl | he'
        · unfold fracGt at hc ⊢
          simp only [decide_eq_true_eq, decide_eq_false_iff_not] at *
          omega
        · exact hd e' he'
    · rw [if_neg hgt]
      obtain ⟨h1, h2⟩ := ih hpos' sel best (pend + t.pending.length)
      refine ⟨by rw [h1]; simp [AMap.total]; omega, ?_⟩
      rcases h2 with ⟨ha, hb, hc⟩ | ⟨e, he, ha, hb, hc, hd⟩
      · refine Or.inl ⟨ha, hb, fun e' he' => ?_⟩
        rcases List.mem_cons.mp he' with rfl | he'
        · simpa using hgt
        · exact hc e' he'
      · refine Or.inr ⟨e, List.mem_cons_of_mem _ he, ha, hb, hc, fun e' he' => ?_⟩
        rcases List.mem_cons.mp he' with rfl | he'
        · cases hx : fracGt e.2.progress t.progress with
          | false => rfl
          | true =>
            exact absurd (fracGt_trans (hpos' e he) hc hx) hgt
        · exact hd e' he'

theorem TInv.count_pos {enc cs D t l} (h : TInv enc cs D t l) : 0 < t.chunkCount :=
  (chunkCount_isPieceCount h.cnt).1

theorem TInv.progress_pos {enc cs D t l} (h : TInv enc cs D t l) : 0 < t.progress.2 := by
  unfold Transfer.progress
  cases t.status with
  | none => exact h.count_pos
  | some _ => simp

theorem TInv.viable {enc cs D t l} (h : TInv enc cs D t l) :
    fracGt (1, 1) t.progress = true ↔ t.status = none ∧ t.nextIndex < t.chunkCount := by
  unfold Transfer.progress
  cases hs : t.status with
  | some _ => simp [fracGt]
  | none =>
    have := h.live_len hs
    simp only [fracGt, decide_eq_true_eq, true_and, Nat.mul_one, Nat.one_mul]
    omega

theorem WInv.rel_of_mem {enc cs mp rep w} (h : WInv enc cs mp rep w) {e : Nat × Transfer}
    (he : e ∈ w.1.receivers) : ∃ l, w.2.get e.1 = some l ∧ TInv enc cs w.1.nextDeliveryId e.2 l := by
  have hg := AMap.get_of_mem h.wf (k := e.1) (v := e.2) he
  have := h.rel e.1
  rw [hg] at this
  cases hl : w.2.get e.1 with
  | none => rw [hl] at this; exact absurd this (by simp [Rel])
  | some l => rw [hl] at this; exact ⟨l, rfl, this⟩

/-- Complete description of `next_request` in a reachable state. -/
theorem nextRequest_spec {enc cs mp rep w} (h : WInv enc cs mp rep w) :
    (w.1.nextRequest enc = .ok (w.1, none) ∧
      (mp ≤ AMap.total (fun t => t.pending.length) w.1.receivers ∨
       (∀ e ∈ w.1.receivers, ¬ (e.2.status = none ∧ e.2.nextIndex < e.2.chunkCount)) ∨
       ∃ t, w.1.receivers.get 0 = some t)) ∨
    (∃ r t l, r ≠ 0 ∧ w.1.receivers.get r = some t ∧ w.2.get r = some l ∧
      AMap.total (fun t => t.pending.length) w.1.receivers < mp ∧
      t.status = none ∧ t.nextIndex < t.chunkCount ∧
      (∀ e ∈ w.1.receivers, fracGt t.progress e.2.progress = false) ∧
      w.1.nextRequest enc = .ok
        ({ w.1 with
            nextDeliveryId := w.1.nextDeliveryId + 1
            receivers := w.1.receivers.set r { t with
              pending := t.pending.set w.1.nextDeliveryId t.nextIndex
              nextIndex := t.nextIndex + 1 } },
         some ⟨r, w.1.replicaId, w.1.nextDeliveryId,
           some (some (expected enc l.id l.snap cs t.nextIndex))⟩)) := by
  have hpos : ∀ e ∈ w.1.receivers, 0 < e.2.progress.2 := by
    intro e he
    obtain ⟨l, _, ht⟩ := h.rel_of_mem he
    exact ht.progress_pos
  have hsel := selectLoop_spec w.1.receivers hpos 0 (1, 1) 0
  simp only [Nat.zero_add] at hsel
  obtain ⟨hpend, hcase⟩ := hsel
  unfold Sender.nextRequest
  generalize hq : selectLoop w.1.receivers (0, (1, 1), 0) = q at *
  obtain ⟨sel, best, pend⟩ := q
  simp only at hpend hcase ⊢
  by_cases hstop : pend ≥ w.1.maxPending ∨ sel = 0
  · left
    rw [if_pos hstop]
    refine ⟨rfl, ?_⟩
    rcases hstop with hge | h0
    · left; rw [← hpend, ← h.hmp]; exact hge
    · right
      rcases hcase with ⟨_, _, hc⟩ | ⟨e, he, ha, _⟩
      · left
        intro e he hv
        obtain ⟨l, _, ht⟩ := h.rel_of_mem he
        have := ht.viable.mpr hv
        rw [hc e he] at this; cases this
      · right
        exact ⟨e.2, by rw [← h0, ha]; exact AMap.get_of_mem h.wf he⟩
  · right
    rw [if_neg hstop]
    simp only [not_or] at hstop
    rcases hcase with ⟨ha, _⟩ | ⟨e, he, ha, hb, hc, hd⟩
    · exact absurd ha hstop.2
    · obtain ⟨l, hl, ht⟩ := h.rel_of_mem he
      have hv := ht.viable.mp hc
      have hg := AMap.get_of_mem h.wf (k := e.1) (v := e.2) he
      refine ⟨e.1, e.2, l, by rw [← ha]; exact hstop.2, hg, hl, by rw [← hpend, ← h.hmp]; omega, hv.1, hv.2, hd, ?_⟩
      rw [ha, hg]
      simp only [nextChunk_eq ht hv.1 hv.2, Run.bind_ok, Option.map_some]

theorem Rel.mono {enc cs D D' t l} (h : Rel enc cs D t l) (hd : D ≤ D') : Rel enc cs D' t l := by
  cases t <;> cases l <;> simp_all [Rel]
  exact h.mono hd

theorem get_note (L : AMap Nat Log) (r : Nat) (e : Ev) (j : Nat) :
    (note L r e).get j = if r = j then (L.get r).map (fun l => { l with evs := l.evs ++ [e] }) else L.get j := by
  unfold note
  cases h : L.get r with
  | none =>
    by_cases hj : r = j
    · subst hj; simp [h]
    · simp [hj]
  | some l => simp only [AMap.get_set, Option.map_some]

theorem wf_note {L : AMap Nat Log} (h : AMap.WF L) (r : Nat) (e : Ev) : AMap.WF (note L r e) := by
  unfold note
  cases L.get r with
  | none => exact h
  | some l => exact h.set _ _

theorem processReply_pending_len (t : Transfer) (d : Nat) (r : Reply) :
    (t.processReply d r).pending.length ≤ t.pending.length := by
  unfold Transfer.processReply
  cases r with
  | failed => exact Nat.le_refl _
  | undecodable => exact Nat.le_refl _
  | ack a =>
    have : (t.pending.erase d).length ≤ t.pending.length := List.length_filter_le _ _
    simp only
    split
    · exact Nat.le_refl _
    · split
      · exact Nat.le_refl _
      · split
        · exact this
        · split <;> exact this

theorem findComplete_spec {m : AMap Nat Transfer} {r : Nat} {st : Status} (h : findComplete m = some (r, st)) :
    ∃ t, (r, t) ∈ m ∧ t.tryComplete.2 = some st := by
  induction m with
  | nil => simp [findComplete] at h
  | cons x m ih =>
    obtain ⟨k, t⟩ := x
    simp only [findComplete] at h
    cases ht : t.tryComplete.2 with
    | some s =>
      rw [ht] at h; simp at h
      exact ⟨t, by simp [h.1], by rw [ht, h.2]⟩
    | none =>
      rw [ht] at h
      obtain ⟨t', hm, h'⟩ := ih h
      exact ⟨t', List.mem_cons_of_mem _ hm, h'⟩

theorem findComplete_none {m : AMap Nat Transfer} (h : findComplete m = none) :
    ∀ e ∈ m, e.2.tryComplete.2 = none := by
  induction m with
  | nil => simp
  | cons x m ih =>
    obtain ⟨k, t⟩ := x
    simp only [findComplete] at h
    cases ht : t.tryComplete.2 with
    | some s => rw [ht] at h; simp at h
    | none =>
      rw [ht] at h
      intro e he
      rcases List.mem_cons.mp he with rfl | he
      · exact ht
      · exact ih h e he

theorem WInv.step {enc cs mp rep w o w'} (h : WInv enc cs mp rep w) (hs : SStep enc w o w') :
    WInv enc cs mp rep w' := by
  cases hs with
  | @start s s' L r snap hst =>
    simp only [Sender.start, Run.bind_eq_ok] at hst
    obtain ⟨t, ht, hs'⟩ := hst
    simp at hs'; subst hs'
    have hcs : s.chunkSize = cs := h.hcs
    rw [hcs] at ht
    refine ⟨h.hcs, h.hmp, h.hrep, h.wf.set _ _, h.wfL.set _ _, fun j => ?_, ?_⟩
    · simp only [AMap.get_set]
      by_cases hj : r = j
      · simp only [hj, if_true]; exact TInv.new ht rfl
      · simp only [hj, if_false]; exact h.rel j
    · rw [AMap.total_set _ h.wf]
      have h0 : t.pending.length = 0 := by
        simp only [Transfer.new, Run.bind_eq_ok] at ht
        obtain ⟨n, _, ht⟩ := ht
        simp at ht; subst ht; rfl
      have := AMap.total_erase_le (fun t : Transfer => t.pending.length) h.wf r
      have hb := h.bound
      simp only at *
      omega
  | @nextNone s s' L hn =>
    rcases nextRequest_spec h with ⟨he, _⟩ | ⟨r, t, l, _, _, _, _, _, _, _, he⟩
    · rw [he] at hn; simp at hn; subst hn; exact h
    · rw [he] at hn; simp at hn
  | @nextSome s s' L to frm d c hn =>
    rcases nextRequest_spec h with ⟨he, _⟩ | ⟨r, t, l, h0, hg, hl, hlt, hst, hix, _, he⟩
    · rw [he] at hn; simp at hn
    · rw [he] at hn
      simp only [Run.ok.injEq, Prod.mk.injEq, Option.some.injEq, Request.mk.injEq] at hn
      obtain ⟨hs', rfl, rfl, rfl, rfl⟩ := hn
      have htinv : TInv enc cs s.nextDeliveryId t l := by
        have := h.rel r; simp only at hg hl; rw [hg, hl] at this; exact this
      subst hs'
      refine ⟨h.hcs, h.hmp, h.hrep, h.wf.set _ _, wf_note h.wfL _ _, fun j => ?_, ?_⟩
      · simp only [AMap.get_set, get_note]
        by_cases hj : r = j
        · simp only [hj, if_true]
          subst hj
          simp only at hl
          rw [hl]
          exact htinv.next hst hix
        · simp only [hj, if_false]; exact (h.rel j).mono (Nat.le_succ _)
      · rw [AMap.total_set _ h.wf]
        have h1 := AMap.total_erase (fun t : Transfer => t.pending.length) h.wf hg
        have h2 : (t.pending.set s.nextDeliveryId t.nextIndex).length = t.pending.length + 1 := by
          rw [AMap.set_of_not_mem (get_none_of_fresh htinv)]; simp
        simp only at *
        omega
  | @response s s' L r d rp hr =>
    unfold Sender.processResponse at hr
    cases hg : s.receivers.get r with
    | none =>
      rw [hg] at hr; simp at hr; subst hr
      have hL : L.get r = none := by
        have := h.rel r; simp only at this; rw [hg] at this
        cases hx : L.get r with
        | none => rfl
        | some l => rw [hx] at this; exact absurd this (by simp [Rel])
      have : note L r (.reply d rp) = L := by unfold note; rw [hL]
      rw [this]; exact h
    | some t =>
      rw [hg] at hr; simp at hr; subst hr
      obtain ⟨l, hl, ht⟩ := h.rel_of_mem (e := (r, t)) (AMap.mem_of_get hg)
      refine ⟨h.hcs, h.hmp, h.hrep, h.wf.set _ _, wf_note h.wfL _ _, fun j => ?_, ?_⟩
      · simp only [AMap.get_set, get_note]
        by_cases hj : r = j
        · simp only [hj, if_true]
          subst hj
          simp only at hl
          rw [hl]
          exact ht.reply d rp
        · simp only [hj, if_false]; exact h.rel j
      · rw [AMap.total_set _ h.wf]
        have h1 := AMap.total_erase (fun t : Transfer => t.pending.length) h.wf hg
        have h2 := processReply_pending_len t d rp
        have h3 := h.bound
        simp only at *
        omega
  | @completeNone s s' L hc =>
    unfold Sender.tryComplete at hc
    split at hc
    · simp at hc; subst hc; exact h
    · simp at hc
  | @completeSome s s' L r st hc =>
    unfold Sender.tryComplete at hc
    split at hc
    · simp at hc
    · rename_i r' st' hf
      simp only [Prod.mk.injEq, Option.some.injEq] at hc
      obtain ⟨hs', rfl, rfl⟩ := hc
      subst hs'
      refine ⟨h.hcs, h.hmp, h.hrep, h.wf.erase _, h.wfL.erase _, fun j => ?_, ?_⟩
      · simp only [AMap.get_erase]
        by_cases hj : r' = j
        · simp [hj, Rel]
        · simp only [hj, if_false]; exact h.rel j
      · exact Nat.le_trans (AMap.total_erase_le _ h.wf _) h.bound
  | @reset s s' L l hr =>
    simp only [Sender.reset, Prod.mk.injEq] at hr
    obtain ⟨hs', _⟩ := hr
    subst hs'
    exact ⟨h.hcs, h.hmp, h.hrep, AMap.WF.nil, AMap.WF.nil, fun j => by simp [Rel], by simp [AMap.total]⟩
  | @shuffle s L rs hp =>
    refine ⟨h.hcs, h.hmp, h.hrep, h.wf.perm hp.symm, h.wfL, fun j => ?_, ?_⟩
    · simp only; rw [AMap.get_perm h.wf hp.symm]; exact h.rel j
    · simp only; rw [AMap.total_perm _ hp]; exact h.bound

theorem WInv.init (enc : Meta → Bytes) (cs mp rep : Nat) :
    WInv enc cs mp rep (Sender.new.init rep (some (cs, mp)), []) :=
  ⟨rfl, rfl, rfl, AMap.WF.nil, AMap.WF.nil, fun _ => by simp [Sender.new, Sender.init, Rel],
    by simp [Sender.new, Sender.init, AMap.total]⟩

theorem WInv.history {enc cs mp rep os w} (h : History enc cs mp rep os w) : WInv enc cs mp rep w := by
  induction h with
  | init => exact WInv.init _ _ _ _
  | step _ hs ih => exact ih.step hs

end TCP.Snap
