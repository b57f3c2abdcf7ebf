import Verif.Spec.Transfer
import Verif.Proofs.SnapshotSender
import Verif.Proofs.SnapshotReceiver

/-!
# What the sender of snapshots hands out, over its whole life
-/

namespace TCP.Snap

open TCP Spec TCP.Replica.Spec

/-- The id of the transfer opened last. -/
def last (cs : List Content) : Option Nat := (cs.filter opens).getLast?.map (·.snapshotId)

theorem last_snoc (cs : List Content) (c : Content) : last (cs ++ [c]) = if opens c then some c.snapshotId else last cs := by
  unfold last
  by_cases h : opens c = true
  · simp [h]
  · simp [h]

theorem last_opened (a : List Content) {h : Content} {b : List Content} (ho : opens h = true) (hb : ∀ x ∈ b, opens x = false) :
    last (a ++ h :: b) = some h.snapshotId := by
  unfold last
  have : (b.filter opens) = [] := by
    rw [List.filter_eq_nil_iff]
    intro x hx
    simp [hb x hx]
  simp [List.filter_append, List.filter_cons, ho, this]

theorem unmixed_nil : Unmixed [] := by
  intro a h b c rest he
  simp at he

theorem unmixed_snoc {cs : List Content} {c : Content} (h : Unmixed cs)
    (hc : opens c = true ∨ ∀ id, last cs = some id → c.snapshotId = id) : Unmixed (cs ++ [c]) := by
  intro a o b x rest he ho hb hx
  rcases List.eq_nil_or_concat rest with rfl | ⟨rest', y, rfl⟩
  · rw [show a ++ o :: b ++ [x] = (a ++ o :: b) ++ [x] from rfl] at he
    obtain ⟨he', hxc⟩ := List.append_inj' he rfl
    simp only [List.cons.injEq, and_true] at hxc
    subst hxc
    rcases hc with hc | hc
    · have := hb c (by simp)
      simp [this] at hc
    · exact hc _ (by rw [he']; exact last_opened a ho fun z hz => hb z (by simp [hz]))
  · have : cs ++ [c] = (a ++ o :: b ++ x :: rest') ++ [y] := by simpa using he
    obtain ⟨he, _⟩ := List.append_inj' this rfl
    exact h a o b x rest' he ho hb hx

theorem unmixed_prefix {cs cs' : List Content} (h : Unmixed cs') (hp : cs <+: cs') : Unmixed cs := by
  obtain ⟨t, rfl⟩ := hp
  intro a o b x rest he ho hb hx
  exact h a o b x (rest ++ t) (by rw [he]; simp) ho hb hx

/-! ## What is handed out -/

/-- The transfers there have been: the id, whom to, and which snapshot. -/
abbrev Transfers := List (Nat × Nat × RaftSnapshot)

/-- A request to `r` is a piece of one of the transfers. -/
def Shipped (enc : Meta → Bytes) (cs : Nat) (F : Transfers) (r : Nat) (c : Content) : Prop :=
  ∃ id s k n, c = expected enc id s cs k ∧ (id, r, s) ∈ F ∧ IsPieceCount s.data.length cs n ∧ k < n

theorem Shipped.mono {enc : Meta → Bytes} {cs : Nat} {F : Transfers} {r : Nat} {c : Content} (h : Shipped enc cs F r c) (G : Transfers) :
    Shipped enc cs (F ++ G) r c := by
  obtain ⟨id, s, k, n, h1, h2, h3⟩ := h
  exact ⟨id, s, k, n, h1, List.mem_append_left _ h2, h3⟩

/-- The sender works on transfers of the list. -/
structure Fed (enc : Meta → Bytes) (cs : Nat) (F : Transfers) (s : Sender) : Prop where
  world : ∃ mp rep L, WInv enc cs mp rep (s, L) ∧ ∀ r l, L.get r = some l → (l.id, r, l.snap) ∈ F
  unique : ∀ x ∈ F, ∀ y ∈ F, x.1 = y.1 → x = y
  fresh : ∀ x ∈ F, x.1 < s.nextSnapshotId

theorem Fed.init (enc : Meta → Bytes) (rep : Nat) (cfg : Option (Nat × Nat)) : ∃ cs, Fed enc cs [] (Sender.new.init rep cfg) := by
  cases cfg with
  | none => exact ⟨1024 * 1024, ⟨2, rep, [], WInv.init enc (1024 * 1024) 2 rep, by simp⟩, by simp, by simp⟩
  | some x => exact ⟨x.1, ⟨x.2, rep, [], WInv.init enc x.1 x.2 rep, by simp⟩, by simp, by simp⟩

variable {enc : Meta → Bytes} {cs : Nat} {F : Transfers} {s s' : Sender}

theorem Fed.start {r : Nat} {snap : RaftSnapshot} (h : Fed enc cs F s) (hs : s.start r snap = .ok s') :
    Fed enc cs (F ++ [(s.nextSnapshotId, r, snap)]) s' := by
  obtain ⟨mp, rep, L, hw, hL⟩ := h.world
  have hn : s'.nextSnapshotId = s.nextSnapshotId + 1 := by
    simp only [Sender.start, Run.bind_eq_ok, Run.ok.injEq] at hs
    obtain ⟨_, _, rfl⟩ := hs
    rfl
  refine ⟨⟨mp, rep, _, hw.step (.start hs), fun r' l hl => ?_⟩, fun x hx y hy he => ?_, fun x hx => ?_⟩
  · rw [AMap.get_set] at hl
    split at hl
    · rename_i hr
      simp only [Option.some.injEq] at hl
      subst hl; subst hr
      simp
    · exact List.mem_append_left _ (hL r' l hl)
  · rw [List.mem_append, List.mem_singleton] at hx hy
    rcases hx with hx | rfl <;> rcases hy with hy | rfl
    · exact h.unique x hx y hy he
    · have := h.fresh x hx; simp only at he; omega
    · have := h.fresh y hy; simp only at he; omega
    · rfl
  · rw [List.mem_append, List.mem_singleton] at hx
    rw [hn]
    rcases hx with hx | rfl
    · have := h.fresh x hx; omega
    · simp

theorem note_mem {L : AMap Nat Log} {r : Nat} {e : Ev} (hL : ∀ r l, L.get r = some l → (l.id, r, l.snap) ∈ F) :
    ∀ r' l, (note L r e).get r' = some l → (l.id, r', l.snap) ∈ F := by
  intro r' l hl
  rw [get_note] at hl
  by_cases hr : r = r'
  · subst hr
    cases hg : L.get r with
    | none => simp [hg] at hl
    | some l0 =>
      simp only [hg, if_true, Option.map_some, Option.some.injEq] at hl
      subst hl
      exact hL r l0 hg
  · simp only [hr, if_false] at hl
    exact hL r' l hl

theorem Fed.response {r d : Nat} {rep : Option Reply} (h : Fed enc cs F s) (hs : s.processResponse r d rep = .ok s') : Fed enc cs F s' := by
  have hn : s'.nextSnapshotId = s.nextSnapshotId := by
    unfold Sender.processResponse at hs
    split at hs
    · simp only [Run.ok.injEq] at hs; rw [hs]
    · split at hs
      · simp at hs
      · simp only [Run.ok.injEq] at hs; rw [← hs]
  cases rep with
  | none =>
    unfold Sender.processResponse at hs
    split at hs
    · simp only [Run.ok.injEq] at hs; rw [← hs]; exact h
    · simp at hs
  | some x =>
    obtain ⟨mp, rep, L, hw, hL⟩ := h.world
    exact ⟨⟨mp, rep, _, hw.step (.response hs), note_mem hL⟩, h.unique, by rw [hn]; exact h.fresh⟩

theorem Fed.complete (h : Fed enc cs F s) : Fed enc cs F s.tryComplete.1 := by
  have hn : s.tryComplete.1.nextSnapshotId = s.nextSnapshotId := by
    unfold Sender.tryComplete; split <;> rfl
  obtain ⟨mp, rep, L, hw, hL⟩ := h.world
  cases hx : s.tryComplete.2 with
  | none => exact ⟨⟨mp, rep, _, hw.step (.completeNone (s' := s.tryComplete.1) (by rw [← hx])), hL⟩, h.unique, by rw [hn]; exact h.fresh⟩
  | some x =>
    refine ⟨⟨mp, rep, _, hw.step (.completeSome (s' := s.tryComplete.1) (r := x.1) (st := x.2) (by rw [← hx])), fun r l hl => ?_⟩,
      h.unique, by rw [hn]; exact h.fresh⟩
    rw [AMap.get_erase] at hl
    split at hl
    · simp at hl
    · exact hL r l hl

theorem Fed.reset (h : Fed enc cs F s) : Fed enc cs F s.reset.1 := by
  obtain ⟨mp, rep, L, hw, hL⟩ := h.world
  exact ⟨⟨mp, rep, _, hw.step (.reset (s' := s.reset.1) (l := s.reset.2) rfl), by simp⟩, h.unique, h.fresh⟩

/-! ## In which order -/

/-- What has been handed out is in order, and goes on in order. -/
def Aligned (s : Sender) (outs : Nat → List Content) : Prop :=
  ∀ r, Unmixed (outs r) ∧ ∀ t, s.receivers.get r = some t → t.nextIndex ≠ 0 → ∀ id, last (outs r) = some id → t.snapshotId = id

variable {outs : Nat → List Content}

theorem Aligned.blank {s : Sender} (h : ∀ r, outs r = []) : Aligned s outs := by
  intro r
  rw [h r]
  exact ⟨unmixed_nil, fun _ _ _ id hid => by simp [last] at hid⟩

theorem Aligned.start {r : Nat} {snap : RaftSnapshot} (h : Aligned s outs) (hs : s.start r snap = .ok s') : Aligned s' outs := by
  simp only [Sender.start, Transfer.new, Run.bind_eq_ok, Run.ok.injEq] at hs
  obtain ⟨t, ⟨n, _, rfl⟩, rfl⟩ := hs
  intro r'
  refine ⟨(h r').1, fun t ht hn id hid => ?_⟩
  simp only [AMap.get_set] at ht
  split at ht
  · simp only [Option.some.injEq] at ht
    subst ht
    simp at hn
  · exact (h r').2 t ht hn id hid

theorem processReply_same (t : Transfer) (d : Nat) (r : Reply) :
    (t.processReply d r).nextIndex = t.nextIndex ∧ (t.processReply d r).snapshotId = t.snapshotId := by
  unfold Transfer.processReply
  split
  · exact ⟨rfl, rfl⟩
  · exact ⟨rfl, rfl⟩
  · simp only
    repeat' split
    all_goals exact ⟨rfl, rfl⟩

theorem Aligned.response {r d : Nat} {rep : Option Reply} (h : Aligned s outs) (hs : s.processResponse r d rep = .ok s') : Aligned s' outs := by
  unfold Sender.processResponse at hs
  cases hg : s.receivers.get r with
  | none => simp only [hg, Run.ok.injEq] at hs; rw [← hs]; exact h
  | some t =>
    cases rep with
    | none => simp [hg] at hs
    | some x =>
      simp only [hg, Run.ok.injEq] at hs
      subst hs
      intro r'
      refine ⟨(h r').1, fun t' ht hn id hid => ?_⟩
      simp only [AMap.get_set] at ht
      split at ht
      · rename_i hr
        subst hr
        simp only [Option.some.injEq] at ht
        subst ht
        have hp := processReply_same t d x
        rw [hp.2]
        exact (h _).2 t hg (by rw [← hp.1]; exact hn) id hid
      · exact (h r').2 t' ht hn id hid

theorem Aligned.complete (h : Aligned s outs) : Aligned s.tryComplete.1 outs := by
  unfold Sender.tryComplete
  split
  · exact h
  · intro r'
    refine ⟨(h r').1, fun t' ht hn id hid => ?_⟩
    simp only [AMap.get_erase] at ht
    split at ht
    · simp at ht
    · exact (h r').2 t' ht hn id hid

theorem Aligned.reset (h : Aligned s outs) : Aligned s.reset.1 outs := by
  intro r'
  exact ⟨(h r').1, fun t' ht => by simp [Sender.reset] at ht⟩

/-! ## The next request -/

/-- The content of a request. -/
def Request.content? (q : Request) : Option Content := q.payload.join

/-- The contents of the requests to a receiver. -/
def contentsTo (r : Nat) (qs : List Request) : List Content := (qs.filter fun q => decide (q.recipient = r)).filterMap Request.content?

theorem Fed.next {o : Option Request} (h : Fed enc cs F s) (hs : s.nextRequest enc = .ok (s', o)) :
    Fed enc cs F s' ∧ (o = none → s' = s) ∧ ∀ q, o = some q → ∃ c, q.payload = some (some c) ∧ Shipped enc cs F q.recipient c ∧
      ∀ outs, Aligned s outs → Aligned s' fun r => outs r ++ contentsTo r [q] := by
  obtain ⟨mp, rep, L, hw, hL⟩ := h.world
  rcases nextRequest_spec hw with ⟨h1, _⟩ | ⟨r, t, l, hr0, hg, hl, _, hst, hlt, _, h1⟩
  · simp only at h1
    rw [h1] at hs
    simp only [Run.ok.injEq, Prod.mk.injEq] at hs
    obtain ⟨rfl, rfl⟩ := hs
    exact ⟨h, fun _ => rfl, by simp⟩
  · simp only at h1 hg hl
    have ht : TInv enc cs s.nextDeliveryId t l := by
      have := hw.rel r
      rw [hg, hl] at this
      exact this
    rw [h1] at hs
    simp only [Run.ok.injEq, Prod.mk.injEq] at hs
    obtain ⟨rfl, rfl⟩ := hs
    have hs' := hw.step (.nextSome (L := L) h1)
    refine ⟨⟨⟨mp, rep, _, hs', note_mem hL⟩, h.unique, h.fresh⟩, by simp, fun q hq => ?_⟩
    simp only [Option.some.injEq] at hq
    subst hq
    refine ⟨_, rfl, ⟨l.id, l.snap, t.nextIndex, t.chunkCount, rfl, hL r l hl, chunkCount_isPieceCount ht.cnt, hlt⟩, fun outs ha r' => ?_⟩
    by_cases hr : r = r'
    · subst hr
      have hc : contentsTo r [(⟨r, s.replicaId, s.nextDeliveryId, some (some (expected enc l.id l.snap cs t.nextIndex))⟩ : Request)] =
          [expected enc l.id l.snap cs t.nextIndex] := by
        simp [contentsTo, Request.content?]
      simp only [hc]
      refine ⟨unmixed_snoc (ha r).1 ?_, fun t' ht' _ id hid => ?_⟩
      · by_cases hz : t.nextIndex = 0
        · left; simp [expected, hz, opens]
        · right
          intro id hid
          rw [← (ha r).2 t hg hz id hid, ht.id]
          rfl
      · simp only [AMap.get_set_self, Option.some.injEq] at ht'
        subst ht'
        rw [last_snoc] at hid
        simp only
        split at hid
        · simp only [Option.some.injEq] at hid
          rw [← hid, ht.id]
          rfl
        · rename_i ho
          refine (ha r).2 t hg (fun hz => ho ?_) id hid
          simp [expected, hz, opens]
    · have hc : contentsTo r' [(⟨r, s.replicaId, s.nextDeliveryId, some (some (expected enc l.id l.snap cs t.nextIndex))⟩ : Request)] = [] := by
        simp [contentsTo, hr]
      simp only [hc, List.append_nil]
      refine ⟨(ha r').1, fun t' ht' => ?_⟩
      rw [AMap.get_set_ne _ _ hr] at ht'
      exact (ha r').2 t' ht'

end TCP.Snap
