import Verif.Spec.Rollback
import Verif.Proofs.Answered

/-!
# Proofs for rollback and forking (C99)
-/

namespace TCP.Rollback

open TCP TCP.Drv TCP.DrvSpec

variable {σ ρ κ H : Type} {S : Sys σ ρ κ H}

theorem advances_le {log : Nat → Entry} {t : List (Ev H)} {x y : Nat × Nat} (h : Trail (Advances log) t x y) : x.2 ≤ y.2 := by
  induction t generalizing x with
  | nil => cases h; exact Nat.le_refl _
  | cons e t ih =>
    obtain ⟨z, ⟨hf, hle⟩, h2⟩ := h
    refine Nat.le_trans ?_ (ih h2)
    cases e with
    | ready r =>
      obtain ⟨k, _, rfl⟩ := hf
      have hle : x.2 ≤ loadIndex r.snapshot x.2 := hle
      exact Nat.le_trans hle (Nat.le_add_right _ _)
    | _ => exact hle

theorem follows_of_advances {log : Nat → Entry} {t : List (Ev H)} {x y : Nat × Nat} (h : Trail (Advances log) t x y) : Trail (Follows log) t x y := by
  induction t generalizing x with
  | nil => exact h
  | cons e t ih => obtain ⟨z, h1, h2⟩ := h; exact ⟨z, h1.1, ih h2⟩

theorem runs_forward {log : Nat → Entry} (hl : ∀ i, (log i).index = i) {d0 d1 d2 : Driver σ ρ κ H} {o1 o2} (h0 : Fresh d0) (h1 : Runs S d0 o1 d1)
    (hs : d1.state ≠ .created) (he : d1.ephemeral = false) (h2 : Runs S d1 o2 d2) {y : Nat × Nat} (hg : Trail (Advances log) d2.trace (0, 0) y) :
    d1.applied ≤ d2.applied := by
  obtain ⟨_, he2, t, ht⟩ : d2.state ≠ .created ∧ d2.ephemeral = false ∧ ∃ t, d2.trace = d1.trace ++ t := by
    obtain ⟨k1, k2, k3⟩ := runs_moves hs he h2
    exact ⟨k1, k2, k3.run.imp fun _ h => h.1⟩
  have e2 := (runs_position hl h0 (runs_append h1 h2) he2 (b := y.1) (c := y.2) (follows_of_advances hg)).1
  rw [ht, trail_append] at hg
  obtain ⟨z, g1, g2⟩ := hg
  have e1 := (runs_position hl h0 h1 he (b := z.1) (c := z.2) (follows_of_advances g1)).1
  have := advances_le g2
  omega

/-- What a first start request does, whatever happened elsewhere. -/
theorem start_founds {d0 d : Driver σ ρ κ H} {i : Nat} {q : StartReq} {out} (h0 : Fresh d0)
    (h : receive S i (some (some (.startReplica q))) d0 = .ok (d, .ok out)) (he : d.ephemeral = false) :
    d.id = q.idHint ∧ .startReplica q.idHint ∈ sent [.ok out] ∧ ∃ ctx a1 a2 b rest, S.A.onInit ctx d0.actor = .ok (a1, .ok ()) ∧
      S.A.onSaveSnapshot ctx a1 = .ok (a2, .ok b) ∧ d.trace = .actorInit ctx (.ok ()) :: .actor (.save ctx (.ok b)) ::
        .raftInit q.idHint b q.isLeader (.ok ()) :: .out (.startReplica q.idHint) :: rest := by
  have hruns : Runs S d0 [out] d := Runs.snoc .nil h
  have hsent := calls_sent h0 (runs_calls hruns)
  rw [runs_messages h0 hruns, List.append_nil] at hsent
  obtain ⟨a, r, c, rfl⟩ := h0
  cases receive_outcome h with
  | unknown hm => cases hm
  | @done m' d2 c' outs hm hb ho =>
    obtain rfl : some (.startReplica q) = m' := by
      cases m' with
      | none => cases hm
      | some m' => simp only [Option.map_some, Option.some.injEq] at hm; rw [hm]
    obtain ⟨r', ctx, a1, a2, b, d3, hr, hi, hsv, _, hst, e3, _, f5, _, f7, hb'⟩ :=
      start_body (S := S) (d := presetState S i (Driver.new a r c)) rfl ⟨rfl, rfl⟩ hb he
    cases hr
    have f7 : d3.trace = _ := f7.trans (List.nil_append _)
    have hmv := moves_body (S := S) (d := d3) (by rw [hst]; decide) e3 hb'
    obtain ⟨hid, new, ht, _⟩ := hmv
    have htr : d2.trace ++ outs.map (fun m => Ev.out (.comm m)) = .actorInit ctx (.ok ()) :: .actor (.save ctx (.ok b)) ::
        .raftInit q.idHint b q.isLeader (.ok ()) :: .out (.startReplica q.idHint) :: (new ++ outs.map fun m => Ev.out (.comm m)) := by
      rw [ht, f7]; rfl
    refine ⟨hid.trans f5, ?_, ctx, a1, a2, b, _, hi, hsv, htr⟩
    have : sent [Except.ok (some (d2.messages ++ outs.map .comm))] = _ := hsent
    rw [this]
    change _ ∈ outMessages (d2.trace ++ outs.map fun m => Ev.out (.comm m))
    rw [htr]
    simp [outMessages]

end TCP.Rollback
