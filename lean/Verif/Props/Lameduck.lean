import Verif.Props.Clock

/-! # C109: a replica that is about to go down -/

namespace TCP.LameduckProps

open TCP TCP.Drv TCP.DrvSpec TCP.DrvExample TCP.DrvProps TCP.ClockProps

variable {σ ρ κ H : Type} {S : Sys σ ρ κ H}

theorem atom_lame {d d' : Driver σ ρ κ H} (h : Atom S d d') (hl : d.lameduck = true) :
    d'.lameduck = true ∧ ticks d'.trace = ticks d.trace := by
  cases h with
  | quiet h => exact ⟨h.lameduck.trans hl, by rw [h.trace]⟩
  | actor h hc => exact ⟨hl, by simp [ticks, tickInstant, List.filterMap_append]⟩
  | raft h => exact ⟨hl, by rw [ticks_append, ticks_raft h, List.append_nil]⟩
  | tick hp h => rw [hl] at h; cases h
  | comm h => exact ⟨hl, by rw [ticks_append, ticks_comm h, List.append_nil]⟩
  | out => exact ⟨hl, by simp [ticks, tickInstant, List.filterMap_append]⟩
  | setup h => exact ⟨h.lameduck.trans hl, by rw [h.trace]⟩
  | init h hs => exact ⟨hl, by simp [ticks, tickInstant, List.filterMap_append]⟩
  | started hs => exact ⟨hl, rfl⟩
  | stopped h hs => exact ⟨hl, by simp [ticks, tickInstant, List.filterMap_append]⟩
  | lameduck => exact ⟨rfl, rfl⟩

theorem star_lame {d d' : Driver σ ρ κ H} (h : Star S d d') (hl : d.lameduck = true) :
    d'.lameduck = true ∧ ticks d'.trace = ticks d.trace := by
  induction h with
  | refl => exact ⟨hl, rfl⟩
  | step h _ ih =>
    have k := atom_lame h hl
    have k' := ih k.1
    exact ⟨k'.1, k'.2.trans k.2⟩

theorem receive_lame {t : Nat} {m r} {d d' : Driver σ ρ κ H} (h : receive S t m d = .ok (d', r)) (hl : d.lameduck = true) :
    d'.lameduck = true ∧ ticks d'.trace = ticks d.trace := by
  obtain ⟨d2, hs, hd⟩ := receive_star h
  have k := star_lame hs (show (presetState S t d).lameduck = true from hl)
  rcases hd with rfl | ⟨c', outs, _, _, rfl⟩
  · exact k
  · refine ⟨k.1, ?_⟩
    show ticks (d2.trace ++ _) = _
    rw [ticks_append]
    have : ticks (outs.map fun m => (Ev.out (.comm m) : Ev H)) = [] := by
      simp only [ticks, List.filterMap_map, List.filterMap_eq_nil_iff]
      intro m _; rfl
    rw [this, List.append_nil]
    exact k.2

theorem timed_lame {ts : List Nat} {d d' : Driver σ ρ κ H} (h : Timed S d ts d') (hl : d.lameduck = true) :
    d'.lameduck = true ∧ ticks d'.trace = ticks d.trace := by
  induction h with
  | nil => exact ⟨hl, rfl⟩
  | snoc _ hs ih =>
    have k := receive_lame hs ih.1
    exact ⟨k.1, k.2.trans ih.2⟩

/-- Entering the mode is the same as a call without a message in the mode. -/
theorem enter_eq (t : Nat) (d : Driver σ ρ κ H) :
    receive S t (some (some .enterLameduck)) d = receive S t none { d with lameduck := true } := rfl

/-- C109: from the call that asks a replica to enter lameduck mode on, consensus gets no tick, whatever the host asks and however much
time passes.  So it neither sends heartbeats nor starts an election on its own. -/
theorem C109_no_ticks {d d1 d2 : Driver σ ρ κ H} {t : Nat} {r ts} (h1 : receive S t (some (some .enterLameduck)) d = .ok (d1, r))
    (h2 : Timed S d1 ts d2) : ticks d2.trace = ticks d.trace := by
  rw [enter_eq] at h1
  have k := receive_lame h1 rfl
  exact (timed_lame h2 k.1).2.trans k.2

/-- C109, "gives up leadership", is false in the code: a leader is asked to enter the mode, and much later, without having got a tick,
still leads, takes a command and answers it. -/
theorem C109_leader_fails : ∃ d outs, Runs sys d0 outs d ∧ ticks d.trace = [15] ∧ sys.R.leader d.raft = true ∧
    appMessages ((outs.drop 3).flatMap fun o => o.getD []) = [⟨7, [], [10]⟩] := by
  obtain ⟨d, outs, hr, hp⟩ := check_runs (b := d0)
    (cs := [startLeader, (15, none), (30, some (some .enterLameduck)), (1000, none), (2000, none), (3000, app 7 [10])])
    (p := fun d rs => decide (ticks d.trace = [15] ∧ sys.R.leader d.raft = true ∧
      appMessages ((rs.drop 3).flatMap fun r => match r with | .ok o => o.getD [] | _ => []) = [⟨7, [], [10]⟩])) (by decide +kernel)
  have := of_decide_eq_true hp
  refine ⟨d, outs, hr, this.1, this.2.1, ?_⟩
  rw [← this.2.2, ← List.map_drop, List.flatMap_map]

/-- `C109_no_ticks` is not vacuous: a leader that has got a tick enters the mode, and three more calls are made in which a tick would
have been due. -/
example : ∃ d d1 d2 r, receive sys 30 (some (some .enterLameduck)) d = .ok (d1, r) ∧ Timed sys d1 [1000, 2000, 3000] d2 ∧
    ticks d.trace = [15] ∧ d.tickPeriod = 10 := by
  have h : (match calls d0 [startLeader, (15, none)] with
    | .ok x => (match receive sys 30 (some (some .enterLameduck)) x.1 with
      | .ok y => (match calls y.1 [(1000, none), (2000, none), (3000, app 7 [10])] with | .ok _ => true | .panic => false)
      | .panic => false) && decide (ticks x.1.trace = [15] ∧ x.1.tickPeriod = 10)
    | .panic => false) = true := by decide +kernel
  split at h
  · rename_i x hx
    simp only [Bool.and_eq_true] at h
    obtain ⟨h, hd⟩ := h
    have hd := of_decide_eq_true hd
    split at h
    · rename_i y hy
      split at h
      · rename_i z hz
        exact ⟨x.1, y.1, z.1, y.2, hy, by simpa using calls_timed .nil hz, hd⟩
      · cases h
    · cases h
  · cases h

end TCP.LameduckProps
