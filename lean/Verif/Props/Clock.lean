import Verif.Spec.Clock
import Verif.Props.Driver

/-! # C108: the clock that evidence is checked against -/

namespace TCP.ClockProps

open TCP TCP.Drv TCP.DrvSpec TCP.DrvExample TCP.DrvProps

variable {σ ρ κ H : Type} {S : Sys σ ρ κ H}

theorem asI64_small {n : Nat} (h : n < 2 ^ 63) : asI64 n = Int.ofNat n := by
  have : n % 2 ^ 64 = n := Nat.mod_eq_of_lt (by omega)
  simp only [asI64, this, h, if_true]

theorem asI64_big {n : Nat} (h : 2 ^ 63 ≤ n) (h' : n < 2 ^ 64) : asI64 n < 0 := by
  have e : n % 2 ^ 64 = n := Nat.mod_eq_of_lt h'
  have g : ¬ n < 2 ^ 63 := by omega
  simp only [asI64, e, if_neg g]
  have : Int.ofNat n = (n : Int) := rfl
  omega

theorem latest_snoc (ts : List Nat) (t : Nat) : latest (ts ++ [t]) = max (latest ts) t := by
  simp [latest, List.foldl_append]

theorem timed_instant {d d' : Driver σ ρ κ H} {ts : List Nat} (h : Timed S d ts d') : d'.instant = max d.instant (latest ts) := by
  induction h with
  | nil => simp [latest]
  | snoc _ hs ih => rw [receive_instant hs, ih, latest_snoc, Nat.max_assoc]

theorem latest_lt {ts : List Nat} {b : Nat} (hb : 0 < b) (h : ∀ t ∈ ts, t < b) : latest ts < b := by
  suffices ∀ (l : List Nat) (a : Nat), a < b → (∀ t ∈ l, t < b) → l.foldl max a < b from this ts 0 hb h
  intro l
  induction l with
  | nil => intro a ha _; exact ha
  | cons x l ih =>
    intro a ha hl
    have hx := hl x List.mem_cons_self
    exact ih (max a x) (by omega) fun t ht => hl t (List.mem_cons_of_mem _ ht)

/-- C108, as long as the host's clock stays below 2^63 milliseconds: the clock shows the latest time the host has ever given. -/
theorem C108_latest_partial {d0 d : Driver σ ρ κ H} {ts : List Nat} (h0 : Fresh d0) (h : Timed S d0 ts d) (ht : ∀ t ∈ ts, t < 2 ^ 63) :
    d.clockTime = Int.ofNat (latest ts) := by
  obtain ⟨a, r, c, rfl⟩ := h0
  have hi := timed_instant h
  have hl := latest_lt (by decide) ht
  have hz : (Driver.new a r c : Driver σ ρ κ H).instant = 0 := rfl
  rw [hz, Nat.zero_max] at hi
  rw [Driver.clockTime, hi, asI64_small hl]

/-- C108, as long as the host's clock stays below 2^63 milliseconds: the clock never goes back. -/
theorem C108_monotone_partial {d0 d d' : Driver σ ρ κ H} {ts ts' : List Nat} (h0 : Fresh d0) (h : Timed S d0 ts d) (h' : Timed S d ts' d')
    (ht : ∀ t ∈ ts ++ ts', t < 2 ^ 63) : d.clockTime ≤ d'.clockTime := by
  have hl := latest_lt (by decide) fun t h => ht t (List.mem_append_left _ h)
  have hl' := latest_lt (by decide) fun t h => ht t (List.mem_append_right _ h)
  have hi' := timed_instant h'
  obtain ⟨a, r, c, rfl⟩ := h0
  have hi := timed_instant h
  have hz : (Driver.new a r c : Driver σ ρ κ H).instant = 0 := rfl
  rw [hz, Nat.zero_max] at hi
  rw [Driver.clockTime, Driver.clockTime, asI64_small (by omega), asI64_small (by omega)]
  exact Int.ofNat_le.2 (by omega)

/-- C108 is false in the code: one reading of 2^63 or more turns the clock back to before 1970, and it stays there, whatever the host
does later. -/
theorem C108_wrap_fails {d d1 d2 : Driver σ ρ κ H} {t : Nat} {m r ts} (hd : d.instant < 2 ^ 64) (h1 : receive S t m d = .ok (d1, r))
    (ht : 2 ^ 63 ≤ t) (ht' : t < 2 ^ 64) (h2 : Timed S d1 ts d2) (hts : ∀ t ∈ ts, t < 2 ^ 64) : d2.clockTime < 0 := by
  have hi := receive_instant h1
  have hi' := timed_instant h2
  have hl := latest_lt (by decide) hts
  exact asI64_big (by omega) (by omega)

/-- C108 is false in the code: a reading that is ahead of the true time is never corrected.  Once the host has given `t`, the clock shows
`t` until the host's clock has passed it, although the host now gives earlier times. -/
theorem C108_ahead_fails {d d1 d2 : Driver σ ρ κ H} {t : Nat} {m r ts} (hd : d.instant ≤ t) (h1 : receive S t m d = .ok (d1, r))
    (ht : t < 2 ^ 63) (h2 : Timed S d1 ts d2) (hts : ∀ t' ∈ ts, t' ≤ t) : d2.clockTime = Int.ofNat t := by
  have hi := receive_instant h1
  have hi' := timed_instant h2
  have hl := latest_lt (b := t + 1) (by omega) fun t' h => Nat.lt_succ_of_le (hts t' h)
  have : d2.instant = t := by omega
  rw [Driver.clockTime, this, asI64_small ht]

/-- C108 is false in the code: after a tick at the largest time a call can give, consensus never gets another tick, so that a follower
never again notices that its leader is gone. -/
theorem C108_ticks_fails {d0 d : Driver σ ρ κ H} {outs} (h0 : Fresh d0) (h : Runs S d0 outs d) (hd : d.instant < 2 ^ 64) (hp : 0 < d.tickPeriod)
    {l1 l2 : List Nat} (he : ticks d.trace = l1 ++ (2 ^ 64 - 1) :: l2) : l2 = [] := by
  have hi := runs_tickInv h0 h
  cases l2 with
  | nil => rfl
  | cons b l2 =>
    have hpw := hi.paced
    rw [he] at hpw
    have h1 := (List.pairwise_cons.1 (List.pairwise_append.1 hpw).2.1).1 b List.mem_cons_self
    have h2 := hi.past b (by rw [he]; simp)
    have h3 := hi.le
    exact absurd h1 (by omega)

/-! ## The hypotheses can be met -/

theorem calls_timed {cs : List (Nat × Option (Option (InMsg Nat)))} {b d d' ts rs} (hb : Timed sys b ts d) (h : calls d cs = .ok (d', rs)) :
    Timed sys b (ts ++ cs.map (·.1)) d' := by
  induction cs generalizing d ts rs with
  | nil =>
    simp only [calls, Run.ok.injEq, Prod.mk.injEq] at h
    obtain ⟨rfl, rfl⟩ := h
    simpa using hb
  | cons c cs ih =>
    simp only [calls, Run.bind_eq_ok, Run.ok.injEq, Prod.mk.injEq] at h
    obtain ⟨r, hr, x, hx, rfl, rfl⟩ := h
    have := ih (hb.snoc hr) hx
    simpa [List.append_assoc] using this

theorem check_timed {b cs p} (h : check b cs p = true) : ∃ d, Timed sys b (cs.map (·.1)) d ∧ ∃ rs, p d rs = true := by
  unfold check at h
  split at h
  · rename_i x hx
    exact ⟨x.1, by simpa using calls_timed .nil hx, x.2, h⟩
  · cases h

/-- `C108_latest_partial` and `C108_monotone_partial` are not vacuous: the host's clock shows 1, 15 and 7, the replica's 15. -/
example : ∃ d, Timed sys d0 [1, 15, 7] d ∧ (∀ t ∈ [1, 15, 7], t < 2 ^ 63) ∧ d.clockTime = 15 := by
  obtain ⟨d, h, rs, hp⟩ := check_timed (b := d0) (cs := [startLeader, (15, none), (7, none)]) (p := fun d _ => decide (d.clockTime = 15))
    (by decide +kernel)
  exact ⟨d, h, by simp, of_decide_eq_true hp⟩

/-- `C108_wrap_fails` is not vacuous: a leader is given the time 2^63, and then a right one. -/
example : ∃ d, Timed sys d0 [1, 2 ^ 63, 20] d ∧ d.clockTime = -2 ^ 63 := by
  obtain ⟨d, h, rs, hp⟩ := check_timed (b := d0) (cs := [startLeader, (2 ^ 63, none), (20, none)])
    (p := fun d _ => decide (d.clockTime = -2 ^ 63)) (by decide +kernel)
  exact ⟨d, h, of_decide_eq_true hp⟩

/-- `C108_ahead_fails` is not vacuous. -/
example : ∃ d, Timed sys d0 [1, 1000000, 20, 30] d ∧ d.clockTime = 1000000 := by
  obtain ⟨d, h, rs, hp⟩ := check_timed (b := d0) (cs := [startLeader, (1000000, none), (20, none), (30, app 1 [9])])
    (p := fun d _ => decide (d.clockTime = 1000000)) (by decide +kernel)
  exact ⟨d, h, of_decide_eq_true hp⟩

/-- `C108_ticks_fails` is not vacuous: two ticks, the second at the largest time, and then calls without one. -/
example : ∃ d outs, Runs sys d0 outs d ∧ d.instant < 2 ^ 64 ∧ 0 < d.tickPeriod ∧ outs.length = 5 ∧ ticks d.trace = [15, 2 ^ 64 - 1] := by
  obtain ⟨d, outs, hr, hp⟩ := check_runs (b := d0) (cs := [startLeader, (15, none), (2 ^ 64 - 1, none), (2 ^ 64 - 1, none), (40, none)])
    (p := fun d rs => decide (d.instant < 2 ^ 64 ∧ 0 < d.tickPeriod ∧ rs.length = 5 ∧ ticks d.trace = [15, 2 ^ 64 - 1])) (by decide +kernel)
  have := of_decide_eq_true hp
  simp only [List.length_map] at this
  exact ⟨d, outs, hr, this⟩

end TCP.ClockProps
