import Verif.Proofs.DriverApp
import Verif.Props.DriverAppExample

/-!
# C75: a cluster runs its application

The replicas of a cluster are `ActorSpec.Replica`s of the application, for the events of the consensus log.  What was proved of an
application by itself thereby holds of it on every replica of every cluster (C76–C78).
-/

namespace TCP.DrvProps

open TCP TCP.Drv TCP.DrvSpec TCP.DrvExample TCP.AppExample TCP.ActorSpec

variable {σ ρ κ H : Type} {S : Sys σ ρ κ H}

/-- C75: in every cluster, whatever its replicas are sent and however snapshots are taken and installed, the actor of every started replica
reflects exactly the events of the log up to the applied index, each once and in log order. -/
theorem C75_replicas {log : Nat → Entry} (hl : ∀ i, (log i).index = i) (hin : Inert S.A) {founder : Nat} {fresh : σ → Prop} {cfg : Bytes}
    {ds : Nat → Driver σ ρ κ H} (h : Deployed S log founder fresh cfg ds) :
    ∃ f, ∀ p, (ds p).state ≠ .created → Reflects S log fresh cfg f (ds p).applied (ds p).actor := by
  obtain ⟨⟨f, I⟩, _⟩ := app_inv hl hin h
  exact ⟨f, I.actor⟩

/-- C75: every call made on the actor of a replica found it in a state that reflects the log up to an index that includes everything applied
before the call; an event is applied in the state that reflects exactly the log before it. -/
theorem C75_calls {log : Nat → Entry} (hl : ∀ i, (log i).index = i) (hin : Inert S.A) {founder : Nat} {fresh : σ → Prop} {cfg : Bytes}
    {ds : Nat → Driver σ ρ κ H} (h : Deployed S log founder fresh cfg ds) :
    ∃ f, ∀ p before c after, (ds p).trace = before ++ .actor c :: after →
      ∃ n s s', n ≤ (ds p).applied ∧ Reflects S log fresh cfg f n s ∧ Step S.A s c s' ∧
        (∀ ctx ec ev res, c = .apply ctx ec ev res → n + 1 = ec.index) ∧ ∀ i ∈ applyIndices (observed before), i ≤ n := by
  obtain ⟨⟨f, I⟩, _⟩ := app_inv hl hin h
  exact ⟨f, I.calls⟩

/-- C75: every message a replica sends to a client is what the application answers, either to a command this replica was handed or to the
event at some index of the log, in a state that reflects the log as far as applied then; the application is told that it owns the event
exactly on the replica that proposed it. -/
theorem C75_answers {log : Nat → Entry} (hl : ∀ i, (log i).index = i) (hin : Inert S.A) {founder : Nat} {fresh : σ → Prop} {cfg : Bytes}
    {ds : Nat → Driver σ ρ κ H} (h : Deployed S log founder fresh cfg ds) :
    ∃ f, ∀ p, ∀ r ∈ appMessages (outMessages (ds p).trace),
      (∃ n s s' ctx c o, n ≤ (ds p).applied ∧ Reflects S log fresh cfg f n s ∧ .actor (.command ctx c (.ok o)) ∈ (ds p).trace ∧
        S.A.onProcessCommand ctx s c = .ok (s', .ok o) ∧ r ∈ o.commands) ∨
      (∃ i replica ev s s' ctx o, 2 ≤ i ∧ i ≤ (ds p).applied ∧ Reflects S log fresh cfg f (i - 1) s ∧
        eventOf S.E.decEntry (log i) = some ev ∧ proposerOf S.E.decEntry (log i) = some replica ∧
        S.A.onApplyEvent ctx s ⟨i, decide (replica = (ds p).id)⟩ ev = .ok (s', .ok o) ∧ r ∈ o.commands) := by
  obtain ⟨⟨f, I⟩, _⟩ := app_inv hl hin h
  exact ⟨f, fun p r hr => app_answers hl h I hr⟩

/-- C75: everything a replica proposes is an event the application asked for when it was handed a command, in a state that reflects the log
as far as applied then. -/
theorem C75_proposals {log : Nat → Entry} (hl : ∀ i, (log i).index = i) (hin : Inert S.A) {founder : Nat} {fresh : σ → Prop} {cfg : Bytes}
    {ds : Nat → Driver σ ρ κ H} (h : Deployed S log founder fresh cfg ds) :
    ∃ f, ∀ p b, .propose b ∈ (ds p).trace →
      ∃ n s s' ctx c o ev, n ≤ (ds p).applied ∧ Reflects S log fresh cfg f n s ∧ .actor (.command ctx c (.ok o)) ∈ (ds p).trace ∧
        S.A.onProcessCommand ctx s c = .ok (s', .ok o) ∧ o.event = some ev ∧
        b = S.E.encEntry ⟨some ((ds p).id, ev.correlationId), ev.contents⟩ := by
  obtain ⟨⟨f, I⟩, _⟩ := app_inv hl hin h
  exact ⟨f, fun p b hb => app_proposals I hb⟩

/-- C75: the log respects real time.  If consensus commits only what was proposed, then an event that belongs to a command its proposer has
not been handed yet comes after everything that any replica has applied so far, in particular after everything answered so far. -/
theorem C75_realtime (hcod : ∀ x, S.E.decEntry (S.E.encEntry x) = some x) (hcor : Correlates S.A) {log : Nat → Entry}
    (hl : ∀ i, (log i).index = i) (hin : Inert S.A) {founder : Nat} {fresh : σ → Prop} {cfg : Bytes}
    {ds : Nat → Driver σ ρ κ H} (h : Deployed S log founder fresh cfg ds) (hca : Causal S.E.decEntry log ds) {j : Nat} {ev : ActorEvent}
    (hj : 2 ≤ j) (hev : eventOf S.E.decEntry (log j) = some ev)
    (hnew : ∀ q, proposerOf S.E.decEntry (log j) = some (ds q).id → ∀ c ∈ (ds q).trace.filterMap handed, c.correlationId ≠ ev.correlationId)
    (p : Nat) : (ds p).applied < j := by
  obtain ⟨⟨f, I⟩, _⟩ := app_inv hl hin h
  exact app_realtime hcod hcor I hca hj hev hnew p

/-- The log of the example. -/
def exEntries : List LogEntry := [⟨some (1, 7), [10]⟩, ⟨some (1, 8), [20, 21]⟩, ⟨some (1, 9), [30]⟩]

/-- C75 is not vacuous: a founder applies three events and saves a snapshot after the second, another replica installs the snapshot and
applies the third. -/
example : Inert actor ∧ (∀ i, (logOf exEntries i).index = i) ∧ ∃ ds, Deployed (appSys actor) (logOf exEntries) 0 (· = []) [] ds ∧
    reached [⟨7, [], [10]⟩, ⟨8, [], [10, 20, 21]⟩, ⟨9, [], [10, 20, 21, 30]⟩] (ds 0) (ds 1) = true := by
  refine ⟨⟨fun h => ?_, fun h => ?_⟩, logOf_index _, outcome_sound rfl (snap := [10, 20, 21])
    (rs := [(7, [], [10]), (8, [], [20, 21]), (9, [], [30])]) (by decide +kernel)⟩
  · simp only [actor, Run.ok.injEq, Prod.mk.injEq] at h; exact h.1.symm
  · simp only [actor, Run.ok.injEq] at h; exact h.symm

/-- `C75_realtime` is not vacuous: when the founder has handled the first two requests, the third was not proposed yet. -/
example : Correlates actor ∧ ∃ ds, Deployed (appSys actor) (logOf exEntries) 0 (· = []) [] ds ∧ Causal codecs.decEntry (logOf exEntries) ds ∧
    eventOf codecs.decEntry (logOf exEntries 4) = some ⟨9, [30]⟩ ∧ (ds 0).applied = 3 ∧
    ∀ q, proposerOf codecs.decEntry (logOf exEntries 4) = some (ds q).id → ∀ c ∈ (ds q).trace.filterMap handed, c.correlationId ≠ 9 := by
  refine ⟨fun {ctx s c s' o ev} h g => ?_, ?_⟩
  · simp only [actor, Run.ok.injEq, Prod.mk.injEq, Except.ok.injEq] at h
    rw [← h.2] at g
    cases c with
    | none => cases g
    | some c => simp only [Option.map_some, Option.some.injEq] at g; exact ⟨c, rfl, by rw [← g]⟩
  · obtain ⟨ds, ds', h1, h2, h3, h4, h5, h6⟩ := moments_sound (A := actor) (a0 := []) (cfg := []) (es := exEntries) (fresh := (· = [])) rfl
      (snap := [10, 20, 21]) (r1 := (7, [], [10])) (r2 := (8, [], [20, 21])) (r3 := (9, [], [30]))
      (p := reached [⟨7, [], [10]⟩, ⟨8, [], [10, 20, 21]⟩, ⟨9, [], [10, 20, 21, 30]⟩]) (by decide +kernel)
    exact ⟨ds, h1, h2, by decide +kernel, h3, fun q _ => h6 q⟩

end TCP.DrvProps
