import Verif.Spec.Shutdown
import Verif.Props.Service

/-! # C107: shutting a service down -/

namespace TCP.ShutdownProps

open TCP TCP.Service TCP.ServiceSpec TCP.ServiceProps

variable {δ Q A : Type} {handle : Q → δ → Run (δ × A)} {d0 : δ}

/-- The replica cannot survive a request whose client went away. -/
theorem work_dead {s : State δ Q A} {i : Nat} {q : Q} (hc : s.calls[i]? = some .cancelled) : (s.work handle q i).alive = false := by
  unfold State.work
  split
  · rfl
  · rw [hc]; rfl

theorem work_queue {s : State δ Q A} {i : Nat} {q : Q} (hc : s.calls[i]? = some .cancelled) : (s.work handle q i).queue = [] := by
  unfold State.work
  split
  · rfl
  · rw [hc]; rfl

theorem drain_dead {l : List (Q × Nat)} {s : State δ Q A} (h : s.alive = false) : State.drain handle l s = s := by
  cases l with
  | nil => rfl
  | cons p l => obtain ⟨q, i⟩ := p; simp [State.drain, h]

theorem pending_abandoned {s : State δ Q A} (h : Reachable handle d0 s) (hq : Quiet s) {i : Nat} {q : Q}
    (hp : s.busy = some (q, i) ∨ (q, i) ∈ s.queue) : s.calls[i]? = some .cancelled := by
  have hm : (q, i) ∈ pending s := by
    rcases hp with hp | hp
    · simp [pending, hp]
    · exact List.mem_append_right _ hp
  obtain ⟨_, _, h3⟩ := (reachable_inv h).queued hm
  rcases h3 with h3 | h3
  · exact (hq _ _ h3).elim
  · exact h3

theorem later_reachable {s s' : State δ Q A} (h : Reachable handle d0 s) (hl : Later handle s s') : Reachable handle d0 s' := by
  induction hl with
  | nil => exact h
  | client _ hs ih => exact ih.client hs
  | server _ hs ih => exact ih.server hs

theorem returned_event {s : State δ Q A} (h : Reachable handle d0 s) {i : Nat} {a : A} (hc : s.calls[i]? = some (.returned a)) :
    Event.return i a ∈ s.history := by
  induction h generalizing i a with
  | new => simp [State.new] at hc
  | client h hs ih =>
    cases hs with
    | call q =>
      rcases getElem?_concat_cases hc with ⟨_, h⟩ | h
      · cases h
      · exact List.mem_append_left _ (ih h)
    | cancel hy =>
      rcases getElem?_set_cases hc with ⟨_, h⟩ | ⟨_, h⟩
      · cases h
      · exact List.mem_append_left _ (ih h)
  | server h hs ih =>
    cases hs with
    | send =>
      rcases getElem?_set_cases hc with ⟨rfl, h⟩ | ⟨_, h⟩
      · cases h
      · exact ih h
    | receive => exact ih hc
    | work hb =>
      unfold State.work at hc ⊢
      split at hc
      · exact ih hc
      · split at hc
        · rcases getElem?_set_cases hc with ⟨rfl, h⟩ | ⟨_, h⟩
          · cases h
          · exact List.mem_append_left _ (ih h)
        · exact List.mem_append_left _ (ih hc)
    | _ =>
      rcases getElem?_set_cases hc with ⟨rfl, h⟩ | ⟨_, h⟩
      · cases h
        try exact List.mem_append_right _ (List.mem_singleton_self _)
      · exact List.mem_append_left _ (ih h)

/-- A call that returned was handled. -/
theorem returned_handled {s : State δ Q A} (h : Reachable handle d0 s) {i : Nat} {a : A} (hc : s.calls[i]? = some (.returned a)) :
    ∃ q, Event.handled i q a ∈ s.history := by
  obtain ⟨h1, h2, he⟩ := List.append_of_mem (returned_event h hc)
  obtain ⟨q, x, y, z, rfl⟩ := C72_within h he
  exact ⟨q, by rw [he]; simp⟩

/-- What becomes of the thread. -/
theorem finish_cases {s : State δ Q A} (h : Reachable handle d0 s) (hq : Quiet s) :
    (s.busy = none ∧ s.queue = [] ∧ s.finish handle = s) ∨ ((∃ i q, Abandoned s i q) ∧ (s.finish handle).alive = false) := by
  unfold State.finish
  cases hb : s.busy with
  | some p =>
    obtain ⟨q, i⟩ := p
    have hc := pending_abandoned h hq (.inl hb)
    refine .inr ⟨⟨i, q, .inl hb, hc⟩, ?_⟩
    simp only [work_queue hc]
    exact work_dead hc
  | none =>
    cases hl : s.queue with
    | nil => exact .inl ⟨rfl, rfl, rfl⟩
    | cons p rest =>
      obtain ⟨q, i⟩ := p
      have hc := pending_abandoned h hq (.inr (hl ▸ List.mem_cons_self))
      refine .inr ⟨⟨i, q, .inr (hl ▸ List.mem_cons_self), hc⟩, ?_⟩
      have ha : s.alive = true := by
        cases ha : s.alive with
        | true => rfl
        | false =>
          have := (reachable_inv h).dead ha
          simp [pending, hl] at this
      simp only [State.drain, ha, if_true]
      have hd : ((s.receive q i rest).work handle q i).alive = false := work_dead hc
      rw [drain_dead hd]
      exact hd

/-- C107: a service can be shut down exactly where the thread may block, while the replica runs and no request of a client that went away
is left; in every other case shutting it down panics. -/
theorem C107_shutdown_partial {s : State δ Q A} (h : Reachable handle d0 s) (hq : Quiet s) (place : Place) :
    (∃ s', s.drop handle place = .ok s') ↔ place = .thread ∧ s.alive = true ∧ ∀ i q, ¬ Abandoned s i q := by
  constructor
  · rintro ⟨s', hs⟩
    cases place with
    | thread =>
      simp only [State.drop] at hs
      split at hs
      · rename_i hf
        rcases finish_cases h hq with ⟨hb, hl, he⟩ | ⟨_, hd⟩
        · refine ⟨rfl, he ▸ hf, fun i q hx => ?_⟩
          rcases hx.1 with hx | hx
          · rw [hb] at hx; cases hx
          · rw [hl] at hx; cases hx
        · rw [hd] at hf; cases hf
      · cases hs
    | _ => cases hs
  · rintro ⟨rfl, ha, hn⟩
    rcases finish_cases h hq with ⟨hb, hl, he⟩ | ⟨⟨i, q, hx⟩, _⟩
    · exact ⟨{ s with alive := false }, by simp [State.drop, he, ha]⟩
    · exact (hn i q hx).elim

/-- C107: a shutdown that does not panic loses nothing: every request that was handed over has been handled before, in order, and every
call that was not cancelled has its answer; the shutdown itself handles no request and makes the replica stop. -/
theorem C107_clean {s s' : State δ Q A} (h : Reachable handle d0 s) (hq : Quiet s) {place : Place} (hs : s.drop handle place = .ok s') :
    s'.alive = false ∧ s'.driver = s.driver ∧ s'.history = s.history ∧ s'.calls = s.calls ∧
    Sequential handle d0 (s'.history.filterMap handled?) s'.driver ∧
    ∀ (i : Nat) (c : Call Q A), s'.calls[i]? = some c → (∃ a q, c = .returned a ∧ .handled i q a ∈ s'.history) ∨ c = .cancelled := by
  obtain ⟨rfl, ha, hn⟩ := (C107_shutdown_partial h hq place).1 ⟨s', hs⟩
  rcases finish_cases h hq with ⟨_, _, he⟩ | ⟨⟨i, q, hx⟩, _⟩
  · simp only [State.drop, he, ha, if_true] at hs
    cases hs
    refine ⟨rfl, rfl, rfl, rfl, (reachable_inv h).seq, fun i c hc => ?_⟩
    have hd := hq i c hc
    cases c with
    | returned a =>
      obtain ⟨q, hm⟩ := returned_handled h hc
      exact .inl ⟨a, q, rfl, hm⟩
    | cancelled => exact .inr rfl
    | refused => exact absurd hc (alive_not_refused h ha)
    | _ => exact hd.elim
  · exact (hn i q hx).elim

/-- C107 is false in the code: the containers of this repository drop the service inside a task, where shutting it down panics even when
all is well, that is, when the same service could be shut down on another thread. -/
theorem C107_container_fails {s : State δ Q A} (h : Reachable handle d0 s) (hq : Quiet s) (ha : s.alive = true) (hn : ∀ i q, ¬ Abandoned s i q) :
    s.drop handle .task = .panic ∧ ∃ s', s.drop handle .thread = .ok s' :=
  ⟨rfl, (C107_shutdown_partial h hq .thread).2 ⟨rfl, ha, hn⟩⟩

/-- C107 is false in the code wherever the service is dropped: in every state of a service that runs and is idle, a client that makes one
more call and goes away makes shutting the service down panic, although the service still runs and no call is in progress. -/
theorem C107_cancel_fails {s : State δ Q A} (h : Reachable handle d0 s) (ha : s.alive = true) (hl : s.queue = []) (hq : Quiet s) (q : Q) :
    ∃ s1, Later handle s s1 ∧ Quiet s1 ∧ s1.alive = true ∧
      s1.history = s.history ++ [.invoke s.calls.length q, .cancel s.calls.length] ∧
      ∀ place : Place, s1.drop handle place = .panic := by
  let n := s.calls.length
  have hn : (s.calls ++ [Call.sending q])[n]? = some (.sending q) := by simp [n]
  have l1 : Later handle s (s.call q) := .client .nil (.call q)
  have l2 : Later handle s ((s.call q).send n q) := .server l1 (.send hn ha (by show s.queue.length < 1; simp [hl]))
  have hw : ((s.calls ++ [Call.sending q]).set n (.waiting q))[n]? = some (.waiting q) := getElem?_set_same hn
  have l3 : Later handle s (((s.call q).send n q).cancel n) := .client l2 (.cancel ⟨q, .inr (.inl hw)⟩)
  have hc : (((s.calls ++ [Call.sending q]).set n (.waiting q)).set n .cancelled)[n]? = some .cancelled := getElem?_set_same hw
  have hquiet : Quiet (((s.call q).send n q).cancel n) := by
    intro i c hx
    rcases getElem?_set_cases hx with ⟨_, rfl⟩ | ⟨hi, hx⟩
    · trivial
    rcases getElem?_set_cases hx with ⟨hj, _⟩ | ⟨_, hx⟩
    · exact (hi hj).elim
    rcases getElem?_concat_cases hx with ⟨hj, _⟩ | hx
    · exact (hi hj).elim
    · exact hq i c hx
  refine ⟨_, l3, hquiet, ha, ?_, fun place => ?_⟩
  · show (s.history ++ [Event.invoke n q]) ++ [.cancel n] = _
    simp [n]
  · have hr1 := later_reachable h l3
    cases hs : (((s.call q).send n q).cancel n).drop handle place with
    | panic => rfl
    | ok s' =>
      have := ((C107_shutdown_partial hr1 hquiet place).1 ⟨s', hs⟩).2.2 n q
      exact (this ⟨.inr (by show (q, n) ∈ s.queue ++ [(q, n)]; simp), hc⟩).elim

end TCP.ShutdownProps

/-! ## The hypotheses can be met -/

namespace TCP.ShutdownExample

open TCP TCP.Service TCP.ServiceSpec TCP.ServiceExample TCP.ShutdownProps

def quiet (s : St) : Bool := s.calls.all fun c => match c with | .returned _ | .refused | .cancelled => true | _ => false

theorem quiet_sound {s : St} (h : quiet s = true) : Quiet s := by
  intro i c hc
  have := List.all_eq_true.1 h c (List.mem_of_getElem? hc)
  cases c <;> first | trivial | cases this

/-- After the three calls of `script`, all answered, the service can be shut down on a thread. -/
example : ∃ s s' : St, Reachable serving DrvExample.d0 s ∧ Quiet s ∧ s.calls.length = 3 ∧ s.drop serving .thread = .ok s' := by
  obtain ⟨s, h, hp⟩ := acts_check (as := script) (p := fun s => quiet s && s.calls.length == 3 &&
    match s.drop serving .thread with | .ok _ => true | .panic => false) (by decide +kernel)
  simp only [Bool.and_eq_true, beq_iff_eq] at hp
  obtain ⟨⟨h1, h2⟩, h3⟩ := hp
  split at h3
  · rename_i s' hs; exact ⟨s, s', h, quiet_sound h1, h2, hs⟩
  · cases h3

/-- `C107_cancel_fails` is not vacuous: the replica was started and has answered. -/
example : ∃ s : St, Reachable serving DrvExample.d0 s ∧ s.alive = true ∧ s.queue = [] ∧ Quiet s ∧ s.calls.length = 1 := by
  obtain ⟨s, h, hp⟩ := acts_check (as := [.call DrvExample.startLeader, .send 0, .receive, .work, .ret 0]) (p := fun s =>
    s.alive && s.queue.isEmpty && quiet s && s.calls.length == 1) (by decide +kernel)
  simp only [Bool.and_eq_true, beq_iff_eq, List.isEmpty_iff] at hp
  exact ⟨s, h, hp.1.1.1, hp.1.1.2, quiet_sound hp.1.2, hp.2⟩

end TCP.ShutdownExample
