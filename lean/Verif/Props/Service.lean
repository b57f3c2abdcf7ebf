import Verif.Proofs.Service
import Verif.Props.Replica

/-! # C72, C73, C74: concurrent calls of the gRPC service

All schedules: calls arrive and are cancelled at any time, and the steps of the service happen in any order (`Reachable`). -/

namespace TCP.ServiceProps

open TCP TCP.Service TCP.ServiceSpec

variable {δ Q A : Type} {handle : Q → δ → Run (δ × A)} {d0 : δ}

/-- C72: the replica is in the state that results from handling, one after the other, the requests that were handled. -/
theorem C72_serial {s : State δ Q A} (h : Reachable handle d0 s) : Sequential handle d0 (s.history.filterMap handled?) s.driver :=
  (reachable_inv h).seq

/-- C72: no request is handled twice. -/
theorem C72_once {s : State δ Q A} (h : Reachable handle d0 s) : ((s.history.filterMap handled?).map (·.1)).Nodup :=
  handled_once (reachable_inv h).hist

/-- C72: a call that returns an answer was handled between its invocation and its return, and the answer is the one to its request. -/
theorem C72_within {s : State δ Q A} (h : Reachable handle d0 s) {i : Nat} {a : A} {h1 h2 : List (Event Q A)}
    (he : s.history = h1 ++ .return i a :: h2) :
    ∃ q x y z, h1 = x ++ .invoke i q :: (y ++ .handled i q a :: z) := by
  have hh := (reachable_inv h).hist
  obtain ⟨⟨q, hd⟩, _⟩ := history_at hh he
  obtain ⟨w, z, hw⟩ := List.append_of_mem hd
  have hi := (history_at (h1 := w) (e := .handled i q a) (h2 := z ++ .return i a :: h2) hh (by rw [he, hw]; simp)).1
  obtain ⟨x, y, rfl⟩ := List.append_of_mem hi
  exact ⟨q, x, y, z, by rw [hw]; simp⟩

/-- C72: a request that is handled was made before. -/
theorem C72_made {s : State δ Q A} (h : Reachable handle d0 s) {i : Nat} {q : Q} {a : A} {h1 h2 : List (Event Q A)}
    (he : s.history = h1 ++ .handled i q a :: h2) : .invoke i q ∈ h1 := (history_at (reachable_inv h).hist he).1

/-- C72: calls that do not overlap are handled in the order they are made: if one has returned before the other is made, its request is
handled first. -/
theorem C72_real_time {s : State δ Q A} (h : Reachable handle d0 s) {i j : Nat} {a : A} {q' : Q} {h1 h2 h3 : List (Event Q A)}
    (he : s.history = h1 ++ .return i a :: (h2 ++ .invoke j q' :: h3)) {q'' : Q} {b : A} (hj : .handled j q'' b ∈ s.history) :
    ∃ q x y z, s.history.filterMap handled? = x ++ (i, q, a) :: (y ++ (j, q'', b) :: z) := by
  have hh := (reachable_inv h).hist
  obtain ⟨q, x, y, z, rfl⟩ := C72_within h he
  obtain ⟨u, v, huv⟩ := List.append_of_mem hj
  -- the second request is made only once
  have hfresh := history_at (h1 := (x ++ .invoke i q :: (y ++ .handled i q a :: z)) ++ .return i a :: h2) (e := .invoke j q') (h2 := h3) hh (by rw [he]; simp)
  have hmade := (history_at hh huv).1
  have hj3 : .handled j q'' b ∈ h3 := by
    have hm := hj
    rw [he] at hm
    have hm' : .handled j q'' b ∈ ((x ++ .invoke i q :: (y ++ .handled i q a :: z)) ++ .return i a :: h2) ++ .invoke j q' :: h3 := by simpa using hm
    rcases List.mem_append.1 hm' with hm | hm
    · obtain ⟨u', v', hu⟩ := List.append_of_mem hm
      have := (history_at (h1 := u') (e := .handled j q'' b) (h2 := v' ++ .invoke j q' :: h3) hh (by
        rw [he]
        have : (x ++ Event.invoke i q :: (y ++ .handled i q a :: z)) ++ .return i a :: (h2 ++ .invoke j q' :: h3)
          = ((x ++ Event.invoke i q :: (y ++ .handled i q a :: z)) ++ .return i a :: h2) ++ .invoke j q' :: h3 := by simp
        rw [this, hu]; simp)).1
      exact absurd (by rw [hu]; exact List.mem_append_left _ this) (hfresh q'')
    · rcases List.mem_cons.1 hm with hm | hm
      · cases hm
      · exact hm
  obtain ⟨u', v', rfl⟩ := List.append_of_mem hj3
  refine ⟨q, (x ++ .invoke i q :: y).filterMap handled?, (z ++ .return i a :: (h2 ++ .invoke j q' :: u')).filterMap handled?,
    v'.filterMap handled?, ?_⟩
  rw [he]
  simp [List.filterMap_append, List.filterMap_cons, handled?]

/-- C72: a call that returns an error had no effect on the replica, and never will. -/
theorem C72_refused {s : State δ Q A} (h : Reachable handle d0 s) {i : Nat} (hr : .refuse i ∈ s.history) {q : Q} {a : A} :
    .handled i q a ∉ s.history := by
  intro hd
  have hi := reachable_inv h
  exact hi.unheard (hi.refused hr) _ _ hd

/-- C73 is false in the code: one client that goes away while its request is handled stops the replica.  In every state of a service
that runs and is idle, and for every request the replica can handle, there is such a schedule, after which no call ever returns an answer,
whatever happens. -/
theorem C73_cancel_fails {s : State δ Q A} (h : Reachable handle d0 s) (ha : s.alive = true) (hb : s.busy = none) (hq : s.queue = [])
    {q : Q} {d' : δ} {a : A} (hh : handle q s.driver = .ok (d', a)) :
    ∃ s1, Later handle s s1 ∧ s1.history = s.history ++ [.invoke s.calls.length q, .cancel s.calls.length, .handled s.calls.length q a] ∧
      s1.alive = false ∧ ∀ s2, Later handle s1 s2 → s2.alive = false ∧ ∀ i b, s.calls.length ≤ i → .return i b ∉ s2.history := by
  let n := s.calls.length
  have hn : (s.calls ++ [Call.sending q])[n]? = some (.sending q) := by simp [n]
  have l1 : Later handle s (s.call q) := .client .nil (.call q)
  have l2 : Later handle s ((s.call q).send n q) := .server l1 (.send hn ha (by show s.queue.length < 1; simp [hq]))
  have l3 : Later handle s (((s.call q).send n q).receive q n []) := .server l2 (.receive ha hb (by simp [State.send, State.call, hq]))
  have hw : ((s.calls ++ [Call.sending q]).set n (.waiting q))[n]? = some (.waiting q) := getElem?_set_same hn
  have l4 : Later handle s ((((s.call q).send n q).receive q n []).cancel n) := .client l3 (.cancel ⟨q, .inr (.inl hw)⟩)
  have hc : (((s.calls ++ [Call.sending q]).set n (.waiting q)).set n .cancelled)[n]? = some .cancelled := getElem?_set_same hw
  have l5 := Later.server l4 (.work (q := q) (i := n) rfl)
  have hs : ((((s.call q).send n q).receive q n []).cancel n).work handle q n =
      { ((((s.call q).send n q).receive q n []).cancel n).die with
        driver := d', history := ((((s.call q).send n q).receive q n []).cancel n).history ++ [.handled n q a] } := by
    show (match handle q s.driver with | .panic => _ | .ok (d', a) => _) = _
    rw [hh]
    show (match (((s.calls ++ [Call.sending q]).set n (.waiting q)).set n .cancelled)[n]? with | some (.waiting _) => _ | _ => _) = _
    rw [hc]
  rw [hs] at l5
  refine ⟨_, l5, ?_, rfl, ?_⟩
  · show ((s.history ++ [Event.invoke n q]) ++ [.cancel n]) ++ [.handled n q a] = _
    simp [n]
  · intro s2 h2
    have hi := reachable_inv h
    have hbound : ∀ i, n ≤ i → s.calls[i]? = none := fun i hi => List.getElem?_eq_none hi
    have hg : Gone n { ((((s.call q).send n q).receive q n []).cancel n).die with
        driver := d', history := ((((s.call q).send n q).receive q n []).cancel n).history ++ [.handled n q a] } := by
      refine ⟨rfl, rfl, ?_, ?_, ?_⟩
      · show n ≤ (((s.calls ++ [Call.sending q]).set n (.waiting q)).set n .cancelled).length
        simp [n]
      · intro i b hni hm
        have hm' : Event.return i b ∈ ((s.history ++ [Event.invoke n q]) ++ [.cancel n]) ++ [.handled n q a] := hm
        simp only [List.mem_append, List.mem_singleton, reduceCtorEq, or_false] at hm'
        have := hi.returned hm'
        rw [hbound i hni] at this
        cases this
      · intro i b hni hm
        have hm' : (((s.calls ++ [Call.sending q]).set n (.waiting q)).set n .cancelled)[i]? = some (.answered b) := hm
        rcases getElem?_set_cases hm' with ⟨_, hx⟩ | ⟨_, hm'⟩
        · cases hx
        rcases getElem?_set_cases hm' with ⟨_, hx⟩ | ⟨_, hm'⟩
        · cases hx
        rcases getElem?_concat_cases hm' with ⟨_, hx⟩ | hm'
        · cases hx
        · rw [hbound i hni] at hm'; cases hm'
    have := hg.later h2
    exact ⟨this.dead, this.silent⟩

/-- C73, what holds: the replica stops only when it handles a request that its driver cannot handle or whose client went away. -/
theorem C73_stops_partial {s s' : State δ Q A} (h : Reachable handle d0 s) (ha : s.alive = true) (hs : Server handle s s') (hd : s'.alive = false) :
    ∃ q i, s.busy = some (q, i) ∧ (handle q s.driver = .panic ∨ .cancel i ∈ s.history) := by
  have hi := reachable_inv h
  have hc : ∀ {s : State δ Q A}, Reachable handle d0 s → ∀ {i}, s.calls[i]? = some .cancelled → .cancel i ∈ s.history := by
    intro s h
    induction h with
    | new => intro i h; simp [State.new] at h
    | client h hs ih =>
      intro i hx
      cases hs with
      | call q =>
        rcases getElem?_concat_cases hx with ⟨_, h⟩ | h
        · cases h
        · exact List.mem_append_left _ (ih h)
      | cancel hy =>
        rcases getElem?_set_cases hx with ⟨rfl, h⟩ | ⟨_, h⟩
        · exact List.mem_append_right _ (List.mem_singleton_self _)
        · exact List.mem_append_left _ (ih h)
    | server h hs ih =>
      intro i hx
      cases hs with
      | send =>
        rcases getElem?_set_cases hx with ⟨rfl, h⟩ | ⟨_, h⟩
        · cases h
        · exact ih h
      | receive => exact ih hx
      | work hb =>
        unfold State.work at hx ⊢
        split at hx
        · exact ih hx
        · split at hx
          · rcases getElem?_set_cases hx with ⟨rfl, h⟩ | ⟨_, h⟩
            · cases h
            · exact List.mem_append_left _ (ih h)
          · exact List.mem_append_left _ (ih hx)
      | _ =>
        rcases getElem?_set_cases hx with ⟨rfl, h⟩ | ⟨_, h⟩
        · cases h
        · exact List.mem_append_left _ (ih h)
  cases hs with
  | @work q i hb =>
    refine ⟨q, i, hb, ?_⟩
    unfold State.work at hd
    split at hd
    · rename_i hp; exact .inl hp
    · split at hd
      · exact absurd (ha.symm.trans hd) (by simp)
      · rename_i hw
        obtain ⟨_, _, h3⟩ := hi.queued (q := q) (i := i) (by simp [pending, hb])
        exact .inr (hc h (h3.resolve_left fun h => hw _ h))
  | _ => exact absurd (ha.symm.trans hd) (by simp)

/-- C74: once no new calls arrive, the service makes only finitely many steps, however they are scheduled; when it can make no more, every
call has an outcome, and if the replica still runs, every call that was not cancelled has its answer. -/
theorem C74_answers {s : State δ Q A} (h : Reachable handle d0 s) :
    (∃ bound, ∀ n s', Works handle n s s' → n ≤ bound) ∧
    ∀ n s', Works handle n s s' → (∀ s'', ¬ Server handle s' s'') → ∀ (i : Nat) (c : Call Q A), s'.calls[i]? = some c →
      Done c ∧ (s'.alive = true → (∃ a, c = .returned a) ∨ c = .cancelled) := by
  refine ⟨⟨work s, fun n s' hw => by have := works_bound hw; omega⟩, ?_⟩
  intro n s' hw hs i c hc
  have hr := works_reachable h hw
  have hd := stuck_done hr hs hc
  refine ⟨hd, fun ha => ?_⟩
  cases c with
  | returned a => exact .inl ⟨a, rfl⟩
  | cancelled => exact .inr rfl
  | refused => exact absurd hc (alive_not_refused hr ha)
  | _ => exact hd.elim

end TCP.ServiceProps

/-! ## The hypotheses can be met

The example replica of `Props/DriverExample` behind the service. -/

namespace TCP.ServiceExample

open TCP TCP.Service TCP.ServiceSpec TCP.ServiceProps

/-- A schedule. -/
inductive Act where
  | call (q : Nat × Option (Option (Drv.InMsg Nat)))
  | cancel (i : Nat)
  | send (i : Nat)
  | receive
  | work
  | ret (i : Nat)
  | refuse (i : Nat)

abbrev D := Drv.Driver Bytes DrvExample.Raft (List (Comm.OutMsg Nat)) Nat
abbrev St := State D (Nat × Option (Option (Drv.InMsg Nat))) (List (Drv.OutMsg Nat))

/-- The replica handles a request. -/
def serving (q : Nat × Option (Option (Drv.InMsg Nat))) (d : D) : Run (D × List (Drv.OutMsg Nat)) := Replica.serve DrvExample.sys q.1 q.2 d

def act (s : St) : Act → Option St
  | .call q => some (s.call q)
  | .cancel i => match s.calls[i]? with
    | some (.waiting _) => some (s.cancel i)
    | _ => none
  | .send i => match s.calls[i]? with
    | some (.sending q) => if s.alive = true ∧ s.queue.length < 1 then some (s.send i q) else none
    | _ => none
  | .receive => match s.queue with
    | (q, i) :: rest => if s.alive = true ∧ s.busy = none then some (s.receive q i rest) else none
    | [] => none
  | .work => match s.busy with
    | some (q, i) => some (s.work serving q i)
    | none => none
  | .ret i => match s.calls[i]? with
    | some (.answered a) => some (s.return i a)
    | _ => none
  | .refuse i => match s.calls[i]? with
    | some (.sending _) => if s.alive = false then some (s.refuse i) else none
    | _ => none

theorem act_sound {s s' : St} {a : Act} (h : act s a = some s') (hr : Reachable serving DrvExample.d0 s) : Reachable serving DrvExample.d0 s' := by
  cases a with
  | call q => cases h; exact hr.client (.call q)
  | cancel i =>
    simp only [act] at h
    split at h
    · rename_i q hc; cases h; exact hr.client (.cancel ⟨q, .inr (.inl hc)⟩)
    · cases h
  | send i =>
    simp only [act] at h
    split at h
    · rename_i q hc
      split at h
      · rename_i hg; cases h; exact hr.server (.send hc hg.1 hg.2)
      · cases h
    · cases h
  | receive =>
    simp only [act] at h
    split at h
    · rename_i q i rest hq
      split at h
      · rename_i hg; cases h; exact hr.server (.receive hg.1 hg.2 hq)
      · cases h
    · cases h
  | work =>
    simp only [act] at h
    split at h
    · rename_i q i hb; cases h; exact hr.server (.work hb)
    · cases h
  | ret i =>
    simp only [act] at h
    split at h
    · rename_i a hc; cases h; exact hr.server (.return hc)
    · cases h
  | refuse i =>
    simp only [act] at h
    split at h
    · rename_i q hc
      split at h
      · rename_i hg; cases h; exact hr.server (.unsent hc hg)
      · cases h
    · cases h

def acts : St → List Act → Option St
  | s, [] => some s
  | s, a :: as => (act s a).bind fun s' => acts s' as

theorem acts_sound {as : List Act} {s s' : St} (h : acts s as = some s') (hr : Reachable serving DrvExample.d0 s) :
    Reachable serving DrvExample.d0 s' := by
  induction as generalizing s with
  | nil => cases h; exact hr
  | cons a as ih =>
    obtain ⟨s1, h1, h2⟩ := Option.bind_eq_some_iff.1 h
    exact ih h2 (act_sound h1 hr)

theorem acts_check {as : List Act} {p : St → Bool} (h : (acts (.new DrvExample.d0) as).any p = true) :
    ∃ s, Reachable serving DrvExample.d0 s ∧ p s = true := by
  cases ha : acts (.new DrvExample.d0) as with
  | none => rw [ha] at h; cases h
  | some s => rw [ha] at h; exact ⟨s, acts_sound ha .new, h⟩

/-- The second of two overlapping calls, a command, waits in the channel while the first, the start of the replica, is handled; then each
gets its own answer; a third call is made after the first has returned. -/
def script : List Act :=
  [.call DrvExample.startLeader, .call (2, DrvExample.app 7 [10]), .send 0, .receive, .send 1, .work, .receive, .ret 0, .call (3, none), .work, .send 2,
   .ret 1, .receive, .work, .ret 2]


def reply : List (Drv.OutMsg Nat) := [.appMessage ⟨7, [], [10]⟩]

/-- C72 is not vacuous. -/
example : ∃ s, Reachable serving DrvExample.d0 s ∧ s.history =
    [.invoke 0 DrvExample.startLeader, .invoke 1 (2, DrvExample.app 7 [10]), .handled 0 DrvExample.startLeader [.startReplica 1],
     .return 0 [.startReplica 1], .invoke 2 (3, none), .handled 1 (2, DrvExample.app 7 [10]) reply, .return 1 reply, .handled 2 (3, none) [],
     .return 2 []] := by
  obtain ⟨s, h, hp⟩ := acts_check (as := script) (p := fun s => decide (s.history =
    [.invoke 0 DrvExample.startLeader, .invoke 1 (2, DrvExample.app 7 [10]), .handled 0 DrvExample.startLeader [.startReplica 1],
     .return 0 [.startReplica 1], .invoke 2 (3, none), .handled 1 (2, DrvExample.app 7 [10]) reply, .return 1 reply, .handled 2 (3, none) [],
     .return 2 []])) (by decide +kernel)
  exact ⟨s, h, of_decide_eq_true hp⟩

/-- C73 is not vacuous: the hypotheses of `C73_cancel_fails` hold of a replica that leads and is given a command. -/
example : ∃ s d' a, Reachable serving DrvExample.d0 s ∧ s.alive = true ∧ s.busy = none ∧ s.queue = [] ∧ s.calls.length = 1 ∧
    serving (2, DrvExample.app 7 [10]) s.driver = .ok (d', a) := by
  obtain ⟨s, h, hp⟩ := acts_check (as := [.call DrvExample.startLeader, .send 0, .receive, .work, .ret 0]) (p := fun s =>
    s.alive && s.busy.isNone && s.queue.isEmpty && s.calls.length == 1 &&
      match serving (2, DrvExample.app 7 [10]) s.driver with | .ok _ => true | .panic => false) (by decide +kernel)
  simp only [Bool.and_eq_true, beq_iff_eq, Option.isNone_iff_eq_none, List.isEmpty_iff] at hp
  obtain ⟨⟨⟨⟨h1, h2⟩, h3⟩, h4⟩, h5⟩ := hp
  split at h5
  · rename_i x hx
    exact ⟨s, x.1, x.2, h, h1, h2, h3, h4, hx⟩
  · cases h5

/-- C72 and C73: a call that is made after the first client went away during its call is refused. -/
example : ∃ s, Reachable serving DrvExample.d0 s ∧ s.alive = false ∧ .refuse 1 ∈ s.history ∧ .cancel 0 ∈ s.history := by
  obtain ⟨s, h, hp⟩ := acts_check (as := [.call DrvExample.startLeader, .send 0, .receive, .cancel 0, .work, .call (2, none), .refuse 1])
    (p := fun s => !s.alive && s.history.contains (.refuse 1) && s.history.contains (.cancel 0)) (by decide +kernel)
  simp only [Bool.and_eq_true, Bool.not_eq_true', List.contains_iff_mem] at hp
  exact ⟨s, h, hp.1.1, hp.1.2, hp.2⟩

/-- C74 is not vacuous: two calls in progress, one of them in the channel. -/
example : ∃ s : St, Reachable serving DrvExample.d0 s ∧ s.alive = true ∧ s.calls.length = 2 ∧ s.queue.length = 1 := by
  obtain ⟨s, h, hp⟩ := acts_check (as := script.take 5) (p := fun s => s.alive && s.calls.length == 2 && s.queue.length == 1) (by decide +kernel)
  simp only [Bool.and_eq_true, beq_iff_eq] at hp
  exact ⟨s, h, hp.1.1, hp.1.2, hp.2⟩

end TCP.ServiceExample
