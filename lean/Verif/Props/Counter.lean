import Verif.Proofs.Counter

/-!
# C32–C35: the atomic counter
-/

namespace TCP.Counter
open TCP ActorSpec Spec

/-! ## A concrete run -/

def exCtx : ActorCtx := ⟨1, 0, [0], true⟩
def exReq (n : String) (e x : Int) : Request := ⟨n, some ⟨e, x⟩, [], [7]⟩
def exEv (n : String) (e x : Int) : ActorEvent := ⟨9, exMsgs.encReq (exReq n e x)⟩

theorem dec_exEv (n : String) (e x : Int) : exMsgs.decReq (exEv n e x).contents = some (exReq n e x) :=
  exMsgs_lawful.req _

/-! ## C32 -/

/-- Applying any sequence of events (interleaved with commands and saves) answers and changes state exactly
as a sequential map from names to values does. -/
theorem C32_linearizable {ms : Msgs} {s s' : State} {cs : List Call} (h : Steps (actor ms) s cs s') (hn : NoLoad cs) :
    Follows ms (view s) cs (view s') := follows_steps h hn

/-- A freshly started actor reads the values of its configuration, and 0 for every other name. -/
theorem C32_initial {ms : Msgs} {s0 s : State} {ctx : ActorCtx} (h : Started (actor ms) s0 ctx s) :
    ∃ vs, ms.decConfig ctx.config = some vs ∧
      ((vs.map Prod.fst).Nodup → ∀ n, (∀ v, (n, v) ∈ vs → view s n = (v, [])) ∧ ((∀ v, (n, v) ∉ vs) → view s n = (0, []))) := by
  have hs := started_state h
  unfold Started at h
  simp only [actor, onInit] at h
  cases hd : ms.decConfig ctx.config with
  | none => rw [hd] at h; simp at h
  | some vs =>
    refine ⟨vs, rfl, fun hn n => ?_⟩
    have hw : AMap.WF vs := hn
    have hn' : ((vs.map fun e => (e.1, (⟨e.2, []⟩ : Value))).map Prod.fst).Nodup := by
      simpa [List.map_map, Function.comp_def] using hn
    have hg : s.values.get n = (AMap.get vs n).map (fun v => (⟨v, []⟩ : Value)) := by
      rw [hs]
      simp only [initState, hd]
      rw [get_insertAll _ hn']
      have := AMap.get_mapVals vs (fun _ v => (⟨v, []⟩ : Value)) n
      unfold AMap.mapVals at this
      rw [this]
      cases AMap.get vs n <;> rfl
    constructor
    · intro v hv
      rw [view_eq, hg, AMap.get_of_mem hw hv]
      rfl
    · intro hv
      have : AMap.get vs n = none := by
        cases hx : AMap.get vs n with
        | none => rfl
        | some v => exact absurd (AMap.mem_of_get hx) (hv v)
      rw [view_eq, hg, this]
      rfl

/-- A run: a successful swap from 0 to 5, one that fails, one on another name. -/
example : ∃ s' cs, Steps (actor exMsgs) State.new cs s' ∧ NoLoad cs ∧ cs.length = 3 ∧
    view s' "a" = (5, [7]) ∧ view s' "b" = (1, [7]) ∧ view s' "c" = (0, []) := by
  have h1 : Step (actor exMsgs) State.new (.apply exCtx ⟨1, true⟩ (exEv "a" 0 5) _) _ :=
    .apply (by simp only [actor, onApplyEvent, dec_exEv]; rfl)
  have h2 := Step.apply (a := actor exMsgs) (s := (compareAndSwap State.new "a" ⟨0, 5⟩ [7]).1) (ctx := exCtx)
    (ec := ⟨2, true⟩) (ev := exEv "a" 3 6) (by simp only [actor, onApplyEvent, dec_exEv]; rfl)
  have h3 := Step.apply (a := actor exMsgs)
    (s := (compareAndSwap (compareAndSwap State.new "a" ⟨0, 5⟩ [7]).1 "a" ⟨3, 6⟩ [7]).1) (ctx := exCtx)
    (ec := ⟨3, false⟩) (ev := exEv "b" 0 1) (by simp only [actor, onApplyEvent, dec_exEv]; rfl)
  refine ⟨_, _, .step h1 (.step h2 (.step h3 .refl)), ?_, rfl, by decide, by decide, by decide⟩
  simp [NoLoad]

/-! ## C33 -/

/-- C33 fails: on a replica that applied one successful swap of `a` from 0 to 5, the swap "expect 3, set 4"
fails and its answer carries `old_value = 5` and `new_value = 0`. -/
theorem C33_failed_swap_fails {ms : Msgs} (hl : Lawful ms) {ctx : ActorCtx} (hc : ms.decConfig ctx.config = some []) :
    ∃ ev s s', Replica (actor ms) ctx.config [ev] s ∧ view s "a" = (5, []) ∧
      (actor ms).onApplyEvent ctx s ⟨2, true⟩ ⟨8, ms.encReq ⟨"a", some ⟨3, 4⟩, [], []⟩⟩
        = .ok (s', .ok ⟨[⟨8, ms.encOut ⟨.invalidArgument, some ⟨5, 0⟩⟩, []⟩]⟩) := by
  have r0 : Replica (actor ms) ctx.config [] State.new := .start rfl rfl (by
    simp [Started, actor, onInit, hc, insertAll, State.new])
  have r1 := r0.apply (.apply (ctx := ctx) (ec := ⟨1, true⟩) (ev := ⟨7, ms.encReq ⟨"a", some ⟨0, 5⟩, [], []⟩⟩)
    (s' := ⟨[("a", ⟨5, []⟩)]⟩) (by simp only [actor, onApplyEvent, hl.req]; rfl))
  refine ⟨_, _, ⟨[("a", ⟨5, []⟩)]⟩, r1, rfl, ?_⟩
  simp only [actor, onApplyEvent, hl.req]
  rfl

/-- What holds: `old_value` is the value found; `new_value` of a successful swap is the value stored, and of a
failed swap it is always 0, hence equal to `old_value` only when the counter holds 0.  Missing: the documented
`new_value = old_value` after a failure. -/
theorem C33_response_values_partial (s : State) (n : String) (r : Cas) (p : Bytes) :
    ∃ o, (compareAndSwap s n r p).2.op = some o ∧ o.oldValue = (view s n).1 ∧
      ((compareAndSwap s n r p).2.status = .success → o.newValue = (view (compareAndSwap s n r p).1 n).1) ∧
      ((compareAndSwap s n r p).2.status ≠ .success → o.newValue = 0 ∧ (view (compareAndSwap s n r p).1 n).1 = o.oldValue) := by
  rw [response_compareAndSwap, view_compareAndSwap]
  by_cases h : (view s n).1 = r.expected
  · exact ⟨⟨(view s n).1, r.new⟩, by simp [h], rfl, fun _ => by simp [h, Counters.update], fun hh => by simp [h] at hh⟩
  · exact ⟨⟨(view s n).1, 0⟩, by simp [h], rfl, fun hh => by simp [h] at hh, fun _ => by simp [h]⟩

/-! ## C34 -/

/-- C34 fails for arbitrary loaders: loading merges, so a counter the loader had and the saver did not
survives.  Saver has no counters, loader has `a = 5`: afterwards the loader reads 5, the saver 0. -/
theorem C34_merge_fails {ms : Msgs} (hl : Lawful ms) (ctx : ActorCtx) :
    ∃ (saver loader loaded : State) (b : Bytes),
      (actor ms).onSaveSnapshot ctx saver = .ok (saver, .ok b) ∧
      (actor ms).onLoadSnapshot ctx loader b = .ok (loaded, .ok ()) ∧
      view saver "a" = (0, []) ∧ view loaded "a" = (5, []) := by
  refine ⟨⟨[]⟩, ⟨[("a", ⟨5, []⟩)]⟩, ⟨[("a", ⟨5, []⟩)]⟩, ms.encSnap [], rfl, ?_, rfl, rfl⟩
  simp [actor, onLoadSnapshot, hl.snap [] (by simp), insertAll]

/-- What holds: among replicas of one cluster — same configuration, same log, a snapshot only loaded from a
replica that is not behind — the state reads the same on every replica that reflects the same events,
whether it applied them or loaded them, and all later answers agree.  Missing: loaders with other contents. -/
theorem C34_replicas_partial {ms : Msgs} (hl : Lawful ms) {cfg : Bytes} {evs : List ActorEvent} {s t : State}
    (h : Replica (actor ms) cfg evs s) (g : Replica (actor ms) cfg evs t) :
    view s = view t ∧ SameAnswers (actor ms) s t := by
  have hv : view s = view t := by
    funext n
    rw [view_eq, view_eq, (replica_state hl h).2 n, (replica_state hl g).2 n]
  exact ⟨hv, sameAnswers_of_view hv⟩

/-- Loading a snapshot into an actor without counters reproduces the saver. -/
theorem C34_fresh_partial {ms : Msgs} (hl : Lawful ms) {saver loaded : State} (hw : AMap.WF saver.values) {ctx ctx' : ActorCtx}
    {b : Bytes} (h : (actor ms).onSaveSnapshot ctx saver = .ok (saver, .ok b))
    (g : (actor ms).onLoadSnapshot ctx' State.new b = .ok (loaded, .ok ())) :
    view loaded = view saver ∧ SameAnswers (actor ms) saver loaded := by
  simp [actor, onSaveSnapshot] at h
  subst h
  simp only [actor, onLoadSnapshot, hl.snap _ hw] at g
  simp at g
  have hv : view loaded = view saver := by
    funext n
    rw [view_eq, view_eq, ← g]
    simp only [get_insertAll _ hw, State.new, AMap.get_nil]
    cases AMap.get saver.values n <;> rfl
  exact ⟨hv, sameAnswers_of_view hv.symm⟩

/-- A replica that applied an event, and one that loaded it. -/
example : ∃ s t, Replica (actor exMsgs) [0] [exEv "a" 0 5] s ∧ Replica (actor exMsgs) [0] [exEv "a" 0 5] t ∧
    view t "a" = (5, [7]) := by
  have hs : Started (actor exMsgs) State.new exCtx State.new := rfl
  have r0 : Replica (actor exMsgs) [0] [] State.new := .start rfl rfl hs
  have r1 : Replica (actor exMsgs) [0] [exEv "a" 0 5] (compareAndSwap State.new "a" ⟨0, 5⟩ [7]).1 :=
    r0.apply (.apply (ctx := exCtx) (ec := ⟨1, true⟩) (by simp only [actor, onApplyEvent, dec_exEv]; rfl))
  have r2 : Replica (actor exMsgs) [0] [exEv "a" 0 5] ⟨[("a", ⟨5, [7]⟩)]⟩ := by
    refine r0.load (more := [exEv "a" 0 5]) (ctx := exCtx) (ctx1 := exCtx) r1 (.save rfl) (.load ?_)
    simp only [actor, onLoadSnapshot]
    rw [exMsgs_lawful.snap _ (by decide)]
    rfl
  exact ⟨_, _, r1, r2, by decide⟩

/-! ## C35 -/

/-- No command (and no tick) changes the counters or fails; a tick does nothing. -/
theorem C35_no_direct_change {ms : Msgs} {ctx : ActorCtx} {s : State} {c : Option ActorCommand} :
    ∃ out, (actor ms).onProcessCommand ctx s c = .ok (s, .ok out) ∧ (c = none → out = ⟨[], none⟩) := by
  show ∃ out, onProcessCommand ms ctx s c = _ ∧ _
  unfold onProcessCommand
  cases c with
  | none => exact ⟨_, rfl, fun _ => rfl⟩
  | some c =>
    simp only
    cases ms.decIn c.header with
    | none => exact ⟨_, rfl, by simp⟩
    | some o =>
      cases o with
      | none => exact ⟨_, rfl, by simp⟩
      | some r =>
        simp only
        by_cases hst : (if (!ctx.leader) = true then Status.rejected
            else if r.op.isNone = true then Status.invalidOperation else Status.success) = Status.success
        · rw [if_pos hst]; exact ⟨_, rfl, by simp⟩
        · rw [if_neg hst]; exact ⟨_, rfl, by simp⟩

/-- What each command gets: an undecodable or empty one an invalid-operation answer; on a replica that is not
leader a rejection; a request without operation an invalid-operation answer; every other request exactly one
event with its correlation id and operation, and no answer yet. -/
theorem C35_decisions {ms : Msgs} {ctx : ActorCtx} {s : State} (c : ActorCommand) {out : CommandOutcome}
    (h : (actor ms).onProcessCommand ctx s (some c) = .ok (s, .ok out)) :
    (ms.decIn c.header = none ∨ ms.decIn c.header = some none →
      out = ⟨[⟨c.correlationId, ms.encOut ⟨.invalidOperation, none⟩, []⟩], none⟩) ∧
    (∀ r, ms.decIn c.header = some (some r) →
      (ctx.leader = false → out = ⟨[⟨c.correlationId, ms.encOut ⟨.rejected, none⟩, []⟩], none⟩) ∧
      (ctx.leader = true → r.op = none → out = ⟨[⟨c.correlationId, ms.encOut ⟨.invalidOperation, none⟩, []⟩], none⟩) ∧
      (ctx.leader = true → r.op ≠ none →
        out = ⟨[], some ⟨c.correlationId, ms.encReq ⟨r.name, r.op, [], r.payload⟩⟩⟩)) := by
  have h : onProcessCommand ms ctx s (some c) = .ok (s, .ok out) := h
  unfold onProcessCommand at h
  simp only at h
  refine ⟨?_, ?_⟩
  · rintro (hd | hd) <;> (rw [hd] at h; simp at h; exact h.symm)
  · intro r hd
    rw [hd] at h
    simp only at h
    refine ⟨fun hl => ?_, fun hl ho => ?_, fun hl ho => ?_⟩
    · simp [hl] at h; exact h.symm
    · simp [hl, ho] at h; exact h.symm
    · have : r.op.isNone = false := by cases hr : r.op <;> simp_all
      simp [hl, this] at h; exact h.symm

/-- An event that came out of a command can always be applied: it decodes to the operation that was asked
for, so neither the error nor the panic of `on_apply_event` can occur. -/
theorem C35_events_apply {ms : Msgs} (hl : Lawful ms) {ctx ctx' : ActorCtx} {s s' t : State} {c : ActorCommand} {out : CommandOutcome}
    {ev : ActorEvent} (h : (actor ms).onProcessCommand ctx s (some c) = .ok (s', .ok out)) (he : out.event = some ev)
    (ec : ActorEventCtx) :
    ev.correlationId = c.correlationId ∧ out.commands = [] ∧
    ∃ r op, ms.decIn c.header = some (some r) ∧ r.op = some op ∧ ms.decReq ev.contents = some ⟨r.name, some op, [], r.payload⟩ ∧
      ∃ t' o, (actor ms).onApplyEvent ctx' t ec ev = .ok (t', .ok o) := by
  have hs : s' = s := command_state (ms := ms) (ctx := ctx) (c := some c) (res := .ok out) h
  subst hs
  have hc := C35_decisions c h
  have h : onProcessCommand ms ctx s' (some c) = .ok (s', .ok out) := h
  cases hd : ms.decIn c.header with
  | none => have := hc.1 (Or.inl hd); rw [this] at he; simp at he
  | some o =>
    cases o with
    | none => have := hc.1 (Or.inr hd); rw [this] at he; simp at he
    | some r =>
      obtain ⟨h1, h2, h3⟩ := hc.2 r hd
      cases hlead : ctx.leader with
      | false => rw [h1 hlead] at he; simp at he
      | true =>
        cases ho : r.op with
        | none => rw [h2 hlead ho] at he; simp at he
        | some op =>
          have hout := h3 hlead (by simp [ho])
          rw [hout] at he ⊢
          simp at he
          subst he
          refine ⟨rfl, rfl, r, op, rfl, ho, ?_, ?_⟩
          · simp [hl.req, ho]
          · refine ⟨(compareAndSwap t r.name op r.payload).1,
              ⟨if ec.owned then [.withHeader c.correlationId (ms.encOut (compareAndSwap t r.name op r.payload).2)] else []⟩, ?_⟩
            simp only [actor, onApplyEvent, hl.req, ho, Run.unwrap_some, Run.bind_ok]

/-- Concrete commands: a valid one on the leader and on another replica. -/
example : (∃ out ev, (actor exMsgs).onProcessCommand exCtx State.new (some ⟨3, 1 :: exMsgs.encReq (exReq "a" 0 5), []⟩)
      = .ok (State.new, .ok out) ∧ out.event = some ev ∧ ev.correlationId = 3) ∧
    (actor exMsgs).onProcessCommand { exCtx with leader := false } State.new (some ⟨3, [0], []⟩)
      = .ok (State.new, .ok ⟨[⟨3, exMsgs.encOut ⟨.invalidOperation, none⟩, []⟩], none⟩) := by
  refine ⟨⟨_, _, rfl, rfl, rfl⟩, rfl⟩

end TCP.Counter
