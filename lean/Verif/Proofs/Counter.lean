import Verif.Spec.Counter
import Verif.Lib.ListExtra

/-! # Lemmas about the atomic counter -/

namespace TCP.Counter
open TCP ActorSpec Spec

theorem get_insertAll {ν : Type} (l : List (String × ν)) (hn : (l.map Prod.fst).Nodup) (m : AMap String ν) (n : String) :
    (insertAll m l).get n = (match AMap.get l n with | some v => some v | none => m.get n) := by
  induction l generalizing m with
  | nil => rfl
  | cons e l ih =>
    obtain ⟨k, v⟩ := e
    simp only [List.map_cons, List.nodup_cons] at hn
    simp only [insertAll, AMap.get_cons, ih hn.2]
    by_cases hk : k = n
    · subst hk
      have : AMap.get l k = none := (AMap.get_eq_none_iff l k).2 hn.1
      simp [this]
    · simp [hk, AMap.get_set_ne _ _ hk]

theorem WF_insertAll {ν : Type} (l : List (String × ν)) {m : AMap String ν} (h : AMap.WF m) : AMap.WF (insertAll m l) := by
  induction l generalizing m with
  | nil => exact h
  | cons e l ih => exact ih (h.set _ _)

/-- The effect of compare-and-swap on lookups. -/
theorem get_compareAndSwap (s : State) (name : String) (r : Cas) (p : Bytes) (n : String) :
    (compareAndSwap s name r p).1.values.get n =
      if name = n then
        some (if ((s.values.get name).getD ⟨0, []⟩).value = r.expected then ⟨r.new, p⟩ else (s.values.get name).getD ⟨0, []⟩)
      else s.values.get n := by
  unfold compareAndSwap
  by_cases h : ((s.values.get name).getD ⟨0, []⟩).value = r.expected
  · simp only [h, if_true, AMap.get_set]
  · simp only [h, if_false, AMap.get_set]

theorem view_eq (s : State) (n : String) : view s n = (((s.values.get n).getD ⟨0, []⟩).value, ((s.values.get n).getD ⟨0, []⟩).payload) := by
  unfold view; cases s.values.get n <;> rfl

theorem view_compareAndSwap (s : State) (name : String) (r : Cas) (p : Bytes) :
    view (compareAndSwap s name r p).1 =
      if (view s name).1 = r.expected then Counters.update (view s) name (r.new, p) else view s := by
  funext n
  rw [view_eq, get_compareAndSwap, view_eq s name]
  simp only
  by_cases hn : name = n
  · subst hn
    by_cases h : ((s.values.get name).getD ⟨0, []⟩).value = r.expected
    · simp [h, Counters.update]
    · simp [h, view_eq]
  · have hn' : ¬ n = name := fun e => hn e.symm
    by_cases h : ((s.values.get name).getD ⟨0, []⟩).value = r.expected
    · simp [h, Counters.update, hn, hn', view_eq]
    · simp [h, hn, view_eq]

theorem response_compareAndSwap (s : State) (name : String) (r : Cas) (p : Bytes) :
    (compareAndSwap s name r p).2 =
      if (view s name).1 = r.expected then ⟨.success, some ⟨(view s name).1, r.new⟩⟩
      else ⟨.invalidArgument, some ⟨(view s name).1, 0⟩⟩ := by
  rw [view_eq]
  unfold compareAndSwap
  simp only
  split <;> rfl

theorem command_state {ms : Msgs} {ctx : ActorCtx} {s s' : State} {c : Option ActorCommand} {res}
    (h : onProcessCommand ms ctx s c = .ok (s', res)) : s' = s := by
  unfold onProcessCommand at h
  cases c with
  | none => simp at h; exact h.1.symm
  | some c =>
    simp only at h
    cases hd : ms.decIn c.header with
    | none => rw [hd] at h; simp at h; exact h.1.symm
    | some o =>
      rw [hd] at h
      cases o with
      | none => simp at h; exact h.1.symm
      | some r =>
        simp only at h
        by_cases hst : (if (!ctx.leader) = true then Status.rejected
            else if r.op.isNone = true then Status.invalidOperation else Status.success) = Status.success
        · rw [if_pos hst] at h; injection h with h; exact (Prod.mk.inj h).1.symm
        · rw [if_neg hst] at h; injection h with h; exact (Prod.mk.inj h).1.symm

/-- What applying an event does to the state. -/
def applyEv (ms : Msgs) (s : State) (ev : ActorEvent) : State :=
  match ms.decReq ev.contents with
  | some ⟨n, some c, _, p⟩ => (compareAndSwap s n c p).1
  | _ => s

theorem apply_cases {ms : Msgs} {ctx : ActorCtx} {s s' : State} {ec : ActorEventCtx} {ev : ActorEvent} {res}
    (h : onApplyEvent ms ctx s ec ev = .ok (s', res)) :
    (ms.decReq ev.contents = none ∧ s' = s ∧ res = .error .internal) ∨
    (∃ n c x p, ms.decReq ev.contents = some ⟨n, some c, x, p⟩ ∧ s' = (compareAndSwap s n c p).1 ∧
      res = .ok ⟨if ec.owned then [.withHeader ev.correlationId (ms.encOut (compareAndSwap s n c p).2)] else []⟩) := by
  unfold onApplyEvent at h
  cases hd : ms.decReq ev.contents with
  | none => rw [hd] at h; simp at h; exact Or.inl ⟨rfl, h.1.symm, h.2.symm⟩
  | some r =>
    obtain ⟨n, op, x, p⟩ := r
    rw [hd] at h
    cases op with
    | none => simp at h
    | some c =>
      simp at h
      exact Or.inr ⟨n, c, x, p, rfl, h.1.symm, h.2.symm⟩

theorem apply_state {ms : Msgs} {ctx : ActorCtx} {s s' : State} {ec : ActorEventCtx} {ev : ActorEvent} {res}
    (h : onApplyEvent ms ctx s ec ev = .ok (s', res)) : s' = applyEv ms s ev := by
  rcases apply_cases (ctx := ctx) h with ⟨hd, hs, _⟩ | ⟨n, c, x, p, hd, hs, _⟩
  · simp [applyEv, hd, hs]
  · simp [applyEv, hd, hs]

theorem follows_steps {ms : Msgs} {s s' : State} {cs : List Call} (h : Steps (actor ms) s cs s') (hn : NoLoad cs) :
    Follows ms (view s) cs (view s') := by
  induction h with
  | refl => rfl
  | @step s c s1 cs s' h hs ih =>
    have hn' : NoLoad cs := fun ctx b r hm => hn ctx b r (by simp [hm])
    have ih := ih hn'
    cases h with
    | command h => rw [command_state h] at ih; exact ih
    | save h =>
      simp [actor, onSaveSnapshot] at h
      rw [← h.1] at ih; exact ih
    | @load ctx b _ res h => exact absurd (by simp) (hn ctx b res)
    | @apply ctx ec ev _ res h =>
      rcases apply_cases (ctx := ctx) h with ⟨hd, rfl, rfl⟩ | ⟨n, ⟨e, x⟩, cx, p, hd, rfl, rfl⟩
      · unfold Follows; rw [hd]; exact ⟨rfl, ih⟩
      · unfold Follows; rw [hd]
        rw [view_compareAndSwap] at ih
        refine ⟨?_, ih⟩
        rw [response_compareAndSwap]
        by_cases he : (view s n).1 = e
        · exact ⟨x, by simp [he, ActorCommand.withHeader], fun _ => rfl⟩
        · exact ⟨0, by simp [he, ActorCommand.withHeader], fun h => absurd h he⟩

/-- Answers depend only on how the state reads. -/
theorem step_congr {ms : Msgs} {s s' t : State} {c : Call} (hv : view s = view t) (h : Step (actor ms) s c s')
    (hl : ∀ ctx b r, c ≠ .load ctx b r) (hsv : ∀ ctx r, c ≠ .save ctx r) :
    ∃ t', Step (actor ms) t c t' ∧ view s' = view t' := by
  cases h with
  | load h => exact absurd rfl (hl _ _ _)
  | save h => exact absurd rfl (hsv _ _)
  | @command ctx c _ res h =>
    refine ⟨t, .command (?_ : onProcessCommand ms ctx t c = _), by rw [command_state h, hv]⟩
    have h : onProcessCommand ms ctx s c = .ok (s', res) := h
    unfold onProcessCommand at h ⊢
    cases c with
    | none => simp at h ⊢; exact h.2
    | some c =>
      simp only at h ⊢
      cases hd : ms.decIn c.header with
      | none => rw [hd] at h; simp at h ⊢; exact h.2
      | some o =>
        rw [hd] at h
        cases o with
        | none => simp at h ⊢; exact h.2
        | some r =>
          simp only at h ⊢
          by_cases hst : (if (!ctx.leader) = true then Status.rejected
            else if r.op.isNone = true then Status.invalidOperation else Status.success) = Status.success
          · rw [if_pos hst] at h; rw [if_pos hst]; simp at h ⊢; exact h.2
          · rw [if_neg hst] at h; rw [if_neg hst]; simp at h ⊢; exact h.2
  | @apply ctx ec ev _ res h =>
    rcases apply_cases (ctx := ctx) h with ⟨hd, rfl, rfl⟩ | ⟨n, c, x, p, hd, rfl, rfl⟩
    · exact ⟨t, .apply (by simp [actor, onApplyEvent, hd]), hv⟩
    · refine ⟨(compareAndSwap t n c p).1, .apply ?_, ?_⟩
      · simp only [actor, onApplyEvent, hd, Run.unwrap_some, Run.bind_ok]
        rw [response_compareAndSwap, response_compareAndSwap, hv]
      · rw [view_compareAndSwap, view_compareAndSwap, hv]

theorem sameAnswers_of_view {ms : Msgs} {s t : State} (hv : view s = view t) : SameAnswers (actor ms) s t := by
  intro cs
  induction cs generalizing s t with
  | nil => intro s' _ _ h; exact ⟨t, .refl⟩
  | cons c cs ih =>
    intro s' h1 h2 h
    cases h with
    | step h hs =>
      obtain ⟨t1, g1, g2⟩ := step_congr hv h (fun ctx b r e => h1 ctx b r (by simp [e])) (fun ctx r e => h2 ctx r (by simp [e]))
      obtain ⟨t', g3⟩ := ih g2 s' (fun ctx b r hm => h1 ctx b r (by simp [hm])) (fun ctx r hm => h2 ctx r (by simp [hm])) hs
      exact ⟨t', .step g1 g3⟩

/-! ## Replicas -/

theorem wf_compareAndSwap {s : State} (h : AMap.WF s.values) (n : String) (c : Cas) (p : Bytes) :
    AMap.WF (compareAndSwap s n c p).1.values := by
  unfold compareAndSwap
  simp only
  split <;> exact h.set _ _

theorem wf_applyEv {ms : Msgs} {s : State} (h : AMap.WF s.values) (ev : ActorEvent) : AMap.WF (applyEv ms s ev).values := by
  unfold applyEv
  split
  · exact wf_compareAndSwap h _ _ _
  · exact h

def applyAll (ms : Msgs) (s : State) (evs : List ActorEvent) : State := evs.foldl (applyEv ms) s

theorem wf_applyAll {ms : Msgs} {s : State} (h : AMap.WF s.values) (evs : List ActorEvent) : AMap.WF (applyAll ms s evs).values := by
  induction evs generalizing s with
  | nil => exact h
  | cons e evs ih => exact ih (wf_applyEv h e)

theorem get_applyEv_congr {ms : Msgs} {s t : State} (h : ∀ n, s.values.get n = t.values.get n) (ev : ActorEvent) (n : String) :
    (applyEv ms s ev).values.get n = (applyEv ms t ev).values.get n := by
  unfold applyEv
  split
  · rw [get_compareAndSwap, get_compareAndSwap, h, h]
  · exact h n

/-- Names are never removed. -/
theorem get_applyAll_mono {ms : Msgs} (s : State) (evs : List ActorEvent) (n : String) (h : (s.values.get n).isSome) :
    ((applyAll ms s evs).values.get n).isSome := by
  induction evs generalizing s with
  | nil => exact h
  | cons e evs ih =>
    apply ih
    unfold applyEv
    split
    · rw [get_compareAndSwap]; split <;> simp [h]
    · exact h

/-- The state a configuration starts with. -/
def initState (ms : Msgs) (cfg : Bytes) : State :=
  match ms.decConfig cfg with
  | none => ⟨[]⟩
  | some vs => ⟨insertAll [] (vs.map fun e => (e.1, ⟨e.2, []⟩))⟩

theorem wf_initState (ms : Msgs) (cfg : Bytes) : AMap.WF (initState ms cfg).values := by
  unfold initState
  split
  · exact AMap.WF.nil
  · exact WF_insertAll _ AMap.WF.nil

theorem started_state {ms : Msgs} {ctx : ActorCtx} {s0 s : State} (h : Started (actor ms) s0 ctx s) :
    s = initState ms ctx.config := by
  unfold Started at h
  simp only [actor, onInit] at h
  unfold initState
  split at h
  · simp at h
  · rename_i vs hv
    rw [hv]
    simp at h
    exact h.symm

theorem replica_state {ms : Msgs} (hl : Lawful ms) {cfg : Bytes} {evs : List ActorEvent} {s : State}
    (h : Replica (actor ms) cfg evs s) :
    AMap.WF s.values ∧ ∀ n, s.values.get n = (applyAll ms (initState ms cfg) evs).values.get n := by
  induction h with
  | start h0 hc h =>
    have := started_state h
    rw [hc] at this
    subst this
    exact ⟨wf_initState ms cfg, fun n => rfl⟩
  | @apply evs s ctx ec ev res s' h hs ih =>
    cases hs with
    | apply hs =>
      rw [apply_state (ctx := ctx) hs]
      refine ⟨wf_applyEv ih.1 ev, fun n => ?_⟩
      simp only [applyAll, List.foldl_append, List.foldl_cons, List.foldl_nil]
      exact get_applyEv_congr ih.2 ev n
  | command h hs ih => cases hs with | command hs => rw [command_state hs]; exact ih
  | save h hs ih =>
    cases hs with
    | save hs =>
      simp [actor, onSaveSnapshot] at hs
      rw [← hs.1]; exact ih
  | @load evs s more ctx1 t t' ctx b s' h g hsave hs ih ig =>
    cases hsave with
    | save hsave =>
      simp [actor, onSaveSnapshot] at hsave
      obtain ⟨rfl, rfl⟩ := hsave
      cases hs with
      | load hs =>
        simp only [actor, onLoadSnapshot, hl.snap _ ig.1] at hs
        simp at hs
        subst hs
        refine ⟨WF_insertAll _ ih.1, fun n => ?_⟩
        simp only [get_insertAll _ ig.1]
        cases ht : AMap.get t.values n with
        | some v =>
          rw [← ig.2]; exact ht.symm
        | none =>
          rw [← ig.2, ih.2]
          simp only [ht]
          cases hs : (applyAll ms (initState ms cfg) evs).values.get n with
          | none => rfl
          | some v =>
            have := get_applyAll_mono (ms := ms) (applyAll ms (initState ms cfg) evs) more n (by simp [hs])
            have e : applyAll ms (applyAll ms (initState ms cfg) evs) more = applyAll ms (initState ms cfg) (evs ++ more) := by
              simp [applyAll, List.foldl_append]
            rw [e, ← ig.2, ht] at this
            simp at this

end TCP.Counter
