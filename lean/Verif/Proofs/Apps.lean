import Verif.Proofs.DriverApp
import Verif.Proofs.Counter
import Verif.Proofs.Willow
import Verif.Proofs.TabletStore

/-! # The applications as members of a cluster -/

namespace TCP.Counter

open TCP ActorSpec Spec DrvSpec

theorem inert (ms : Msgs) : Inert (actor ms) where
  save h := by simp only [actor, onSaveSnapshot, Run.ok.injEq, Prod.mk.injEq] at h; exact h.1.symm
  shutdown h := by simp only [actor, Run.ok.injEq] at h; exact h.symm

theorem view_set (l : AMap String Value) (k : String) (v : Value) : view ⟨l.set k v⟩ = (view ⟨l⟩).update k (v.value, v.payload) := by
  funext n
  simp only [view, Counters.update, AMap.get_set]
  by_cases h : k = n
  · subst h; simp
  · simp [h, Ne.symm h]

theorem view_insertAll (vs : List (String × Int)) (l : AMap String Value) :
    view ⟨insertAll l (vs.map fun e => (e.1, ⟨e.2, []⟩))⟩ = vs.foldl (fun m e => m.update e.1 (e.2, [])) (view ⟨l⟩) := by
  induction vs generalizing l with
  | nil => rfl
  | cons e vs ih =>
    simp only [List.map_cons, insertAll, List.foldl_cons]
    rw [ih, view_set]

theorem view_initState (ms : Msgs) (cfg : Bytes) : view (initState ms cfg) = initial ms cfg := by
  unfold initState initial
  cases ms.decConfig cfg with
  | none => rfl
  | some vs => exact view_insertAll vs []

theorem view_applyEv (ms : Msgs) (s : State) (ev : ActorEvent) : view (applyEv ms s ev) = after ms (view s) ev := by
  unfold applyEv after
  rcases ms.decReq ev.contents with _ | ⟨n, _ | ⟨e, x⟩, c, p⟩
  · rfl
  · rfl
  · exact view_compareAndSwap s n ⟨e, x⟩ p

theorem view_applyAll (ms : Msgs) (evs : List ActorEvent) (s : State) : view (applyAll ms s evs) = evs.foldl (after ms) (view s) := by
  induction evs generalizing s with
  | nil => rfl
  | cons e evs ih =>
    have := ih (applyEv ms s e)
    rw [view_applyEv] at this
    exact this

theorem replica_view {ms : Msgs} (hl : Lawful ms) {cfg : Bytes} {evs : List ActorEvent} {s : State} (h : Replica (actor ms) cfg evs s) :
    view s = evs.foldl (after ms) (initial ms cfg) := by
  rw [← view_initState, ← view_applyAll]
  funext n
  rw [view_eq, view_eq, (replica_state hl h).2 n]

end TCP.Counter

namespace TCP.Willow

open TCP ActorSpec Spec DrvSpec

theorem inert (env : Env) : Inert (actor env) where
  save h := by simp only [actor, onSaveSnapshot, Run.ok.injEq, Prod.mk.injEq] at h; exact h.1.symm
  shutdown h := by simp only [actor, Run.ok.injEq] at h; exact h.symm

end TCP.Willow

namespace TCP.TabletStore

open TCP ActorSpec Spec DrvSpec

theorem inert (env : Env) : Inert (actor env) where
  save h := by simp only [actor, onSaveSnapshot, Run.ok.injEq, Prod.mk.injEq] at h; exact h.1.symm
  shutdown h := by simp only [actor, Run.ok.injEq] at h; exact h.symm

theorem replica_reachable {env : Env} {cfg : Bytes} {evs : List ActorEvent} {s : State}
    (h : ActorSpec.Replica (actor env) (·.tables = []) cfg evs s) : Reachable env cfg s := by
  induction h with
  | start h0 hc h => exact ⟨_, _, _, [], h0, hc, h, .refl⟩
  | apply _ hs ih => exact ih.step hs
  | command _ hs ih => exact ih.step hs
  | save _ hs ih => exact ih.step hs
  | load _ _ _ hs ih _ => exact ih.step hs

theorem member_of {env : Env} {cfg : Bytes} {b : State} {evs : List ActorEvent} {s : State}
    (h : ActorSpec.Member (actor env) (·.tables = []) cfg b evs s) : Spec.Member env cfg b evs s := by
  induction h with
  | boot h0 hc h => exact .boot h0 hc h
  | apply _ hs ih => exact ih.apply hs
  | command _ hs ih => exact ih.command hs
  | save _ hs ih => exact ih.save hs
  | load h _ hsave hs ih => exact .load (replica_reachable h) ih hsave hs

end TCP.TabletStore
