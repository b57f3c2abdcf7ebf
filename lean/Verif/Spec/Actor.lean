import Verif.Model.Actor

/-! # Histories of calls on an actor -/

namespace TCP.ActorSpec

open TCP

variable {σ : Type}

/-- One call the driver makes on an actor, with its answer. -/
inductive Call where
  | command (ctx : ActorCtx) (c : Option ActorCommand) (res : Except ActorErr CommandOutcome)
  | apply (ctx : ActorCtx) (ec : ActorEventCtx) (ev : ActorEvent) (res : Except ActorErr EventOutcome)
  | save (ctx : ActorCtx) (res : Except ActorErr Bytes)
  | load (ctx : ActorCtx) (b : Bytes) (res : Except ActorErr Unit)
deriving Repr, DecidableEq

/-- What one call does. -/
inductive Step (a : Actor σ) : σ → Call → σ → Prop
  | command {s ctx c s' res} (h : a.onProcessCommand ctx s c = .ok (s', res)) : Step a s (.command ctx c res) s'
  | apply {s ctx ec ev s' res} (h : a.onApplyEvent ctx s ec ev = .ok (s', res)) : Step a s (.apply ctx ec ev res) s'
  | save {s ctx s' res} (h : a.onSaveSnapshot ctx s = .ok (s', res)) : Step a s (.save ctx res) s'
  | load {s ctx b s' res} (h : a.onLoadSnapshot ctx s b = .ok (s', res)) : Step a s (.load ctx b res) s'

/-- A sequence of calls. -/
inductive Steps (a : Actor σ) : σ → List Call → σ → Prop
  | refl {s} : Steps a s [] s
  | step {s c s1 cs s'} (h : Step a s c s1) (hs : Steps a s1 cs s') : Steps a s (c :: cs) s'

/-- An actor just initialised. -/
def Started (a : Actor σ) (s0 : σ) (ctx : ActorCtx) (s : σ) : Prop := a.onInit ctx s0 = .ok (s, .ok ())

/-- The calls contain no snapshot load. -/
def NoLoad (cs : List Call) : Prop := ∀ ctx b r, Call.load ctx b r ∉ cs

/-- Replicas of one cluster: started with the same configuration, applying the same log; `evs` are the events
the state reflects.  A replica applies the next event, handles commands and saves, or loads a snapshot saved by
a replica that is not behind it. -/
inductive Replica (a : Actor σ) (fresh : σ → Prop) (cfg : Bytes) : List ActorEvent → σ → Prop
  | start {ctx s0 s} (h0 : fresh s0) (hc : ctx.config = cfg) (h : Started a s0 ctx s) : Replica a fresh cfg [] s
  | apply {evs s ctx ec ev res s'} (h : Replica a fresh cfg evs s) (hs : Step a s (.apply ctx ec ev res) s') :
      Replica a fresh cfg (evs ++ [ev]) s'
  | command {evs s ctx c res s'} (h : Replica a fresh cfg evs s) (hs : Step a s (.command ctx c res) s') :
      Replica a fresh cfg evs s'
  | save {evs s ctx res s'} (h : Replica a fresh cfg evs s) (hs : Step a s (.save ctx res) s') : Replica a fresh cfg evs s'
  | load {evs s more ctx1 t t' ctx b s'} (h : Replica a fresh cfg evs s) (g : Replica a fresh cfg (evs ++ more) t)
      (hsave : Step a t (.save ctx1 (.ok b)) t') (hs : Step a s (.load ctx b (.ok ())) s') :
      Replica a fresh cfg (evs ++ more) s'

/-- Replicas of one cluster whose state stems from that of the replica which founded it, `b` when it started: they applied the log from there
on, or loaded a snapshot saved by such a replica. -/
inductive Member (a : Actor σ) (fresh : σ → Prop) (cfg : Bytes) (b : σ) : List ActorEvent → σ → Prop
  | boot {ctx s0} (h0 : fresh s0) (hc : ctx.config = cfg) (h : Started a s0 ctx b) : Member a fresh cfg b [] b
  | apply {evs s ctx ec ev res s'} (h : Member a fresh cfg b evs s) (hs : Step a s (.apply ctx ec ev res) s') :
      Member a fresh cfg b (evs ++ [ev]) s'
  | command {evs s ctx c res s'} (h : Member a fresh cfg b evs s) (hs : Step a s (.command ctx c res) s') :
      Member a fresh cfg b evs s'
  | save {evs s ctx res s'} (h : Member a fresh cfg b evs s) (hs : Step a s (.save ctx res) s') : Member a fresh cfg b evs s'
  | load {evs s more ctx1 t t' ctx x s'} (h : Replica a fresh cfg evs s) (g : Member a fresh cfg b (evs ++ more) t)
      (hsave : Step a t (.save ctx1 (.ok x)) t') (hs : Step a s (.load ctx x (.ok ())) s') :
      Member a fresh cfg b (evs ++ more) s'

theorem Member.replica {a : Actor σ} {fresh : σ → Prop} {cfg : Bytes} {b s : σ} {evs : List ActorEvent} (h : Member a fresh cfg b evs s) :
    Replica a fresh cfg evs s := by
  induction h with
  | boot h0 hc h => exact .start h0 hc h
  | apply _ hs ih => exact ih.apply hs
  | command _ hs ih => exact ih.command hs
  | save _ hs ih => exact ih.save hs
  | load h _ hsave hs ih => exact h.load ih hsave hs

theorem Steps.append {a : Actor σ} {s s1 s2 : σ} {cs ds : List Call} (h : Steps a s cs s1) (g : Steps a s1 ds s2) :
    Steps a s (cs ++ ds) s2 := by
  induction h with
  | refl => exact g
  | step h _ ih => exact .step h (ih g)

theorem Steps.split {a : Actor σ} {s s2 : σ} {cs ds : List Call} (h : Steps a s (cs ++ ds) s2) :
    ∃ s1, Steps a s cs s1 ∧ Steps a s1 ds s2 := by
  induction cs generalizing s with
  | nil => exact ⟨s, .refl, h⟩
  | cons c cs ih =>
    cases h with
    | step h hs =>
      obtain ⟨s1, h1, h2⟩ := ih hs
      exact ⟨s1, .step h h1, h2⟩

theorem Steps.snoc {a : Actor σ} {s s1 s2 : σ} {cs : List Call} {c : Call} (h : Steps a s cs s1) (g : Step a s1 c s2) :
    Steps a s (cs ++ [c]) s2 := h.append (.step g .refl)

end TCP.ActorSpec
