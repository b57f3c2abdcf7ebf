import Verif.Spec.CacheStore

/-!
# Specification vocabulary for what a cache remembers (C106)
-/

namespace TCP.Cache.Spec

open TCP TCP.Cache TCP.TabletStore

variable {α η ω : Type}

/-- How many resolutions clients have asked for. -/
def resolutions (evs : List (MEvent η)) : Nat :=
  (evs.filter fun e => match e with | .resolve _ => true | _ => false).length

/-- A transaction that was started, was not aborted, and whose outcome nobody has been told. -/
def Unfinished (evs : List (MEvent η)) (i : Nat) : Prop :=
  .start i ∈ evs ∧ .abort i ∉ evs ∧ ∀ o, .check i (some o) ∉ evs

/-- A request with this id was sent to the tablet store, and since then neither a response nor an error has come in. -/
def Unreplied (evs : List (MEvent η)) (corr : Nat) : Prop :=
  ∃ a outs b ops, evs = a ++ .take outs :: b ∧ .ops corr ops ∈ outs ∧ .input (.error corr) ∉ b ∧ ∀ r, .input (.response corr r) ∉ b

/-- A request with this id is to be sent to the tablet store for a transaction, or was sent and since then no response with results of checks or updates has come in. -/
def Undecided (evs : List (MEvent η)) (m : Manager α η ω) (corr : Nat) : Prop :=
  (∃ ops, (corr, ops) ∈ m.coord.out) ∨
  ∃ a outs b ops, evs = a ++ .take outs :: b ∧ .ops corr ops ∈ outs ∧ ∀ r, .input (.response corr r) ∈ b → answers r = []

/-- The trackers of tablets keep an entry for every query they had one for. -/
def KeepsAll (ts ts' : AMap UInt32 TabletTracker) : Prop :=
  ∀ t tr, ts.get t = some tr → ∃ tr', ts'.get t = some tr' ∧ ∀ q, (tr.waiting.get q).isSome → (tr'.waiting.get q).isSome

end TCP.Cache.Spec
