import Verif.Spec.Driver

/-!
# Specification vocabulary for the batches of consensus (C70)

A batch (`Ready`) carries what consensus wants stored (hard state, snapshot, log entries) and what it wants sent.
-/

namespace TCP.DrvSpec

open TCP TCP.Drv

variable {H : Type}

/-- Among these interactions everything the batch wants stored was stored successfully. -/
structure Stored (r : Ready) (t : List (Ev H)) : Prop where
  hardState : ∀ h, r.hardState = some h → .storeHardState h ∈ t
  snapshot : r.snapshot.metadata.index ≠ 0 → .storeApply r.snapshot (.ok ()) ∈ t
  entries : r.entries ≠ [] → .storeAppend r.entries (.ok ()) ∈ t

/-- Neither is another batch taken nor consensus told that one was processed. -/
def BetweenBatches (t : List (Ev H)) : Prop := ∀ e ∈ t, (∀ r, e ≠ .ready r) ∧ ∀ l, e ≠ .light l

/-- What follows on the batch being taken: it is stored, and then consensus is told so, before anything else happens with batches. -/
def Handled (r : Ready) (after : List (Ev H)) : Prop :=
  ∃ t l rest, after = t ++ .light l :: rest ∧ BetweenBatches t ∧ Stored r t

/-- Every batch taken from consensus has been handled. -/
def AllHandled (t : List (Ev H)) : Prop := ∀ before r after, t = before ++ .ready r :: after → Handled r after

/-- Whatever is handed to the network comes after every batch taken until then has been handled. -/
def SentHandled (t : List (Ev H)) : Prop := ∀ before m after, t = before ++ .out (.comm m) :: after → AllHandled before

end TCP.DrvSpec
