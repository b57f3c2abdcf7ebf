import Verif.Spec.CacheStore
import Verif.Spec.KvMap

/-!
# Specification vocabulary for the correlation ids of a cache (C105)
-/

namespace TCP.Cache.Spec

open TCP TCP.Cache TCP.TabletStore

/-- The correlation id of a message. -/
def _root_.TCP.Cache.MgrOut.corr : MgrOut → Nat
  | .ops corr _ => corr
  | .data r => r.corr

/-- The correlation ids of all requests a manager has made, those it has sent and those that are ready to be sent. -/
def requestIds {α η ω : Type} (evs : List (MEvent η)) (m : Manager α η ω) : List Nat :=
  (evs.flatMap fun e => match e with | .take outs => outs.map MgrOut.corr | _ => []) ++
    (m.coord.out.map Prod.fst ++ m.world.md.out.map Prod.fst ++ m.world.data.out.map DataOut.corr)

/-- The same for a key-value store with its manager. -/
def kvRequestIds (evs : List KEvent) (s : Sys) : List Nat :=
  (evs.flatMap fun e => match e with | .take outs => outs.map MgrOut.corr | _ => []) ++
    (s.coord.out.map Prod.fst ++ s.world.md.out.map Prod.fst ++ s.world.data.out.map DataOut.corr)

/-- Two counters between which `n` numbers fit. -/
def Apart (n a b : Nat) : Prop := a + n ≤ b ∨ b + n ≤ a

/-- A store whose three counters are so far apart that the requests it has made, of all kinds together, fit between them. -/
def RoomFor (env : KvEnv) (data : DataEnv Bytes) (evict : AMap String (Entry Bytes) → List String) (evs : List KEvent) (s : Sys) : Prop :=
  ∃ n co md d, Apart n co md ∧ Apart n co d ∧ Apart n md d ∧ KSteps env (txnEnv env data evict) (.create co md d .new) evs s ∧ (kvRequestIds evs s).length ≤ n

end TCP.Cache.Spec
