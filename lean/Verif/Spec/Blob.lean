import Verif.Model.BlobUri
import Verif.Spec.CacheTxn

/-!
# Specification vocabulary for stored blobs (C86, C87)
-/

namespace TCP.Cache.Spec

open TCP TCP.Cache TCP.TabletStore

variable {α : Type}

/-- The histories of a data cache with the default eviction policy, which evicts nothing (data.rs:540-563). -/
inductive DHistory (env : DataEnv α) : List (Event α) → DataCache α → Prop
  | create {corr} : DHistory env [] (DataCache.create corr)
  | load {evs c ms c'} (h : DHistory env evs c) (hs : c.load ms = .ok c') :
      DHistory env (evs ++ [.load ms c'.batchCounter (firstReady c ms)]) c'
  | store {evs c data c' ms b} (h : DHistory env evs c) (hs : c.store env data = .ok (c', ms, b)) :
      DHistory env (evs ++ [.store data ms (if b then some c'.batchCounter else none)]) c'
  | response {evs c r c'} (h : DHistory env evs c) (hs : c.processIn env r = .ok c') : DHistory env (evs ++ [.response r]) c'
  | progress {evs c c'} (h : DHistory env evs c) (hs : c.makeProgress (fun _ => []) = .ok c') : DHistory env (evs ++ [.progress]) c'
  | take {evs c} (h : DHistory env evs c) : DHistory env (evs ++ [.take c.out]) c.takeOut.1

/-- They are histories. -/
theorem DHistory.history {env : DataEnv α} {evs : List (Event α)} {c : DataCache α} (h : DHistory env evs c) : History env evs c := by
  induction h with
  | create => exact .create
  | load _ hs ih => exact ih.load hs
  | store _ hs ih => exact ih.store hs
  | response _ hs ih => exact ih.response hs
  | progress _ hs ih => exact ih.progress (by simp) hs
  | take _ ih => exact ih.take

/-- The uri of the new version of a tablet with the given contents; nothing if they cannot be serialized. -/
def newUri (env : DataEnv α) (p : Metadata × α) : Option String :=
  (env.ser p.2).map fun b => env.uri p.1.tabletId (p.1.version + 1) (env.hash b)

end TCP.Cache.Spec
