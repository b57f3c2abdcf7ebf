import Verif.Model.Log
import Verif.Spec.Driver

/-!
# Specification vocabulary for logging (C80, C81)
-/

namespace TCP.Log.Spec

open TCP TCP.Drv TCP.DrvSpec TCP.Log

variable {σ ρ κ H : Type}

/-- The severities, the most severe first. -/
def severities : List Level := [.critical, .error, .warning, .info, .debug, .trace]

/-- One call of the host: what was logged during it, and its result. -/
structure Call (H : Type) where
  logged : List Record
  result : Except PalErr (Option (List (OutMsg H) × List LogMsg))

/-- A sequence of calls, with any result. -/
inductive LCalls (S : Sys σ ρ κ H) (lg : Logging) (pr : Printer σ ρ κ H) : LDriver σ ρ κ H → List (Call H) → LDriver σ ρ κ H → Prop
  | nil {s} : LCalls S lg pr s [] s
  | snoc {s cs s1 instant msg r s2} (h : LCalls S lg pr s cs s1) (hs : receiveLogged S lg pr instant msg s1 = .ok (s2, r)) :
      LCalls S lg pr s (cs ++ [⟨pr s1.d instant msg s2.d, r⟩]) s2

/-- The `Log` messages in the response of a call. -/
def Call.logs (c : Call H) : List LogMsg :=
  match c.result with
  | .ok (some x) => x.2
  | _ => []

/-- The result of a call without its `Log` messages. -/
def Call.rest (c : Call H) : Except PalErr (Option (List (OutMsg H))) :=
  match c.result with
  | .ok x => .ok (x.map Prod.fst)
  | .error e => .error e

/-- The call returned a response. -/
def Call.responded (c : Call H) : Bool :=
  match c.result with
  | .ok (some _) => true
  | _ => false

/-- The calls of components made between two states of a driver. -/
def newEvents (d d' : Driver σ ρ κ H) : List (Ev H) := d'.trace.drop d.trace.length

/-- The log store logs as in the code; anything else may be logged around its lines. -/
def Prints (f : Formats) (pr : Printer σ ρ κ H) : Prop :=
  ∀ d instant msg d', ((newEvents d d').flatMap (storeLines f)).Sublist (pr d instant msg d')

/-- A message contains a text from which the value can be read. -/
def Reveals {α : Type} (text : α → String) (m : LogMsg) (v : α) : Prop :=
  ∃ a b, m.message = a ++ text v ++ b ∧ ∀ v', text v' = text v → v' = v

/-- The `Debug` texts of entries and of snapshots show everything, the data included. -/
structure Legible (f : Formats) : Prop where
  entries : ∀ es es', f.entries es' = f.entries es → es' = es
  snapshot : ∀ s s', f.snapshot s' = f.snapshot s → s' = s

end TCP.Log.Spec
