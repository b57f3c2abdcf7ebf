import Verif.Model.EventualResult

/-!
# Specification vocabulary for eventual results (C115)

A history lists the calls that returned, in order, with what they were given and what they returned.  Checking a result changes nothing, so checks
are not listed.
-/

namespace TCP.Eventual.Spec

open TCP TCP.Eventual

/-- A call that returned. -/
inductive Call (α ε : Type) where
  | create (x : Handle) (s : Source)
  | fromError (e : ε) (x : Handle)
  | setResult (s : Source) (v : α)
  | setError (s : Source) (e : ε)
deriving DecidableEq, Repr

variable {α ε : Type}

/-- The handle a call returned. -/
def Call.made : Call α ε → Option Handle
  | .create x _ => some x
  | .fromError _ x => some x
  | _ => none

/-- The call sets the result of a source, to a value or an error. -/
def Sets (c : Call α ε) (s : Source) : Prop := (∃ v, c = .setResult s v) ∨ ∃ e, c = .setError s e

/-- The cells after some calls. -/
inductive History : List (Call α ε) → Cells α ε → Prop
  | init : History [] []
  | create {cs m m' x s} (h : History cs m) (hc : create m = (m', x, s)) : History (cs ++ [.create x s]) m'
  | fromError {cs m m' e x} (h : History cs m) (hc : fromError m e = (m', x)) : History (cs ++ [.fromError e x]) m'
  | setResult {cs m s v m'} (h : History cs m) (hc : setResult m s v = .ok m') : History (cs ++ [.setResult s v]) m'
  | setError {cs m s e m'} (h : History cs m) (hc : setError m s e = .ok m') : History (cs ++ [.setError s e]) m'

end TCP.Eventual.Spec
