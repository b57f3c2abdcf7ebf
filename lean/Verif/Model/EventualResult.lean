import Verif.Lib.Run

/-!
# Model of apps/tablet_cache/service/src/transaction/result.rs

A shared cell (`Rc<RefCell<ResultCore>>`) is a place in a list of cells; a handle and a source refer to their cell by its place.  Cells are never
freed: `Rc` frees a cell only when nothing refers to it.  `RefCell` never finds its cell borrowed: every borrow ends with the method that makes
it, and no method calls another.
-/

namespace TCP.Eventual

open TCP

/-- result.rs:40-43 `ResultCore`. -/
structure ResultCore (α ε : Type) where
  result : Option α
  error : Option ε
deriving DecidableEq, Repr

/-- The cells allocated so far. -/
abbrev Cells (α ε : Type) := List (ResultCore α ε)

/-- result.rs:46-48 `ResultHandle`. -/
structure Handle where
  cell : Nat
deriving DecidableEq, Repr

/-- result.rs:64-66 `ResultSource`. -/
structure Source where
  cell : Nat
deriving DecidableEq, Repr

variable {α ε : Type}

/-- result.rs:19-28 `create_eventual_result`. -/
def create (m : Cells α ε) : Cells α ε × Handle × Source := (m ++ [⟨none, none⟩], ⟨m.length⟩, ⟨m.length⟩)

/-- result.rs:30-37 `create_result_from_error`. -/
def fromError (m : Cells α ε) (e : ε) : Cells α ε × Handle := (m ++ [⟨none, some e⟩], ⟨m.length⟩)

/-- result.rs:51-60 `check_result`. A handle that refers to no cell does not exist; it panics here. -/
def checkResult (m : Cells α ε) (x : Handle) : Run (Option (Except ε α)) :=
  match m[x.cell]? with
  | none => .panic
  | some c =>
    match c.result with
    | some v => .ok (some (.ok v))
    | none =>
      match c.error with
      | some e => .ok (some (.error e))
      | none => .ok none

/-- result.rs:69-73 `set_result`. -/
def setResult (m : Cells α ε) (s : Source) (v : α) : Run (Cells α ε) :=
  match m[s.cell]? with
  | none => .panic
  | some c => if c.error.isNone && c.result.isNone then .ok (m.set s.cell { c with result := some v }) else .panic

/-- result.rs:75-79 `set_error`. -/
def setError (m : Cells α ε) (s : Source) (e : ε) : Run (Cells α ε) :=
  match m[s.cell]? with
  | none => .panic
  | some c => if c.error.isNone && c.result.isNone then .ok (m.set s.cell { c with error := some e }) else .panic

end TCP.Eventual
