/-!
# Run: the result of calling a Rust function that may panic

`Run.ok a` — the call returned `a`; `Run.panic` — the call panicked.
(Rust `Result` values are ordinary data inside `Run.ok`.)
-/

namespace TCP

/-- Decidable equality of `Result` values (used by concrete examples). -/
instance instDecidableEqExcept {ε α : Type} [DecidableEq ε] [DecidableEq α] : DecidableEq (Except ε α)
  | .ok a, .ok b => if h : a = b then isTrue (by rw [h]) else isFalse (by simp [h])
  | .error a, .error b => if h : a = b then isTrue (by rw [h]) else isFalse (by simp [h])
  | .ok _, .error _ => isFalse (by simp)
  | .error _, .ok _ => isFalse (by simp)

/-- Outcome of a Rust call: it returned a value, or it panicked. -/
inductive Run (α : Type) where
  | ok (a : α)
  | panic
deriving Repr, DecidableEq

namespace Run

/-- Sequencing: a panic aborts the rest. -/
def bind {α β : Type} (r : Run α) (f : α → Run β) : Run β :=
  match r with
  | ok a => f a
  | panic => panic

instance : Monad Run where
  pure := ok
  bind := bind

/-- The call returned and its value satisfies `p`. -/
def Sat {α : Type} (r : Run α) (p : α → Prop) : Prop := ∃ a, r = ok a ∧ p a

@[simp] theorem bind_ok {α β : Type} (a : α) (f : α → Run β) : (ok a).bind f = f a := rfl
@[simp] theorem bind_panic {α β : Type} (f : α → Run β) : (panic : Run α).bind f = panic := rfl
@[simp] theorem bind_eq {α β : Type} (r : Run α) (f : α → Run β) : (r >>= f) = r.bind f := rfl
@[simp] theorem pure_eq {α : Type} (a : α) : (pure a : Run α) = ok a := rfl

theorem bind_eq_ok {α β : Type} {r : Run α} {f : α → Run β} {b : β} :
    r.bind f = ok b ↔ ∃ a, r = ok a ∧ f a = ok b := by
  cases r <;> simp

/-- `Option::unwrap` / `Option::expect`. -/
def unwrap {α : Type} : Option α → Run α
  | some a => ok a
  | none => panic

@[simp] theorem unwrap_some {α : Type} (a : α) : unwrap (some a) = ok a := rfl
@[simp] theorem unwrap_none {α : Type} : unwrap (none : Option α) = panic := rfl

end Run

/-- A byte string. -/
abbrev Bytes := List UInt8

end TCP
