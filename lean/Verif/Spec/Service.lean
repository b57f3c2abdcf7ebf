import Verif.Model.Service

/-!
# What concurrent calls of a service may observe
-/

namespace TCP.ServiceSpec

open TCP TCP.Service

variable {δ Q A : Type}

/-- The requests that were handled, in order, with their answers. -/
def handled? : Event Q A → Option (Nat × Q × A)
  | .handled i q a => some (i, q, a)
  | _ => none

/-- One thread that handles requests one after the other. -/
inductive Sequential (handle : Q → δ → Run (δ × A)) (d0 : δ) : List (Nat × Q × A) → δ → Prop
  | nil : Sequential handle d0 [] d0
  | snoc {l d d'} {i : Nat} {q : Q} {a : A} (h : Sequential handle d0 l d) (hs : handle q d = .ok (d', a)) :
      Sequential handle d0 (l ++ [(i, q, a)]) d'

/-- A history in which every request is handled at most once, after it was made, and answered, if at all, with the answer to it. -/
inductive History : List (Event Q A) → Prop
  | nil : History []
  | invoke {h i q} (hh : History h) (hn : ∀ q', Event.invoke i q' ∉ h) : History (h ++ [.invoke i q])
  | handled {h i q a} (hh : History h) (hi : Event.invoke i q ∈ h) (hn : ∀ q' a', Event.handled i q' a' ∉ h) (hr : Event.refuse i ∉ h) :
      History (h ++ [.handled i q a])
  | return {h i q a} (hh : History h) (hd : Event.handled i q a ∈ h) (hn : ∀ a', Event.return i a' ∉ h) : History (h ++ [.return i a])
  | refuse {h i} (hh : History h) (hn : ∀ q' a', Event.handled i q' a' ∉ h) : History (h ++ [.refuse i])
  | cancel {h i} (hh : History h) : History (h ++ [.cancel i])

/-- The call has an outcome, or its client went away. -/
def Done : Call Q A → Prop
  | .returned _ | .refused | .cancelled => True
  | _ => False

/-- Steps of the service only. -/
inductive Works (handle : Q → δ → Run (δ × A)) : Nat → State δ Q A → State δ Q A → Prop
  | nil {s} : Works handle 0 s s
  | snoc {n s s' s''} (h : Works handle n s s') (hs : Server handle s' s'') : Works handle (n + 1) s s''

/-- Any steps. -/
inductive Later (handle : Q → δ → Run (δ × A)) : State δ Q A → State δ Q A → Prop
  | nil {s} : Later handle s s
  | client {s s' s''} (h : Later handle s s') (hs : Client s' s'') : Later handle s s''
  | server {s s' s''} (h : Later handle s s') (hs : Server handle s' s'') : Later handle s s''

end TCP.ServiceSpec
