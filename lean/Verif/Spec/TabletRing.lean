import Verif.Spec.TabletStore

/-!
# Specification vocabulary for the rings of tablets (C111)
-/

namespace TCP.TabletStore

/-- The environment draws as many tablet ids as it is asked for (actor.rs:228-237). -/
def Draws (env : Env) : Prop := ∀ d k, (env.generate d k).length = k

/-- The `k` ids of one draw are different (actor.rs:231-234). -/
def Distinct (env : Env) (k : Nat) : Prop := ∀ d, (env.generate d k).Nodup

end TCP.TabletStore
