import Verif.Proofs.DriverLeaves
import Verif.Proofs.DriverOwner

/-! # The members of a cluster -/

namespace TCP.Drv

open TCP TCP.DrvSpec

variable {σ ρ κ H : Type} {S : Sys σ ρ κ H}

/-- One interaction, read for members. -/
def Member (e : Ev H) (c c' : Storage.ConfState) : Prop :=
  c' = membersAfter c e ∧ (∀ i c2 b, e = .storeCreate i c2 b → c2 = c) ∧ ∀ ids, e = .commCluster ids → ids = c.voters

theorem member_snoc {t : List (Ev H)} {c c' c0 : Storage.ConfState} {e : Ev H} (h : Trail Member t c0 c) (he : Member e c c') :
    Trail Member (t ++ [e]) c0 c' := trail_append.2 ⟨c, h, c', he, rfl⟩

theorem member_other {t : List (Ev H)} {c c0 : Storage.ConfState} {e : Ev H} (h : Trail Member t c0 c)
    (h1 : membersAfter c e = c := by rfl) (h2 : ∀ i c2 b, e ≠ .storeCreate i c2 b := by intro _ _ _ h; cases h)
    (h3 : ∀ ids, e ≠ .commCluster ids := by intro _ h; cases h) : Trail Member (t ++ [e]) c0 c :=
  member_snoc h ⟨h1.symm, fun _ _ _ he => absurd he (h2 _ _ _), fun _ he => absurd he (h3 _)⟩

theorem members_leaves : Leaves S (fun d => Trail Member d.trace ⟨[], [], []⟩ d.conf) where
  quiet hc h := by rw [hc.conf, hc.trace]; exact h
  actor {d a' e} he h := by
    cases e <;> first | exact he.elim | exact member_other h
  host _ h := member_other h
  raft {d r' e} hc hl _ h := member_snoc h ⟨rfl, hl, by cases hc <;> intro _ he <;> cases he⟩
  init _ _ h := member_snoc h ⟨rfl, (by intro _ _ _ he; cases he), (by intro _ he; cases he)⟩
  started _ _ h := h
  stopped h := h
  snapInit _ _ h := h
  snapCluster _ h := h
  sender _ h := h
  stashed _ _ h := h
  sending hd h := Sending.run (I := fun d => Trail Member d.trace ⟨[], [], []⟩ d.conf)
    { drop := fun h => h
      sender := fun h => h
      report := fun hr h => member_other h
      commOut := fun _ h => member_other h } hd h
  commOut _ _ h := member_other h
  commIn _ _ h := member_other h
  commTick h := member_other h
  commCluster h := member_snoc h ⟨rfl, (by intro _ _ _ he; cases he), (by intro _ he; cases he; rfl)⟩
  take {d c' out} hc h := by
    clear hc
    show Trail Member (d.trace ++ out.map fun m => .out (.comm m)) _ d.conf
    generalize d.trace = t at h ⊢
    induction out generalizing t with
    | nil => simpa using h
    | cons m ms ih =>
      have := ih (t ++ [.out (.comm m)]) (member_other h)
      simpa [List.append_assoc] using this
  system _ _ hs h := member_other (member_other h)
  chunk _ _ _ _ h := member_other h
  complete _ h := h
  install _ hs h := member_other h

theorem trail_members {t : List (Ev H)} {c0 c : Storage.ConfState} (h : Trail Member t c0 c) : c = t.foldl membersAfter c0 := by
  induction t generalizing c0 with
  | nil => exact h.symm
  | cons e t ih =>
    obtain ⟨c1, h1, h2⟩ := h
    rw [List.foldl_cons, ← h1.1]
    exact ih h2

theorem members_trail {d0 d : Driver σ ρ κ H} {rs} (h0 : Fresh d0) (h : Calls S d0 rs d) : Trail Member d.trace ⟨[], [], []⟩ d.conf := by
  obtain ⟨a, r, c, rfl⟩ := h0
  exact members_leaves.calls h rfl

theorem members_calls {d0 d : Driver σ ρ κ H} {rs} (h0 : Fresh d0) (h : Calls S d0 rs d) : d.conf = membersOf d.trace :=
  trail_members (members_trail h0 h)

end TCP.Drv
