import Verif.Proofs.CacheStore

/-! # Running the key-value store of the tablet cache on concrete commands -/

namespace TCP.Cache

open TCP TCP.TabletStore TCP.Cache.Spec

/-- A command to the store and its manager. -/
inductive KCmd where
  | init (table : String) (minResolve minProcess : Nat) (tables : List (String × UInt32))
  | accept (r : KvRequest)
  | store
  | progress
  | input (i : MgrIn)
  | take
  | responses

/-- Running one command. -/
def kexec (env : KvEnv) (tenv : TxnEnv Bytes Unit KvCore) (s : Sys) : KCmd → Run (Sys × KEvent)
  | .init t a b tables => ((s.withCore (s.world.shared.init t a b)).init tables).bind fun s' => .ok (s', .init t a b tables)
  | .accept r => .ok (s.accept r, .accept r)
  | .store => (s.storeProgress env).bind fun s' => .ok (s', .store)
  | .progress => (s.makeProgress tenv).bind fun s' => .ok (s', .progress)
  | .input i => (s.input tenv i).bind fun s' => .ok (s', .input i)
  | .take => s.takeOut.bind fun x => .ok (x.1, .take x.2)
  | .responses => .ok (s.takeResponses.1, .responses s.takeResponses.2)

/-- Running commands. -/
def kexecAll (env : KvEnv) (tenv : TxnEnv Bytes Unit KvCore) (s : Sys) : List KCmd → Run (Sys × List KEvent)
  | [] => .ok (s, [])
  | x :: rest => (kexec env tenv s x).bind fun y => (kexecAll env tenv y.1 rest).bind fun z => .ok (z.1, y.2 :: z.2)

theorem kexec_sound {env : KvEnv} {tenv : TxnEnv Bytes Unit KvCore} {s s' : Sys} {x : KCmd} {ev : KEvent} (h : kexec env tenv s x = .ok (s', ev)) :
    KStep env tenv s ev s' := by
  cases x with
  | init t a b tables =>
    obtain ⟨m, h1, h2⟩ := Run.bind_eq_ok.mp h
    simp only [Run.ok.injEq, Prod.mk.injEq] at h2
    obtain ⟨rfl, rfl⟩ := h2
    exact .init h1
  | accept r =>
    simp only [kexec, Run.ok.injEq, Prod.mk.injEq] at h
    obtain ⟨rfl, rfl⟩ := h
    exact .accept
  | store =>
    obtain ⟨m, h1, h2⟩ := Run.bind_eq_ok.mp h
    simp only [Run.ok.injEq, Prod.mk.injEq] at h2
    obtain ⟨rfl, rfl⟩ := h2
    exact .store h1
  | progress =>
    obtain ⟨m, h1, h2⟩ := Run.bind_eq_ok.mp h
    simp only [Run.ok.injEq, Prod.mk.injEq] at h2
    obtain ⟨rfl, rfl⟩ := h2
    exact .progress h1
  | input i =>
    obtain ⟨m, h1, h2⟩ := Run.bind_eq_ok.mp h
    simp only [Run.ok.injEq, Prod.mk.injEq] at h2
    obtain ⟨rfl, rfl⟩ := h2
    exact .input h1
  | take =>
    obtain ⟨⟨m, outs⟩, h1, h2⟩ := Run.bind_eq_ok.mp h
    simp only [Run.ok.injEq, Prod.mk.injEq] at h2
    obtain ⟨rfl, rfl⟩ := h2
    exact .take h1
  | responses =>
    simp only [kexec, Run.ok.injEq, Prod.mk.injEq] at h
    obtain ⟨rfl, rfl⟩ := h
    exact .responses

theorem _root_.TCP.Cache.Spec.KSteps.append {env : KvEnv} {tenv : TxnEnv Bytes Unit KvCore} {s s1 s2 : Sys} {a b : List KEvent}
    (h : KSteps env tenv s a s1) (g : KSteps env tenv s1 b s2) : KSteps env tenv s (a ++ b) s2 := by
  induction g with
  | refl => simpa using h
  | step _ hs ih => rw [← List.append_assoc]; exact .step ih hs

theorem kexecAll_sound {env : KvEnv} {tenv : TxnEnv Bytes Unit KvCore} : ∀ {xs : List KCmd} {s s' : Sys} {evs : List KEvent}, kexecAll env tenv s xs = .ok (s', evs) →
    KSteps env tenv s evs s' := by
  intro xs
  induction xs with
  | nil =>
    intro s s' evs h
    simp only [kexecAll, Run.ok.injEq, Prod.mk.injEq] at h
    obtain ⟨rfl, rfl⟩ := h
    exact .refl
  | cons x rest ih =>
    intro s s' evs h
    simp only [kexecAll] at h
    obtain ⟨⟨s1, ev⟩, h1, h2⟩ := Run.bind_eq_ok.mp h
    obtain ⟨⟨s2, evs2⟩, h3, h4⟩ := Run.bind_eq_ok.mp h2
    simp only [Run.ok.injEq, Prod.mk.injEq] at h4
    obtain ⟨rfl, rfl⟩ := h4
    exact KSteps.append (a := [ev]) (.step .refl (kexec_sound h1)) (ih h3)

end TCP.Cache
