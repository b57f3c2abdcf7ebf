import Verif.Model.CacheCoordinator
import Verif.Spec.CacheData

/-!
# Specification vocabulary for the transaction manager of the tablet cache (C49, C52, C53, C62)
-/

namespace TCP.Cache.Spec

open TCP TCP.Cache TCP.TabletStore

variable {α η ω : Type}

/-- What happens to a transaction manager. -/
inductive MEvent (η : Type) where
  | init (tables : List (String × UInt32))
  | start (txn : Nat)
  | process (txn : Nat) (qs : List Query) (h : η)
  | pending (txn : Nat) (answer : Bool)
  /-- with the requests made to the tablet store: correlation ids and ops -/
  | commit (txn : Nat) (sent : List (Nat × List TabletOp))
  | abort (txn : Nat)
  | check (txn : Nat) (answer : Option Outcome)
  | resolve (qs : List Query)
  | input (i : MgrIn)
  | progress
  | take (outs : List MgrOut)
  /-- the application changes the state it shares with its process handlers -/
  | app
deriving Repr, DecidableEq

/-- A manager, the transactions its clients have started and neither committed nor aborted, and the commit handles the
clients hold. -/
structure Client (α η ω : Type) where
  m : Manager α η ω
  opened : List Nat
  commits : AMap Nat Commit

/-- One step.  Clients use a transaction as its type permits: `commit` and `abort` consume it, `check_result` is a method of
the handle `commit` returns. -/
inductive MStep (env : TxnEnv α η ω) : Client α η ω → MEvent η → Client α η ω → Prop
  | init {c tables m} (h : c.m.init tables = .ok m) : MStep env c (.init tables) { c with m := m }
  | start {c} : MStep env c (.start c.m.coord.createTxn.2)
      { c with m := { c.m with coord := c.m.coord.createTxn.1 }, opened := c.m.coord.createTxn.2 :: c.opened }
  | process {c i qs h co} (ho : i ∈ c.opened) (hs : c.m.coord.process i qs h = .ok co) :
      MStep env c (.process i qs h) { c with m := { c.m with coord := co } }
  | pending {c i b} (ho : i ∈ c.opened) (hs : c.m.coord.hasPending i = .ok b) : MStep env c (.pending i b) c
  | commit {c i co} (ho : i ∈ c.opened) (hs : c.m.coord.commit i = .ok co) :
      MStep env c (.commit i (co.out.drop c.m.coord.out.length))
        { m := { c.m with coord := co }, opened := c.opened.filter (· ≠ i), commits := c.commits.set i ⟨i, none⟩ }
  | abort {c i} (ho : i ∈ c.opened) :
      MStep env c (.abort i) { c with m := { c.m with coord := c.m.coord.abort i }, opened := c.opened.filter (· ≠ i) }
  | check {c i h h' m} (ho : c.commits.get i = some h) (hs : h.check c.m = .ok (h', m)) :
      MStep env c (.check i h'.outcome) { c with m := m, commits := c.commits.set i h' }
  | resolve {c qs m} (hs : c.m.resolve qs = .ok m) : MStep env c (.resolve qs) { c with m := m }
  | input {c i m} (hs : c.m.processIn env i = .ok m) : MStep env c (.input i) { c with m := m }
  | progress {c m} (hs : c.m.makeProgress env = .ok m) : MStep env c .progress { c with m := m }
  | take {c m outs} (hs : c.m.takeOut = .ok (m, outs)) : MStep env c (.take outs) { c with m := m }
  | app {c w} : MStep env c .app { c with m := { c.m with world := { c.m.world with shared := w } } }

/-- Any number of steps. -/
inductive MSteps (env : TxnEnv α η ω) : Client α η ω → List (MEvent η) → Client α η ω → Prop
  | refl {c} : MSteps env c [] c
  | step {c evs c' ev c''} (h : MSteps env c evs c') (hs : MStep env c' ev c'') : MSteps env c (evs ++ [ev]) c''

/-- The histories of a manager and its clients. -/
def MHistory (env : TxnEnv α η ω) (evs : List (MEvent η)) (c : Client α η ω) : Prop :=
  ∃ co md d w, MSteps env ⟨.create co md d w, [], []⟩ evs c

/-- The eviction policy only drops entries that do not wait for the storage. -/
def Sane (env : TxnEnv α η ω) : Prop := ∀ es, ∀ k ∈ env.evict es, ∀ e, AMap.get es k = some e → e.ready = true

/-- The handler only reads. -/
def ReadOnly (env : TxnEnv α η ω) (h : η) : Prop :=
  ∀ w txn vs w' sets, env.handle h w txn vs = .ok (w', sets) → ∀ s ∈ sets, s = none

/-- A request to the storage that has been made and not been answered since it was taken. -/
def MOutstanding (evs : List (MEvent η)) (c : Client α η ω) (r : DataOut) : Prop :=
  r ∈ c.m.world.data.out ∨
  ∃ a outs b, evs = a ++ .take outs :: b ∧ MgrOut.data r ∈ outs ∧ ∀ x, .input (.data x) ∈ b → x.corr ≠ r.corr

/-- The results of a response that are about checks and updates. -/
def answers (r : Response) : List TabletOpResult := r.results.filter fun x => match x.result with
  | some (.check _) => true
  | some (.update _) => true
  | _ => false

/-- A result as the tablet store gives for an op: of the same kind, and with the existing tablet if the op failed. -/
def Fits (o : TabletOp) (r : TabletOpResult) : Prop :=
  match o.op, r.result with
  | some (.check _ _), some (.check existing) => r.status ≠ .succeeded → existing.isSome
  | some (.update u), some (.update existing) => u.isSome ∧ (r.status ≠ .succeeded → existing.isSome)
  | _, _ => False

/-- Results for all the ops, in order. -/
def FitsAll : List TabletOp → List TabletOpResult → Prop
  | [], [] => True
  | o :: os, r :: rs => Fits o r ∧ FitsAll os rs
  | _, _ => False

/-- No response and no communication error has come in for the request. -/
def Unanswered (evs : List (MEvent η)) (corr : Nat) : Prop := ∀ x ∈ evs, x ≠ .input (.error corr) ∧ ∀ r, x ≠ .input (.response corr r)

/-- How a process request advances; `cells` are the tablets resolved so far. -/
def Advanced (cells : AMap Nat (List (Query × Metadata))) (p p' : Proc α η) : Prop :=
  p'.handler = p.handler ∧
  match p.status with
  | .pending _ => ∃ id, p'.status = .resolving id
  | .resolving id => (cells.get id).isSome → ∃ id', p'.status = .loading id'
  | .loading _ => p.tablets ≠ [] → p'.status = .failed ∨ ∃ x, p'.status = .storing x
  | .storing none => p'.status = .failed
  | .storing (some _) => (∃ e ∈ p.tablets, e.2.tablet.dirty = true) → p'.status = .completed ∨ p'.status = .failed
  | s => p'.status = s

end TCP.Cache.Spec
