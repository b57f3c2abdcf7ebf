import Verif.Model.CacheStore
import Verif.Spec.CacheCoordinator

/-!
# Specification vocabulary for the key-value store of the tablet cache (C54, C55)
-/

namespace TCP.Cache.Spec

open TCP TCP.Cache TCP.TabletStore

/-- A dictionary. -/
abbrev Dict := String → Option Bytes

/-- One request executed on a dictionary: a put says whether the key existed, a get also what it was. -/
def execReq (d : Dict) : KvRequest → Dict × KvResponse
  | .put corr k v => (fun j => if j = k then some v else d j, .put corr (d k).isSome)
  | .get corr k => (d, .get corr (d k).isSome ((d k).getD []))

/-- Requests executed one by one. -/
def execReqs (d : Dict) : List KvRequest → Dict × List KvResponse
  | [] => (d, [])
  | r :: rest => ((execReqs (execReq d r).1 rest).1, (execReq d r).2 :: (execReqs (execReq d r).1 rest).2)

/-- The requests of a list that a query is about. -/
def covered (env : KvEnv) (q : Query) (rs : List KvRequest) : List KvRequest := rs.filter fun r => decide (env.hash r.key ∈ q.hashes)

/-- The requests of a tablet that wait for a query to be processed. -/
def waitingFor (c : KvCore) (q : Query) (t : UInt32) : List KvRequest :=
  match c.tablets.get t with
  | some tr => (tr.waiting.get q.id).getD []
  | none => []

/-- The dictionary a tablet holds. -/
def dictOf (env : KvEnv) (contents : Option Bytes) : Dict := ((contents.bind env.dec).getD []).get

/-- What is written back to a tablet after requests were served: nothing if there was no put, otherwise an encoding of the
resulting dictionary. -/
def writes (env : KvEnv) (d : Dict) (rs : List KvRequest) (w : Option Bytes) : Prop :=
  (w = none ↔ ∀ r ∈ rs, r.isPut = false) ∧ ∀ b, w = some b → ∃ d', b = env.enc d' ∧ d'.get = (execReqs d rs).1

/-- The answers to the requests served for one tablet of a transaction. -/
def viewAnswers (env : KvEnv) (c : KvCore) (v : Query × UInt32 × Option Bytes) : List KvResponse :=
  (execReqs (dictOf env v.2.2) (covered env v.1 (waitingFor c v.1 v.2.1))).2

/-- What identifies a request to its client: the kind and the correlation id. -/
def reqSig : KvRequest → Bool × Nat
  | .put corr _ _ => (true, corr)
  | .get corr _ => (false, corr)

/-- What identifies the request a response is for. -/
def respSig : KvResponse → Bool × Nat
  | .put corr _ => (true, corr)
  | .get corr _ _ => (false, corr)

/-- What happens to a store and its transaction manager. -/
inductive KEvent where
  | init (table : String) (minResolve minProcess : Nat) (tables : List (String × UInt32))
  /-- a request is accepted -/
  | accept (r : KvRequest)
  /-- the store makes progress -/
  | store
  /-- the manager makes progress -/
  | progress
  | input (i : MgrIn)
  | take (outs : List MgrOut)
  /-- responses are taken from the store -/
  | responses (rs : List KvResponse)
deriving Repr, DecidableEq

/-- One step. -/
inductive KStep (env : KvEnv) (tenv : TxnEnv Bytes Unit KvCore) : Sys → KEvent → Sys → Prop
  | init {s s' table a b tables} (h : (s.withCore (s.world.shared.init table a b)).init tables = .ok s') : KStep env tenv s (.init table a b tables) s'
  | accept {s r} : KStep env tenv s (.accept r) (s.accept r)
  | store {s s'} (h : s.storeProgress env = .ok s') : KStep env tenv s .store s'
  | progress {s s'} (h : s.makeProgress tenv = .ok s') : KStep env tenv s .progress s'
  | input {s s' i} (h : s.input tenv i = .ok s') : KStep env tenv s (.input i) s'
  | take {s s' outs} (h : s.takeOut = .ok (s', outs)) : KStep env tenv s (.take outs) s'
  | responses {s} : KStep env tenv s (.responses s.takeResponses.2) s.takeResponses.1

/-- Any number of steps. -/
inductive KSteps (env : KvEnv) (tenv : TxnEnv Bytes Unit KvCore) : Sys → List KEvent → Sys → Prop
  | refl {s} : KSteps env tenv s [] s
  | step {s evs s' ev s''} (h : KSteps env tenv s evs s') (hs : KStep env tenv s' ev s'') : KSteps env tenv s (evs ++ [ev]) s''

/-- The histories of a store and its manager, whoever drives them and whatever comes in. -/
def KHistory (env : KvEnv) (data : DataEnv Bytes) (evict : AMap String (Entry Bytes) → List String) (evs : List KEvent) (s : Sys) : Prop :=
  ∃ co md d, KSteps env (txnEnv env data evict) (.create co md d .new) evs s

/-- How many requests of this kind and correlation id have been accepted. -/
def accepted (evs : List KEvent) (σ : Bool × Nat) : Nat :=
  (evs.filter fun e => match e with | .accept r => decide (reqSig r = σ) | _ => false).length

/-- How many responses of this kind and correlation id have been given. -/
def answered (evs : List KEvent) (σ : Bool × Nat) : Nat :=
  (evs.flatMap fun e => match e with | .responses rs => rs.filter fun r => decide (respSig r = σ) | _ => []).length

/-- The messages a store and its manager receive and send. -/
inductive Wire where
  | input (i : MgrIn)
  | sent (outs : List MgrOut)
deriving Repr, DecidableEq

/-- The messages of a history. -/
def wireK : KEvent → Option Wire
  | .input i => some (.input i)
  | .take outs => some (.sent outs)
  | _ => none

/-- The messages of a history of a manager. -/
def wireM : MEvent Unit → Option Wire
  | .input i => some (.input i)
  | .take outs => some (.sent outs)
  | _ => none

/-- At some point of the history the response had been computed by the processing of the transaction. -/
def Computed (env : KvEnv) (data : DataEnv Bytes) (evict : AMap String (Entry Bytes) → List String) (evs : List KEvent) (i : Nat) (r : KvResponse) : Prop :=
  ∃ a b s t, evs = a ++ b ∧ KHistory env data evict a s ∧ s.world.shared.txns.get i = some t ∧ r ∈ t.responses

end TCP.Cache.Spec
