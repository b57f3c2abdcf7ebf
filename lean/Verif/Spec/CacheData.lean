import Verif.Model.CacheData

/-!
# Specification vocabulary for the tablet data cache (C50, C51)
-/

namespace TCP.Cache.Spec

open TCP TCP.Cache TCP.TabletStore

variable {α : Type}

/-- What happens to a data cache.  Loads and stores carry the id of their result handle; a load also tells whether the first
tablet asked for was ready (cached or failed) already.  Stores carry the new metadata; a store whose serialization
failed has no id. -/
inductive Event (α : Type) where
  | load (ms : List Metadata) (id : Nat) (now : Bool)
  | store (data : List (Metadata × α)) (ms : List Metadata) (id : Option Nat)
  | response (r : DataIn)
  | progress
  | take (outs : List DataOut)

/-- The first of the tablets is ready. -/
def firstReady (c : DataCache α) (ms : List Metadata) : Bool :=
  match ms with
  | [] => false
  | m :: _ => match c.entries.get m.uri with
    | some e => e.ready
    | none => false

/-- The histories of a data cache, with any responses.  The policy may evict any entries that are not waiting for the
storage. -/
inductive History (env : DataEnv α) : List (Event α) → DataCache α → Prop
  | create {corr} : History env [] (DataCache.create corr)
  | load {evs c ms c'} (h : History env evs c) (hs : c.load ms = .ok c') :
      History env (evs ++ [.load ms c'.batchCounter (firstReady c ms)]) c'
  | store {evs c data c' ms b} (h : History env evs c) (hs : c.store env data = .ok (c', ms, b)) :
      History env (evs ++ [.store data ms (if b then some c'.batchCounter else none)]) c'
  | response {evs c r c'} (h : History env evs c) (hs : c.processIn env r = .ok c') : History env (evs ++ [.response r]) c'
  | progress {evs c policy c'} (h : History env evs c)
      (hp : ∀ es, ∀ k ∈ policy es, ∀ e, AMap.get es k = some e → e.ready = true) (hs : c.makeProgress policy = .ok c') :
      History env (evs ++ [.progress]) c'
  | take {evs c} (h : History env evs c) : History env (evs ++ [.take c.out]) c.takeOut.1

/-- The requests made to the storage, taken or not. -/
def requests (evs : List (Event α)) (c : DataCache α) : List DataOut :=
  (evs.flatMap fun e => match e with | .take outs => outs | _ => []) ++ c.out

/-- The correlation id of a request. -/
def _root_.TCP.Cache.DataOut.corr : DataOut → Nat
  | .load corr _ => corr
  | .store corr _ _ => corr

/-- The correlation id of a response. -/
def _root_.TCP.Cache.DataIn.corr : DataIn → Nat
  | .load corr _ _ => corr
  | .store corr _ => corr

/-- `v` was stored under the uri, by this request, as these bytes. -/
def Put (env : DataEnv α) (evs : List (Event α)) (k : String) (v : α) (b : Bytes) : Prop :=
  env.ser v = some b ∧ ∃ data ms id m, .store data ms (some id) ∈ evs ∧ (m, v) ∈ ms.zip (data.map Prod.snd) ∧ m.uri = k

/-- The storage confirmed that it stored the bytes under the uri. -/
def Stored (evs : List (Event α)) (c : DataCache α) (k : String) (b : Bytes) : Prop :=
  ∃ corr, .store corr k b ∈ requests evs c ∧ .response (.store corr .succeeded) ∈ evs

/-- `v` is what the storage returned for the uri, or what was stored under it. -/
def Came (env : DataEnv α) (evs : List (Event α)) (c : DataCache α) (k : String) (v : α) : Prop :=
  (∃ corr b, .load corr k ∈ requests evs c ∧ .response (.load corr .succeeded b) ∈ evs ∧ env.deser b = some v) ∨
  (∃ b, Put env evs k v b ∧ Stored evs c k b)

/-- Loading or storing the uri failed. -/
def Failed (env : DataEnv α) (evs : List (Event α)) (c : DataCache α) (k : String) : Prop :=
  (∃ corr st b, .load corr k ∈ requests evs c ∧ .response (.load corr st b) ∈ evs ∧ (st = .failed ∨ env.deser b = none)) ∨
  (∃ corr b, .store corr k b ∈ requests evs c ∧ .response (.store corr .failed) ∈ evs)

/-- The request was made and has not been answered since it was taken. -/
def Outstanding (evs : List (Event α)) (c : DataCache α) (r : DataOut) : Prop :=
  r ∈ c.out ∨ ∃ a outs b, evs = a ++ .take outs :: b ∧ r ∈ outs ∧ ∀ x, .response x ∈ b → x.corr ≠ r.corr

/-- The blob a request is about. -/
def _root_.TCP.Cache.DataOut.uri : DataOut → String
  | .load _ uri => uri
  | .store _ uri _ => uri

end TCP.Cache.Spec
