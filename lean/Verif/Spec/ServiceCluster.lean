import Verif.Spec.Service
import Verif.Spec.DriverApp
import Verif.Spec.Counter
import Verif.Spec.TabletStore
import Verif.Spec.Willow
import Verif.Model.Replica

/-!
# Specification: the clients of a cluster's gRPC services

Every replica sits behind the service of `Model/Service`; clients call any of them at any time.  What clients observe is the global history:
which service was called or returned an answer, in the order this happened.
-/

namespace TCP.ServiceSpec

open TCP TCP.Service TCP.Drv TCP.DrvSpec

variable {σ ρ κ H : Type}

/-- A request to a service: the time it carries and the message to the replica. -/
abbrev Req (H : Type) := Nat × Option (Option (InMsg H))

/-- A service with a replica behind it. -/
abbrev Srv (σ ρ κ H : Type) := State (Driver σ ρ κ H) (Req H) (List (OutMsg H))

/-- A replica handles a request. -/
def serving (S : Sys σ ρ κ H) (q : Req H) (d : Driver σ ρ κ H) : Run (Driver σ ρ κ H × List (OutMsg H)) := Replica.serve S q.1 q.2 d

/-- What is assumed about consensus when replica `p` of a cluster gets into state `d`: the same as in `Deployed`, and that it commits only what
was proposed. -/
structure Consensus (S : Sys σ ρ κ H) (log : Nat → Entry) (founder : Nat) (cfg : Bytes) (ds : Nat → Driver σ ρ κ H) (p : Nat)
    (d : Driver σ ρ κ H) : Prop where
  replicated : d.ephemeral = false
  inOrder : ∃ y, Trail (Advances log) d.trace (0, 0) y
  first : ∀ e ∈ d.trace.flatMap delivered, 2 ≤ e.index
  snapshots : ∀ r, .ready r ∈ d.trace → r.snapshot.metadata.index ≠ 0 →
    .ready r ∈ (ds p).trace ∨ Created ds r.snapshot.metadata.index r.snapshot.data
  founded : ∀ id b, .raftInit id b true (.ok ()) ∈ d.trace → p = founder
  configured : ∀ ctx res, .actorInit ctx res ∈ d.trace → ctx.config = cfg
  causal : Causal S.E.decEntry log (update ds p d)

/-- The services after one of them moved. -/
def place (ss : Nat → Srv σ ρ κ H) (p : Nat) (s : Srv σ ρ κ H) : Nat → Srv σ ρ κ H := fun q => if q = p then s else ss q

/-- The replicas behind the services. -/
def replicas (ss : Nat → Srv σ ρ κ H) (p : Nat) : Driver σ ρ κ H := (ss p).driver

/-- The services of a cluster and the global history: clients and services do, in any order, what they can do. -/
inductive Served (S : Sys σ ρ κ H) (log : Nat → Entry) (founder : Nat) (fresh : σ → Prop) (cfg : Bytes) :
    (Nat → Srv σ ρ κ H) → List (Nat × Event (Req H) (List (OutMsg H))) → Prop
  | new {ss} (h : ∀ p, ∃ a r c, fresh a ∧ ss p = .new (Driver.new a r c)) : Served S log founder fresh cfg ss []
  | client {ss h p s es} (hh : Served S log founder fresh cfg ss h) (hs : Client (ss p) s) (he : s.history = (ss p).history ++ es) :
      Served S log founder fresh cfg (place ss p s) (h ++ es.map fun e => (p, e))
  | server {ss h p s es} (hh : Served S log founder fresh cfg ss h) (hs : Server (serving S) (ss p) s) (he : s.history = (ss p).history ++ es)
      (hc : s.driver = (ss p).driver ∨ Consensus S log founder cfg (replicas ss) p s.driver) :
      Served S log founder fresh cfg (place ss p s) (h ++ es.map fun e => (p, e))

/-- A client of service `p` called it with an application message. -/
def Asked (h : List (Nat × Event (Req H) (List (OutMsg H)))) (p : Nat) (c : ActorCommand) : Prop :=
  ∃ i t, (p, .invoke i (t, some (some (.appMessage c)))) ∈ h

/-- A call of service `p` returned, with this application message among others. -/
def Told (h : List (Nat × Event (Req H) (List (Drv.OutMsg H)))) (p : Nat) (r : ActorCommand) : Prop :=
  ∃ i a, (p, .return i a) ∈ h ∧ r ∈ appMessages a

/-- Positions for the answers that clients got respect real time: if one answer had been given when, at no replica of that id, the command
with the correlation id of another had been called for yet, then the first comes first. -/
def InOrder (h : List (Nat × Event (Req H) (List (OutMsg H)))) (id : Nat → Nat) (counts : Nat → ActorCommand → Prop) (pos : Nat → ActorCommand → Nat) : Prop :=
  ∀ h1 h2, h = h1 ++ h2 → ∀ p1 r1 p2 r2, Told h1 p1 r1 → counts p1 r1 → Told h p2 r2 → counts p2 r2 →
    (∀ p c, Asked h1 p c → id p = id p2 → c.correlationId ≠ r2.correlationId) → pos p1 r1 < pos p2 r2

/-- The application replied when it was handed a command that a client of service `p` called for, in a state that reflects the log up to
index `n`. -/
def EarlyAt (S : Sys σ ρ κ H) (log : Nat → Entry) (fresh : σ → Prop) (cfg : Bytes) (f : σ) (h : List (Nat × Event (Req H) (List (OutMsg H))))
    (p : Nat) (r : ActorCommand) (n : Nat) : Prop :=
  ∃ ctx s c s' o, (∀ x, c = some x → Asked h p x) ∧ Reflects S log fresh cfg f n s ∧ S.A.onProcessCommand ctx s c = .ok (s', .ok o) ∧ r ∈ o.commands

/-- The application replied when the replica with this id, which had proposed it, applied the event at index `i` of the log, in a state that
reflects the log before. -/
def Replied (S : Sys σ ρ κ H) (log : Nat → Entry) (fresh : σ → Prop) (cfg : Bytes) (f : σ) (id : Nat) (r : ActorCommand) (i : Nat) : Prop :=
  ∃ ev s ctx s' o, 2 ≤ i ∧ eventOf S.E.decEntry (log i) = some ev ∧ proposerOf S.E.decEntry (log i) = some id ∧
    Reflects S log fresh cfg f (i - 1) s ∧ S.A.onApplyEvent ctx s ⟨i, true⟩ ev = .ok (s', .ok o) ∧ r ∈ o.commands

/-- An application that gives replies of some kind to an event only on the replica that proposed it, with the event's correlation id. -/
def Replies (A : Actor σ) (kind : ActorCommand → Prop) : Prop :=
  ∀ {ctx s i own ev s' o r}, A.onApplyEvent ctx s ⟨i, own⟩ ev = .ok (s', .ok o) → r ∈ o.commands → kind r →
    own = true ∧ r.correlationId = ev.correlationId

/-- An application whose replies to commands carry their correlation ids. -/
def Echoes (A : Actor σ) : Prop :=
  ∀ {ctx s c s' o r}, A.onProcessCommand ctx s c = .ok (s', .ok o) → r ∈ o.commands → ∃ q, c = some q ∧ r.correlationId = q.correlationId

end TCP.ServiceSpec

namespace TCP.Counter

open TCP Spec Drv DrvSpec

/-- The answer refuses a command that a client of service `p` called for. -/
def Refusal {H : Type} (ms : Msgs) (h : List (Nat × Service.Event (ServiceSpec.Req H) (List (Drv.OutMsg H)))) (p : Nat) (r : ActorCommand) : Prop :=
  ∃ c, ServiceSpec.Asked h p c ∧ ∃ st, (st = .rejected ∨ st = .invalidOperation) ∧ r = ⟨c.correlationId, ms.encOut ⟨st, none⟩, []⟩

/-- The answer to the compare-and-swap at index `i` of the log, proposed by replica `id`, for the counters after the log before. -/
def SwapAt (ms : Msgs) (dec : Bytes → Option LogEntry) (log : Nat → Entry) (cfg : Bytes) (id : Nat) (r : ActorCommand) (i : Nat) : Prop :=
  ∃ ev n e x ctx pl, 2 ≤ i ∧ eventOf dec (log i) = some ev ∧ proposerOf dec (log i) = some id ∧
    ms.decReq ev.contents = some ⟨n, some ⟨e, x⟩, ctx, pl⟩ ∧
    r = ⟨ev.correlationId, ms.encOut (swapAnswer ((eventsUpTo dec log (i - 1)).foldl (after ms) (initial ms cfg) n).1 e x), []⟩

end TCP.Counter

namespace TCP.TabletStore

open TCP Spec Drv DrvSpec

/-- The answer refuses a command that a client of service `p` called for. -/
def Refusal {H : Type} (env : Env) (h : List (Nat × Service.Event (ServiceSpec.Req H) (List (Drv.OutMsg H)))) (p : Nat) (r : ActorCommand) : Prop :=
  ∃ c, ServiceSpec.Asked h p c ∧ ∃ st, r = ⟨c.correlationId, env.encOut (.error st), []⟩

/-- The answer to the request at index `i` of the log, proposed by replica `id`, for the tablets `b` changed by the requests before: op by
op as specified, and success exactly if every op can be carried out. -/
def AnswerAt (env : Env) (dec : Bytes → Option LogEntry) (log : Nat → Entry) (b : Store) (id : Nat) (r : ActorCommand) (i : Nat) : Prop :=
  ∃ ev ops resp, 2 ≤ i ∧ eventOf dec (log i) = some ev ∧ proposerOf dec (log i) = some id ∧ env.decReq ev.contents = some ops ∧
    r = ⟨ev.correlationId, env.encOut .response, env.encResp resp⟩ ∧
    Matched (OpAnswer ((eventsUpTo dec log (i - 1)).foldl (Store.next env) b)) ops resp.results ∧
    (resp.succeeded = true ↔ ∀ o ∈ ops, OpSucceeds ((eventsUpTo dec log (i - 1)).foldl (Store.next env) b) o)

end TCP.TabletStore

namespace TCP.Willow

open TCP Spec Drv DrvSpec

/-- The answer is an error. -/
def IsError (env : Env) (r : ActorCommand) : Prop := ∃ corr code, r = ⟨corr, env.encResp (.error code), []⟩

/-- The answer is the public key that is current, after the log up to index `n`, for the id that a client of service `p` asked for. -/
def KeyReadAt {H : Type} (env : Env) (dec : Bytes → Option LogEntry) (log : Nat → Entry)
    (h : List (Nat × Service.Event (ServiceSpec.Req H) (List (Drv.OutMsg H)))) (p : Nat) (r : ActorCommand) (n : Nat) : Prop :=
  ∃ c k g, ServiceSpec.Asked h p c ∧ AsksKey env c k ∧ Current env (eventsUpTo dec log n) k g ∧
    r = ⟨c.correlationId, env.encResp (.generateKey k g.publicKey), []⟩

/-- The answer to the event at index `i` of the log, proposed by replica `id`: the public key it generates, or the decryption it releases. -/
def LoggedAt (env : Env) (dec : Bytes → Option LogEntry) (log : Nat → Entry) (id : Nat) (r : ActorCommand) (i : Nat) : Prop :=
  ∃ ev, 2 ≤ i ∧ eventOf dec (log i) = some ev ∧ proposerOf dec (log i) = some id ∧
    ((∃ g, Generates env ev g ∧ r = ⟨ev.correlationId, env.encResp (.generateKey g.keyId g.publicKey), []⟩) ∨
     ∃ k x, Decrypts env ev k x ∧ r = ⟨ev.correlationId, env.encResp (.decrypt x), []⟩)

end TCP.Willow
