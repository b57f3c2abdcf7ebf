import Verif.Spec.DriverLog

/-!
# Specification: commands and their answers

Counts, per correlation id, the commands a replica handed to its application, the answers it sent to its host, and the proposals of its own
that consensus handed back.
-/

namespace TCP.DrvSpec

open TCP TCP.Drv TCP.ActorSpec

variable {σ H : Type}

/-- What an application has to guarantee: a command is either answered at once, or asks for one event, and both carry its correlation id; an
event the replica owns is answered once, with the event's id, and any other event not at all.  `ok` says which events the application
produces. -/
structure Responds (A : Actor σ) (ok : Bytes → Prop) : Prop where
  command : ∀ {ctx s c s' o}, A.onProcessCommand ctx s (some c) = .ok (s', .ok o) →
    (∃ r, o = ⟨[r], none⟩ ∧ r.correlationId = c.correlationId) ∨
    (∃ ev, o = ⟨[], some ev⟩ ∧ ev.correlationId = c.correlationId ∧ ok ev.contents)
  idle : ∀ {ctx s s' o}, A.onProcessCommand ctx s none = .ok (s', .ok o) → o = ⟨[], none⟩
  own : ∀ {ctx s ec ev s' o}, A.onApplyEvent ctx s ec ev = .ok (s', .ok o) → ok ev.contents → ec.owned = true →
    ∃ r, o.commands = [r] ∧ r.correlationId = ev.correlationId
  foreign : ∀ {ctx s ec ev s' o}, A.onApplyEvent ctx s ec ev = .ok (s', .ok o) → ok ev.contents → ec.owned = false → o.commands = []

/-- How many commands with this id the application was handed. -/
def commandsOf (k : Nat) (t : List (Ev H)) : Nat := (t.filterMap handed).countP fun c => c.correlationId == k

/-- How many answers with this id are among the messages to the host. -/
def answersOf (k : Nat) (ms : List (OutMsg H)) : Nat := (appMessages ms).countP fun r => r.correlationId == k

/-- Is this an entry replica `id` proposed under the correlation id `k`? -/
def carries (dec : Bytes → Option LogEntry) (id k : Nat) (b : Bytes) : Bool :=
  match dec b with
  | some ⟨some (r, c), _⟩ => r == id && c == k
  | _ => false

/-- Is this an entry of replica `id`, and not a change of the members? -/
def ownEntry (dec : Bytes → Option LogEntry) (id : Nat) (e : Entry) : Bool :=
  !e.data.isEmpty && !(e.type == .confChange) &&
    match dec e.data with
    | some ⟨some (r, _), _⟩ => r == id
    | _ => false

/-- The proposals of replica `id` consensus delivered to it. -/
def ownDelivered (dec : Bytes → Option LogEntry) (id : Nat) (t : List (Ev H)) : List Bytes :=
  ((t.flatMap delivered).filter (ownEntry dec id)).map Entry.data

end TCP.DrvSpec
