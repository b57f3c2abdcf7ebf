import Verif.Model.Counter
import Verif.Spec.Actor

/-!
# Specification vocabulary for the atomic counter (C32–C35)

The specification state is a total map from names to (value, payload); names never written read `(0, [])`.
-/

namespace TCP.Counter.Spec

open TCP Counter ActorSpec

/-- Contract of the message encodings: what was encoded decodes to itself (snapshots hold maps, so the law
is for entries with distinct names). -/
structure Lawful (ms : Msgs) : Prop where
  req : ∀ r, ms.decReq (ms.encReq r) = some r
  snap : ∀ l : List (String × Value), (l.map Prod.fst).Nodup → ms.decSnap (ms.encSnap l) = some l

/-- The specification state. -/
abbrev Counters := String → Int × Bytes

/-- The map with one name changed. -/
def Counters.update (m : Counters) (n : String) (v : Int × Bytes) : Counters := fun k => if k = n then v else m k

/-- How an actor state reads. -/
def view (s : State) : Counters := fun n =>
  match s.values.get n with
  | some v => (v.value, v.payload)
  | none => (0, [])

/-- The calls behave like operations on a sequential map: an applied compare-and-swap succeeds iff the
value is the expected one, reports the value found, and changes the map iff it succeeded (for the name it
is about); the answer goes out iff this replica proposed it.  Other calls change nothing. -/
def Follows (ms : Msgs) (m : Counters) : List Call → Counters → Prop
  | [], m' => m' = m
  | .apply _ ec ev res :: cs, m' =>
    match ms.decReq ev.contents with
    | some ⟨n, some ⟨e, x⟩, _, p⟩ =>
      (∃ new, res = .ok ⟨if ec.owned then
          [⟨ev.correlationId, ms.encOut ⟨if (m n).1 = e then .success else .invalidArgument, some ⟨(m n).1, new⟩⟩, []⟩]
          else []⟩ ∧ ((m n).1 = e → new = x)) ∧
      Follows ms (if (m n).1 = e then m.update n (x, p) else m) cs m'
    | _ => res = .error .internal ∧ Follows ms m cs m'
  | _ :: cs, m' => Follows ms m cs m'

/-- Two actor states that answer every sequence of calls alike. -/
def SameAnswers (a : Actor State) (s t : State) : Prop :=
  ∀ cs s', NoLoad cs → (∀ ctx r, Call.save ctx r ∉ cs) → Steps a s cs s' → ∃ t', Steps a t cs t'

/-- Replicas of one cluster. -/
abbrev Replica (a : Actor State) (cfg : Bytes) : List ActorEvent → State → Prop := ActorSpec.Replica a (· = State.new) cfg

/-- The counters a configuration asks for. -/
def initial (ms : Msgs) (cfg : Bytes) : Counters :=
  ((ms.decConfig cfg).getD []).foldl (fun m e => m.update e.1 (e.2, [])) fun _ => (0, [])

/-- The counters after an event: its compare-and-swap, if it is one. -/
def after (ms : Msgs) (m : Counters) (ev : ActorEvent) : Counters :=
  match ms.decReq ev.contents with
  | some ⟨n, some ⟨e, x⟩, _, p⟩ => if (m n).1 = e then m.update n (x, p) else m
  | _ => m

/-- What a compare-and-swap is answered, given the value it finds. -/
def swapAnswer (found expected new : Int) : Response :=
  if found = expected then ⟨.success, some ⟨found, new⟩⟩ else ⟨.invalidArgument, some ⟨found, 0⟩⟩

/-- A message encoding that meets the contract. -/
def exMsgs : Msgs :=
  let cas : Codec Cas := (Codec.int.pair Codec.int).map (fun x => ⟨x.1, x.2⟩) (fun x => (x.expected, x.new)) (fun _ => rfl)
  let req : Codec Request := (Codec.string.pair (cas.option.pair (Codec.bytes.pair Codec.bytes))).map
    (fun x => ⟨x.1, x.2.1, x.2.2.1, x.2.2.2⟩) (fun r => (r.name, r.op, r.context, r.payload)) (fun _ => rfl)
  let status : Codec Status := Codec.nat.map
    (fun | 0 => .unspecified | 1 => .success | 2 => .rejected | 3 => .invalidArgument | _ => .invalidOperation)
    (fun | .unspecified => 0 | .success => 1 | .rejected => 2 | .invalidArgument => 3 | .invalidOperation => 4)
    (fun s => by cases s <;> rfl)
  let casr : Codec CasResponse := (Codec.int.pair Codec.int).map (fun x => ⟨x.1, x.2⟩) (fun x => (x.oldValue, x.newValue)) (fun _ => rfl)
  let resp : Codec Response := (status.pair casr.option).map (fun x => ⟨x.1, x.2⟩) (fun r => (r.status, r.op)) (fun _ => rfl)
  let value : Codec Value := (Codec.int.pair Codec.bytes).map (fun x => ⟨x.1, x.2⟩) (fun x => (x.value, x.payload)) (fun _ => rfl)
  let snap : Codec (List (String × Value)) := (Codec.string.pair value).list
  let config : Codec (List (String × Int)) := (Codec.string.pair Codec.int).list
  { decIn := req.option.decode, encOut := resp.enc, encReq := req.enc, decReq := req.decode
    encSnap := snap.enc, decSnap := snap.decode, decConfig := config.decode }

theorem exMsgs_lawful : Lawful exMsgs := ⟨fun r => Codec.decode_enc _ r, fun l _ => Codec.decode_enc _ l⟩

end TCP.Counter.Spec
