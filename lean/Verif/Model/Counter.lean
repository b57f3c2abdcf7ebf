import Verif.Model.Actor
import Verif.Lib.AMap
import Verif.Lib.Codec

/-!
# Model of `apps/atomic_counter/service/src/actor.rs`

Parameter (`Msgs`): the protobuf encodings of the service's messages.  `i64` values are integers (no
arithmetic is done on them).
-/

namespace TCP.Counter

open TCP

/-- atomic_counter.proto `CounterCompareAndSwapRequest`. -/
structure Cas where
  expected : Int
  new : Int
deriving Repr, DecidableEq

/-- atomic_counter.proto `CounterRequest`; the only operation is compare-and-swap. -/
structure Request where
  name : String
  op : Option Cas
  context : Bytes
  payload : Bytes
deriving Repr, DecidableEq

/-- atomic_counter.proto `CounterStatus`. -/
inductive Status where
  | unspecified
  | success
  | rejected
  | invalidArgument
  | invalidOperation
deriving Repr, DecidableEq

/-- atomic_counter.proto `CounterCompareAndSwapResponse`. -/
structure CasResponse where
  oldValue : Int
  newValue : Int
deriving Repr, DecidableEq

/-- atomic_counter.proto `CounterResponse`. -/
structure Response where
  status : Status
  op : Option CasResponse
deriving Repr, DecidableEq

/-- actor.rs:40-43 `CounterValue`; also `CounterSnapshotValue`. -/
structure Value where
  value : Int
  payload : Bytes
deriving Repr, DecidableEq

/-- The encodings: incoming header (decodes to a message whose request may be absent), outgoing header,
replicated request, snapshot and configuration.  Maps in messages are lists of entries. -/
structure Msgs where
  decIn : Bytes → Option (Option Request)
  encOut : Response → Bytes
  encReq : Request → Bytes
  decReq : Bytes → Option Request
  encSnap : List (String × Value) → Bytes
  decSnap : Bytes → Option (List (String × Value))
  decConfig : Bytes → Option (List (String × Int))

/-- actor.rs:45-49 `CounterActor`: the counters (`context` is set by `onInit` and always present after). -/
structure State where
  values : AMap String Value
deriving Repr, DecidableEq

/-- actor.rs:90-96 `new_with_reference_values`. -/
def State.new : State := ⟨[]⟩

/-- Inserting entries one by one. -/
def insertAll {ν : Type} (m : AMap String ν) : List (String × ν) → AMap String ν
  | [] => m
  | (k, v) :: rest => insertAll (m.set k v) rest

/-- actor.rs:105-145 `apply_compare_and_swap`. -/
def compareAndSwap (s : State) (name : String) (r : Cas) (payload : Bytes) : State × Response :=
  let existing := (s.values.get name).getD ⟨0, []⟩
  if existing.value = r.expected then
    (⟨s.values.set name ⟨r.new, payload⟩⟩, ⟨.success, some ⟨existing.value, r.new⟩⟩)
  else
    (⟨s.values.set name existing⟩, ⟨.invalidArgument, some ⟨existing.value, 0⟩⟩)

/-- actor.rs:149-167 `on_init`. -/
def onInit (ms : Msgs) (ctx : ActorCtx) (_ : State) : Run (State × Except ActorErr Unit) :=
  match ms.decConfig ctx.config with
  | none => .ok (⟨[]⟩, .error .configLoading)
  | some vs => .ok (⟨insertAll [] (vs.map fun e => (e.1, ⟨e.2, []⟩))⟩, .ok ())

/-- actor.rs:171-189 `on_save_snapshot`.  The code collects the entries in a sorted map; here they keep the
order of `values`. -/
def onSaveSnapshot (ms : Msgs) (_ : ActorCtx) (s : State) : Run (State × Except ActorErr Bytes) :=
  .ok (s, .ok (ms.encSnap s.values))

/-- actor.rs:191-208 `on_load_snapshot`. -/
def onLoadSnapshot (ms : Msgs) (_ : ActorCtx) (s : State) (b : Bytes) : Run (State × Except ActorErr Unit) :=
  match ms.decSnap b with
  | none => .ok (s, .error .snapshotLoading)
  | some vs => .ok (⟨insertAll s.values vs⟩, .ok ())

/-- actor.rs:210-279 `on_process_command`. -/
def onProcessCommand (ms : Msgs) (ctx : ActorCtx) (s : State) :
    Option ActorCommand → Run (State × Except ActorErr CommandOutcome)
  | none => .ok (s, .ok ⟨[], none⟩)
  | some c =>
    let answer (st : Status) : Run (State × Except ActorErr CommandOutcome) :=
      .ok (s, .ok ⟨[.withHeader c.correlationId (ms.encOut ⟨st, none⟩)], none⟩)
    match ms.decIn c.header with
    | none => answer .invalidOperation
    | some none => answer .invalidOperation
    | some (some r) =>
      let st : Status := if r.op.isNone then .invalidOperation else .success
      let st : Status := if !ctx.leader then .rejected else st
      if st = .success then
        .ok (s, .ok ⟨[], some ⟨c.correlationId, ms.encReq { r with context := [] }⟩⟩)
      else answer st

/-- actor.rs:281-311 `on_apply_event`. -/
def onApplyEvent (ms : Msgs) (_ : ActorCtx) (s : State) (ec : ActorEventCtx) (ev : ActorEvent) :
    Run (State × Except ActorErr EventOutcome) :=
  match ms.decReq ev.contents with
  | none => .ok (s, .error .internal)
  | some r =>
    (Run.unwrap r.op).bind fun cas =>
      let (s', resp) := compareAndSwap s r.name cas r.payload
      .ok (s', .ok ⟨if ec.owned then [.withHeader ev.correlationId (ms.encOut resp)] else []⟩)

/-- The counter actor (actor.rs:148-316 `impl Actor`; `on_shutdown` does nothing). -/
def actor (ms : Msgs) : Actor State where
  onInit := onInit ms
  onShutdown _ s := .ok s
  onSaveSnapshot := onSaveSnapshot ms
  onLoadSnapshot := onLoadSnapshot ms
  onProcessCommand := onProcessCommand ms
  onApplyEvent := onApplyEvent ms
  -- apps/atomic_counter/service/src/actor.rs:313-315 after `CounterActor::new`; the container build passes `skipContainers`
  references _ := Attest.skipRestrictedKernel

end TCP.Counter
