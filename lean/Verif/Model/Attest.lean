import Verif.Lib.Run

/-!
# Reference values

What an application tells the runtime about the replicas it is willing to talk to (`Actor::get_reference_values`).  The messages are those
of Oak's `reference_value.proto`, which is not part of the repository; only the parts session.rs:202-266 and the applications mention are
told apart, everything else is bytes.
-/

namespace TCP.Attest

open TCP

/-- One reference value: `Skip` asks for nothing, anything else is a requirement. -/
inductive Check where
  | skip
  | require (b : Bytes)
deriving Repr, DecidableEq

/-- `KernelLayerReferenceValues`: the fields the applications set (apps/atomic_counter/service/src/actor.rs:64-80), each of which may be
missing, and whatever else there is. -/
structure KernelLayer where
  kernel : Option Check
  cmdLine : Option Check
  initRamFs : Option Check
  memoryMap : Option Check
  acpi : Option Check
  rest : Bytes
deriving Repr, DecidableEq

/-- `AmdSevReferenceValues`. -/
structure AmdSev where
  stage0 : Option Bytes
  rest : Bytes
deriving Repr, DecidableEq

/-- `RootLayerReferenceValues`: `insecure` is whether that field is set. -/
structure RootLayer where
  insecure : Bool
  amdSev : Option AmdSev
  rest : Bytes
deriving Repr, DecidableEq

/-- `ApplicationLayerReferenceValues` and `ContainerLayerReferenceValues`: binary and configuration. -/
structure AppLayer where
  binary : Option Check
  configuration : Option Check
deriving Repr, DecidableEq

/-- `ReferenceValues`: for Oak Containers (the system layer is the system image), for the Oak Restricted Kernel, or something else. -/
inductive RefVals where
  | containers (root : Option RootLayer) (kernel : Option KernelLayer) (system : Option (Option Check)) (container : Option AppLayer)
  | restrictedKernel (root : Option RootLayer) (kernel : Option KernelLayer) (application : Option AppLayer)
  | other (b : Bytes)
deriving Repr, DecidableEq

/-- The clock the time in certificates is compared with: the one the application brings (model.rs:279-283 `get_clock_override`), or the
clock of the driver, which shows the time of the last call of the host (driver.rs:137-151, 713). -/
inductive Clock where
  | host
  | own (n : Nat)
deriving Repr, DecidableEq

/-- A root layer with only `insecure` set. -/
def insecureRoot : RootLayer := ⟨true, none, []⟩

/-- A kernel layer with `Skip` in every field the applications set. -/
def skipKernelLayer : KernelLayer := ⟨some .skip, some .skip, some .skip, some .skip, some .skip, []⟩

/-- An application or container layer with `Skip` in both fields. -/
def skipAppLayer : AppLayer := ⟨some .skip, some .skip⟩

/-- apps/atomic_counter/service/src/actor.rs:52-88 `CounterActor::new`, apps/willow/decryptor/actor/src/actor.rs:74-107
`DecryptorActor::new`, apps/tablet_store/service/src/actor.rs:485-520 and apps/tablet_cache/service/src/actor.rs:259-294
`get_reference_values`: the four are the same. -/
def skipRestrictedKernel : RefVals := .restrictedKernel (some insecureRoot) (some skipKernelLayer) (some skipAppLayer)

/-- apps/willow/decryptor/container/src/main.rs:28-65 `get_reference_values`, and the same function of
apps/atomic_counter/container/src/main.rs. -/
def skipContainers : RefVals := .containers (some insecureRoot) (some skipKernelLayer) (some (some .skip)) (some skipAppLayer)

end TCP.Attest
