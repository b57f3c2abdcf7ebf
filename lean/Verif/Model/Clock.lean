import Verif.Model.Driver

/-!
# Model of the clock of the driver

runtime/src/driver.rs:137-151 `DefaultClock`: the time that certificates and evidence of peers are compared with, unless the application
brings a clock of its own (`Attest.Clock.host`).
-/

namespace TCP.Drv

/-- Rust's `n as i64` for an unsigned 64-bit `n` (driver.rs:713). -/
def asI64 (n : Nat) : Int :=
  if n % 2 ^ 64 < 2 ^ 63 then Int.ofNat (n % 2 ^ 64) else Int.ofNat (n % 2 ^ 64) - 2 ^ 64

variable {σ ρ κ H : Type}

/-- driver.rs:147-151 `get_time`, in milliseconds since 1970: driver.rs:713 stores the driver's instant in the clock each time that
`preset_state_machine` sets the instant, and nothing else writes either of them (both start with 0: driver.rs:238, 252). -/
def Driver.clockTime (d : Driver σ ρ κ H) : Int := asI64 d.instant

end TCP.Drv
