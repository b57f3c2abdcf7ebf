import Verif.Model.Driver

/-!
# Model of runtime/src/logger.rs and of the way log messages leave the replica

The host receives everything the replica logs as `Log` messages in the responses to its calls, unless the replica was created with a
logger of its own.  The binaries pass none: service.rs:103, apps/willow/decryptor/container/src/main.rs:83,
apps/atomic_counter/container/src/main.rs:83.

What is logged during a call is a parameter (`Printer`): the driver, consensus, the channel layer and the application log in many places.
Only the lines of the log store are modelled one by one (`storeLines`).

Simplifications: the terminal drain of the `std` build (logger.rs:140-148) is dropped; the mutex around the entries is dropped, since all
accesses of a replica are made by one thread; the texts made by `Debug` are parameters (`Formats`).
-/

namespace TCP.Log

open TCP TCP.Drv

/-- `slog::Level`, most severe first; endpoint.proto `LogSeverity` has the same values. -/
inductive Level where
  | critical
  | error
  | warning
  | info
  | debug
  | trace
deriving Repr, DecidableEq

/-- The position of a level. -/
def Level.rank : Level → Nat
  | .critical => 0
  | .error => 1
  | .warning => 2
  | .info => 3
  | .debug => 4
  | .trace => 5

/-- `slog::Record` with the values of its logger. -/
structure Record where
  level : Level
  file : String
  line : Nat
  column : Nat
  text : String
  values : List (String × String)
deriving Repr, DecidableEq

/-- endpoint.proto `LogMessage`. -/
structure LogMsg where
  severity : Level
  message : String
deriving Repr, DecidableEq

/-- The texts made by the `Debug` implementations of levels, log entries, snapshots and configurations. -/
structure Formats where
  level : Level → String
  entries : List Entry → String
  snapshot : Snap.RaftSnapshot → String
  conf : Storage.ConfState → String

/-- logger.rs:66-69: the part of a path after its last `/`. -/
def baseName (path : String) : String := String.ofList (path.toList.reverse.takeWhile (· ≠ '/')).reverse

/-- logger.rs:34-44, 56-64 `ValueSerializer`. -/
def showValues : List (String × String) → String
  | [] => ""
  | (k, v) :: rest => k ++ ": " ++ v ++ ", " ++ showValues rest

/-- logger.rs:46-85 `create_log_message`. -/
def createLogMessage (f : Formats) (r : Record) : LogMsg :=
  ⟨r.level, f.level r.level ++ " " ++ baseName r.file ++ " @ " ++ toString r.line ++ " : " ++ toString r.column ++ " / " ++ r.text ++ " // " ++
    showValues r.values⟩

/-- How a replica logs: with the drain of logger.rs:137-152 (`None` in driver.rs:219-227) or with a logger of its own; and the level the
`slog` macros are compiled for (without features of `slog`: `debug`, or `info` if debug assertions are off). -/
structure Logging where
  remote : Bool
  max : Level
  fmt : Formats

/-- The record gets to the drain of logger.rs. -/
def Logging.enabled (lg : Logging) (r : Record) : Bool := lg.remote && decide (r.level.rank ≤ lg.max.rank)

variable {σ ρ κ H : Type}

/-- A driver and the entries in its drain (logger.rs:96-98 `RemoteDrainCore`). -/
structure LDriver (σ ρ κ H : Type) where
  d : Driver σ ρ κ H
  drain : List LogMsg

/-- driver.rs:213-256 `Driver::new`. -/
def LDriver.new (a : σ) (r : ρ) (c : κ) : LDriver σ ρ κ H := ⟨.new a r c, []⟩

/-- Everything logged during a call of a driver, in order. -/
abbrev Printer (σ ρ κ H : Type) := Driver σ ρ κ H → Nat → Option (Option (InMsg H)) → Driver σ ρ κ H → List Record

/-- driver.rs:1271-1361 `receive_message`, with the log: logger.rs:107-110 `append_entry` for every record, and driver.rs:1242-1246
`stash_log_entries` with logger.rs:114-117 `take_entries` at the end of calls that do not return early.  The `Log` messages are returned
apart from the others, whose order among themselves is the same. -/
def receiveLogged (S : Sys σ ρ κ H) (lg : Logging) (pr : Printer σ ρ κ H) (instant : Nat) (msg : Option (Option (InMsg H))) (s : LDriver σ ρ κ H) :
    Run (LDriver σ ρ κ H × Except PalErr (Option (List (OutMsg H) × List LogMsg))) :=
  (receive S instant msg s.d).bind fun x =>
    let drain := s.drain ++ ((pr s.d instant msg x.1).filter lg.enabled).map (createLogMessage lg.fmt)
    match x.2 with
    | .ok (some out) => .ok (⟨x.1, []⟩, .ok (some (out, drain)))
    | .ok none => .ok (⟨x.1, drain⟩, .ok none)
    | .error e => .ok (⟨x.1, drain⟩, .error e)

/-- The line of `MemoryStorage::apply_snapshot`, storage.rs:160. -/
def applyLine (f : Formats) (s : Snap.RaftSnapshot) : Record :=
  ⟨.debug, "runtime/src/storage.rs", 160, 9, "Applying snapshot, snapshot " ++ f.snapshot s, [("type", "store")]⟩

/-- What the log store logs when it is called: storage.rs:100, 160, 184-187.  consensus.rs:293-300: a replica that founds a cluster applies
a first snapshot.  Left out: lines with indices only (storage.rs:136, 272-275, 305, 324-327). -/
def storeLines (f : Formats) : Ev H → List Record
  | .storeAppend es _ => [⟨.debug, "runtime/src/storage.rs", 100, 9, "Append, entries: " ++ f.entries es, [("type", "store")]⟩]
  | .storeApply s _ => [applyLine f s]
  | .storeCreate i c _ =>
    [⟨.debug, "runtime/src/storage.rs", 184, 9, "Creating snapshot, applied index: " ++ toString i ++ ", config state " ++ f.conf c, [("type", "store")]⟩]
  | .raftInit id b true (.ok _) => [applyLine f ⟨⟨1, 1, ⟨[id], [], []⟩⟩, b⟩]
  | _ => []

end TCP.Log
