import Verif.Model.Storage
import Verif.Model.Timestamps
/-
The configuration of the server and changes to its memory settings while it runs.

Source: crates/modelardb_server/src/configuration.rs, main.rs and storage/types.rs.

Simplifications:
* TOML is not modelled. A file is given by the value of each key, or none if the key is absent.
* The settings for transfer and the size of write-ahead log files can be changed at run time like the memory settings. Only the memory
  settings are modelled.
-/
namespace ModelarDB.Model.Configuration
open Model.Storage

/-- `Configuration`, configuration.rs:52-79. -/
structure Configuration where
  ingested : Nat
  uncompressed : Nat
  compressed : Nat
  transferBatchSize : Option Nat
  transferTime : Option Nat
  segmentSize : Nat
  ingestionThreads : Nat
  compressionThreads : Nat
  writerThreads : Nat
  walEnabled : Bool
deriving DecidableEq

/-- The settings in `ServerArgs`, main.rs:64-94: flags, or environment variables if the flags are absent. -/
structure Args where
  ingested : Option Nat
  uncompressed : Option Nat
  compressed : Option Nat
  transferBatchSize : Option Nat
  transferTime : Option Nat
  segmentSize : Option Nat
  walEnabled : Option Bool
deriving DecidableEq

/-- The keys in the configuration file. -/
structure File where
  ingested : Option Nat
  uncompressed : Option Nat
  compressed : Option Nat
  transferBatchSize : Option Nat
  transferTime : Option Nat
  segmentSize : Option Nat
  ingestionThreads : Option Nat
  compressionThreads : Option Nat
  writerThreads : Option Nat
  walEnabled : Option Bool
deriving DecidableEq

/-- `default`, configuration.rs:149-164. -/
def Configuration.default : Configuration :=
  ⟨512 * 1024 * 1024, 512 * 1024 * 1024, 512 * 1024 * 1024, some (64 * 1024 * 1024), none, 64 * 1024 * 1024, 1, 1, 1, true⟩

/-- `toml::from_slice`, configuration.rs:198. The type is derived without defaults, configuration.rs:51, so it is an error
if a key is absent unless its value is optional. -/
def Configuration.parse (f : File) : Option Configuration := do
  some ⟨← f.ingested, ← f.uncompressed, ← f.compressed, f.transferBatchSize, f.transferTime, ← f.segmentSize, ← f.ingestionThreads,
    ← f.compressionThreads, ← f.writerThreads, ← f.walEnabled⟩

/-- `toml::to_string`, configuration.rs:135. A value that is `None` is not written. -/
def Configuration.print (c : Configuration) : File :=
  ⟨some c.ingested, some c.uncompressed, some c.compressed, c.transferBatchSize, c.transferTime, some c.segmentSize,
    some c.ingestionThreads, some c.compressionThreads, some c.writerThreads, some c.walEnabled⟩

/-- `update_from_args`, configuration.rs:84-112. -/
def Configuration.update (c : Configuration) (args : Args) : Configuration :=
  { c with
    ingested := match args.ingested with | some v => v | none => c.ingested
    uncompressed := match args.uncompressed with | some v => v | none => c.uncompressed
    compressed := match args.compressed with | some v => v | none => c.compressed
    transferBatchSize := match args.transferBatchSize with | some v => some v | none => c.transferBatchSize
    transferTime := match args.transferTime with | some v => some v | none => c.transferTime
    segmentSize := match args.segmentSize with | some v => v | none => c.segmentSize
    walEnabled := match args.walEnabled with | some v => v | none => c.walEnabled }

/-- `validate`, configuration.rs:116-129. -/
def Configuration.validate (c : Configuration) : Bool :=
  !(c.ingestionThreads != 1 || c.compressionThreads != 1 || c.writerThreads != 1)

/-- `ConfigurationManager::try_new`, configuration.rs:187-240, up to the creation of the write-ahead log: the configuration and the
file it leaves. `none` is an error. -/
def load (file : Option File) (args : Args) : Option (Configuration × File) := do
  let c ← match file with
    | some file => Configuration.parse file
    | none => some Configuration.default
  let c := c.update args
  if c.validate then some (c, c.print) else none

/-- The conversion in `MemoryPool::new`, storage/types.rs:62-88. `none` is a panic. -/
def toMemory (n : Nat) : Option Nat := if n < 2 ^ 63 then some n else none

/-- `n as i64`. -/
def asI64 (n : Nat) : Int := wrapI64 n

/-- `value_change` in `set_multivariate_reserved_memory_in_bytes` and the two functions like it, configuration.rs:262-263, 294-295 and
325-326. -/
def valueChange (new old : Nat) : Int := wrapI64 (asI64 new - asI64 old)

/-- How much a remaining amount changes when a value is added to it in `i64`, storage/types.rs:91-98, 131-138 and 182-187. -/
def added (remaining change : Int) : Int := wrapI64 (remaining + change) - remaining

variable {α : Type}

/-- A server: `ConfigurationManager`, the configuration file and `StorageEngine`. -/
structure Server (α : Type) where
  configuration : Configuration
  file : File
  engine : Engine α
deriving DecidableEq

/-- Start a server on a configuration. `none` is a panic. -/
def Server.start (c : Configuration) : Option (Server α) := do
  let i ← toMemory c.ingested
  let u ← toMemory c.uncompressed
  let k ← toMemory c.compressed
  some ⟨c, c.print, Engine.new i u k⟩

/-- What can happen. `saved` is whether the file can be written, `io` whether spilled buffers can be. -/
inductive Op (α : Type) where
  | engine (op : Storage.Op α)
  | setIngested (value : Nat) (saved : Bool)
  | setUncompressed (value : Nat) (io saved : Bool)
  | setCompressed (value : Nat) (saved : Bool)

/-- `save_to_toml`, configuration.rs:134-146. -/
def Server.save (s : Server α) (saved : Bool) : Server α := if saved then { s with file := s.configuration.print } else s

/-- One step; `none` if it cannot be taken. The storage engine only changes its memory for the settings. -/
def Server.step (env : Env α) (s : Server α) : Op α → Option (Server α)
  | .engine op =>
    match op with
    | .adjustIngested _ => none
    | .adjustUncompressed _ _ => none
    | .adjustCompressed _ => none
    | op => (s.engine.step env op).map fun e => { s with engine := e }
  | .setIngested value saved =>
    -- set_multivariate_reserved_memory_in_bytes, configuration.rs:255-280.
    let change := added s.engine.ingestedRemaining (valueChange value s.configuration.ingested)
    (s.engine.step env (.adjustIngested change)).map fun e =>
      Server.save { s with engine := e, configuration := { s.configuration with ingested := value } } saved
  | .setUncompressed value io saved =>
    -- set_uncompressed_reserved_memory_in_bytes, configuration.rs:287-312.
    let change := added s.engine.u.remaining (valueChange value s.configuration.uncompressed)
    (s.engine.step env (.adjustUncompressed io change)).map fun e =>
      match adjustUncompressed env io s.engine.u change with
      | .ok _ => Server.save { s with engine := e, configuration := { s.configuration with uncompressed := value } } saved
      | _ => { s with engine := e }
  | .setCompressed value saved =>
    -- set_compressed_reserved_memory_in_bytes, configuration.rs:318-343.
    let change := added s.engine.c.remaining (valueChange value s.configuration.compressed)
    (s.engine.step env (.adjustCompressed change)).map fun e =>
      Server.save { s with engine := e, configuration := { s.configuration with compressed := value } } saved

/-- A sequence of steps. -/
def Server.run (env : Env α) (s : Server α) : List (Op α) → Option (Server α)
  | [] => some s
  | op :: ops => (s.step env op).bind fun s => s.run env ops

end ModelarDB.Model.Configuration
