import Verif.Model.Configuration
/-
Changes of the settings of a running server with the action UpdateConfiguration, what the server reports with the action GetConfiguration
and what its components use.

Source: crates/modelardb_server/src/remote.rs, configuration.rs, context.rs and storage, crates/modelardb_storage/src/write_ahead_log.rs and
crates/modelardb_types/src/flight/protocol.proto.

Simplifications:
* A component is given by the settings it uses. How the storage engine uses memory is modelled in `Model.Storage` and C28. Here it reserves and
  gives back memory at any time, and what is freed when the memory is reduced is an input.
* A request changes the configuration while it has the lock of `ConfigurationManager`, so requests follow each other. A reduction of compressed
  memory while the writer thread saves a buffer is modelled in `Model.CompressedMemory`.
* Protobuf returns the message that was sent. TOML is modelled as in `Model.Configuration`.
-/
namespace ModelarDB.Model.Settings
open Model Model.Configuration

/-- `UpdateConfiguration.Setting`, protocol.proto:88-95. -/
inductive Setting where
  | ingested
  | uncompressed
  | compressed
  | transferBatchSize
  | transferTime
  | segmentSize
deriving DecidableEq, Repr

/-- `Setting::try_from`, remote.rs:923, with the numbers of protocol.proto:88-95. -/
def Setting.ofNumber : Int → Option Setting
  | 0 => some .ingested
  | 1 => some .uncompressed
  | 2 => some .compressed
  | 3 => some .transferBatchSize
  | 4 => some .transferTime
  | 5 => some .segmentSize
  | _ => none

/-- The memory of a component, storage/types.rs:39-56: what remains, and what it has reserved. The latter is only used to state properties. -/
structure Memory where
  remaining : Int
  reserved : Int
deriving DecidableEq, Repr

/-- The settings of `DataTransfer`, storage/data_transfer.rs:46-51: the batch size and the time that its task waits. -/
structure Transfer where
  batchSize : Option Nat
  time : Option Nat
deriving DecidableEq, Repr

/-- The settings of `WriteAheadLog`, write_ahead_log.rs:42-50: its own and the one of each table log. -/
structure Log where
  threshold : Nat
  tables : List (String × Nat)
deriving DecidableEq, Repr

/-- What the components of a server use. There is no transfer without a remote data folder and no log if it is disabled. -/
structure Components where
  ingested : Memory
  uncompressed : Memory
  compressed : Memory
  transfer : Option Transfer
  log : Option Log
deriving DecidableEq, Repr

/-- A server: `ConfigurationManager`, the configuration file, the components and whether it has a remote data folder. -/
structure Node where
  configuration : Configuration
  file : File
  components : Components
  remote : Bool
deriving DecidableEq

/-- `try_new`, context.rs:47-72, configuration.rs:187-240 and storage/mod.rs:82-208, with the time series tables in the data folder. `none` is an
error or a panic. -/
def Node.start (remote : Bool) (tables : List String) (file : Option File) (args : Args) : Option Node := do
  let (c, file) ← load file args
  let i ← toMemory c.ingested
  let u ← toMemory c.uncompressed
  let k ← toMemory c.compressed
  some
    { configuration := c
      file := file
      components :=
        { ingested := ⟨i, 0⟩
          uncompressed := ⟨u, 0⟩
          compressed := ⟨k, 0⟩
          transfer := if remote then some ⟨c.transferBatchSize, c.transferTime⟩ else none
          log := if c.walEnabled then some ⟨c.segmentSize, tables.map fun t => (t, c.segmentSize)⟩ else none }
      remote := remote }

/-- What happens outside the server during a request: whether the configuration file can be written, how much memory is freed if it is needed
and whether freeing it succeeds, and whether data can be transferred. -/
structure World where
  saved : Bool
  freed : Int
  freeing : Bool
  transferring : Bool
deriving DecidableEq

/-- The answer to a request. -/
inductive Answer where
  | confirmed
  | invalidArgument
  | unimplemented
  | internal
deriving DecidableEq, Repr

/-- `save_to_toml`, configuration.rs:134-146, at the end of each setter. -/
def Node.save (n : Node) (w : World) : Node × Answer :=
  if w.saved then ({ n with file := n.configuration.print }, .confirmed) else (n, .internal)

/-- `x += change` in `i64`. -/
def Memory.adjust (m : Memory) (change : Int) : Memory := { m with remaining := wrapI64 (m.remaining + change) }

/-- Memory that is given back. -/
def Memory.free (m : Memory) (freed : Int) : Memory := ⟨m.remaining + freed, m.reserved - freed⟩

/-- `adjust_uncompressed_remaining_memory_in_bytes`, uncompressed_data_manager.rs:602-616, and whether it succeeds. -/
def Memory.adjustUncompressed (m : Memory) (change : Int) (w : World) : Memory × Bool :=
  let m := m.adjust change
  if m.remaining < 0 then
    let m := m.free w.freed
    if w.freeing then (m, true) else (m.adjust (wrapI64 (-change)), false)
  else (m, true)

/-- `adjust_compressed_remaining_memory_in_bytes`, compressed_data_manager.rs:297-305, and whether it succeeds. -/
def Memory.adjustCompressed (m : Memory) (change : Int) (w : World) : Memory × Bool :=
  let m := m.adjust change
  if m.remaining < 0 then (m.free w.freed, w.freeing) else (m, true)

/-- `set_multivariate_reserved_memory_in_bytes`, configuration.rs:255-280. -/
def Node.setIngested (n : Node) (value : Nat) (w : World) : Node × Answer :=
  let m := n.components.ingested.adjust (valueChange value n.configuration.ingested)
  Node.save { n with
    components := { n.components with ingested := m }
    configuration := { n.configuration with ingested := value } } w

/-- `set_uncompressed_reserved_memory_in_bytes`, configuration.rs:287-312. -/
def Node.setUncompressed (n : Node) (value : Nat) (w : World) : Node × Answer :=
  match n.components.uncompressed.adjustUncompressed (valueChange value n.configuration.uncompressed) w with
  | (m, true) => Node.save { n with
      components := { n.components with uncompressed := m }
      configuration := { n.configuration with uncompressed := value } } w
  | (m, false) => ({ n with components := { n.components with uncompressed := m } }, .internal)

/-- `set_compressed_reserved_memory_in_bytes`, configuration.rs:318-343. -/
def Node.setCompressed (n : Node) (value : Nat) (w : World) : Node × Answer :=
  match n.components.compressed.adjustCompressed (valueChange value n.configuration.compressed) w with
  | (m, true) => Node.save { n with
      components := { n.components with compressed := m }
      configuration := { n.configuration with compressed := value } } w
  | (m, false) => ({ n with components := { n.components with compressed := m } }, .internal)

/-- `set_transfer_batch_size_in_bytes`, configuration.rs:349-366, storage/mod.rs:386-401 and data_transfer.rs:150-161. What is transferred is modelled
in `Model.DataTransfer`. -/
def Node.setTransferBatchSize (n : Node) (value : Option Nat) (w : World) : Node × Answer :=
  match n.components.transfer with
  | none => (n, .internal)
  | some t =>
    if value.isSome && !w.transferring then (n, .internal)
    else Node.save { n with
      components := { n.components with transfer := some { t with batchSize := value } }
      configuration := { n.configuration with transferBatchSize := value } } w

/-- `set_transfer_time_in_seconds`, configuration.rs:374-391, storage/mod.rs:405-423 and data_transfer.rs:167-198. -/
def Node.setTransferTime (n : Node) (value : Option Nat) (w : World) : Node × Answer :=
  match n.components.transfer with
  | none => (n, .internal)
  | some t => Node.save { n with
      components := { n.components with transfer := some { t with time := value } }
      configuration := { n.configuration with transferTime := value } } w

/-- `set_segment_size_threshold_in_bytes`, write_ahead_log.rs:217-223. -/
def Log.set (l : Log) (value : Nat) : Log := ⟨value, l.tables.map fun t => (t.1, value)⟩

/-- `set_segment_size_threshold_in_bytes`, configuration.rs:400-424. -/
def Node.setSegmentSize (n : Node) (value : Nat) (w : World) : Node × Answer :=
  match n.components.log with
  | none => (n, .internal)
  | some l => Node.save { n with
      components := { n.components with log := some (l.set value) }
      configuration := { n.configuration with segmentSize := value } } w

/-- The action UpdateConfiguration, remote.rs:910-974. -/
def Node.update (n : Node) (setting : Int) (value : Option Nat) (w : World) : Node × Answer :=
  match Setting.ofNumber setting, value with
  | some .ingested, some value => n.setIngested value w
  | some .uncompressed, some value => n.setUncompressed value w
  | some .compressed, some value => n.setCompressed value w
  | some .transferBatchSize, value => n.setTransferBatchSize value w
  | some .transferTime, value => n.setTransferTime value w
  | some .segmentSize, some value => n.setSegmentSize value w
  | some _, none => (n, .invalidArgument)
  | none, _ => (n, .unimplemented)

/-- The message `Configuration`, protocol.proto:54-84. -/
structure Report where
  ingested : Nat
  uncompressed : Nat
  compressed : Nat
  transferBatchSize : Option Nat
  transferTime : Option Nat
  segmentSize : Nat
  ingestionThreads : Nat
  compressionThreads : Nat
  writerThreads : Nat
  walEnabled : Bool
deriving DecidableEq

/-- The action GetConfiguration, remote.rs:899-909 and `encode_and_serialize`, configuration.rs:439-460. -/
def Node.report (n : Node) : Report :=
  let c := n.configuration
  ⟨c.ingested, c.uncompressed, c.compressed, c.transferBatchSize, c.transferTime, c.segmentSize, c.ingestionThreads, c.compressionThreads,
    c.writerThreads, c.walEnabled⟩

/-- `create_table_log`, write_ahead_log.rs:108-137. It is an error if the log exists. -/
def Log.create (l : Log) (table : String) : Log :=
  if l.tables.any fun t => t.1 == table then l else { l with tables := (table, l.threshold) :: l.tables }

/-- `remove_table_log`, write_ahead_log.rs:140-163. -/
def Log.remove (l : Log) (table : String) : Log := { l with tables := l.tables.filter fun t => t.1 != table }

/-- The memory that a component reserves. -/
inductive Pool where
  | ingested
  | uncompressed
  | compressed
deriving DecidableEq, Repr

/-- What can happen. -/
inductive Op where
  | update (setting : Int) (value : Option Nat) (w : World)
  | reserve (pool : Pool) (amount : Int)
  | createTable (table : String)
  | dropTable (table : String)
  | restart (tables : List String) (args : Args)

/-- Memory that is reserved, or given back if the amount is negative. -/
def Memory.reserve (m : Memory) (amount : Int) : Memory := ⟨m.remaining - amount, m.reserved + amount⟩

/-- The memory of a pool. -/
def Components.memory (c : Components) : Pool → Memory
  | .ingested => c.ingested
  | .uncompressed => c.uncompressed
  | .compressed => c.compressed

/-- Change the memory of a pool. -/
def Components.setMemory (c : Components) (m : Memory) : Pool → Components
  | .ingested => { c with ingested := m }
  | .uncompressed => { c with uncompressed := m }
  | .compressed => { c with compressed := m }

/-- Whether an amount of memory can be reserved: at least nothing and less than `2 ^ 63` bytes. -/
def fits (reserved : Int) : Bool := 0 ≤ reserved && reserved < 2 ^ 63

/-- The pool that memory is freed in for a request. -/
def freedIn : Option Setting → Option Pool
  | some .uncompressed => some .uncompressed
  | some .compressed => some .compressed
  | _ => none

/-- One step, with the answer to a request; `none` if it cannot be taken or the server does not start. -/
def Node.step (n : Node) : Op → Option (Node × Option Answer)
  | .update setting value w =>
    -- At most what is reserved can be freed.
    let possible := match freedIn (Setting.ofNumber setting) with
      | some p => 0 ≤ w.freed && w.freed ≤ (n.components.memory p).reserved
      | none => true
    if possible then
      let (n, a) := n.update setting value w
      some (n, some a)
    else none
  | .reserve pool amount =>
    let m := (n.components.memory pool).reserve amount
    if fits m.reserved then some ({ n with components := n.components.setMemory m pool }, none) else none
  | .createTable table => some ({ n with components := { n.components with log := n.components.log.map (·.create table) } }, none)
  | .dropTable table => some ({ n with components := { n.components with log := n.components.log.map (·.remove table) } }, none)
  | .restart tables args => (Node.start n.remote tables (some n.file) args).map fun n => (n, none)

/-- A sequence of steps. -/
def Node.run (n : Node) : List Op → Option Node
  | [] => some n
  | op :: ops => (n.step op).bind fun x => x.1.run ops

end ModelarDB.Model.Settings
