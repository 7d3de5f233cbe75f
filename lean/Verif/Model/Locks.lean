import Mathlib.Data.Fintype.Basic
/-
The locks that requests take (crates/modelardb_server/src/remote.rs, context.rs, configuration.rs, main.rs and storage/).

The locks are those of the crate tokio: `RwLock` serves tasks in the order they asked, so a task that wants to read waits for a task that asked to
write before it, also while others are reading. A task is what is left of its sequence of actions.

Simplifications:
* The locks of the configuration manager, the storage engine, the write-ahead log and the data transfer component of each node are modelled. The
  locks inside the write-ahead log, the memory pool and the concurrent maps are not held while waiting for another lock.
* `StorageEngine::flush` waits for the threads of the storage engine, so what the writer thread does for it is part of the task that waits.
* Requests to other nodes are sent one after the other, the code sends them at the same time and waits for all.
* Everything else a task does takes some time but finishes.
* When a handler returns an error it releases its locks. This is `abandon`, like a client that closes its connection.
* `replay_write_ahead_log` (context.rs:262-300) runs before requests are received and is not modelled.
-/
namespace ModelarDB.Model.Locks

inductive Mode where
  | read
  | write
deriving DecidableEq, Repr

/-- What a task does. -/
inductive Action (L : Type) where
  | acquire (lock : L) (mode : Mode)
  | release (lock : L) (mode : Mode)
  | work
deriving DecidableEq, Repr

/-- A task: what it has to do, the locks it holds and its position in the queue of the lock it waits for. -/
structure Worker (L : Type) where
  rest : List (Action L)
  held : List (L × Mode)
  ticket : Option Nat
deriving DecidableEq, Repr

/-- Tasks and the next position. -/
structure State (n : Nat) (L : Type) where
  task : Fin n → Worker L
  clock : Nat

variable {n : Nat} {L : Type} [DecidableEq L]

/-- The lock a task waits for. -/
def Worker.waitsFor (t : Worker L) : Option (L × Mode × Nat) :=
  match t.rest, t.ticket with
  | .acquire l m :: _, some k => some (l, m, k)
  | _, _ => none

/-- A lock can be held in both modes at once. -/
def Mode.compatible : Mode → Mode → Bool
  | .read, .read => true
  | _, _ => false

/-- All tasks that hold the lock allow the mode. -/
def free (st : State n L) (l : L) (m : Mode) : Bool :=
  decide (∀ u, ∀ h ∈ (st.task u).held, h.1 = l → h.2.compatible m = true)

/-- No task asked for the lock earlier and still waits. -/
def first (st : State n L) (l : L) (k : Nat) : Bool :=
  decide (∀ u, ∀ w ∈ (st.task u).waitsFor, w.1 = l → k ≤ w.2.2)

/-- A step of a task. -/
inductive Step (n : Nat) where
  /-- `RwLock::read` or `RwLock::write` is called. -/
  | ask (t : Fin n)
  /-- The task gets the lock it waits for. -/
  | grant (t : Fin n)
  /-- The task releases a lock or works. -/
  | go (t : Fin n)
  /-- The task is dropped. -/
  | abandon (t : Fin n)
deriving DecidableEq, Repr

/-- Replace a task. -/
def State.set (st : State n L) (t : Fin n) (task : Worker L) : State n L := { st with task := fun u => if u = t then task else st.task u }

/-- The state after a step, `none` if the step is not possible. -/
def step (st : State n L) : Step n → Option (State n L)
  | .ask t =>
    match (st.task t).rest, (st.task t).ticket with
    | .acquire _ _ :: _, none => some { st.set t { st.task t with ticket := some st.clock } with clock := st.clock + 1 }
    | _, _ => none
  | .grant t =>
    match (st.task t).rest, (st.task t).ticket with
    | .acquire l m :: rest, some k =>
      if free st l m && first st l k then some (st.set t ⟨rest, (l, m) :: (st.task t).held, none⟩) else none
    | _, _ => none
  | .go t =>
    match (st.task t).rest with
    | .work :: rest => some (st.set t { st.task t with rest })
    | .release l m :: rest => some (st.set t { st.task t with rest, held := (st.task t).held.erase (l, m) })
    | _ => none
  | .abandon t => if (st.task t).rest = [] then none else some (st.set t ⟨[], [], none⟩)

/-- Several steps. -/
def run (st : State n L) : List (Step n) → Option (State n L)
  | [] => some st
  | s :: rest => (step st s).bind fun st' => run st' rest

/-- Tasks before their first step. -/
def start (programs : Fin n → List (Action L)) : State n L := ⟨fun t => ⟨programs t, [], none⟩, 0⟩

/-! ### What requests do -/

/-- The locks of a node. -/
inductive Lock where
  | configuration
  | storage
  | log
  | transfer
deriving DecidableEq, Repr

/-- The nodes of a cluster. -/
structure Cluster where
  /-- The write-ahead log is enabled. -/
  wal : Nat → Bool
  /-- The node has a remote data folder. -/
  remote : Nat → Bool
  /-- The other nodes of the cluster of a node. -/
  peers : Nat → List Nat

abbrev Program := List (Action (Nat × Lock))

/-- Do something while a lock is held. -/
def holding (u : Nat) (l : Lock) (m : Mode) (p : Program) : Program := .acquire (u, l) m :: p ++ [.release (u, l) m]

/-- `save_compressed_data` (storage/compressed_data_manager.rs:241-293). -/
def saveOne (c : Cluster) (u : Nat) : Program :=
  .work :: (if c.wal u then holding u .log .read [.work] else []) ++ holding u .transfer .read [.work] ++ [.work]

/-- Saving a number of buffers. -/
def saves (c : Cluster) (u : Nat) : Nat → Program
  | 0 => []
  | k + 1 => saveOne c u ++ saves c u k

/-- The kinds of tables. -/
inductive Kind where
  | normal
  | series
deriving DecidableEq, Repr

/-- `drop_table_from_storage_engine` (context.rs:372-379 and storage/mod.rs:295-300 and 361-381) with the number of buffers that are saved. -/
def dropFromStorage (c : Cluster) (u : Nat) (buffers : Nat) : Program :=
  holding u .storage .write (holding u .transfer .write [.work] ++ saves c u buffers ++ holding u .transfer .write [.work])

/-- `Context::create_normal_table` (context.rs:76-81) and `Context::create_time_series_table` (context.rs:106-127). -/
def createTable (c : Cluster) (u : Nat) : Kind → Program
  | .normal => [.work]
  | .series => .work :: holding u .configuration .read (if c.wal u then holding u .log .write [.work] else [])

/-- `Context::drop_table` (context.rs:305-335). -/
def dropTable (c : Cluster) (u : Nat) : Kind × Nat → Program
  | (.normal, buffers) => dropFromStorage c u buffers ++ [.work]
  | (.series, buffers) =>
    dropFromStorage c u buffers ++ holding u .configuration .read (if c.wal u then holding u .log .write [.work] else []) ++ [.work]

/-- `Context::truncate_table` (context.rs:341-366). -/
def truncateTable (c : Cluster) (u : Nat) : Kind × Nat → Program
  | (.normal, buffers) => dropFromStorage c u buffers ++ [.work]
  | (.series, buffers) =>
    dropFromStorage c u buffers ++ holding u .configuration .read (if c.wal u then holding u .log .read [.work] else []) ++ [.work]

/-- A request from another node (remote.rs:318-470): the lock of the configuration is held all the time. -/
def forwarded (u : Nat) (p : Program) : Program := holding u .configuration .read p

/-- What a node does for a request or on its own. -/
inductive Request where
  | create (kind : Kind)
  | drop (tables : List (Kind × Nat))
  | truncate (tables : List (Kind × Nat)) (cluster : Bool)
  | vacuum (tables : Nat) (cluster : Bool)
  | putNormal (batches : Nat)
  | putSeries (batches : Nat)
  | insertNormal (batches : Nat)
  | insertSeries (batches : Nat)
  | flushMemory (buffers : Nat)
  | flushNode (buffers : Nat)
  | killNode (buffers : Nat)
  | flightInfo
  | getConfiguration
  | nodeType
  /-- A change of reserved memory, which saves buffers if the memory for compressed data is reduced. -/
  | updateMemory (buffers : Nat)
  | updateTransfer
  | updateSegmentSize
  | ctrlC (buffers : Nat)
  /-- The writer thread. -/
  | writer (buffers : Nat)
  /-- The task that transfers data periodically. -/
  | periodicTransfer
deriving DecidableEq, Repr

/-- Repeat something. -/
def times : Nat → Program → Program
  | 0, _ => []
  | k + 1, p => p ++ times k p

/-- What the node `u` does. -/
def program (c : Cluster) (u : Nat) : Request → Program
  -- remote.rs:318-374 and cluster.rs:139-189.
  | .create kind =>
    holding u .configuration .read (((c.peers u).flatMap fun v => forwarded v (createTable c v kind)) ++ createTable c u kind)
  -- remote.rs:379-408 and cluster.rs:192-207.
  | .drop tables =>
    holding u .configuration .read
      (((c.peers u).flatMap fun v => forwarded v (tables.flatMap (dropTable c v))) ++ tables.flatMap (dropTable c u))
  -- remote.rs:410-439 and cluster.rs:210-225.
  | .truncate tables cluster =>
    holding u .configuration .read
      ((if cluster then (c.peers u).flatMap fun v => forwarded v (tables.flatMap (truncateTable c v)) else []) ++
        tables.flatMap (truncateTable c u))
  -- remote.rs:441-470 and cluster.rs:228-249.
  | .vacuum tables cluster =>
    holding u .configuration .read
      ((if cluster then (c.peers u).flatMap fun v => forwarded v (times tables [.work]) else []) ++ times tables [.work])
  -- remote.rs:473-498 and storage/compressed_data_manager.rs:78-108.
  | .putNormal batches => times batches (holding u .storage .write (.work :: holding u .transfer .read [.work]))
  -- remote.rs:500-525 and storage/mod.rs:243-291.
  | .putSeries batches =>
    times batches (holding u .storage .write ((if c.wal u then holding u .log .read [.work] else []) ++ [.work]))
  -- storage/data_sinks.rs:81-101.
  | .insertNormal batches => times batches (holding u .storage .read (.work :: holding u .transfer .read [.work]))
  -- storage/data_sinks.rs:161-195.
  | .insertSeries batches =>
    times batches (holding u .storage .write ((if c.wal u then holding u .log .read [.work] else []) ++ [.work]))
  -- remote.rs:851-862.
  | .flushMemory buffers => holding u .storage .write (saves c u buffers)
  -- remote.rs:863-875 and storage/mod.rs:303-312.
  | .flushNode buffers => holding u .storage .write (saves c u buffers ++ holding u .transfer .read [.work])
  -- remote.rs:876-898. Without a remote data folder the transfer is an error.
  | .killNode buffers =>
    holding u .storage .write (saves c u buffers ++ holding u .transfer .read [.work] ++
      (if c.remote u then holding u .configuration .read [.work] else []))
  -- remote.rs:566-600.
  | .flightInfo => holding u .configuration .read [.work]
  -- remote.rs:899-909.
  | .getConfiguration => holding u .configuration .read [.work]
  -- remote.rs:975-991.
  | .nodeType => holding u .configuration .read [.work]
  -- remote.rs:910-948 and configuration.rs:252-342.
  | .updateMemory buffers => holding u .configuration .write (holding u .storage .write (saves c u buffers) ++ [.work])
  -- remote.rs:949-960, configuration.rs:344-391 and storage/mod.rs:386-424.
  | .updateTransfer => holding u .configuration .write (holding u .storage .write (holding u .transfer .write [.work]) ++ [.work])
  -- remote.rs:961-968 and configuration.rs:398-424.
  | .updateSegmentSize => holding u .configuration .write ((if c.wal u then holding u .log .write [.work] else []) ++ [.work])
  -- main.rs:170-188: the lock of the storage engine is released before the configuration is read.
  | .ctrlC buffers => holding u .storage .write (saves c u buffers) ++ holding u .configuration .read [.work]
  -- storage/compressed_data_manager.rs:113-135.
  | .writer buffers => saves c u buffers
  -- storage/data_transfer.rs:180-196.
  | .periodicTransfer => .work :: holding u .transfer .write [.work]

/-- The nodes and requests that are executed at the same time. -/
def server (c : Cluster) (requests : Fin n → Nat × Request) : State n (Nat × Lock) :=
  start fun t => program c (requests t).1 (requests t).2

end ModelarDB.Model.Locks
