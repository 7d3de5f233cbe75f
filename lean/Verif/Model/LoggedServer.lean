import Verif.Model.Restarts
import Verif.Model.WriteAheadLog
/-
A server with the files of its write-ahead log. It puts together the server of `Model/Restarts.lean` and the logs of tables of
`Model/WriteAheadLog.lean`: the ids of batches are those that the logs give them, and what is replayed is what is read from the files.

Tables are neither dropped nor truncated, and files can be read and written. A table that is created is in the list of tables when the server is
started the next time.
-/
namespace ModelarDB.Model.LoggedServer
open Storage Restarts

variable {α : Type}

/-- The files in the folder of the log of a table and the log in memory, `WriteAheadLog`, write_ahead_log.rs:41-49. -/
abbrev TableLog (α : Type) := Wal.Disk (List (Row α)) × Option Wal.Log

/-- A server, the folders of the logs of its tables and whether the server is running. If it is not running, `server` is what it was when it was
stopped: of this, only what is in the tables, `server.saved`, `server.engine.c.saved` and the ids in the commits, is used when it is started again.
`server.log` and `server.acknowledged` are only used in the specification: the batches that were written to the log and those for which the
request to insert them succeeded. -/
structure Node (α : Type) where
  logs : String → TableLog α
  server : Server α
  running : Bool

/-- A data folder without tables. -/
def Node.new (ingested uncompressed compressed : Nat) : Node α := ⟨fun _ => ([], none), .new ingested uncompressed compressed, false⟩

/-- What can happen. `server` is one of the steps of the server that are not concerned with the log. In the steps that end with `Crash` the server is stopped in
the middle of an operation: `k` is the number of changes to the folder after the first. -/
inductive Event (α : Type) where
  | append (table : String) (rows : List (Row α)) (size : Nat)
  | appendCrash (table : String) (rows : List (Row α)) (size k : Nat)
  | server (action : Action α)
  | mark (table : String) (ids : List Nat)
  | markCrash (table : String) (ids : List Nat) (k : Nat)
  | setThreshold (threshold : Nat)
  | crash
  | restart (tables : List String) (threshold ingested uncompressed compressed : Nat)
  | restartCrash (table : String) (threshold k : Nat)

/-- The ids in the commit history of a table, write_ahead_log.rs:500-512. -/
def idsOf (table : String) (commits : List (String × Nat)) : List Nat :=
  commits.filterMap fun p => if p.1 = table then some p.2 else none

/-- The ids in the commit history of a table of the server. -/
def Node.commits (n : Node α) (table : String) : List Nat := idsOf table (n.server.commits ++ n.server.engine.c.commits)

/-- Change the log of a table. -/
def setLog (logs : String → TableLog α) (table : String) (log : TableLog α) : String → TableLog α :=
  fun t => if t = table then log else logs t

/-- The logs in memory are gone. -/
def stopped (logs : String → TableLog α) : String → TableLog α := fun t => ((logs t).1, none)

/-- The log of a table is opened, write_ahead_log.rs:80-95. -/
def Node.openLog (n : Node α) (threshold : Nat) (table : String) : Option (Wal.Log × Wal.Disk (List (Row α))) :=
  (Wal.restart threshold (n.logs table).1 (n.commits table)).result

/-- The batches of a table that are replayed, context.rs:279-297 and write_ahead_log.rs:189-195. -/
def Node.toReplay (n : Node α) (threshold : Nat) (table : String) : Option (List (Batch α)) :=
  (n.openLog threshold table).bind fun opened =>
    (Wal.unpersistedBatches opened.1 opened.2).map fun l => l.map fun p => (table, p.1, p.2)

/-- Replaying, passing a batch on and the steps of the threads. -/
def isOwn : Action α → Bool
  | .append .. => false
  | .restart .. => false
  | _ => true

/-- One step; `none` if it cannot be taken. -/
def Node.step (env : Env α) (n : Node α) : Event α → Option (Node α)
  | .append table rows size =>
    -- The start of insert_data_points, storage/mod.rs:251-262, and append_to_table_log, write_ahead_log.rs:168-171. Requests are received when all
    -- batches are replayed, main.rs:158-162, and one request at a time inserts rows.
    if n.running && n.server.pending.isEmpty && n.server.writing.isNone then
      match (n.logs table).2 with
      | none => none
      | some log =>
        match (Wal.appendAndSync log (n.logs table).1 rows size).result with
        | none => none
        | some ((id, log'), disk) => some { n with
            logs := setLog n.logs table (disk, some log')
            server := { n.server with log := n.server.log ++ [(table, id, rows)], writing := some (table, id, rows) } }
    else none
  | .appendCrash table rows size k =>
    if n.running && n.server.pending.isEmpty && n.server.writing.isNone then
      match (n.logs table).2 with
      | none => none
      | some log =>
        match (Wal.appendAndSync log (n.logs table).1 rows size).crashes[k]? with
        | none => none
        | some disk => some { n with
            logs := stopped (setLog n.logs table (disk, none))
            server := { n.server with
              log := n.server.log ++ [(table, log.nextBatchId, rows)], writing := some (table, log.nextBatchId, rows) }
            running := false }
    else none
  | .server action => if n.running && isOwn action then (n.server.step env action).map fun s => { n with server := s } else none
  | .mark table ids =>
    -- The ids in the commit that was made to the table, compressed_data_manager.rs:264-269.
    if n.running && ids.all fun id => (n.commits table).contains id then
      match (n.logs table).2 with
      | none => none
      | some log =>
        match (Wal.markBatchesAsPersisted log (n.logs table).1 ids).result with
        | none => none
        | some (log', disk) => some { n with logs := setLog n.logs table (disk, some log') }
    else none
  | .markCrash table ids k =>
    if n.running && ids.all fun id => (n.commits table).contains id then
      match (n.logs table).2 with
      | none => none
      | some log =>
        match (Wal.markBatchesAsPersisted log (n.logs table).1 ids).crashes[k]? with
        | none => none
        | some disk => some { n with logs := stopped (setLog n.logs table (disk, none)), running := false }
    else none
  | .setThreshold threshold =>
    -- set_segment_size_threshold_in_bytes, write_ahead_log.rs:217-223.
    if n.running then
      some { n with logs := fun t => ((n.logs t).1, (n.logs t).2.map fun log => { log with threshold := threshold }) }
    else none
  | .crash => if n.running then some { n with logs := stopped n.logs, running := false } else none
  | .restart tables threshold ingested uncompressed compressed =>
    -- main, main.rs:135-165: the logs of all tables are opened, write_ahead_log.rs:59-100, a new storage engine is created and the batches in the
    -- logs are replayed.
    if !n.running && decide (tables.Nodup ∧ ∀ b ∈ n.server.log, b.1 ∈ tables) then
      (tables.mapM (n.toReplay threshold)).map fun batches =>
        { logs := fun t => if t ∈ tables then
            match n.openLog threshold t with
            | none => n.logs t
            | some (log, disk) => (disk, some log)
            else n.logs t
          server := { n.server with
            saved := n.server.saved ++ n.server.engine.c.saved, commits := n.server.commits ++ n.server.engine.c.commits
            pending := batches.flatten, writing := none, engine := .new ingested uncompressed compressed }
          running := true }
    else none
  | .restartCrash table threshold k =>
    if n.running then none
    else match (Wal.restart threshold (n.logs table).1 (n.commits table)).crashes[k]? with
      | none => none
      | some disk => some { n with logs := setLog n.logs table (disk, none) }

/-- Any number of steps. -/
def Node.run (env : Env α) (n : Node α) : List (Event α) → Option (Node α)
  | [] => some n
  | e :: events => (n.step env e).bind fun n' => n'.run env events

end ModelarDB.Model.LoggedServer
