import Verif.Model.Storage
/-
A server that is stopped without warning any number of times and started again. It uses a write-ahead log.

Rows are only sent to tables that are not dropped or truncated; the write-ahead log is modelled in detail in `Model/WriteAheadLog.lean` (C15 to
C19), of which what is used here is that it has the batches that were written to it in order, and that those whose ids are in a commit to their
table are not replayed. The steps of the threads of the storage engine are those of `Model/Storage.lean`.
-/
namespace ModelarDB.Model.Restarts
open Storage

variable {α : Type}

/-- A batch in the write-ahead log: its table, its id and its rows. -/
abbrev Batch (α : Type) := String × Nat × List (Row α)

/-- A server and its local data folder. `saved` and `commits` are what was in the tables when the server was started; what has been added since
is in the storage engine. `log` are the batches that were written to the write-ahead log, `acknowledged` is only used in the specification and
are the batches for which the request to insert them succeeded. `pending` are the batches that are still to be replayed and `writing` is the batch
that is in the write-ahead log and not yet passed on. -/
structure Server (α : Type) where
  saved : List (Chunk α)
  commits : List (String × Nat)
  log : List (Batch α)
  acknowledged : List (Batch α)
  pending : List (Batch α)
  writing : Option (Batch α)
  engine : Engine α
deriving DecidableEq

/-- A server with an empty data folder. -/
def Server.new (ingested uncompressed compressed : Nat) : Server α := ⟨[], [], [], [], [], none, .new ingested uncompressed compressed⟩

/-- What can happen. -/
inductive Action (α : Type) where
  | replay (size : Nat)
  | append (table : String) (id : Nat) (rows : List (Row α))
  | send (size : Nat)
  | engine (op : Op α)
  | restart (tables : List String) (ingested uncompressed compressed : Nat)

/-- The batches that are replayed: for each table those with ids that are not in a commit to the table, context.rs:279-297 and
write_ahead_log.rs:189-195 and 526-537. -/
def unpersisted (tables : List String) (commits : List (String × Nat)) (log : List (Batch α)) : List (Batch α) :=
  tables.flatMap fun table => log.filter fun b => decide (b.1 = table) && decide ((b.1, b.2.1) ∉ commits)

/-- Steps of the storage engine that are not requests to insert rows. -/
def isInsert : Op α → Bool
  | .insert .. => true
  | _ => false

/-- One step; `none` if it cannot be taken. -/
def Server.step (env : Env α) (s : Server α) : Action α → Option (Server α)
  | .replay size =>
    -- The loop in replay_write_ahead_log, context.rs:279-297.
    match s.pending with
    | [] => none
    | b :: rest => (s.engine.step env (.insert b.1 b.2.2 (some b.2.1) size)).map fun e => { s with pending := rest, engine := e }
  | .append table id rows =>
    -- The start of insert_data_points, storage/mod.rs:251-262. Requests are received when all batches are replayed, main.rs:158-162, and
    -- one request at a time inserts rows. The ids are not used twice (C17).
    if s.pending.isEmpty && s.writing.isNone && !(s.log.any fun b => b.1 = table && b.2.1 = id) then
      some { s with log := s.log ++ [(table, id, rows)], writing := some (table, id, rows) }
    else none
  | .send size =>
    -- The end of insert_data_points, storage/mod.rs:264-291.
    match s.writing with
    | none => none
    | some b => (s.engine.step env (.insert b.1 b.2.2 (some b.2.1) size)).map fun e =>
        { s with writing := none, acknowledged := s.acknowledged ++ [b], engine := e }
  | .engine op => if isInsert op then none else (s.engine.step env op).map fun e => { s with engine := e }
  | .restart tables ingested uncompressed compressed =>
    -- The memory is lost. main, main.rs:135-165, creates a new storage engine, which deletes spilled buffers, uncompressed_data_manager.rs:70-88,
    -- and replays what is in the write-ahead log for each table.
    if tables.Nodup ∧ ∀ b ∈ s.log, b.1 ∈ tables then
      let commits := s.commits ++ s.engine.c.commits
      some { s with
        saved := s.saved ++ s.engine.c.saved, commits := commits, pending := unpersisted tables commits s.log, writing := none
        engine := .new ingested uncompressed compressed }
    else none

/-- Any number of steps. -/
def Server.run (env : Env α) (s : Server α) : List (Action α) → Option (Server α)
  | [] => some s
  | a :: actions => (s.step env a).bind fun s' => s'.run env actions

/-- What is in the tables. -/
def Server.allSaved (s : Server α) : List (Chunk α) := s.saved ++ s.engine.c.saved

end ModelarDB.Model.Restarts
