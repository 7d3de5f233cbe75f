import Mathlib.Logic.Function.Basic
/-
Requests that use a time series table with one name at the same time: writing to it, creating it, dropping it and truncating it.

Source: crates/modelardb_server/src/context.rs, crates/modelardb_server/src/remote.rs and crates/modelardb_server/src/storage/.

Simplifications:
* A request is a sequence of steps between which steps of other requests can be done. What a step does with the disk is done at once, crashes are
  in Model.WriteAheadLog and Model.TableDefinition.
* A table that was created has a number, and a row has the number of the table whose definition was looked up for the request it was sent in.
* The data in memory is not divided into buffers. It is saved as a whole, which is what a flush does.
* Data transfer is left out, it is in Model.DataTransfer.
-/
namespace ModelarDB.Model.Lifetimes

/-- A row and the table it was sent to. -/
structure Row where
  table : Nat
  id : Nat
deriving DecidableEq

/-- What can be requested. -/
inductive Request where
  | put
  | create (table : Nat)
  | drop
  | truncate
deriving DecidableEq

/-- What is to be done next for a request. -/
inductive Phase where
  /-- The metadata of the table was looked up, the next batch is to be inserted. -/
  | put (table : Nat)
  | createStore (table : Nat)
  | createRegister (table : Nat)
  | createLog (table : Nat)
  | dropDeregister
  | dropFlush
  | dropLog
  | dropDelete
  | truncateFlush
  | truncateLog
  | truncateDelete
deriving DecidableEq

/-- The state of a server for the name of a table: the table that is registered with the session context, the table on disk and its rows, the table
log and the rows in it that are not saved, the rows in memory, the requests that are processed, and the responses. `received` are all rows that
were accepted. -/
structure Server where
  registered : Option Nat
  disk : Option (Nat × List Row)
  log : Option (List Row)
  memory : List Row
  requests : Nat → Option Phase
  responses : List (Nat × Bool)
  received : List Row

/-- A server without a table with the name. -/
def Server.empty : Server := ⟨none, none, none, [], fun _ => none, [], []⟩

/-- What can happen. -/
inductive Op where
  /-- A request is received and it is looked up if the table exists. -/
  | start (id : Nat) (request : Request)
  /-- The next batch of a request to write rows. -/
  | batch (id : Nat) (rows : List Nat)
  /-- A request to write rows ends. -/
  | finish (id : Nat)
  /-- The next step of another request, `ok` is if what is done by other components succeeds. -/
  | advance (id : Nat) (ok : Bool)
  /-- The rows in memory are saved as memory is needed. -/
  | save
deriving DecidableEq

/-- If a write-ahead log is used and if the rows of two tables have the same columns. -/
structure Env where
  wal : Bool
  sameColumns : Nat → Nat → Bool

/-- Respond to a request. -/
def Server.respond (s : Server) (id : Nat) (ok : Bool) : Server :=
  { s with requests := Function.update s.requests id none, responses := s.responses ++ [(id, ok)] }

/-- Continue with a request later. -/
def Server.next (s : Server) (id : Nat) (phase : Phase) : Server := { s with requests := Function.update s.requests id (some phase) }

/-- `save_compressed_data`, compressed_data_manager.rs:240-291: the rows are removed from memory and written to the table with the name, whichever
table they were sent to. They are lost if there is none or the columns are different. The rows are removed from the log if they are saved, it is an error if there is no
log. -/
def Server.saveMemory (env : Env) (s : Server) : Server × Bool :=
  if s.memory.isEmpty then (s, true)
  else
    match s.disk with
    | none => ({ s with memory := [] }, false)
    | some (table, rows) =>
      if s.memory.all fun r => env.sameColumns r.table table then
        ({ s with memory := [], disk := some (table, rows ++ s.memory), log := s.log.map fun l => l.filter fun r => r ∉ s.memory },
          !env.wal || s.log.isSome)
      else ({ s with memory := [] }, false)

/-- The lookup at the start of a request: `do_put` (remote.rs:769-773), `create_time_series_table` (context.rs:107-112), `drop_table` and
`truncate_table` (context.rs:306-311 and context.rs:340-345). -/
def Server.start (s : Server) (id : Nat) : Request → Server
  | .put =>
    match s.registered with
    | some table => s.next id (.put table)
    | none => s.respond id false
  | .create table => if s.registered.isSome then s.respond id false else s.next id (.createStore table)
  | .drop => if s.registered.isSome then s.next id .dropDeregister else s.respond id false
  | .truncate => if s.registered.isSome then s.next id .truncateFlush else s.respond id false

/-- `ingest_into_time_series_table` for one batch (remote.rs:506-522) and `insert_data_points` (storage/mod.rs:246-269): the rows are appended to the
table log with the name and then kept in memory. -/
def Server.insert (env : Env) (s : Server) (id table : Nat) (rows : List Nat) : Server :=
  let rows := rows.map (Row.mk table)
  if env.wal then
    match s.log with
    | none => s.respond id false
    | some log => { s with log := some (log ++ rows), memory := s.memory ++ rows, received := s.received ++ rows }
  else { s with memory := s.memory ++ rows, received := s.received ++ rows }

/-- The steps of `create_time_series_table` (context.rs:107-126, context.rs:131-151, data_folder/mod.rs:433-451 and write_ahead_log.rs:108-136),
`drop_table` (context.rs:306-335, data_folder/mod.rs:582-587 and write_ahead_log.rs:140-163) and `truncate_table` (context.rs:340-366 and
data_folder/mod.rs:647-652). -/
def Server.advance (env : Env) (s : Server) (id : Nat) (ok : Bool) : Phase → Server
  | .put _ => s
  | .createStore table =>
    match ok, s.disk with
    | true, none => { s with disk := some (table, []) }.next id (.createRegister table)
    | _, _ => s.respond id false
  | .createRegister table =>
    match ok, s.disk, s.registered with
    | true, some _, none => { s with registered := some table }.next id (.createLog table)
    | _, _, _ => s.respond id false
  | .createLog _ =>
    if env.wal then
      match ok, s.log with
      | true, none => { s with log := some [] }.respond id true
      | _, _ => s.respond id false
    else s.respond id true
  | .dropDeregister => if ok then { s with registered := none }.next id .dropFlush else s.respond id false
  | .dropFlush =>
    let (s, saved) := s.saveMemory env
    if ok && saved then s.next id .dropLog else s.respond id false
  | .dropLog =>
    if s.disk.isSome && env.wal then
      match ok, s.log with
      | true, some _ => { s with log := none }.next id .dropDelete
      | _, _ => s.respond id false
    else if ok then s.next id .dropDelete
    else s.respond id false
  | .dropDelete =>
    match ok, s.disk with
    | true, some _ => { s with disk := none }.respond id true
    | _, _ => s.respond id false
  | .truncateFlush =>
    let (s, saved) := s.saveMemory env
    if ok && saved then s.next id .truncateLog else s.respond id false
  | .truncateLog =>
    if s.disk.isSome && env.wal then
      match ok, s.log with
      | true, some _ => { s with log := some [] }.next id .truncateDelete
      | _, _ => s.respond id false
    else if ok then s.next id .truncateDelete
    else s.respond id false
  | .truncateDelete =>
    match ok, s.disk with
    | true, some (table, _) => { s with disk := some (table, []) }.respond id true
    | _, _ => s.respond id false

/-- One step. Operations of requests that are not processed cannot happen. -/
def Server.step (env : Env) (s : Server) : Op → Option Server
  | .start id request =>
    match s.requests id with
    | none => some (s.start id request)
    | some _ => none
  | .batch id rows =>
    match s.requests id with
    | some (.put table) => some (s.insert env id table rows)
    | _ => none
  | .finish id =>
    match s.requests id with
    | some (.put _) => some (s.respond id true)
    | _ => none
  | .advance id ok =>
    match s.requests id with
    | some (.put _) => none
    | some phase => some (s.advance env id ok phase)
    | none => none
  | .save => some (s.saveMemory env).1

/-- Any number of steps. -/
def Server.run (env : Env) : Server → List Op → Option Server
  | s, [] => some s
  | s, op :: ops => (s.step env op).bind fun s => s.run env ops

end ModelarDB.Model.Lifetimes
