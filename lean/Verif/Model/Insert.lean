import Verif.Model.QueryPlan
/-
The statement INSERT: how rows are planned, checked and passed to the storage engine.

Source: crates/modelardb_server/src/storage/data_sinks.rs, crates/modelardb_storage/src/query/normal_table.rs,
crates/modelardb_storage/src/query/time_series_table.rs and crates/modelardb_embedded/src/operations/data_folder.rs.

Simplifications:
* What the crate datafusion does is given by its documentation: the values are put in the order of the columns of the table, columns that
  are not listed are null, and the values that are null in some of the columns are refused. Which columns are checked is given. The
  conversion of values to the type of a column is not modelled, the values have been converted.
* The rows that have been passed to the storage engine are a list. The storage engine is modelled in `Storage.lean`; here it only gives if an
  insertion failed and if that was before or after the rows were stored.
* The number of rows is not limited to 64 bits.
-/
namespace ModelarDB.Model.Insert
open TableDefinition Query

variable {ε : Type}

/-- `InsertOp` of the crate datafusion: INSERT INTO, INSERT OVERWRITE and REPLACE INTO. -/
inductive Op where
  | append
  | overwrite
  | replace
deriving DecidableEq

/-- The values of a row. -/
abbrev Row := List Value

/-- A statement INSERT. The rows are given by a query that returns batches and can fail. VALUES returns one batch. -/
structure Statement where
  op : Op
  columns : Option (List String)
  batches : List (Option (List Row))

/-- How an insertion in the storage engine ends, storage/mod.rs:234-291. `after` is that the rows are in the write-ahead log when it is not
possible to send them to the next thread (mod.rs:283-290) or that they are in the table when the size of the table is not possible to
increase (compressed_data_manager.rs:94-105). -/
inductive Fault where
  | none
  | before
  | after
deriving DecidableEq

/-- The kinds of tables, with the columns that can be read. `embedded` are tables in a data folder that is opened by the library. -/
inductive Table (ε : Type) where
  | metadata (schema : List Column)
  | normal (schema : List Column)
  | timeSeries (m : Metadata ε)
  | embedded (schema : List Column)

/-- `TableProvider::schema`: time_series_table.rs:493-495 and normal_table.rs:80-82. Generated columns are included. -/
def Table.schema : Table ε → List Column
  | .metadata schema => schema
  | .normal schema => schema
  | .timeSeries m => m.querySchema
  | .embedded schema => schema

/-- A row in the order of the columns of the table. The crate datafusion does this when it plans a statement. -/
def planRow (schema : List Column) (columns : List String) (row : Row) : Option Row :=
  if row.length ≠ columns.length then none
  else
    some <| schema.map fun c =>
      match columns.findIdx? fun name => name = c.name with
      | some i => (row[i]?).getD .null
      | none => .null

/-- The batches that reach the table, or `none` if the statement is refused when it is planned. A column that does not exist or is listed
twice is refused. -/
def plan (schema : List Column) (s : Statement) : Option (List (Option (List Row))) :=
  let columns := s.columns.getD (schema.map (·.name))
  if columns.Nodup ∧ ∀ name ∈ columns, name ∈ schema.map (·.name) then
    s.batches.mapM fun
      | none => some none
      | some rows => (rows.mapM (planRow schema columns)).map some
  else none

/-- The check for null in `DataSinkExec` of the crate datafusion, for the columns at the given positions. -/
def nullFree (checked : List Nat) (rows : List Row) : Bool := rows.all fun row => checked.all fun i => row[i]? ≠ some .null

/-- `RecordBatch::project`. A position that does not exist is an error. -/
def project (indices : List Nat) (row : Row) : Option Row := indices.mapM fun i => row[i]?

/-- A value in a column of the type and the nullability. -/
def fits (c : Column) : Value → Bool
  | .null => c.nullable
  | .time _ => c.type = .timestamp
  | .number _ => c.type = .value
  | .text _ => c.type = .string
  | .bool _ => c.type = .other "Boolean"

/-- The values of a row fit the columns. -/
def rowFits : List Column → Row → Bool
  | [], [] => true
  | c :: cs, v :: vs => fits c v && rowFits cs vs
  | _, _ => false

/-- `RecordBatch::try_new`: an error if a batch has another number of columns, other types or null in columns that do not allow it. -/
def tryNewBatch (schema : List Column) (rows : List Row) : Option (List Row) := if rows.all (rowFits schema) then some rows else none

/-- `TimeSeriesTableDataSink::write_all`, data_sinks.rs:162-193: the rows that are stored after it and the number of rows it returns, or
`none` if it is an error. `k` is the number of the batch. -/
def writeTimeSeries (m : Metadata ε) (checked : List Nat) (faults : Nat → Fault) :
    Nat → List (Option (List Row)) → List Row → Nat → List Row × Option Nat
  | _, [], stored, n => (stored, some n)
  | _, none :: _, stored, _ => (stored, none)
  | k, some rows :: rest, stored, n =>
    if !nullFree checked rows then (stored, none)
    else
      match rows.mapM (project m.querySchemaToSchema) with
      | none => (stored, none)
      | some rows =>
        match tryNewBatch m.schema rows with
        | none => (stored, none)
        | some rows =>
          match faults k with
          | .before => (stored, none)
          | .after => (stored ++ rows, none)
          | .none => writeTimeSeries m checked faults (k + 1) rest (stored ++ rows) (n + rows.length)

/-- `NormalTableDataSink::write_all`, data_sinks.rs:81-100. -/
def writeNormal (checked : List Nat) (faults : Nat → Fault) :
    Nat → List (Option (List Row)) → List Row → Nat → List Row × Option Nat
  | _, [], stored, n => (stored, some n)
  | _, none :: _, stored, _ => (stored, none)
  | k, some rows :: rest, stored, n =>
    if !nullFree checked rows then (stored, none)
    else
      match faults k with
      | .before => (stored, none)
      | .after => (stored ++ rows, none)
      | .none => writeNormal checked faults (k + 1) rest (stored ++ rows) (n + rows.length)

/-- `insert_into`, time_series_table.rs:691-699 and normal_table.rs:154-167, and `DataFolderDataSink::write_all`,
operations/data_folder.rs:82-90. The operation is a parameter that is not used. -/
def insertInto (table : Table ε) (checked : List Nat) (faults : Nat → Fault) (_op : Op) (input : List (Option (List Row)))
    (stored : List Row) : List Row × Option Nat :=
  match table with
  | .metadata _ => (stored, none)
  | .embedded _ => (stored, none)
  | .normal _ => writeNormal checked faults 0 input stored 0
  | .timeSeries m => writeTimeSeries m checked faults 0 input stored 0

/-- A statement INSERT is planned and executed: `ModelarDbStatement::Statement` in `do_get`, remote.rs:669-677. -/
def execute (table : Table ε) (checked : List Nat) (faults : Nat → Fault) (s : Statement) (stored : List Row) : List Row × Option Nat :=
  match plan table.schema s with
  | none => (stored, none)
  | some input => insertInto table checked faults s.op input stored

end ModelarDB.Model.Insert
