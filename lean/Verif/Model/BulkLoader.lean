import Mathlib.Data.List.Basic
/-
The bulk loader, which imports Apache Parquet files into a data folder and exports tables to Apache Parquet files.

Source: crates/modelardb_bulkloader/src/main.rs, with `read`, `schema` (modelardb_embedded/src/operations/data_folder.rs), `open_local`, `register_tables`
and `table_writer` (modelardb_storage/src/data_folder/mod.rs) and crates/modelardb_storage/src/data_folder/delta_table_writer.rs.

Names are compared as they are (C62 is about names), compression is left out (C10, C11 and C14), so a time series table has the rows that were compressed, and
`ν` are the values of floating-point columns. The crates datafusion and deltalake are modelled from their documentation: `SessionContext::sql` parses the SQL
of datafusion, executes CREATE and DROP in the session only and returns streams for INSERT and SELECT that do nothing until they are read; `DeltaWriter`
refuses batches with another schema; a table with partitions in the paths has these as last columns. Failures of reading, writing and committing are inputs.
-/
namespace ModelarDB.Model.BulkLoader

/-- The unit of timestamps. -/
inductive Unit where
  | second | millisecond | microsecond | nanosecond
deriving DecidableEq, Repr

/-- The type of a column. -/
inductive ColumnType where
  | timestamp (unit : Unit)
  | float16 | float32 | float64 | utf8 | utf8View | other (name : String)
deriving DecidableEq, Repr

/-- A column of a schema. -/
structure Column where
  name : String
  type : ColumnType
  nullable : Bool
deriving DecidableEq, Repr

/-- A value in a row. -/
inductive Value (ν : Type) where
  | null
  | time (t : Int)
  | number (x : ν)
  | text (s : String)
deriving DecidableEq, Repr

/-- A `RecordBatch`. -/
structure Batch (ν : Type) where
  schema : List Column
  rows : List (List (Value ν))
deriving DecidableEq, Repr

/-- A table in the data folder. A time series table has the schema of the columns that are not generated, in which the values are, and the schema of its
segments, which its Delta table has. -/
inductive Table (ν : Type) where
  | normal (schema : List Column) (rows : List (List (Value ν)))
  | timeSeries (schema segments : List Column) (rows : List (List (Value ν)))
deriving DecidableEq, Repr

/-- A data folder. `orphans` are rows in files that are not part of a table. -/
structure Folder (ν : Type) where
  tables : List (String × Table ν)
  orphans : List (List (Value ν))
deriving DecidableEq, Repr

/-- What is registered in a session: a table of the data folder or something only the session has, e.g. a view. -/
inductive Provider (ν : Type) where
  | table (name : String)
  | local (schema : List Column) (rows : List (List (Value ν)))
deriving DecidableEq, Repr

/-- The tables of a session by name. -/
abbrev Session (ν : Type) := List (String × Provider ν)

variable {ν : Type}

/-- The table with a name. -/
def Folder.find (f : Folder ν) (name : String) : Option (Table ν) := (f.tables.find? (·.1 == name)).map (·.2)

/-- `create_data_folder` (main.rs:521-535) with `DataFolder::try_new` (data_folder/mod.rs:250-266): only the tables with metadata are registered, under the prefix `metadata`.
`register_tables` (data_folder/mod.rs:363-390) is not called. -/
def openSession (_ : Folder ν) : Session ν := []

/-- `register_tables` (data_folder/mod.rs:363-390), as the C-API does after opening a data folder. -/
def registerTables (f : Folder ν) : Session ν := f.tables.map fun t => (t.1, .table t.1)

/-- SQL for the options --pre-sql and --post-sql (main.rs:73-83, 100-110). `modelardb` is SQL that only the parser of ModelarDB knows, e.g. CREATE TIME SERIES
TABLE or VACUUM, `define` CREATE TABLE, CREATE EXTERNAL TABLE and CREATE VIEW. -/
inductive Sql (ν : Type) where
  | modelardb
  | define (name : String) (replace : Bool) (schema : List Column) (rows : List (List (Value ν)))
  | drop (name : String) (ifExists : Bool)
  | insert (name : String)
  | select (name : String)
deriving DecidableEq, Repr

/-- Whether a name is registered. -/
def Session.has (s : Session ν) (name : String) : Bool := s.any (·.1 == name)

/-- `DataFolder::read` (operations/data_folder.rs:240-247) of SQL whose stream is dropped, an error is `none`. -/
def Session.execute (s : Session ν) : Sql ν → Option (Session ν)
  | .modelardb => none
  | .define name replace schema rows =>
    if s.has name ∧ replace = false then none else some (s.filter (·.1 != name) ++ [(name, .local schema rows)])
  | .drop name ifExists => if s.has name then some (s.filter (·.1 != name)) else if ifExists then some s else none
  | .insert name => if s.has name then some s else none
  | .select name => if s.has name then some s else none

/-- The loops over --pre-sql and --post-sql (main.rs:198-200, 222-224, 470-472, 511-513). -/
def Session.executeAll (s : Session ν) : List (Sql ν) → Option (Session ν)
  | [] => some s
  | sql :: rest => (s.execute sql).bind fun s' => s'.executeAll rest

/-- `time_series_table_metadata_for_registered_time_series_table` (data_folder/mod.rs:958-964): the schema of a registered time series table. -/
def registeredTimeSeriesTable (f : Folder ν) (s : Session ν) (name : String) : Option (List Column) :=
  match s.find? (·.1 == name) with
  | some (_, .table t) =>
    match f.find t with
    | some (.timeSeries schema _ _) => some schema
    | _ => none
  | _ => none

/-- How a commit ends: it succeeds, the last files cannot be written, it is not written, or it is written and the table cannot be loaded again. -/
inductive Commit where
  | ok | close | before | after
deriving DecidableEq, Repr

/-- The failures of the object store: whether reading the exported table fails, each write fails, deleting the written files fails and how committing ends. -/
structure Faults where
  read : Bool
  write : Nat → Bool
  rollback : Bool
  commit : Commit

/-- How a request ends. A panic ends the process. -/
inductive Outcome where
  | ok | error | panic
deriving DecidableEq, Repr

/-- Add rows to a table. -/
def Table.append (rows : List (List (Value ν))) : Table ν → Table ν
  | .normal schema old => .normal schema (old ++ rows)
  | .timeSeries schema segments old => .timeSeries schema segments (old ++ rows)

/-- Add rows to the table with a name. -/
def Folder.append (f : Folder ν) (name : String) (rows : List (List (Value ν))) : Folder ν :=
  { f with tables := f.tables.map fun t => if t.1 == name then (t.1, t.2.append rows) else t }

/-- Rows of files that are not deleted. -/
def Folder.orphan (f : Folder ν) (rows : List (List (Value ν))) : Folder ν := { f with orphans := f.orphans ++ rows }

/-- `DeltaTableWriter::commit` (delta_table_writer.rs:185-232), where nothing is deleted if closing the writer fails. -/
def Folder.commit (f : Folder ν) (name : String) (faults : Faults) (written : List (List (Value ν))) : Folder ν × Outcome :=
  match faults.commit with
  | .ok => (f.append name written, .ok)
  | .close => (f.orphan written, .error)
  | .before => (if faults.rollback then f.orphan written else f, .error)
  | .after => (f.append name written, .error)

/-- `DeltaTableWriter::rollback` (delta_table_writer.rs:238-243). The rows of a write that failed are not counted. -/
def Folder.rollback (f : Folder ν) (faults : Faults) (written : List (List (Value ν))) : Folder ν × Outcome :=
  (if faults.rollback then f.orphan written else f, .error)

/-- The schema of the Delta table. -/
def Table.deltaSchema : Table ν → List Column
  | .normal schema _ => schema
  | .timeSeries _ segments _ => segments

/-- The loop of `import_normal_table` (main.rs:293-300). A `none` in the input is an error when reading it, after which nothing is rolled back. -/
def writeNormal (f : Folder ν) (name : String) (faults : Faults) (schema : List Column) (i : Nat) (written : List (List (Value ν))) :
    List (Option (Batch ν)) → Folder ν × Outcome
  | [] => f.commit name faults written
  | none :: _ => (f.orphan written, .error)
  | some b :: rest =>
    if b.schema = schema ∧ faults.write i = false then writeNormal f name faults schema (i + 1) (written ++ b.rows) rest
    else f.rollback faults written

/-- `import_normal_table` (main.rs:286-303), where `table_writer` (data_folder/mod.rs:687-695) needs the Delta table. -/
def importNormal (f : Folder ν) (name : String) (faults : Faults) (input : List (Option (Batch ν))) : Folder ν × Outcome :=
  match f.find name with
  | none => (f, .error)
  | some t => writeNormal f name faults t.deltaSchema 0 [] input

/-- The type a column is cast to (main.rs:384-406). -/
def castType (double : Bool) : ColumnType → ColumnType
  | .timestamp .second | .timestamp .millisecond => .timestamp .microsecond
  | .float16 => .float32
  | .float64 => if double then .float32 else .float64
  | t => t

/-- A timestamp in 64 bits, else null as `kernels::cast` of arrow does. -/
def checked (t : Int) : Value ν := if -(2 ^ 63) ≤ t ∧ t < 2 ^ 63 then .time t else .null

/-- The value a value is cast to; `narrow` rounds to 32 bits. -/
def castValue (narrow : ν → ν) (double : Bool) : ColumnType → Value ν → Value ν
  | .timestamp .second, .time t => checked (t * 1000000)
  | .timestamp .millisecond, .time t => checked (t * 1000)
  | .float64, .number x => if double then .number (narrow x) else .number x
  | _, v => v

/-- `cast_record_batch` (main.rs:374-414); cast columns cannot be null. An error is `none`. -/
def castBatch (narrow : ν → ν) (double : Bool) (b : Batch ν) : Option (Batch ν) :=
  let schema := b.schema.map fun c => if castType double c.type = c.type then c else ⟨c.name, castType double c.type, false⟩
  let rows := b.rows.map fun row => (b.schema.zip row).map fun (c, v) => castValue narrow double c.type v
  if rows.all (fun row => (schema.zip row).all fun (c, v) => c.nullable || (match v with | .null => false | _ => true)) then some ⟨schema, rows⟩ else none

/-- The value of a null in the buffer of its column, which is used as nulls are not checked. -/
def unNull (zero : ν) : ColumnType → Value ν → Value ν
  | .timestamp _, .null => .time 0
  | .float32, .null => .number zero
  | .utf8View, .null => .text ""
  | _, v => v

/-- How compressing a batch ends. -/
inductive Compressed (ν : Type) where
  | error
  | panic
  | rows (rows : List (List (Value ν)))

/-- `try_compress_multivariate_time_series` (compression.rs:42-107) of batches that are concatenated (main.rs:420-439): the columns are read by their position
in the schema of the table. A column that is missing or has another type is a panic, as is a batch without rows for a table with tags. -/
def compress (zero : ν) (schema : List Column) (batches : List (Batch ν)) : Compressed ν :=
  match batches with
  | [] => .rows []
  | b :: _ =>
    if batches.any (fun b' => b'.schema.map (·.type) != b.schema.map (·.type)) then .error
    else if (b.schema.take schema.length).map (·.type) != schema.map (·.type) then .panic
    else if schema.any (·.type == .utf8View) && batches.all (·.rows.isEmpty) then .panic
    else .rows ((batches.flatMap (·.rows)).map fun row => (schema.zip row).map fun (c, v) => unNull zero c.type v)

/-- The loop of `import_time_series_table` (main.rs:245-279). Without batches nothing is written. `full i` is whether the memory is used after the `i`-th batch. -/
def writeTimeSeries (f : Folder ν) (name : String) (faults : Faults) (zero : ν) (narrow : ν → ν) (double : Bool) (full : Nat → Bool) (schema : List Column)
    (i : Nat) (current : List (Batch ν)) (written : List (List (Value ν))) : List (Option (Batch ν)) → Folder ν × Outcome
  | [] =>
    if current = [] then f.commit name faults written
    else match compress zero schema current with
    | .panic => (f.orphan written, .panic)
    | .error => f.rollback faults written
    | .rows rows => if faults.write i then f.rollback faults written else f.commit name faults (written ++ rows)
  | none :: _ => (f.orphan written, .error)
  | some b :: rest =>
    match castBatch narrow double b with
    | none => (f.orphan written, .error)
    | some b' =>
      if full i then
        match compress zero schema (current ++ [b']) with
        | .panic => (f.orphan written, .panic)
        | .error => f.rollback faults written
        | .rows rows =>
          if faults.write i then f.rollback faults written
          else writeTimeSeries f name faults zero narrow double full schema (i + 1) [] (written ++ rows) rest
      else writeTimeSeries f name faults zero narrow double full schema (i + 1) (current ++ [b']) written rest

/-- The options of an import. -/
structure Options (ν : Type) where
  name : String
  preSql : List (Sql ν)
  postSql : List (Sql ν)
  double : Bool

/-- `import` (main.rs:198-226) after the input is opened and the user agreed, with the session of the data folder. -/
def importWith (s : Session ν) (f : Folder ν) (zero : ν) (narrow : ν → ν) (full : Nat → Bool) (faults : Faults) (o : Options ν)
    (input : List (Option (Batch ν))) : Folder ν × Outcome :=
  match s.executeAll o.preSql with
  | none => (f, .error)
  | some s' =>
    let result :=
      match registeredTimeSeriesTable f s' o.name with
      | some schema => writeTimeSeries f o.name faults zero narrow o.double full schema 0 [] [] input
      | none => if o.double then (f, .error) else importNormal f o.name faults input
    match result with
    | (f', .ok) => if (s'.executeAll o.postSql).isSome then (f', .ok) else (f', .error)
    | r => r

/-- `import` with the session it opens. -/
def import_ (f : Folder ν) (zero : ν) (narrow : ν → ν) (full : Nat → Bool) (faults : Faults) (o : Options ν) (input : List (Option (Batch ν))) :
    Folder ν × Outcome :=
  importWith (openSession f) f zero narrow full faults o input

/-- The table that is created by `export`, with the rows that are written and not part of the table if it fails. -/
structure Exported (ν : Type) where
  schema : List Column
  rows : List (List (Value ν))
  orphans : List (List (Value ν))
deriving DecidableEq, Repr

/-- `DataFolder::schema` (operations/data_folder.rs:172-185) -/
def schemaOf (f : Folder ν) (s : Session ν) (name : String) : Option (List Column) :=
  match registeredTimeSeriesTable f s name with
  | some schema => some schema
  | none =>
    match f.find name with
    | some (.normal schema _) => some schema
    | _ => none

/-- The result of `SELECT * FROM name` in a session as one batch. -/
def rowsOf (f : Folder ν) (s : Session ν) (name : String) : Option (Batch ν) :=
  match s.find? (·.1 == name) with
  | some (_, .local schema rows) => some ⟨schema, rows⟩
  | some (_, .table t) =>
    match f.find t with
    | some (.normal schema rows) | some (.timeSeries schema _ rows) => some ⟨schema, rows⟩
    | none => none
  | none => none

/-- `export` (main.rs:470-515) after the user agreed, where `output` is the table that exists at the path and the stream is read as one batch. Generated columns
are left out. Reading the batch may fail after it was written in part. -/
def exportWith (s : Session ν) (f : Folder ν) (faults : Faults) (o : Options ν) (output : Option (Exported ν)) : Option (Exported ν) × Outcome :=
  match s.executeAll o.preSql with
  | none => (output, .error)
  | some s' =>
    match schemaOf f s' o.name, output with
    | none, _ => (output, .error)
    | some _, some _ => (output, .error)
    | some schema, none =>
      match rowsOf f s' o.name with
      | none => (some ⟨schema, [], []⟩, .error)
      | some b =>
        if faults.read then (some ⟨schema, [], b.rows⟩, .error)
        else if b.schema ≠ schema ∨ faults.write 0 then (some ⟨schema, [], if faults.rollback then b.rows else []⟩, .error)
        else
          match faults.commit with
          | .close => (some ⟨schema, [], b.rows⟩, .error)
          | .before => (some ⟨schema, [], if faults.rollback then b.rows else []⟩, .error)
          | .after => (some ⟨schema, b.rows, []⟩, .error)
          | .ok => (some ⟨schema, b.rows, []⟩, if (s'.executeAll o.postSql).isSome then .ok else .error)

/-- `export` with the session it opens. -/
def export_ (f : Folder ν) (faults : Faults) (o : Options ν) (output : Option (Exported ν)) : Option (Exported ν) × Outcome :=
  exportWith (openSession f) f faults o output

end ModelarDB.Model.BulkLoader
