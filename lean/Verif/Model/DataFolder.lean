import Verif.Model.TableNames
import Verif.Model.TableDefinition
import Verif.Model.Timestamps
/-
The metadata tables of a data folder and the creation, deletion and loading of tables.

Source: crates/modelardb_storage/src/data_folder/mod.rs and crates/modelardb_server/src/context.rs.

Simplifications:
* The crate deltalake is not part of the repository. A write to a Delta table and the creation of one are atomic.
* The files of a Delta table are deleted in one step.
* A select from a metadata table returns the rows whose table name is the text the literal in the statement stands for. If a name ends
  the literal early the statement is taken to be an error.
* The rows of one table have different indices, so the order of the rows, which the code asks for, does not matter.
-/
namespace ModelarDB.Model.DataFolder
open TableDefinition

variable {ε : Type}

/-- A row of `time_series_table_field_columns`, data_folder/mod.rs:297-310. -/
structure FieldRow (ε : Type) where
  table : String
  column : String
  index : Int
  value : FVal
  relative : Bool
  expr : Option ε
deriving DecidableEq

/-- The Delta tables, with whether they are partitioned as those of time series tables are, and the rows of the three metadata
tables. -/
structure Disk (ε : Type) where
  deltaTables : List (String × Bool)
  normalRows : List String
  tableRows : List (String × List Column)
  fieldRows : List (FieldRow ε)
deriving DecidableEq

/-- A change to the disk. -/
inductive Effect (ε : Type) where
  | createDelta (table : String) (timeSeries : Bool)
  | addNormalRow (table : String)
  | addTableRow (table : String) (schema : List Column)
  | addFieldRow (row : FieldRow ε)
  | deleteNormalRows (table : String)
  | deleteTableRows (table : String)
  | deleteFieldRows (table : String)
  | deleteFiles (table : String)
deriving DecidableEq

/-- Apply a change. -/
def Disk.apply (d : Disk ε) : Effect ε → Disk ε
  | .createDelta t ts => { d with deltaTables := d.deltaTables ++ [(t, ts)] }
  | .addNormalRow t => { d with normalRows := d.normalRows ++ [t] }
  | .addTableRow t s => { d with tableRows := d.tableRows ++ [(t, s)] }
  | .addFieldRow r => { d with fieldRows := d.fieldRows ++ [r] }
  | .deleteNormalRows t => { d with normalRows := d.normalRows.filter (· ≠ t) }
  | .deleteTableRows t => { d with tableRows := d.tableRows.filter (·.1 ≠ t) }
  | .deleteFieldRows t => { d with fieldRows := d.fieldRows.filter (·.table ≠ t) }
  | .deleteFiles t => { d with deltaTables := d.deltaTables.filter (·.1 ≠ t) }

/-- Apply changes in order. -/
def Disk.applyAll (d : Disk ε) (es : List (Effect ε)) : Disk ε := es.foldl Disk.apply d

/-- `as i16`. -/
def asI16 (n : Nat) : Int := (n : Int).bmod (2 ^ 16)

/-- The value and kind an error bound is saved as, data_folder/mod.rs:498-509. -/
def savedBound (m : Metadata ε) (c : Column) : FVal × Bool :=
  match indexOf m.schema c.name with
  | some i =>
    match m.errorBounds[i]? with
    | some (.absolute v) => (v, false)
    | some (.relative v) => (v, true)
    | _ => (.fin false 0, false)
  | none => (.fin false 0, false)

/-- The rows for the field columns of a table, data_folder/mod.rs:476-527. They start at an index. -/
def fieldRows (m : Metadata ε) : Nat → List Column → List (FieldRow ε)
  | _, [] => []
  | i, c :: cs =>
    if c.type = .value then
      ⟨m.name, c.name, asI16 i, (savedBound m c).1, (savedBound m c).2, (m.generated[i]?.join).map (·.expr)⟩ :: fieldRows m (i + 1) cs
    else fieldRows m (i + 1) cs

/-- `create_normal_table`, data_folder/mod.rs:396-414. `none` if a Delta table with the name exists. -/
def createNormalTable (d : Disk ε) (table : String) : Option (List (Effect ε)) :=
  if d.deltaTables.any (·.1 = table) then none else some [.createDelta table false, .addNormalRow table]

/-- `create_time_series_table`, data_folder/mod.rs:433-451, and `save_time_series_table_metadata`, data_folder/mod.rs:456-530. `none`
if a Delta table with the name exists. -/
def createTimeSeriesTable (d : Disk ε) (m : Metadata ε) : Option (List (Effect ε)) :=
  if d.deltaTables.any (·.1 = m.name) then none
  else some ([.createDelta m.name true, .addTableRow m.name m.querySchema] ++ (fieldRows m 0 m.querySchema).map .addFieldRow)

/-- `drop_table`, data_folder/mod.rs:582-587, and `delete_table_metadata`, data_folder/mod.rs:592-621. The type of a table is that of
its Delta table. `none` if there is no Delta table. -/
def dropTable (d : Disk ε) (table : String) : Option (List (Effect ε)) :=
  match d.deltaTables.find? (·.1 = table) with
  | none => none
  | some (_, false) => some [.deleteNormalRows table, .deleteFiles table]
  | some (_, true) => some [.deleteTableRows table, .deleteFieldRows table, .deleteFiles table]

/-- The text a literal in a SQL statement stands for if it contains a name as it is: a quote is written twice. `none` if the name ends
the literal. -/
def literal : List Char → Option (List Char)
  | [] => some []
  | '\'' :: '\'' :: cs => (literal cs).map ('\'' :: ·)
  | '\'' :: _ => none
  | c :: cs => (literal cs).map (c :: ·)

/-- The rows of `time_series_table_field_columns` for a table, data_folder/mod.rs:999-1005 and 1039-1045. -/
def selectFieldRows (d : Disk ε) (table : String) : Except Failure (List (FieldRow ε)) :=
  match literal table.toList with
  | none => .error .error
  | some text => .ok (d.fieldRows.filter fun r => r.table.toList = text)

/-- Set the element at an index. An index that is out of bounds is a panic. -/
def setAt {τ : Type} (l : List τ) (i : Int) (x : τ) : Except Failure (List τ) :=
  if 0 ≤ i ∧ i.toNat < l.length then .ok (l.set i.toNat x) else .error .panic

/-- The loop in `error_bounds`, data_folder/mod.rs:1013-1027. -/
def boundsOfRows : List (FieldRow ε) → List ErrorBound → Except Failure (List ErrorBound)
  | [], l => .ok l
  | r :: rs, l =>
    if !r.value.eq (.fin false 0) then
      match (if r.relative then ErrorBound.tryNewRelative r.value else ErrorBound.tryNewAbsolute r.value) with
      | none => .error .error
      | some b =>
        match setAt l r.index b with
        | .ok l => boundsOfRows rs l
        | .error e => .error e
    else boundsOfRows rs l

/-- The loop in `generated_columns`, data_folder/mod.rs:1052-1063. -/
def generatedOfRows (env : Env ε) (schema : List Column) :
    List (FieldRow ε) → List (Option (Generated ε)) → Except Failure (List (Option (Generated ε)))
  | [], l => .ok l
  | r :: rs, l =>
    match r.expr with
    | none => generatedOfRows env schema rs l
    | some e =>
      match tryFromExpr env schema e with
      | .error e => .error e
      | .ok g =>
        match setAt l r.index (some g) with
        | .ok l => generatedOfRows env schema rs l
        | .error e => .error e

/-- `time_series_table_metadata_row_to_time_series_table_metadata`, data_folder/mod.rs:969-990. -/
def loadTable (env : Env ε) (d : Disk ε) (table : String) (schema : List Column) : Except Failure (Metadata ε) := do
  let rows ← selectFieldRows d table
  let bounds ← boundsOfRows rows (List.replicate schema.length .lossless)
  if !uniqueNames schema then throw .error
  let generated ← generatedOfRows env schema rows (List.replicate schema.length none)
  tryNew table schema bounds generated

/-- `time_series_table_metadata`, data_folder/mod.rs:900-923. -/
def loadTables (env : Env ε) (d : Disk ε) : Except Failure (List (Metadata ε)) :=
  d.tableRows.mapM fun r => loadTable env d r.1 r.2

/-- The tables a server has after it starts: the normal tables and the definitions of the time series tables, `register_normal_tables`
and `register_time_series_tables`, context.rs:153-232. A table without a Delta table cannot be registered, and neither can one whose name stands for
another registered table or for one in a schema that does not exist. -/
def start (env : Env ε) (d : Disk ε) : Except Failure (List String × List (Metadata ε)) := do
  if !d.normalRows.all (fun t => d.deltaTables.any (·.1 = t)) then throw .error
  let tables ← loadTables env d
  if !tables.all (fun m => d.deltaTables.any (·.1 = m.name)) then throw .error
  if (TableNames.openFolder ((d.normalRows ++ tables.map (·.name)).map String.toList)).isNone then throw .error
  return (d.normalRows, tables)

/-- `create_time_series_table` of the server, context.rs:109-130. Only registered tables exist for the server. -/
def serverCreate (registered : List String) (d : Disk ε) (m : Metadata ε) : Option (List (Effect ε)) :=
  if registered.contains m.name then none else createTimeSeriesTable d m

/-- `create_normal_table` of the server, context.rs:76-81. -/
def serverCreateNormal (registered : List String) (d : Disk ε) (table : String) : Option (List (Effect ε)) :=
  if registered.contains table then none else createNormalTable d table

/-- `drop_table` of the server, context.rs:305-334. -/
def serverDrop (registered : List String) (d : Disk ε) (table : String) : Option (List (Effect ε)) :=
  if registered.contains table then dropTable d table else none

end ModelarDB.Model.DataFolder
