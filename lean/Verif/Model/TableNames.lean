import Verif.Model.Statements
/-
How tables are found by name: the session of DataFusion in which the tables of a data folder are registered.

Source: crates/modelardb_storage/src/lib.rs, crates/modelardb_storage/src/data_folder/mod.rs, crates/modelardb_server/src/context.rs and
crates/modelardb_embedded/src/operations/data_folder.rs.

The crate datafusion is not part of the repository. Its `TableReference::parse_str`, `SessionContext::register_table`,
`SessionContext::deregister_table` and `MemorySchemaProvider` are modelled from their documentation.
-/
namespace ModelarDB.Model.TableNames
open Statements

/-- A name with its catalog and schema. -/
structure Ref where
  catalog : List Char
  schema : List Char
  table : List Char
deriving DecidableEq, Repr

/-- The catalog and schema of names that have none. -/
def bare (table : List Char) : Ref := ⟨"datafusion".toList, "public".toList, table⟩

/-- A part of a name: words without quotes are changed to lower case. -/
def normalizedPart : Token → Option (List Char)
  | .word value none => some (value.map Char.toLower)
  | .word value (some _) => some value
  | _ => none

/-- `TableReference::parse_str` of datafusion: up to three words that are separated by periods. Any other text is a name as it is. -/
def tableRef (name : List Char) : Ref :=
  match tokenize name with
  | some [t] =>
    match normalizedPart t with
    | some table => bare table
    | none => bare name
  | some [s, .period, t] =>
    match normalizedPart s, normalizedPart t with
    | some schema, some table => ⟨"datafusion".toList, schema, table⟩
    | _, _ => bare name
  | some [c, .period, s, .period, t] =>
    match normalizedPart c, normalizedPart s, normalizedPart t with
    | some catalog, some schema, some table => ⟨catalog, schema, table⟩
    | _, _, _ => bare name
  | _ => bare name

/-- The schemas of a session (storage/src/lib.rs:72-95). -/
def Ref.known (r : Ref) : Bool :=
  r.catalog == "datafusion".toList && (r.schema == "public".toList || r.schema == "metadata".toList)

/-- The metadata tables, which are registered when a data folder is opened (data_folder/mod.rs:273-339). -/
def metadataRefs : List Ref :=
  ["normal_table_metadata".toList, "time_series_table_metadata".toList, "time_series_table_field_columns".toList].map
    fun t => ⟨"datafusion".toList, "metadata".toList, t⟩

/-- A data folder that is open: the names of its tables on disk, and the references in the session, each with the name of the table on disk that it
stands for, or none if it stands for a metadata table. -/
structure Folder where
  disk : List (List Char)
  session : List (Ref × Option (List Char))
deriving DecidableEq, Repr

/-- Whether a reference is registered. -/
def Folder.has (f : Folder) (r : Ref) : Bool := f.session.any (·.1 == r)

/-- `SessionContext::register_table`, an error if there is no such schema or the name is registered. -/
def register (session : List (Ref × Option (List Char))) (name : List Char) : Option (List (Ref × Option (List Char))) :=
  if (tableRef name).known && !session.any (·.1 == tableRef name) then some (session ++ [(tableRef name, some name)]) else none

/-- Register tables in order, up to the first error. -/
def registerAll : List (Ref × Option (List Char)) → List (List Char) → Option (List (Ref × Option (List Char)))
  | session, [] => some session
  | session, name :: names => (register session name).bind (registerAll · names)

/-- Open a data folder (`DataFolder::register_tables`, data_folder/mod.rs:363-390, and capi.rs:91-97). -/
def openFolder (disk : List (List Char)) : Option Folder :=
  (registerAll (metadataRefs.map (·, none)) disk).map (⟨disk, ·⟩)

/-- `create` (operations/data_folder.rs:124-161): a Delta table and metadata are written before the table is registered. The second component is
whether it succeeded. Only the name is modelled. -/
def create (f : Folder) (name : List Char) : Folder × Bool :=
  if name ∈ f.disk then (f, false)
  else
    match register f.session name with
    | some session => (⟨f.disk ++ [name], session⟩, true)
    | none => (⟨f.disk ++ [name], f.session⟩, false)

/-- `drop` (operations/data_folder.rs:511-519 and data_folder/mod.rs:582-621): the name is deregistered first, which is an error if there is no such
schema, and then the table is deleted, which is an error if there is none. -/
def drop (f : Folder) (name : List Char) : Folder × Bool :=
  if (tableRef name).known then
    let session := f.session.filter (·.1 != tableRef name)
    if name ∈ f.disk then (⟨f.disk.filter (· ≠ name), session⟩, true) else (⟨f.disk, session⟩, false)
  else (f, false)

/-- The table that a name finds when data is read or written (data_folder/mod.rs:958-964). -/
def Folder.find (f : Folder) (name : List Char) : Option (List Char) := (f.session.find? (·.1 == tableRef name)).bind (·.2)

/-- Whether the names of the tables can be listed, which reads the metadata tables (data_folder/mod.rs:828-865). -/
def Folder.canList (f : Folder) : Bool := metadataRefs.all fun r => f.has r

/-- `create` at a node (server/src/context.rs:76-102, 109-155 and 430-454): a table exists for a node if its name is registered in the schema
`public`, the name is not parsed. -/
def serverCreate (f : Folder) (name : List Char) : Folder × Bool := if f.has (bare name) then (f, false) else create f name

/-- `drop_table` at a node (server/src/context.rs:305-334). -/
def serverDrop (f : Folder) (name : List Char) : Folder × Bool := if f.has (bare name) then drop f name else (f, false)

/-- The requests that change which tables exist. -/
inductive NameOp where
  | create (name : List Char)
  | drop (name : List Char)
deriving DecidableEq, Repr

/-- A request, for a node or for a data folder that is used directly. -/
def perform (server : Bool) (f : Folder) : NameOp → Folder × Bool
  | .create name => if server then serverCreate f name else create f name
  | .drop name => if server then serverDrop f name else drop f name

/-- Requests in order. -/
def run (server : Bool) : Folder → List NameOp → Folder
  | f, [] => f
  | f, op :: ops => run server (perform server f op).1 ops

end ModelarDB.Model.TableNames
