import Verif.Model.CreateTable
/-
Creating a time series table with the embedded library, from Rust and from C, up to the definition of the table.

Source: crates/modelardb_embedded/src/operations/mod.rs and crates/modelardb_embedded/src/capi.rs. What is done with the definition is modelled in
`Model/DataFolder.lean` for a data folder (operations/data_folder.rs:106-149) and in `Model/TableDefinition.lean` for a server, which is sent a message
(operations/client.rs:94-124).

Simplifications:
* The crates sqlparser and datafusion are not part of the repository, see `Model/CreateTable.lean`. The text of an expression is given as tokens.
* Expressions of columns that do not exist are found when the columns are looked up (types.rs:347-360) and not when the expression is parsed; both
  are the same error.
-/
namespace ModelarDB.Model.EmbeddedTables
open Statements TableDefinition CreateTable

variable {ε β : Type}

/-- A `HashMap` with names as keys. -/
abbrev Map (β : Type) := List (String × β)

/-- `HashMap::get`. -/
def Map.get (m : Map β) (key : String) : Option β := (m.find? fun p => p.1 = key).map (·.2)

/-- `HashMap::remove`, the map afterwards. -/
def Map.remove (m : Map β) (key : String) : Map β := m.filter fun p => p.1 ≠ key

/-- `HashMap::insert`, which replaces the value of a key. -/
def Map.insert (m : Map β) (key : String) (value : β) : Map β := m.remove key ++ [(key, value)]

/-- `tokenize_and_parse_sql_expression`, parser.rs:164-178. What follows the expression is not looked at. -/
def parseExpression (sql : Sql ε) (tokens : List Token) : Option ε := (sql.parseExpr tokens).map (·.1)

/-- The expression of a column, operations/mod.rs:173-178. -/
def generatedFor (sql : Sql ε) (schema : List Column) (expressions : Map (List Token)) (c : Column) : Except Failure (Option (Generated ε)) :=
  match expressions.get c.name with
  | none => .ok none
  | some tokens =>
    match parseExpression sql tokens with
    | none => .error .error
    | some e => (tryFromExpr sql.env schema e).map some

/-- The loop of `try_new_time_series_table_metadata`, operations/mod.rs:166-179: an error bound and perhaps an expression for each column. -/
def columnsLoop (sql : Sql ε) (schema : List Column) (expressions : Map (List Token)) :
    List Column → Map ErrorBound → Except Failure (List ErrorBound × List (Option (Generated ε)))
  | [], _ => .ok ([], [])
  | c :: cs, bounds =>
    match generatedFor sql schema expressions c with
    | .error e => .error e
    | .ok g =>
      match columnsLoop sql schema expressions cs (bounds.remove c.name) with
      | .error e => .error e
      | .ok (bs, gs) => .ok ((bounds.get c.name).getD .lossless :: bs, g :: gs)

/-- `try_new_time_series_table_metadata`, operations/mod.rs:153-186. The conversion to `DFSchema` fails if two columns have the same name. -/
def tryNewMetadata (sql : Sql ε) (name : String) (schema : List Column) (bounds : Map ErrorBound) (expressions : Map (List Token)) :
    Except Failure (Metadata ε) :=
  if !uniqueNames schema then .error .error
  else
    match columnsLoop sql schema expressions schema bounds with
    | .error e => .error e
    | .ok (bs, gs) => tryNew name schema bs gs

/-! ### From C -/

/-- `map_array_to_map_of_string_to_string`, capi.rs:855-868. -/
def mapOfArray (entries : List (String × β)) : Map β := entries.foldl (fun m p => m.insert p.1 p.2) []

/-- `error_bounds_array_to_error_bounds`, capi.rs:378-402. -/
def boundsOfArray : List (String × FVal) → Map ErrorBound → Except Failure (Map ErrorBound)
  | [], m => .ok m
  | (name, value) :: rest, m =>
    match capiBound value with
    | .error e => .error e
    | .ok b => boundsOfArray rest (m.insert name b)

/-- `create`, capi.rs:331-372, for a time series table. -/
def createFromC (sql : Sql ε) (name : String) (schema : List Column) (bounds : List (String × FVal)) (expressions : List (String × List Token)) :
    Except Failure (Metadata ε) :=
  match boundsOfArray bounds [] with
  | .error e => .error e
  | .ok bounds => tryNewMetadata sql name schema bounds (mapOfArray expressions)

end ModelarDB.Model.EmbeddedTables
