import Verif.Model.TableDefinition
import Verif.Model.QueryStream
/-
Planning a query for a time series table: the columns and filters of a query are rewritten for the operators in Model.QueryStream.

Source: crates/modelardb_storage/src/query/time_series_table.rs and crates/modelardb_storage/src/query/generated_as_exec.rs.

Simplifications:
* Of the expressions of the crate datafusion only the parts `rewrite_filter` inspects are modelled. All other expressions are `other`: they
  have the columns they refer to and a value that depends on the values of these columns.
* Numbers other than timestamps are not computed with.
* `GeneratedAsStream` works on columns of any type: what it does does not depend on the values.
* The object store and the files of the table are not modelled.
-/
namespace ModelarDB.Model.Query
open TableDefinition (Column DataType Failure Metadata Generated Env)

/-! ### Filters -/

/-- The operators of binary expressions. `other` are the operators that are not used to skip segments. -/
inductive Op where
  | gt
  | ge
  | lt
  | le
  | eq
  | and
  | other (name : String)
deriving DecidableEq

/-- Values of expressions. -/
inductive Value where
  | null
  | time (t : Int)
  | number (v : Nat)
  | text (s : String)
  | bool (b : Bool)
deriving DecidableEq

/-- `Expr` of the crate datafusion. `constant` are literals. -/
inductive Expr where
  | column (name : String)
  | constant (v : Value)
  | other (id : Nat) (refs : List String)
  | binary (left : Expr) (op : Op) (right : Expr)
deriving DecidableEq

/-- The columns an expression refers to. -/
def Expr.refs : Expr → List String
  | .column name => [name]
  | .constant _ => []
  | .other _ refs => refs
  | .binary l _ r => l.refs ++ r.refs

/-- `Schema::field_with_name`. -/
def fieldWithName (schema : List Column) (name : String) : Option Column := schema.find? fun c => c.name = name

/-- `rewrite_filter` if the column is the left operand, time_series_table.rs:293-329. -/
def rewriteLeft (op : Op) (right : Expr) : Option (Expr × Expr) :=
  match op with
  | .gt | .ge => some (.binary (.column "end_time") op right, .binary (.column "timestamp") op right)
  | .lt | .le => some (.binary (.column "start_time") op right, .binary (.column "timestamp") op right)
  | .eq =>
    some (.binary (.binary (.column "start_time") .le right) .and (.binary (.column "end_time") .ge right),
      .binary (.column "timestamp") op right)
  | _ => none

/-- `rewrite_filter` if the column is the right operand, time_series_table.rs:330-366. -/
def rewriteRight (left : Expr) (op : Op) (right : Expr) : Option (Expr × Expr) :=
  match op with
  | .gt | .ge => some (.binary left op (.column "start_time"), .binary left op (.column "timestamp"))
  | .lt | .le => some (.binary left op (.column "end_time"), .binary left op (.column "timestamp"))
  | .eq =>
    some (.binary (.binary left .le (.column "start_time")) .and (.binary left .ge (.column "end_time")),
      .binary right op (.column "timestamp"))
  | _ => none

/-- `rewrite_filter`, time_series_table.rs:286-373: the filter for segments and the filter for data points. A column that is not in the
schema is a panic. -/
def rewriteFilter (schema : List Column) : Expr → Except Failure (Option (Expr × Expr))
  | .binary (.column name) op right =>
    match fieldWithName schema name with
    | none => .error .panic
    | some field => .ok (if field.type = .timestamp then rewriteLeft op right else none)
  | .binary left op (.column name) =>
    match fieldWithName schema name with
    | none => .error .panic
    | some field => .ok (if field.type = .timestamp then rewriteRight left op (.column name) else none)
  | _ => .ok none

/-- `utils::conjunction` of the crate datafusion. -/
def conjunction : List Expr → Option Expr
  | [] => none
  | e :: es => some (es.foldl (fun a b => .binary a .and b) e)

/-- The filters that can be rewritten, time_series_table.rs:270-272. -/
def rewriteFilters (schema : List Column) : List Expr → Except Failure (List (Expr × Expr))
  | [] => .ok []
  | filter :: filters =>
    match rewriteFilter schema filter with
    | .error e => .error e
    | .ok none => rewriteFilters schema filters
    | .ok (some rewritten) =>
      match rewriteFilters schema filters with
      | .error e => .error e
      | .ok rest => .ok (rewritten :: rest)

/-- `rewrite_and_combine_filters`, time_series_table.rs:265-284. -/
def rewriteAndCombineFilters (schema : List Column) (filters : List Expr) : Except Failure (Option Expr × Option Expr) :=
  match rewriteFilters schema filters with
  | .error e => .error e
  | .ok rewritten => .ok (conjunction (rewritten.map Prod.fst), conjunction (rewritten.map Prod.snd))

/-- `convert_logical_expr_to_physical_expr`, time_series_table.rs:400-407: it is an error if two columns have the same name or a column does
not exist. -/
def convertible (schema : List Column) (refs : List String) : Bool :=
  TableDefinition.uniqueNames schema && refs.all fun name => (fieldWithName schema name).isSome

/-- `try_convert_logical_expr_to_physical_expr`, time_series_table.rs:384-398. -/
def tryConvert (schema : List Column) : Option Expr → Except Failure (Option Expr)
  | none => .ok none
  | some e => if convertible schema e.refs then .ok (some e) else .error .error

/-- `QUERY_COMPRESSED_SCHEMA`, schemas.rs:38-52. -/
def queryCompressedBase : List Column :=
  [⟨"model_type_id", .other "Int8", false⟩, ⟨"start_time", .timestamp, false⟩, ⟨"end_time", .timestamp, false⟩,
    ⟨"timestamps", .other "BinaryView", false⟩, ⟨"min_value", .value, false⟩, ⟨"max_value", .value, false⟩,
    ⟨"values", .other "BinaryView", false⟩, ⟨"residuals", .other "BinaryView", false⟩, ⟨"error", .value, false⟩]

/-- `GRID_SCHEMA`, schemas.rs:66-72. -/
def gridBase : List Column := [⟨"timestamp", .timestamp, false⟩, ⟨"value", .value, false⟩]

variable {ε : Type}

/-- The tag columns of a table, time_series_table.rs:117-122. -/
def tagColumns (m : Metadata ε) : List Column := m.tagIndices.filterMap fun i => m.schema[i]?

/-- The filters of a query, time_series_table.rs:597-610, with the schemas of
time_series_table.rs:111-144. -/
def planFilters (m : Metadata ε) (filters : List Expr) : Except Failure (Option Expr × Option Expr) :=
  match rewriteAndCombineFilters m.schema filters with
  | .error e => .error e
  | .ok (parquet, grid) =>
    match tryConvert (queryCompressedBase ++ tagColumns m) parquet, tryConvert (gridBase ++ tagColumns m) grid with
    | .ok parquet, .ok grid => .ok (parquet, grid)
    | .error e, _ => .error e
    | _, .error e => .error e

/-- The meaning of the parts of expressions that are not modelled. -/
structure Interpretation where
  other : Nat → List Value → Value
  op : Op → Value → Value → Value

/-- The comparison of two times. -/
def compareTimes : Op → Int → Int → Bool
  | .gt, a, b => b < a
  | .ge, a, b => b ≤ a
  | .lt, a, b => a < b
  | .le, a, b => a ≤ b
  | _, a, b => a = b

/-- The conjunction of SQL. -/
def conjunctionOfValues : Value → Value → Value
  | .bool false, _ => .bool false
  | _, .bool false => .bool false
  | .bool true, .bool true => .bool true
  | _, _ => .null

/-- The value of a binary expression. A time can only be compared to a time: the types are made equal before a query is planned. -/
def applyOp (I : Interpretation) : Op → Value → Value → Value
  | .and, a, b => conjunctionOfValues a b
  | .other n, a, b => I.op (.other n) a b
  | op, .time a, .time b => .bool (compareTimes op a b)
  | _, .time _, _ => .null
  | _, _, .time _ => .null
  | op, a, b => I.op op a b

/-- The value of an expression for the values of the columns. -/
def Expr.eval (I : Interpretation) (env : String → Value) : Expr → Value
  | .column name => env name
  | .constant v => v
  | .other id refs => I.other id (refs.map env)
  | .binary l op r => applyOp I op (l.eval I env) (r.eval I env)

/-! ### Columns -/

/-- `fallback_field_column`, time_series_table.rs:96-109: the index in the query schema of the first field that is stored. -/
def fallbackFieldColumn (m : Metadata ε) : Option Nat :=
  (List.range m.querySchema.length).find? fun i =>
    (m.generated[i]?.map Option.isNone) = some true && (m.querySchema[i]?.map (·.type)) = some .value

/-- What a query reads: the columns the operators return, the fields that are read by their position in the stored schema, and the columns to
generate with their position. -/
structure Plan (ε : Type) where
  result : List Column
  joinSchema : List Column
  order : List JoinColumn
  fields : List Nat
  generate : List (Nat × ε)
deriving DecidableEq

/-- The join can only return batches if the number of columns is the one of the schema, sorted_join_exec.rs:305-306, otherwise it is a
panic. -/
def Plan.executable (plan : Plan ε) : Bool := plan.order.length = plan.joinSchema.length && !plan.order.isEmpty

/-- The columns that are needed to generate the columns in a projection, time_series_table.rs:545-554. They are in a hash set, so the order
in which they are added is given by `hashOrder`. -/
def sourcesOf (m : Metadata ε) (projection : List Nat) : List Nat :=
  projection.flatMap fun i => match m.generated[i]? with
    | some (some g) => g.sources
    | _ => []

/-- The loop that adds the sources, time_series_table.rs:556-560. -/
def addSources (projection : List Nat) : List Nat → List Nat
  | [] => projection
  | s :: sources => addSources (if projection.contains s then projection else projection ++ [s]) sources

/-- `apply_query_schema_projection_to_schema`, time_series_table.rs:171-191. -/
def joinSchema (m : Metadata ε) (projection : List Nat) : List Column :=
  projection.filterMap fun i => if (m.generated[i]?.map Option.isNone) = some true then m.querySchema[i]? else none

/-- The loop over the columns of a query, time_series_table.rs:572-595. `index` is the position in the result. -/
def planColumns (env : Env ε) (m : Metadata ε) (schema : List Column) :
    Nat → List Nat → Except Failure (List JoinColumn × List Nat × List (Nat × ε))
  | _, [] => .ok ([], [], [])
  | index, i :: projection => do
    match m.querySchema[i]?, m.generated[i]? with
    | some column, some generated =>
      let rest := planColumns env m schema (index + 1) projection
      if column.type = .timestamp then
        let (order, fields, generate) ← rest
        return (.timestamp :: order, fields, generate)
      else if column.type = .string then
        let (order, fields, generate) ← rest
        return (.tag column.name :: order, fields, generate)
      else
        match generated with
        | some g =>
          if convertible schema (env.refs g.expr) then
            let (order, fields, generate) ← rest
            return (order, fields, (index, g.expr) :: generate)
          else throw .error
        | none =>
          match TableDefinition.indexOf m.schema column.name with
          | none => throw .error
          | some field =>
            let (order, fields, generate) ← rest
            return (.field :: order, field :: fields, generate)
    | _, _ => throw .panic

/-- The columns of a query, time_series_table.rs:534-595 and 612-614. -/
def planScan (env : Env ε) (hashOrder : List Nat → List Nat) (m : Metadata ε) (projection : List Nat) : Except Failure (Plan ε) := do
  let result ← match projection.mapM fun i => m.querySchema[i]? with
    | some result => pure result
    | none => throw .error
  let extended := addSources projection (hashOrder (sourcesOf m projection))
  let schema := joinSchema m extended
  let (order, fields, generate) ← planColumns env m schema 0 extended
  match fallbackFieldColumn m with
  | none => throw .panic
  | some fallback => return ⟨result, schema, order, if fields.isEmpty then [fallback] else fields, generate⟩

/-! ### Generated columns -/

/-- The stored columns up to the position `stop` are added, generated_as_exec.rs:273-276 and 303-306. -/
def addStored {κ : Type} (batch : List κ) (generated : Nat) (columns : List κ) (stop : Nat) : Option (List κ) :=
  if columns.length < stop then
    match batch[columns.length - generated]? with
    | none => none
    | some c => addStored batch generated (columns ++ [c]) stop
  else some columns
termination_by stop - columns.length
decreasing_by simp only [List.length_append, List.length_singleton]; omega

/-- The loop over the columns to generate, generated_as_exec.rs:272-301. `evaluate` gives the values of an expression for a batch. -/
def generateColumns {κ : Type} (evaluate : ε → List κ → Option κ) (batch : List κ) :
    List (Nat × ε) → Nat → List κ → Except Failure (Nat × List κ)
  | [], generated, columns => .ok (generated, columns)
  | (index, e) :: rest, generated, columns =>
    match addStored batch generated columns index with
    | none => .error .panic
    | some columns =>
      match evaluate e batch with
      | none => .error .error
      | some c => generateColumns evaluate batch rest (generated + 1) (columns ++ [c])

/-- `GeneratedAsStream::poll_next` for a batch, generated_as_exec.rs:262-320. `length` is the number of columns of the result. -/
def generateAs {κ : Type} (evaluate : ε → List κ → Option κ) (generate : List (Nat × ε)) (length : Nat) (batch : List κ) :
    Except Failure (List κ) :=
  match generateColumns evaluate batch generate 0 [] with
  | .error e => .error e
  | .ok (generated, columns) =>
    match addStored batch generated columns length with
    | none => .error .panic
    | some columns =>
      let columns := columns.take length
      if columns.length = length then .ok columns else .error .panic

/-- What is done with a batch of the stored columns, time_series_table.rs:662-671: generated columns are only added if there are any. -/
def finish {κ : Type} (evaluate : ε → List κ → Option κ) (plan : Plan ε) (batch : List κ) : Except Failure (List κ) :=
  if plan.generate.isEmpty then .ok batch else generateAs evaluate plan.generate plan.result.length batch

end ModelarDB.Model.Query
