import Verif.Model.ErrorBound
/-
The definition of a time series table and the interfaces a definition is received through.

Source: crates/modelardb_types/src/types.rs, crates/modelardb_types/src/flight/mod.rs, crates/modelardb_storage/src/parser.rs and
crates/modelardb_embedded/src/capi.rs.

Simplifications:
* Expressions are opaque. The crate datafusion gives the names of the columns an expression refers to as a hash set, so their order is
  not fixed; it is given by `Env`.
* Conversions of schemas and expressions to bytes and of an error bound to text and back are exact and not modelled.
* The metadata of columns is not modelled.
-/
namespace ModelarDB.Model.TableDefinition

/-- The types of columns. `other` are the types that are not supported in time series tables. -/
inductive DataType where
  | timestamp
  | value
  | string
  | other (name : String)
deriving DecidableEq

/-- A column of a schema. -/
structure Column where
  name : String
  type : DataType
  nullable : Bool
deriving DecidableEq

/-- `GeneratedColumn`, types.rs:337-344. -/
structure Generated (ε : Type) where
  expr : ε
  sources : List Nat
deriving DecidableEq

/-- The order in which `Expr::column_refs` gives the columns of an expression. -/
structure Env (ε : Type) where
  refs : ε → List String

/-- Why a function does not return a value. -/
inductive Failure where
  | error
  | panic
deriving DecidableEq

/-- `TimeSeriesTableMetadata`, types.rs:74-98. -/
structure Metadata (ε : Type) where
  name : String
  timestampIndex : Nat
  fieldIndices : List Nat
  tagIndices : List Nat
  errorBounds : List ErrorBound
  generated : List (Option (Generated ε))
  schema : List Column
  querySchema : List Column
  querySchemaToSchema : List Nat
  compressedSchema : List Column
deriving DecidableEq

variable {ε : Type}

/-- `compute_indices_of_columns_with_data_type`, types.rs:290-296. -/
def indicesOfType (schema : List Column) (t : DataType) : List Nat :=
  (List.range schema.length).filter fun i => (schema[i]?.map (·.type)) = some t

/-- `COMPRESSED_SCHEMA`, schemas.rs:29-51. -/
def compressedSchemaBase : List Column :=
  [⟨"model_type_id", .other "Int8", false⟩, ⟨"start_time", .timestamp, false⟩, ⟨"end_time", .timestamp, false⟩,
    ⟨"timestamps", .other "BinaryView", false⟩, ⟨"min_value", .value, false⟩, ⟨"max_value", .value, false⟩,
    ⟨"values", .other "BinaryView", false⟩, ⟨"residuals", .other "BinaryView", false⟩, ⟨"error", .value, false⟩,
    ⟨"field_column", .other "Int16", false⟩]

/-- The check of the columns a generated column refers to, types.rs:130-140. An index that is out of bounds is a panic. -/
def checkSources (generated : List (Option (Generated ε))) : List Nat → Except Failure Unit
  | [] => .ok ()
  | i :: is =>
    match generated[i]? with
    | none => .error .panic
    | some (some _) => .error .error
    | some none => checkSources generated is

/-- The check of all generated columns, types.rs:130-140. -/
def checkGenerated (generated : List (Option (Generated ε))) : List (Option (Generated ε)) → Except Failure Unit
  | [] => .ok ()
  | none :: gs => checkGenerated generated gs
  | some g :: gs =>
    match checkSources generated g.sources with
    | .ok () => checkGenerated generated gs
    | .error e => .error e

/-- The loop that removes the generated columns, types.rs:165-178: the columns, their indices and their error bounds. It starts at an
index. -/
def withoutGenerated : Nat → List Column → List ErrorBound → List (Option (Generated ε)) →
    List Column × List Nat × List ErrorBound
  | i, c :: cs, b :: bs, g :: gs =>
    let (cs, is, bs) := withoutGenerated (i + 1) cs bs gs
    if g.isNone then (c :: cs, i :: is, b :: bs) else (cs, is, bs)
  | _, _, _, _ => ([], [], [])

/-- `TimeSeriesTableMetadata::try_new`, types.rs:110-239. -/
def tryNew (name : String) (querySchema : List Column) (bounds : List ErrorBound) (generated : List (Option (Generated ε))) :
    Except Failure (Metadata ε) :=
  if querySchema.length ≠ bounds.length then .error .error
  else if querySchema.length ≠ generated.length then .error .error
  else
    match checkGenerated generated generated with
    | .error e => .error e
    | .ok () =>
      if 32767 < querySchema.length then .error .error
      else if querySchema.any fun c => c.type ≠ .timestamp && c.type ≠ .value && c.type ≠ .string then .error .error
      else
        let (schema, indices, storedBounds) := withoutGenerated 0 querySchema bounds generated
        match indicesOfType schema .timestamp with
        | [timestampIndex] =>
          let fieldIndices := indicesOfType schema .value
          if fieldIndices.isEmpty then .error .error
          else
            let tagIndices := indicesOfType schema .string
            .ok
              { name, timestampIndex, fieldIndices, tagIndices, errorBounds := storedBounds, generated, schema, querySchema
                querySchemaToSchema := indices
                compressedSchema := compressedSchemaBase ++ tagIndices.filterMap fun i => schema[i]? }
        | _ => .error .error

/-- `is_tag`, types.rs:246-249. -/
def Metadata.isTag (m : Metadata ε) (i : Nat) : Bool := m.tagIndices.contains i

/-- `Schema::index_of` and `DFSchema::index_of_column`. -/
def indexOf (schema : List Column) (name : String) : Option Nat := schema.findIdx? fun c => c.name = name

/-- `to_dfschema`: it is an error if two columns have the same name. -/
def uniqueNames (schema : List Column) : Bool := decide (schema.map (·.name)).Nodup

/-- `GeneratedColumn::try_from_expr`, types.rs:347-360. -/
def tryFromExpr (env : Env ε) (schema : List Column) (e : ε) : Except Failure (Generated ε) :=
  match (env.refs e).mapM (indexOf schema) with
  | none => .error .error
  | some sources => .ok ⟨e, sources⟩

/-! ### The protobuf messages -/

/-- The type of an error bound in a message. `unknown` are all numbers without a meaning. -/
inductive BoundType where
  | absolute
  | relative
  | lossless
  | unknown
deriving DecidableEq

/-- A message with the definition of a table. -/
structure Message (ε : Type) where
  name : String
  schema : List Column
  bounds : List (BoundType × FVal)
  expressions : List (Option ε)
deriving DecidableEq

/-- `decode_error_bounds`, flight/mod.rs:165-195. -/
def decodeBound : BoundType × FVal → Except Failure ErrorBound
  | (.absolute, v) => .ok (.absolute v)
  | (.relative, v) => .ok (.relative v)
  | (.lossless, _) => .ok .lossless
  | (.unknown, _) => .error .error

/-- `decode_generated_column_expressions`, flight/mod.rs:197-216. -/
def decodeExpression (env : Env ε) (schema : List Column) : Option ε → Except Failure (Option (Generated ε))
  | none => .ok none
  | some e => (tryFromExpr env schema e).map some

/-- `deserialize_and_extract_table_metadata` for a time series table, flight/mod.rs:145-159. -/
def deserialize (env : Env ε) (message : Message ε) : Except Failure (Metadata ε) := do
  let bounds ← message.bounds.mapM decodeBound
  if !uniqueNames message.schema then throw .error
  let generated ← message.expressions.mapM (decodeExpression env message.schema)
  tryNew message.name message.schema bounds generated

/-- `encode_error_bounds`, flight/mod.rs:89-132. -/
def encodeBound (m : Metadata ε) (c : Column) : BoundType × FVal :=
  match indexOf m.schema c.name with
  | none => (.lossless, .fin false 0)
  | some i =>
    match m.errorBounds[i]? with
    | some (.absolute v) => (.absolute, v)
    | some (.relative v) => (.relative, v)
    | _ => (.lossless, .fin false 0)

/-- `encode_and_serialize_time_series_table_metadata`, flight/mod.rs:56-87. -/
def serialize (m : Metadata ε) : Message ε :=
  ⟨m.name, m.querySchema, m.querySchema.map (encodeBound m), m.generated.map fun g => g.map (·.expr)⟩

/-! ### SQL -/

/-- A column in a CREATE TIME SERIES TABLE statement. The value of an error bound is a number without a sign. -/
inductive SqlColumn (ε : Type) where
  | timestamp (name : String)
  | tag (name : String)
  | field (name : String)
  | fieldBound (name : String) (value : FVal) (relative : Bool)
  | fieldAs (name : String) (expr : ε)

/-- `column_defs_to_time_series_table_query_schema`, parser.rs:1055-1121, after the names are normalised. -/
def SqlColumn.column : SqlColumn ε → Column
  | .timestamp n => ⟨n, .timestamp, false⟩
  | .tag n => ⟨n, .string, false⟩
  | .field n => ⟨n, .value, false⟩
  | .fieldBound n _ _ => ⟨n, .value, false⟩
  | .fieldAs n _ => ⟨n, .value, false⟩

/-- `parse_columns`, parser.rs:259-275, and `extract_error_bounds_for_all_columns`, parser.rs:1123-1153. -/
def SqlColumn.bound : SqlColumn ε → Except Failure ErrorBound
  | .fieldBound _ value relative =>
    if (FVal.fin false 0).lt value then
      match (if relative then ErrorBound.tryNewRelative value else ErrorBound.tryNewAbsolute value) with
      | some b => .ok b
      | none => .error .error
    else .ok .lossless
  | _ => .ok .lossless

/-- `extract_generation_exprs_for_all_columns`, parser.rs:1177-1228. -/
def SqlColumn.generated (env : Env ε) (schema : List Column) : SqlColumn ε → Except Failure (Option (Generated ε))
  | .fieldAs _ e => (tryFromExpr env schema e).map some
  | _ => .ok none

/-- `semantic_checks_for_create_time_series_table`, parser.rs:869-897. -/
def createFromSql (env : Env ε) (name : String) (columns : List (SqlColumn ε)) : Except Failure (Metadata ε) := do
  let schema := columns.map SqlColumn.column
  let bounds ← columns.mapM SqlColumn.bound
  if !uniqueNames schema then throw .error
  let generated ← columns.mapM (SqlColumn.generated env schema)
  tryNew name schema bounds generated

/-! ### The embedded C interface -/

/-- `error_bounds_array_to_error_bounds`, capi.rs:374-402, for one value. -/
def capiBound (value : FVal) : Except Failure ErrorBound :=
  if value.lt (.fin false 0) then
    match ErrorBound.tryNewRelative value.neg with
    | some b => .ok b
    | none => .error .panic
  else
    match ErrorBound.tryNewAbsolute value with
    | some b => .ok b
    | none => .error .panic

end ModelarDB.Model.TableDefinition
