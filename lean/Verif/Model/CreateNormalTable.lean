import Verif.Model.CreateTable
/-
The checks of a CREATE TABLE statement and the schema of the normal table.

Source: crates/modelardb_storage/src/parser.rs.

Simplifications:
* The crates sqlparser, datafusion and arrow are not part of the repository. The statement is given as parsed, with each type as datafusion
  converts it, or none if datafusion does not support it. `SqlToRel::build_schema`, `normalize_ident` and `Schema::flattened_fields` are taken from
  their sources.
* The metadata of columns is not modelled.
-/
namespace ModelarDB.Model.CreateNormalTable
open CreateTable

/-- `TimeUnit`. -/
inductive TimeUnit where
  | second
  | millisecond
  | microsecond
  | nanosecond
deriving DecidableEq

mutual
/-- `DataType`: timestamps, types with nested fields such as lists, structs and maps, and all other types. -/
inductive ArrowType where
  | scalar (name : String)
  | timestamp (unit : TimeUnit) (timezone : Option String)
  | nested (kind : String) (fields : Fields)
/-- The fields of a type: the name, the type and whether it is nullable. -/
inductive Fields where
  | nil
  | cons (name : List Char) (type : ArrowType) (nullable : Bool) (rest : Fields)
end

/-- `Field`. -/
structure Field where
  name : List Char
  type : ArrowType
  nullable : Bool

/-- `ColumnOption`. -/
inductive ColumnOption where
  | null
  | notNull
  | default (value : String)
  | unique
  | primaryKey
  | check (expr : String)
  | generated (expr : String)
  | comment (text : String)
deriving DecidableEq

/-- `ColumnDef`. -/
structure ColumnDef where
  name : List Char
  quoted : Bool
  type : Option ArrowType
  options : List ColumnOption

/-- The parts of `CreateTable` that are not supported, parser.rs:901-1039. -/
inductive Feature where
  | orReplace | temporary | external | dynamic | global | ifNotExists | transient | volatile | constraints | hiveDistribution | hiveFormats
  | tableOptions | fileFormat | location | query | withoutRowid | like | clone | version | comment | onCommit | onCluster | primaryKey | orderBy
  | partitionBy | clusterBy | clusteredBy | inherits | partitionOf | forValues | strict | copyGrants | enableSchemaEvolution | changeTracking
  | dataRetentionTimeInDays | maxDataExtensionTimeInDays | defaultDdlCollation | withAggregationPolicy | withRowAccessPolicy | withTags
  | externalVolume | baseLocation | catalog | catalogSync | storageSerializationPolicy | targetLag | warehouse | refreshMode | initialize
  | requireUser
deriving DecidableEq

/-- `CreateTable` for a normal table: the parts of the name, the columns and the other parts that are set. -/
structure Statement where
  name : List (List Char)
  columns : List ColumnDef
  features : List Feature

/-- The table that is to be created, `ModelarDbStatement::CreateNormalTable`. -/
structure NormalTable where
  name : List Char
  schema : List Field

/-- The features in the order in which they are checked, parser.rs:961-1037. -/
def checkedFeatures : List Feature :=
  [.orReplace, .temporary, .external, .dynamic, .global, .ifNotExists, .transient, .volatile, .constraints, .hiveDistribution, .hiveFormats,
    .tableOptions, .fileFormat, .location, .query, .withoutRowid, .like, .clone, .version, .comment, .onCommit, .onCluster, .primaryKey, .orderBy,
    .partitionBy, .clusterBy, .clusteredBy, .inherits, .partitionOf, .forValues, .strict, .copyGrants, .enableSchemaEvolution, .changeTracking,
    .dataRetentionTimeInDays, .maxDataExtensionTimeInDays, .defaultDdlCollation, .withAggregationPolicy, .withRowAccessPolicy, .withTags,
    .externalVolume, .baseLocation, .catalog, .catalogSync, .storageSerializationPolicy, .targetLag, .warehouse, .refreshMode, .initialize,
    .requireUser]

/-- `check_unsupported_features_are_disabled`, parser.rs:901-1039: the first feature that is set is an error. -/
def unsupported (s : Statement) : Option Feature := checkedFeatures.find? fun f => s.features.contains f

/-- `normalize_ident` of datafusion. -/
def normalizeIdent (name : List Char) (quoted : Bool) : List Char := if quoted then name else name.map Char.toLower

/-- One column of `SqlToRel::build_schema` of datafusion. -/
def buildColumn (c : ColumnDef) : Option Field :=
  c.type.map fun type => ⟨normalizeIdent c.name c.quoted, type, !c.options.contains .notNull⟩

/-- `SqlToRel::build_schema` of datafusion. -/
def buildSchema (columns : List ColumnDef) : Option (List Field) := columns.mapM buildColumn

mutual
/-- `Field::_fields` of arrow: the nested fields of a type. -/
def ArrowType.flat : ArrowType → List Field
  | .nested _ fields => fields.flat
  | _ => []
/-- The fields with their nested fields. -/
def Fields.flat : Fields → List Field
  | .nil => []
  | .cons name type nullable rest => ⟨name, type, nullable⟩ :: (type.flat ++ rest.flat)
end

/-- `Schema::flattened_fields` of arrow: each field is followed by its nested fields. -/
def flattenedFields (schema : List Field) : List Field := schema.flatMap fun f => f :: f.type.flat

/-- A field of a normal table, parser.rs:853-859: timestamps are in microseconds. -/
def supportedField (f : Field) : Field :=
  match f.type with
  | .timestamp _ timezone => ⟨f.name, .timestamp .microsecond timezone, f.nullable⟩
  | _ => f

/-- `semantic_checks_for_create_table`, parser.rs:785-867, for a normal table. A statement has at least one part in the name. -/
def createNormal {ε : Type} (sql : Sql ε) (s : Statement) : Option NormalTable :=
  match unsupported s with
  | some _ => none
  | none =>
    match s.name with
    | [part] =>
      match tableName sql part with
      | none => none
      | some name => (buildSchema s.columns).map fun schema => ⟨name, (flattenedFields schema).map supportedField⟩
    | _ => none

end ModelarDB.Model.CreateNormalTable
