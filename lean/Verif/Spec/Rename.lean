import Verif.Model.QueryAnswer
/-
Specification of renaming the columns of a time series table, for C72.
-/
namespace ModelarDB.Spec
open Model.Query Model.TableDefinition

variable {ε : Type}

/-- New names for columns. Different columns keep different names and an expression with new names refers to the columns with the new
names. -/
structure Renaming (env : Env ε) where
  name : String → String
  expr : ε → ε
  injective : ∀ a b, name a = name b → a = b
  refs : ∀ e, env.refs (expr e) = (env.refs e).map name

namespace Renaming
variable {env : Env ε} (r : Renaming env)

/-- A column with its new name. -/
def column (c : Column) : Column := { c with name := r.name c.name }

/-- A column of a CREATE TIME SERIES TABLE statement with its new name. -/
def sqlColumn : SqlColumn ε → SqlColumn ε
  | .timestamp n => .timestamp (r.name n)
  | .tag n => .tag (r.name n)
  | .field n => .field (r.name n)
  | .fieldBound n value relative => .fieldBound (r.name n) value relative
  | .fieldAs n e => .fieldAs (r.name n) (r.expr e)

/-- A filter with the new names. -/
def filter : Expr → Expr
  | .column n => .column (r.name n)
  | .constant v => .constant v
  | .other id refs => .other id (refs.map r.name)
  | .binary a op b => .binary (filter a) op (filter b)

/-- A generated column with the new names. -/
def generated (g : Generated ε) : Generated ε := ⟨r.expr g.expr, g.sources⟩

/-- The definition of a table with the new names. -/
def table (m : Metadata ε) : Metadata ε :=
  { m with
    generated := m.generated.map (Option.map r.generated)
    schema := m.schema.map r.column
    querySchema := m.querySchema.map r.column
    compressedSchema := compressedSchemaBase ++ (m.tagIndices.filterMap fun i => m.schema[i]?).map r.column }

/-- The answer of a query with the new names: nothing else is different. -/
def answer (a : Answer) : Answer := { a with columns := a.columns.map r.column }

end Renaming

/-- The names the server uses for the columns of segments and data points. -/
def serverNames : List String :=
  ["model_type_id", "start_time", "end_time", "timestamps", "min_value", "max_value", "values", "residuals", "error", "timestamp", "value"]

/-- The tags of a table have other names than those the server uses. -/
def OwnTagNames (m : Metadata ε) : Prop := ∀ tag ∈ tagNamesOf m, tag ∉ serverNames

instance (m : Metadata ε) : Decidable (OwnTagNames m) := inferInstanceAs (Decidable (∀ _ ∈ _, _))

end ModelarDB.Spec
